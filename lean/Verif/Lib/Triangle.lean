import Mathlib.Tactic
import Mathlib.MeasureTheory.Integral.IntervalIntegral.Basic
import Mathlib.MeasureTheory.Integral.Prod
import Mathlib.MeasureTheory.Integral.DivergenceTheorem

/-!
# Iterated integrals over rectangles and triangles
-/

namespace Dec.Triangle

open MeasureTheory Set

/-- Fubini on a rectangle, interval integrals. -/
theorem rect_swap (G : ℝ → ℝ → ℝ) (a b c d : ℝ) (hG : Continuous fun p : ℝ × ℝ => G p.1 p.2) :
    ∫ x in a..b, ∫ y in c..d, G x y = ∫ y in c..d, ∫ x in a..b, G x y := by
  have h : ∀ a b c d : ℝ, a ≤ b → c ≤ d → ∫ x in a..b, ∫ y in c..d, G x y = ∫ y in c..d, ∫ x in a..b, G x y := by
    intro a b c d hab hcd
    simp only [intervalIntegral.integral_of_le hab, intervalIntegral.integral_of_le hcd]
    refine integral_integral_swap (μ := volume.restrict (Ioc a b)) (ν := volume.restrict (Ioc c d)) ?_
    rw [Measure.prod_restrict]
    exact (hG.continuousOn.integrableOn_compact (μ := volume.prod volume) (isCompact_Icc.prod isCompact_Icc)).mono_set (prod_mono Ioc_subset_Icc_self Ioc_subset_Icc_self)
  have n : ∀ (F : ℝ → ℝ) (a b : ℝ), ∫ x in a..b, F x = -∫ x in b..a, F x := fun F a b => intervalIntegral.integral_symm b a
  have n1 : ∀ a b c d : ℝ, ∫ x in a..b, ∫ y in c..d, G x y = -∫ x in a..b, ∫ y in d..c, G x y := fun a b c d => by
    rw [← intervalIntegral.integral_neg]; exact intervalIntegral.integral_congr fun x _ => n _ _ _
  have n2 : ∀ a b c d : ℝ, ∫ y in c..d, ∫ x in a..b, G x y = -∫ y in c..d, ∫ x in b..a, G x y := fun a b c d => by
    rw [← intervalIntegral.integral_neg]; exact intervalIntegral.integral_congr fun x _ => n _ _ _
  have h' : ∀ a b c d : ℝ, a ≤ b → ∫ x in a..b, ∫ y in c..d, G x y = ∫ y in c..d, ∫ x in a..b, G x y := by
    intro a b c d hab
    rcases le_total c d with hcd | hcd
    · exact h _ _ _ _ hab hcd
    · rw [n1, h _ _ _ _ hab hcd, ← n]
  rcases le_total a b with hab | hab
  · exact h' _ _ _ _ hab
  · rw [n, h' _ _ _ _ hab, ← n2]

/-- Changing the order of integration in the standard triangle. -/
theorem tri_swap (g : ℝ → ℝ → ℝ) (hg : Continuous fun p : ℝ × ℝ => g p.1 p.2) :
    ∫ s in (0 : ℝ)..1, ∫ t in (0 : ℝ)..(1 - s), g s t = ∫ t in (0 : ℝ)..1, ∫ s in (0 : ℝ)..(1 - t), g s t := by
  set G : ℝ → ℝ → ℝ := fun s t => {p : ℝ × ℝ | p.1 + p.2 ≤ 1}.indicator (fun p => g p.1 p.2) (s, t) with hGdef
  have e1 : ∀ s ∈ Icc (0 : ℝ) 1, ∫ t in (0 : ℝ)..(1 - s), g s t = ∫ t in (0 : ℝ)..1, G s t := by
    intro s hs
    rw [← intervalIntegral.integral_indicator (a₁ := 0) (a₂ := 1 - s) (a₃ := 1) ⟨by linarith [hs.2], by linarith [hs.1]⟩]
    refine intervalIntegral.integral_congr fun t _ => ?_
    simp only [hGdef, indicator_apply, mem_ofPred_eq, show (t ≤ 1 - s) = (s + t ≤ 1) by apply propext; constructor <;> intro h <;> linarith]
  have e2 : ∀ t ∈ Icc (0 : ℝ) 1, ∫ s in (0 : ℝ)..(1 - t), g s t = ∫ s in (0 : ℝ)..1, G s t := by
    intro t ht
    rw [← intervalIntegral.integral_indicator (a₁ := 0) (a₂ := 1 - t) (a₃ := 1) ⟨by linarith [ht.2], by linarith [ht.1]⟩]
    refine intervalIntegral.integral_congr fun s _ => ?_
    simp only [hGdef, indicator_apply, mem_ofPred_eq, show (s ≤ 1 - t) = (s + t ≤ 1) by apply propext; constructor <;> intro h <;> linarith]
  rw [intervalIntegral.integral_congr (g := fun s => ∫ t in (0 : ℝ)..1, G s t) (fun s hs => e1 s (by rwa [uIcc_of_le zero_le_one] at hs)),
    intervalIntegral.integral_congr (g := fun t => ∫ s in (0 : ℝ)..1, G s t) (fun t ht => e2 t (by rwa [uIcc_of_le zero_le_one] at ht))]
  simp only [intervalIntegral.integral_of_le (zero_le_one (α := ℝ))]
  refine integral_integral_swap (μ := volume.restrict (Ioc (0 : ℝ) 1)) (ν := volume.restrict (Ioc (0 : ℝ) 1)) ?_
  rw [Measure.prod_restrict]
  have hm : MeasurableSet {p : ℝ × ℝ | p.1 + p.2 ≤ 1} := (isClosed_le (by fun_prop) continuous_const).measurableSet
  have hi : IntegrableOn (fun p : ℝ × ℝ => g p.1 p.2) (Ioc 0 1 ×ˢ Ioc 0 1) (volume.prod volume) :=
    (hg.continuousOn.integrableOn_compact (μ := volume.prod volume) (isCompact_Icc.prod isCompact_Icc)).mono_set (prod_mono Ioc_subset_Icc_self Ioc_subset_Icc_self)
  exact hi.indicator hm

/-- The upper triangle: `∫₀¹∫_u^1 G(u, r) dr du = ∫₀¹∫₀^r G(u, r) du dr`. -/
theorem tri_swap' (g : ℝ → ℝ → ℝ) (hg : Continuous fun p : ℝ × ℝ => g p.1 p.2) :
    ∫ u in (0 : ℝ)..1, ∫ r in u..(1 : ℝ), g u r = ∫ r in (0 : ℝ)..1, ∫ u in (0 : ℝ)..r, g u r := by
  have e1 : ∀ u : ℝ, ∫ r in u..(1 : ℝ), g u r = ∫ t in (0 : ℝ)..(1 - u), g u (1 - t) := fun u => by
    rw [intervalIntegral.integral_comp_sub_left (fun r => g u r) 1]; simp
  simp only [e1]
  rw [tri_swap (fun u t => g u (1 - t)) (by
    exact hg.comp (by fun_prop : Continuous fun p : ℝ × ℝ => ((p.1, 1 - p.2) : ℝ × ℝ)))]
  have h := intervalIntegral.integral_comp_sub_left (fun r => ∫ u in (0 : ℝ)..r, g u r) 1 (a := 0) (b := 1)
  rw [sub_self, sub_zero] at h
  exact h

end Dec.Triangle
