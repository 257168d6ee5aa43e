import Verif.Lib.Basis
import Verif.Lib.IntervalGrid
import Verif.Lib.PeriodicGrid
import Mathlib.MeasureTheory.Function.Jacobian

set_option linter.unusedSimpArgs false
set_option linter.unusedVariables false

/-! Duality of basis functions and projections. -/

namespace Dec

open Finset Real Dec.Sp MeasureTheory

/-- The integral of a function with possible NaN values over the cell `[x, y]` is `v`: no NaN strictly inside, integrable there. -/
structure OInt (f : ℝ → Option ℝ) (x y v : ℝ) : Prop where
  le : x ≤ y
  some : ∀ s ∈ Set.Ioo x y, ∃ r, f s = some r
  int : IntervalIntegrable (fun s => (f s).getD 0) volume x y
  val : ∫ s in x..y, (f s).getD 0 = v

theorem OInt.of_cont {f : ℝ → Option ℝ} {b : ℝ → ℝ} {x y v : ℝ} (hle : x ≤ y) (hb : Continuous b) (hf : ∀ s ∈ Set.Ioo x y, f s = Option.some (b s))
    (hv : ∫ s in x..y, b s = v) : OInt f x y v := by
  have hae : ∀ᵐ s ∂volume, s ∈ Set.uIoc x y → b s = (f s).getD 0 := by
    have h1 : ∀ᵐ s ∂(volume : Measure ℝ), s ≠ y := by
      rw [ae_iff]; simp
    filter_upwards [h1] with s hs hs'
    rw [Set.uIoc_of_le hle] at hs'
    rw [hf s ⟨hs'.1, lt_of_le_of_ne hs'.2 hs⟩]; rfl
  refine ⟨hle, fun s hs => ⟨_, hf s hs⟩, ?_, ?_⟩
  · refine (hb.intervalIntegrable x y).congr_ae ?_
    rw [Filter.EventuallyEq, ae_restrict_iff' measurableSet_uIoc]
    exact hae
  · rw [← hv]
    exact (intervalIntegral.integral_congr_ae hae).symm

theorem OInt.of_angle {f : ℝ → Option ℝ} {κ : ℝ → ℝ} {a b v : ℝ} (h0 : 0 ≤ a) (hab : a ≤ b) (hpi : b ≤ π) (hκ : Continuous κ)
    (hf : ∀ θ ∈ Set.Ioo a b, f (-cos θ) = Option.some (κ θ / sin θ)) (hv : ∫ θ in a..b, κ θ = v) : OInt f (-cos a) (-cos b) v := by
  have hle : -cos a ≤ -cos b := by
    have := cos_le_cos_of_nonneg_of_le_pi h0 hpi hab; linarith
  have himg : (fun θ : ℝ => -cos θ) '' Set.Ioo a b = Set.Ioo (-cos a) (-cos b) := by
    ext x
    constructor
    · rintro ⟨θ, hθ, rfl⟩
      have h1 := cos_lt_cos_of_nonneg_of_le_pi h0 (le_trans hθ.2.le hpi) hθ.1
      have h2 := cos_lt_cos_of_nonneg_of_le_pi (le_trans h0 hθ.1.le) hpi hθ.2
      exact ⟨by simp only; linarith, by simp only; linarith⟩
    · rintro ⟨h1, h2⟩
      have hc1 : -1 ≤ -x := by have := neg_one_le_cos b; linarith
      have hc2 : -x ≤ 1 := by have := cos_le_one a; linarith
      refine ⟨arccos (-x), ⟨?_, ?_⟩, by simp only; rw [cos_arccos hc1 hc2, neg_neg]⟩
      · rw [← arccos_cos h0 (le_trans hab hpi)]
        exact arccos_lt_arccos hc1 (by linarith) (cos_le_one a)
      · rw [← arccos_cos (le_trans h0 hab) hpi]
        exact arccos_lt_arccos (neg_one_le_cos b) (by linarith) hc2
  have hinj : Set.InjOn (fun θ : ℝ => -cos θ) (Set.Ioo a b) := by
    intro x hx y hy hxy
    have : cos x = cos y := by simpa using hxy
    exact injOn_cos ⟨le_trans h0 hx.1.le, le_trans hx.2.le hpi⟩ ⟨le_trans h0 hy.1.le, le_trans hy.2.le hpi⟩ this
  have hder : ∀ x ∈ Set.Ioo a b, HasDerivWithinAt (fun θ : ℝ => -cos θ) (sin x) (Set.Ioo a b) x := fun x _ => by
    have := (hasDerivAt_cos x).neg
    rw [neg_neg] at this
    exact this.hasDerivWithinAt
  have hpt : ∀ θ ∈ Set.Ioo a b, |sin θ| • (f (-cos θ)).getD 0 = κ θ := fun θ hθ => by
    have hs : 0 < sin θ := sin_pos_of_pos_of_lt_pi (lt_of_le_of_lt h0 hθ.1) (lt_of_lt_of_le hθ.2 hpi)
    rw [hf θ hθ, abs_of_pos hs, Option.getD_some, smul_eq_mul, mul_div_cancel₀ _ hs.ne']
  refine ⟨hle, fun s hs => ?_, ?_, ?_⟩
  · rw [← himg] at hs
    obtain ⟨θ, hθ, rfl⟩ := hs
    exact ⟨_, hf θ hθ⟩
  · rw [intervalIntegrable_iff_integrableOn_Ioo_of_le hle, ← himg,
      integrableOn_image_iff_integrableOn_abs_deriv_smul measurableSet_Ioo hder hinj]
    refine IntegrableOn.congr_fun ?_ (fun θ hθ => (hpt θ hθ).symm) measurableSet_Ioo
    exact (hκ.integrableOn_Icc).mono_set Set.Ioo_subset_Icc_self
  · rw [intervalIntegral.integral_of_le hle, integral_Ioc_eq_integral_Ioo, ← himg,
      integral_image_eq_integral_abs_deriv_smul measurableSet_Ioo hder hinj, setIntegral_congr_fun measurableSet_Ioo hpt,
      ← integral_Ioc_eq_integral_Ioo, ← intervalIntegral.integral_of_le hab, hv]

/-- The basis functions of `g` are dual to its cells. -/
structure DualBasis (g : Grid1) : Prop where
  len0 : ∀ t, (g.cells.v t).length = g.N 0 t
  len1 : ∀ t, (g.cells.e t).1.length = g.N 1 t
  len2 : ∀ t, (g.cells.e t).2.length = g.N 1 t
  v0 : ∀ t, ∀ i < g.N 0 t, ∀ j < g.N 0 t, g.B 0 t j ((g.cells.v t).getD i 0) = some (if i = j then 1 else 0)
  e1 : ∀ t, ∀ i < g.N 1 t, ∀ j < g.N 1 t, OInt (g.B 1 t j) ((g.cells.e t).1.getD i 0) ((g.cells.e t).2.getD i 0) (if i = j then 1 else 0)

theorem oP0 {g : Grid1} {t : Bool} {f : ℝ → Option ℝ} {N : ℕ} (hN : (g.cells.v t).length = N) {v : ℕ → ℝ}
    (h : ∀ i < N, f ((g.cells.v t).getD i 0) = some (v i)) : oP g.cells 0 t f = tab N fun i => some (v i) := by
  show (g.cells.v t).map f = _
  rw [eq_tab' hN 0, map_tab]
  exact tab_congr h

theorem oP1 {g : Grid1} {t : Bool} {f : ℝ → Option ℝ} {N : ℕ} (h1 : (g.cells.e t).1.length = N) (h2 : (g.cells.e t).2.length = N) {v : ℕ → ℝ}
    (h : ∀ i < N, OInt f ((g.cells.e t).1.getD i 0) ((g.cells.e t).2.getD i 0) (v i)) : oP g.cells 1 t f = tab N fun i => some (v i) := by
  show List.zipWith _ (g.cells.e t).1 (g.cells.e t).2 = _
  rw [eq_tab' h1 0, eq_tab' h2 0, zipWith_tab]
  refine tab_congr fun i hi => ?_
  obtain ⟨hle, hs, _, hv⟩ := h i hi
  beta_reduce
  rw [if_neg]
  · rw [hv]
  · rw [min_eq_left hle, max_eq_right hle]
    rintro ⟨s, hs', hn⟩
    obtain ⟨r, hr⟩ := hs s hs'
    rw [hr] at hn; cases hn

theorem DualBasis.oP {g : Grid1} (h : DualBasis g) (d : Fin 2) (t : Bool) {j : ℕ} (hj : j < g.N d t) :
    oP g.cells d t (g.B d t j) = tab (g.N d t) fun i => some (if i = j then 1 else 0) := by
  obtain rfl | rfl : d = 0 ∨ d = 1 := by omega
  · exact oP0 (h.len0 t) fun i hi => h.v0 t i hi j hj
  · exact oP1 (h.len1 t) (h.len2 t) fun i hi => h.e1 t i hi j hj

theorem foldl_oadd {a : List ℝ} {B : ℕ → ℝ → Option ℝ} {x : ℝ} (b : ℕ → ℝ) (N : ℕ) (hb : ∀ i < N, B i x = some (b i)) :
    (List.range N).foldl (fun s i => oadd s ((B i x).map (a.getD i 0 * ·))) (some 0) = some (∑ i ∈ range N, a.getD i 0 * b i) := by
  induction N with
  | zero => simp
  | succ N ih =>
    rw [List.range_succ, List.foldl_append, ih fun i hi => hb i (by omega), Finset.sum_range_succ]
    simp [oadd, hb N (by omega)]

theorem DualBasis.oP_R {g : Grid1} (h : DualBasis g) (d : Fin 2) (t : Bool) {a : List ℝ} (ha : a.length = g.N d t) :
    Dec.oP g.cells d t (g.R d t a) = a.map some := by
  have hr : a.map some = tab (g.N d t) fun i => some (a.getD i 0) := by
    conv_lhs => rw [eq_tab' ha 0, map_tab]
  rw [hr]
  have hδ : ∀ i < g.N d t, ∑ j ∈ range (g.N d t), a.getD j 0 * (if i = j then (1 : ℝ) else 0) = a.getD i 0 := fun i hi => by
    simp [Finset.sum_ite_eq, hi]
  obtain rfl | rfl : d = 0 ∨ d = 1 := by omega
  · refine oP0 (h.len0 t) fun i hi => ?_
    unfold Grid1.R
    rw [foldl_oadd (fun j => if i = j then (1 : ℝ) else 0) _ fun j hj => h.v0 t i hi j hj, hδ i hi]
  · refine oP1 (h.len1 t) (h.len2 t) fun i hi => ?_
    have hle : ((g.cells.e t).1.getD i 0) ≤ ((g.cells.e t).2.getD i 0) := (h.e1 t i hi i hi).le
    have hR : ∀ s ∈ Set.Ioo ((g.cells.e t).1.getD i 0) ((g.cells.e t).2.getD i 0),
        g.R 1 t a s = some (∑ j ∈ range (g.N 1 t), a.getD j 0 * (g.B 1 t j s).getD 0) := fun s hs => by
      unfold Grid1.R
      refine foldl_oadd (fun j => (g.B 1 t j s).getD 0) _ fun j hj => ?_
      obtain ⟨r, hr⟩ := (h.e1 t i hi j hj).some s hs
      rw [hr]; rfl
    have hae : ∀ᵐ s ∂volume, s ∈ Set.uIoc ((g.cells.e t).1.getD i 0) ((g.cells.e t).2.getD i 0) →
        (∑ j ∈ range (g.N 1 t), a.getD j 0 * (g.B 1 t j s).getD 0) = (g.R 1 t a s).getD 0 := by
      have h1 : ∀ᵐ s ∂(volume : Measure ℝ), s ≠ ((g.cells.e t).2.getD i 0) := by rw [ae_iff]; simp
      filter_upwards [h1] with s hs hs'
      rw [Set.uIoc_of_le hle] at hs'
      rw [hR s ⟨hs'.1, lt_of_le_of_ne hs'.2 hs⟩]; rfl
    have hint : ∀ j ∈ range (g.N 1 t), IntervalIntegrable (fun s => a.getD j 0 * (g.B 1 t j s).getD 0) volume ((g.cells.e t).1.getD i 0) ((g.cells.e t).2.getD i 0) :=
      fun j hj => (h.e1 t i hi j (mem_range.1 hj)).int.const_mul _
    refine ⟨hle, fun s hs => ⟨_, hR s hs⟩, ?_, ?_⟩
    · have := IntervalIntegrable.sum (range (g.N 1 t)) hint
      refine IntervalIntegrable.congr_ae (f := fun s => ∑ j ∈ range (g.N 1 t), a.getD j 0 * (g.B 1 t j s).getD 0) ?_ ?_
      · have e : (fun s => ∑ j ∈ range (g.N 1 t), a.getD j 0 * (g.B 1 t j s).getD 0) = ∑ j ∈ range (g.N 1 t), fun s => a.getD j 0 * (g.B 1 t j s).getD 0 := by
          funext s; simp
        rw [e]; exact this
      · rw [Filter.EventuallyEq, ae_restrict_iff' measurableSet_uIoc]
        exact hae
    · rw [← intervalIntegral.integral_congr_ae hae, intervalIntegral.integral_finset_sum hint, ← hδ i hi]
      refine Finset.sum_congr rfl fun j hj => ?_
      rw [intervalIntegral.integral_const_mul, (h.e1 t i hi j (mem_range.1 hj)).val]

end Dec
