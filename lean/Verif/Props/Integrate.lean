import Verif.Model.Integrate
import Verif.Lib.Tab
import Verif.Lib.Triangle
import Verif.Spec
import Mathlib.Tactic
import Mathlib.Analysis.SpecialFunctions.Integrals.Basic
import Mathlib.MeasureTheory.Integral.Prod
import Mathlib.Analysis.Calculus.ContDiff.Basic
import Mathlib.MeasureTheory.Integral.DivergenceTheorem

set_option linter.unusedSimpArgs false
set_option linter.unusedVariables false
set_option linter.unusedTactic false

/-!
# C42, C43, C44: quadrature rules, polygons, segments and triangles
-/

namespace Dec.Props

open Real Finset MeasureTheory Dec.Integrate

/-! ## C42 -/

theorem integral_poly {m : ℕ} (a : ℕ → ℝ) (x y : ℝ) : ∫ t in x..y, ∑ k ∈ range m, a k * t ^ k = ∑ k ∈ range m, a k * ((y ^ (k + 1) - x ^ (k + 1)) / (k + 1)) := by
  rw [intervalIntegral.integral_finsetSum]
  · exact Finset.sum_congr rfl fun k _ => by rw [intervalIntegral.integral_const_mul, integral_pow]
  · intro k _
    exact (by fun_prop : Continuous fun t : ℝ => a k * t ^ k).intervalIntegrable _ _

/-- C42: Simpson's rule is exact on polynomials of degree at most three, on every interval. -/
theorem C42_simpson (a b : ℝ) (p : ℝ → ℝ) (hp : IsPoly 4 p) : simpson a b p = ∫ x in a..b, p x := by
  obtain ⟨c, hc⟩ := hp
  rw [intervalIntegral.integral_congr (g := fun x => ∑ k ∈ range 4, c k * x ^ k) fun x _ => hc x, integral_poly]
  unfold simpson
  simp only [hc, Finset.sum_range_succ, Finset.sum_range_zero]
  push_cast
  ring

/-- C42: Boole's rule is exact on polynomials of degree at most five, on every interval. -/
theorem C42_boole (a b : ℝ) (p : ℝ → ℝ) (hp : IsPoly 6 p) : boole a b p = ∫ x in a..b, p x := by
  obtain ⟨c, hc⟩ := hp
  rw [intervalIntegral.integral_congr (g := fun x => ∑ k ∈ range 6, c k * x ^ k) fun x _ => hc x, integral_poly]
  unfold boole
  simp only [hc, Finset.sum_range_succ, Finset.sum_range_zero]
  push_cast
  ring

/-- C42: the degrees are sharp. -/
theorem C42_sharp : simpson 0 1 (fun x => x ^ 4) ≠ ∫ x in (0 : ℝ)..1, x ^ 4 ∧ boole 0 1 (fun x => x ^ 6) ≠ ∫ x in (0 : ℝ)..1, x ^ 6 := by
  constructor
  · rw [integral_pow]; unfold simpson; norm_num
  · rw [integral_pow]; unfold boole; norm_num

/-- C42: `integrate_boole1` gives the integral over every pair of consecutive points. -/
theorem C42_boole1 (x : List ℝ) (p : ℝ → ℝ) (hp : IsPoly 6 p) :
    boole1 x p = tab (x.length - 1) fun i => ∫ t in (x.getD i 0)..(x.getD (i + 1) 0), p t := by
  unfold boole1
  conv_lhs => rw [eq_tab x 0, dropLast_tab, tail_tab, zipWith_tab]
  exact tab_congr fun i _ => C42_boole _ _ p hp

example : IsPoly 6 (fun x => x ^ 5) := ⟨fun k => if k = 5 then 1 else 0, fun x => by simp [Finset.sum_range_succ]⟩

/-- C42: `integrate_boole2` along a segment: Boole's rule times the length, exact when the restriction of `f` to the segment is a
polynomial of degree at most five. -/
theorem C42_boole2 (p q : ℝ × ℝ) (f : ℝ → ℝ → ℝ) (g : ℝ → ℝ) (hg : IsPoly 6 g) (h : ∀ t, f (p.1 + t * (q.1 - p.1)) (p.2 + t * (q.2 - p.2)) = g t) :
    boole2 p q f = √((q.1 - p.1) ^ 2 + (q.2 - p.2) ^ 2) * ∫ t in (0 : ℝ)..1, g t := by
  rw [← C42_boole 0 1 g hg]
  unfold boole2 boole
  simp only
  have e : √(((q.1 - p.1) / 4) ^ 2 + ((q.2 - p.2) / 4) ^ 2) = √((q.1 - p.1) ^ 2 + (q.2 - p.2) ^ 2) / 4 := by
    rw [div_pow, div_pow, ← add_div, Real.sqrt_div (by positivity), show (4 : ℝ) ^ 2 = 4 * 4 by norm_num, Real.sqrt_mul_self (by norm_num)]
  rw [e]
  have h0 := h 0
  have h1 := h (1 / 4)
  have h2 := h (2 / 4)
  have h3 := h (3 / 4)
  have h4 := h 1
  simp only [zero_mul, add_zero, one_mul, add_sub_cancel] at h0 h4
  have e1 : ∀ k u v : ℝ, u + k * ((v - u) / 4) = u + k / 4 * (v - u) := fun k u v => by ring
  have e2 : ∀ u v : ℝ, u + (v - u) / 4 = u + 1 / 4 * (v - u) := fun u v => by ring
  rw [e1, e1, e1, e1, e2, e2, h0, h1, h2, h3, h4]
  rw [show (0 : ℝ) + (1 - 0) / 4 = 1 / 4 by norm_num, show (0 : ℝ) + 2 * ((1 - 0) / 4) = 2 / 4 by norm_num, show (0 : ℝ) + 3 * ((1 - 0) / 4) = 3 / 4 by norm_num]
  ring

/-! ## C44 -/

theorem hasDerivAt_segment {F : ℝ × ℝ → ℝ} (hF : ContDiff ℝ 1 F) (x0 y0 x1 y1 s : ℝ) :
    HasDerivAt (fun s => F (x0 * (1 - s) + x1 * s, y0 * (1 - s) + y1 * s))
      (fderiv ℝ F (x0 * (1 - s) + x1 * s, y0 * (1 - s) + y1 * s) (1, 0) * (x1 - x0) + fderiv ℝ F (x0 * (1 - s) + x1 * s, y0 * (1 - s) + y1 * s) (0, 1) * (y1 - y0)) s := by
  have h1 : ∀ a b : ℝ, HasDerivAt (fun s : ℝ => a * (1 - s) + b * s) (b - a) s := fun a b => by
    have := (((hasDerivAt_id s).const_sub 1).const_mul a).add ((hasDerivAt_id s).const_mul b)
    refine this.congr_deriv ?_
    ring
  have h2 := (h1 x0 x1).prodMk (h1 y0 y1)
  have h3 := ((hF.differentiable one_ne_zero) (x0 * (1 - s) + x1 * s, y0 * (1 - s) + y1 * s)).hasFDerivAt.comp_hasDerivAt s h2
  refine h3.congr_deriv ?_
  rw [show ((x1 - x0, y1 - y0) : ℝ × ℝ) = (x1 - x0) • (1, 0) + (y1 - y0) • (0, 1) by ext <;> simp, map_add, map_smul, map_smul]
  simp [mul_comm]

/-- The gradient of a function of two variables. -/
noncomputable def grad (F : ℝ × ℝ → ℝ) (x y : ℝ) : ℝ × ℝ := (fderiv ℝ F (x, y) (1, 0), fderiv ℝ F (x, y) (0, 1))

/-- C44: the integral of a gradient along a segment is the difference of the end values. -/
theorem C44_P1_gradient (F : ℝ × ℝ → ℝ) (hF : ContDiff ℝ 1 F) (x0 y0 x1 y1 : ℝ) : P1 (grad F) x0 y0 x1 y1 = F (x1, y1) - F (x0, y0) := by
  have h := intervalIntegral.integral_eq_sub_of_hasDerivAt (a := 0) (b := 1) (fun s _ => hasDerivAt_segment hF x0 y0 x1 y1 s) (by
    have hc := hF.continuous_fderiv one_ne_zero
    refine Continuous.intervalIntegrable ?_ _ _
    have hc' : Continuous fun s : ℝ => fderiv ℝ F (x0 * (1 - s) + x1 * s, y0 * (1 - s) + y1 * s) := hc.comp (by fun_prop)
    exact ((hc'.clm_apply continuous_const).mul continuous_const).add ((hc'.clm_apply continuous_const).mul continuous_const))
  unfold P1 grad
  rw [h]; simp

/-- The two parametrisations of a segment are the same. -/
theorem integrate_1form_eq (p q : ℝ × ℝ) (f : ℝ → ℝ → ℝ × ℝ) : integrate_1form p q f = P1 f p.1 p.2 q.1 q.2 := by
  unfold integrate_1form P1
  refine intervalIntegral.integral_congr fun s _ => ?_
  beta_reduce
  rw [show p.1 + s * (q.1 - p.1) = p.1 * (1 - s) + q.1 * s by ring, show p.2 + s * (q.2 - p.2) = p.2 * (1 - s) + q.2 * s by ring]

/-- C44: the same for `integrate_1form`. -/
theorem C44_1form_gradient (F : ℝ × ℝ → ℝ) (hF : ContDiff ℝ 1 F) (p q : ℝ × ℝ) : integrate_1form p q (grad F) = F q - F p := by
  rw [integrate_1form_eq, C44_P1_gradient F hF]

/-- C44: reversing a segment changes the sign. -/
theorem C44_P1_reverse (f : ℝ → ℝ → ℝ × ℝ) (x0 y0 x1 y1 : ℝ) : P1 f x1 y1 x0 y0 = -P1 f x0 y0 x1 y1 := by
  unfold P1
  have h := intervalIntegral.integral_comp_sub_left (fun s => (f (x0 * (1 - s) + x1 * s) (y0 * (1 - s) + y1 * s)).1 * (x1 - x0) + (f (x0 * (1 - s) + x1 * s) (y0 * (1 - s) + y1 * s)).2 * (y1 - y0)) 1 (a := 0) (b := 1)
  rw [sub_self, sub_zero] at h
  rw [← h, ← intervalIntegral.integral_neg]
  refine intervalIntegral.integral_congr fun s _ => ?_
  beta_reduce
  rw [show x1 * (1 - s) + x0 * s = x0 * (1 - (1 - s)) + x1 * (1 - s) by ring, show y1 * (1 - s) + y0 * s = y0 * (1 - (1 - s)) + y1 * (1 - s) by ring]
  ring

theorem C44_1form_reverse (f : ℝ → ℝ → ℝ × ℝ) (p q : ℝ × ℝ) : integrate_1form q p f = -integrate_1form p q f := by
  rw [integrate_1form_eq, integrate_1form_eq, C44_P1_reverse]

/-- C44: a segment can be split at any of its points. -/
theorem C44_P1_split (f : ℝ → ℝ → ℝ × ℝ) (hf1 : Continuous fun p : ℝ × ℝ => f p.1 p.2) (x0 y0 x1 y1 r : ℝ) :
    P1 f x0 y0 x1 y1 = P1 f x0 y0 (x0 * (1 - r) + x1 * r) (y0 * (1 - r) + y1 * r) + P1 f (x0 * (1 - r) + x1 * r) (y0 * (1 - r) + y1 * r) x1 y1 := by
  set g : ℝ → ℝ := fun s => (f (x0 * (1 - s) + x1 * s) (y0 * (1 - s) + y1 * s)).1 * (x1 - x0) + (f (x0 * (1 - s) + x1 * s) (y0 * (1 - s) + y1 * s)).2 * (y1 - y0) with hg
  have hc : Continuous g := by
    have h : Continuous fun s : ℝ => f (x0 * (1 - s) + x1 * s) (y0 * (1 - s) + y1 * s) := hf1.comp (by fun_prop : Continuous fun s : ℝ => ((x0 * (1 - s) + x1 * s, y0 * (1 - s) + y1 * s) : ℝ × ℝ))
    exact ((continuous_fst.comp h).mul continuous_const).add ((continuous_snd.comp h).mul continuous_const)
  have e0 : P1 f x0 y0 x1 y1 = ∫ s in (0 : ℝ)..1, g s := rfl
  have e1 : P1 f x0 y0 (x0 * (1 - r) + x1 * r) (y0 * (1 - r) + y1 * r) = ∫ s in (0 : ℝ)..r, g s := by
    have h := intervalIntegral.smul_integral_comp_mul_left (a := 0) (b := 1) g r
    rw [mul_zero, mul_one] at h
    rw [← h, smul_eq_mul, ← intervalIntegral.integral_const_mul]
    unfold P1
    refine intervalIntegral.integral_congr fun s _ => ?_
    simp only [hg]
    rw [show x0 * (1 - s) + (x0 * (1 - r) + x1 * r) * s = x0 * (1 - r * s) + x1 * (r * s) by ring, show y0 * (1 - s) + (y0 * (1 - r) + y1 * r) * s = y0 * (1 - r * s) + y1 * (r * s) by ring]
    ring
  have e2 : P1 f (x0 * (1 - r) + x1 * r) (y0 * (1 - r) + y1 * r) x1 y1 = ∫ s in r..1, g s := by
    have h := intervalIntegral.smul_integral_comp_add_mul (a := 0) (b := 1) g (1 - r) r
    rw [mul_zero, mul_one, add_zero, add_sub_cancel] at h
    rw [← h, smul_eq_mul, ← intervalIntegral.integral_const_mul]
    unfold P1
    refine intervalIntegral.integral_congr fun s _ => ?_
    simp only [hg]
    rw [show (x0 * (1 - r) + x1 * r) * (1 - s) + x1 * s = x0 * (1 - (r + (1 - r) * s)) + x1 * (r + (1 - r) * s) by ring,
      show (y0 * (1 - r) + y1 * r) * (1 - s) + y1 * s = y0 * (1 - (r + (1 - r) * s)) + y1 * (r + (1 - r) * s) by ring]
    ring
  rw [e0, e1, e2, intervalIntegral.integral_add_adjacent_intervals (hc.intervalIntegrable _ _) (hc.intervalIntegrable _ _)]

theorem integral_triangle_const (c : ℝ) : ∫ s in (0 : ℝ)..1, ∫ _ in (0 : ℝ)..(1 - s), c = c / 2 := by
  simp only [intervalIntegral.integral_const, smul_eq_mul, sub_zero]
  rw [intervalIntegral.integral_mul_const, intervalIntegral.integral_sub (by simp) (by simp)]
  simp; ring

/-- C44: the integral of a constant over a triangle is the constant times the signed area. -/
theorem C44_P2_constant (c x0 y0 x1 y1 x2 y2 : ℝ) :
    P2 (fun _ _ => c) x0 y0 x1 y1 x2 y2 = c * (((x1 - x0) * (y2 - y0) - (x2 - x0) * (y1 - y0)) / 2) ∧
    nP2 (fun _ _ => c) x0 y0 x1 y1 x2 y2 = c * (((x1 - x0) * (y2 - y0) - (x2 - x0) * (y1 - y0)) / 2) := by
  unfold P2 nP2 dblquad
  rw [integral_triangle_const]
  constructor <;> ring

/-- The two orders of integration (`integration_2d` and `n_integration_2d`) agree. -/
theorem P2_eq_nP2 (w : ℝ → ℝ → ℝ) (hw : Continuous fun p : ℝ × ℝ => w p.1 p.2) (x0 y0 x1 y1 x2 y2 : ℝ) : P2 w x0 y0 x1 y1 x2 y2 = nP2 w x0 y0 x1 y1 x2 y2 := by
  unfold P2 nP2 dblquad
  refine Triangle.tri_swap (fun s t => w (x0 * (1 - s - t) + x1 * s + x2 * t) (y0 * (1 - s - t) + y1 * s + y2 * t) * ((x1 - x0) * (y2 - y0) - (x2 - x0) * (y1 - y0))) ?_
  exact (hw.comp (by fun_prop : Continuous fun p : ℝ × ℝ => ((x0 * (1 - p.1 - p.2) + x1 * p.1 + x2 * p.2, y0 * (1 - p.1 - p.2) + y1 * p.1 + y2 * p.2) : ℝ × ℝ))).mul continuous_const

/-- C44: the symbolic and the numerical integral over a triangle agree. -/
theorem C44_P2_nP2 (w : ℝ → ℝ → ℝ) (hw : Continuous fun p : ℝ × ℝ => w p.1 p.2) (x0 y0 x1 y1 x2 y2 : ℝ) : nP2 w x0 y0 x1 y1 x2 y2 = P2 w x0 y0 x1 y1 x2 y2 :=
  (P2_eq_nP2 w hw x0 y0 x1 y1 x2 y2).symm

/-- C44: swapping the last two vertices of a triangle changes the sign of the integral. -/
theorem C44_P2_swap12 (w : ℝ → ℝ → ℝ) (hw : Continuous fun p : ℝ × ℝ => w p.1 p.2) (x0 y0 x1 y1 x2 y2 : ℝ) :
    P2 w x0 y0 x2 y2 x1 y1 = -P2 w x0 y0 x1 y1 x2 y2 := by
  rw [P2_eq_nP2 w hw]
  unfold nP2 P2 dblquad
  rw [← intervalIntegral.integral_neg]
  refine intervalIntegral.integral_congr fun s _ => ?_
  beta_reduce
  rw [← intervalIntegral.integral_neg]
  refine intervalIntegral.integral_congr fun t _ => ?_
  beta_reduce
  rw [show x0 * (1 - t - s) + x2 * t + x1 * s = x0 * (1 - s - t) + x1 * s + x2 * t by ring, show y0 * (1 - t - s) + y2 * t + y1 * s = y0 * (1 - s - t) + y1 * s + y2 * t by ring]
  ring

/-- C44: swapping the first and the last vertex changes the sign (no continuity needed). -/
theorem C44_P2_swap02 (w : ℝ → ℝ → ℝ) (x0 y0 x1 y1 x2 y2 : ℝ) : P2 w x2 y2 x1 y1 x0 y0 = -P2 w x0 y0 x1 y1 x2 y2 := by
  unfold P2
  rw [← intervalIntegral.integral_neg]
  refine intervalIntegral.integral_congr fun s _ => ?_
  beta_reduce
  have h := intervalIntegral.integral_comp_sub_left (fun t => w (x0 * (1 - s - t) + x1 * s + x2 * t) (y0 * (1 - s - t) + y1 * s + y2 * t) * ((x1 - x0) * (y2 - y0) - (x2 - x0) * (y1 - y0))) (1 - s) (a := 0) (b := 1 - s)
  rw [sub_self, sub_zero] at h
  rw [← h, ← intervalIntegral.integral_neg]
  refine intervalIntegral.integral_congr fun t _ => ?_
  beta_reduce
  rw [show x2 * (1 - s - t) + x1 * s + x0 * t = x0 * (1 - s - (1 - s - t)) + x1 * s + x2 * (1 - s - t) by ring,
    show y2 * (1 - s - t) + y1 * s + y0 * t = y0 * (1 - s - (1 - s - t)) + y1 * s + y2 * (1 - s - t) by ring]
  ring

/-- C44: swapping the first two vertices changes the sign. -/
theorem C44_P2_swap01 (w : ℝ → ℝ → ℝ) (hw : Continuous fun p : ℝ × ℝ => w p.1 p.2) (x0 y0 x1 y1 x2 y2 : ℝ) :
    P2 w x1 y1 x0 y0 x2 y2 = -P2 w x0 y0 x1 y1 x2 y2 := by
  rw [C44_P2_swap12 w hw x1 y1 x2 y2 x0 y0, C44_P2_swap02 w x0 y0 x2 y2 x1 y1, C44_P2_swap12 w hw, neg_neg]

example : Continuous fun p : ℝ × ℝ => (fun x y : ℝ => x * y ^ 2) p.1 p.2 := by fun_prop

/-- C44: the averages of a constant are the constant, in one and two dimensions, and the 1-d average is the integral divided by the length. -/
theorem C44_averages (c x0 y0 x1 y1 x2 y2 : ℝ) : avg1 (fun _ => c) x0 x1 = c ∧ avg2_1 (fun _ _ => c) x0 y0 x1 y1 = c ∧ avg2_2 (fun _ _ => c) x0 y0 x1 y1 x2 y2 = c := by
  unfold avg1 avg2_1 avg2_2
  rw [integral_triangle_const]
  refine ⟨by simp, by simp, by ring⟩

/-- C44: the averages over a segment and over a triangle are the line and area integrals divided by the size: the integral of `f dx + g dy` along the segment is
`(x1 - x0)` times the average of `f` plus `(y1 - y0)` times the average of `g`, and the integral over the triangle is its signed area times the average. -/
theorem C44_averages_2d_integral (f g : ℝ → ℝ → ℝ) (hf : Continuous fun p : ℝ × ℝ => f p.1 p.2) (hg : Continuous fun p : ℝ × ℝ => g p.1 p.2) (x0 y0 x1 y1 x2 y2 : ℝ) :
    P1 (fun x y => (f x y, g x y)) x0 y0 x1 y1 = (x1 - x0) * avg2_1 f x0 y0 x1 y1 + (y1 - y0) * avg2_1 g x0 y0 x1 y1 ∧
    P2 f x0 y0 x1 y1 x2 y2 = ((x1 - x0) * (y2 - y0) - (x2 - x0) * (y1 - y0)) / 2 * avg2_2 f x0 y0 x1 y1 x2 y2 := by
  have hc : ∀ w : ℝ → ℝ → ℝ, Continuous (fun p : ℝ × ℝ => w p.1 p.2) → Continuous fun s : ℝ => w (x0 * (1 - s) + x1 * s) (y0 * (1 - s) + y1 * s) := fun w hw =>
    hw.comp (by fun_prop : Continuous fun s : ℝ => ((x0 * (1 - s) + x1 * s, y0 * (1 - s) + y1 * s) : ℝ × ℝ))
  refine ⟨?_, ?_⟩
  · unfold P1 avg2_1
    rw [← intervalIntegral.integral_const_mul, ← intervalIntegral.integral_const_mul, ← intervalIntegral.integral_add]
    · refine intervalIntegral.integral_congr fun s _ => ?_
      beta_reduce; ring
    · exact ((hc f hf).const_mul _ |>.intervalIntegrable ..)
    · exact ((hc g hg).const_mul _ |>.intervalIntegrable ..)
  · unfold P2 avg2_2
    rw [← intervalIntegral.integral_const_mul]
    refine intervalIntegral.integral_congr fun s _ => ?_
    beta_reduce
    rw [← intervalIntegral.integral_const_mul]
    refine intervalIntegral.integral_congr fun t _ => ?_
    beta_reduce; ring

/-- C44: the average of a function of degree one is its value at the midpoint of the segment, at the centroid of the triangle. -/
theorem C44_averages_affine (a b c x0 y0 x1 y1 x2 y2 : ℝ) :
    avg1 (fun x => a * x + c) x0 x1 = a * ((x0 + x1) / 2) + c ∧
    avg2_1 (fun x y => a * x + b * y + c) x0 y0 x1 y1 = a * ((x0 + x1) / 2) + b * ((y0 + y1) / 2) + c ∧
    avg2_2 (fun x y => a * x + b * y + c) x0 y0 x1 y1 x2 y2 = a * ((x0 + x1 + x2) / 3) + b * ((y0 + y1 + y2) / 3) + c := by
  have h1 : ∀ p q : ℝ, ∫ s in (0 : ℝ)..1, (p + q * s) = p + q / 2 := by
    intro p q
    rw [intervalIntegral.integral_add (Continuous.intervalIntegrable (by fun_prop) ..) (Continuous.intervalIntegrable (by fun_prop) ..), intervalIntegral.integral_const_mul, integral_id]
    simp; ring
  have h2 : ∀ p q z : ℝ, ∫ t in (0 : ℝ)..z, (p + q * t) = p * z + q * (z ^ 2 / 2) := by
    intro p q z
    rw [intervalIntegral.integral_add (Continuous.intervalIntegrable (by fun_prop) ..) (Continuous.intervalIntegrable (by fun_prop) ..), intervalIntegral.integral_const_mul, integral_id]
    simp; ring
  have h3 : ∀ p q r : ℝ, ∫ s in (0 : ℝ)..1, (p + q * s + r * s ^ 2) = p + q / 2 + r / 3 := by
    intro p q r
    rw [intervalIntegral.integral_add (Continuous.intervalIntegrable (by fun_prop) ..) (Continuous.intervalIntegrable (by fun_prop) ..), h1, intervalIntegral.integral_const_mul, integral_pow]
    norm_num; ring
  refine ⟨?_, ?_, ?_⟩
  · unfold avg1
    rw [show a * ((x0 + x1) / 2) + c = (a * x0 + c) + (a * (x1 - x0)) / 2 by ring, ← h1]
    exact intervalIntegral.integral_congr fun s _ => by beta_reduce; ring
  · unfold avg2_1
    rw [show a * ((x0 + x1) / 2) + b * ((y0 + y1) / 2) + c = (a * x0 + b * y0 + c) + (a * (x1 - x0) + b * (y1 - y0)) / 2 by ring, ← h1]
    exact intervalIntegral.integral_congr fun s _ => by beta_reduce; ring
  · unfold avg2_2
    set p := a * x0 + b * y0 + c with hp
    set q := a * (x1 - x0) + b * (y1 - y0) with hq
    set r := a * (x2 - x0) + b * (y2 - y0) with hr
    have e : ∀ s : ℝ, ∫ t in (0 : ℝ)..(1 - s), 2 * (a * (x0 * (1 - s - t) + x1 * s + x2 * t) + b * (y0 * (1 - s - t) + y1 * s + y2 * t) + c) =
        (2 * p + r) + (2 * q - 2 * p - 2 * r) * s + (r - 2 * q) * s ^ 2 := by
      intro s
      rw [show (2 * p + r) + (2 * q - 2 * p - 2 * r) * s + (r - 2 * q) * s ^ 2 = (2 * p + 2 * q * s) * (1 - s) + 2 * r * ((1 - s) ^ 2 / 2) by ring, ← h2]
      exact intervalIntegral.integral_congr fun t _ => by simp only [hp, hq, hr]; ring
    rw [intervalIntegral.integral_congr (fun s _ => e s), h3]
    simp only [hp, hq, hr]; ring

theorem C44_average_integral (f : ℝ → ℝ) (x0 x1 : ℝ) : (x1 - x0) * avg1 f x0 x1 = int1 f x0 x1 := by
  unfold avg1 int1
  have h := intervalIntegral.smul_integral_comp_add_mul (a := 0) (b := 1) f (x1 - x0) x0
  rw [mul_zero, mul_one, add_zero, add_sub_cancel, smul_eq_mul] at h
  rw [← h]
  congr 1
  refine intervalIntegral.integral_congr fun s _ => ?_
  beta_reduce
  congr 1; ring

/-- C44: the numerical integrals over consecutive cells `[x_0, x_1], [x_1, x_2], ...` are the differences of any antiderivative, in this order, and sum up to the integral from the first to the last point. -/
theorem C44_cells (f F : ℝ → ℝ) (hF : ∀ x, HasDerivAt F (f x) x) (hf : Continuous f) (x : List ℝ) (a b : ℝ) (ha : x.head? = some a) (hb : x.getLast? = some b) :
    nInt1 f x.dropLast x.tail = List.zipWith (fun u v => F v - F u) x.dropLast x.tail ∧ (nInt1 f x.dropLast x.tail).sum = ∫ s in a..b, f s := by
  have e : ∀ u v, int1 f u v = F v - F u := fun u v => intervalIntegral.integral_eq_sub_of_hasDerivAt (fun s _ => hF s) (hf.intervalIntegrable _ _)
  have h1 : nInt1 f x.dropLast x.tail = List.zipWith (fun u v => F v - F u) x.dropLast x.tail := by
    unfold nInt1
    rw [show int1 f = fun u v => F v - F u from funext fun u => funext fun v => e u v]
  refine ⟨h1, ?_⟩
  rw [h1, show (∫ s in a..b, f s) = F b - F a from e a b]
  clear h1
  induction x generalizing a with
  | nil => simp at ha
  | cons u l ih =>
    obtain rfl : u = a := by simpa using ha
    cases l with
    | nil =>
      obtain rfl : u = b := by simpa using hb
      simp
    | cons v l =>
      have := ih v rfl (by simpa using hb)
      simp only [List.dropLast_cons_cons, List.tail_cons, List.zipWith_cons_cons, List.sum_cons] at this ⊢
      rw [this]
      ring

/-- C44: on axis-parallel rectangles the symbolic and the numerical double integral agree (they integrate in opposite orders). -/
theorem C44_P2r_nP2r (f : ℝ → ℝ → ℝ) (hf : Continuous fun p : ℝ × ℝ => f p.1 p.2) (x0 y0 x1 y1 : ℝ) : P2r f x0 y0 x1 y1 = nP2r f x0 y0 x1 y1 :=
  Triangle.rect_swap f x0 x1 y0 y1 hf

/-! ## C43 -/

theorem foldl_add (l : List ℝ) (a : ℝ) : l.foldl (· + ·) a = a + l.sum := by
  induction l generalizing a with
  | nil => simp
  | cons x l ih => simp [ih, add_assoc]

theorem triangle_one (a b c : ℝ × ℝ) : triangle a b c (fun _ _ => 1) = ((b.1 - a.1) * (c.2 - a.2) - (b.2 - a.2) * (c.1 - a.1)) / 2 := by
  unfold triangle dblquad
  simp only [one_mul]
  exact integral_triangle_const _

/-- The shoelace formula: half the sum of `x_i y_{i+1} - x_{i+1} y_i` over the edges of the closed polygon. -/
noncomputable def shoelace (v : List (ℝ × ℝ)) : ℝ :=
  (∑ i ∈ range v.length, ((v.getD i 0).1 * (v.getD ((i + 1) % v.length) 0).2 - (v.getD ((i + 1) % v.length) 0).1 * (v.getD i 0).2)) / 2

theorem sum_zipWith_tail (g : ℝ × ℝ → ℝ × ℝ → ℝ) (l : List (ℝ × ℝ)) :
    (List.zipWith g l.dropLast l.tail).sum = ∑ i ∈ range (l.length - 1), g (l.getD i 0) (l.getD (i + 1) 0) := by
  conv_lhs => rw [eq_tab l 0, dropLast_tab, tail_tab, zipWith_tab]
  unfold tab
  generalize l.length - 1 = m
  induction m with
  | zero => simp
  | succ m ih => rw [List.range_succ, List.map_append, List.sum_append, ih, Finset.sum_range_succ]; simp

/-- C43: the integral of the constant one over any polygon is its signed area; a polygon without vertices raises `IndexError`. -/
theorem C43_area (v : List (ℝ × ℝ)) : integrate_2form v (fun _ _ => 1) = if v = [] then .error .indexError else .ok (shoelace v) := by
  by_cases hv : v = []
  · rw [if_pos hv, hv]; rfl
  obtain ⟨a, l, rfl⟩ := List.exists_cons_of_ne_nil hv
  rw [if_neg hv]
  refine congrArg Except.ok ?_
  unfold fan shoelace
  rw [foldl_add, zero_add, sum_zipWith_tail]
  simp only [triangle_one]
  rcases Nat.eq_zero_or_pos l.length with h0 | hl
  · rw [List.length_eq_zero_iff] at h0; subst h0
    simp
  · rw [List.length_cons, Finset.sum_range_succ, Nat.mod_self]
    obtain ⟨m, hm⟩ : ∃ m, l.length = m + 1 := ⟨l.length - 1, by omega⟩
    rw [hm, Nat.add_sub_cancel, Finset.sum_range_succ' _ m]
    have e : ∀ i ∈ range m, ((a :: l).getD (i + 1) 0).1 * ((a :: l).getD ((i + 1 + 1) % (m + 1 + 1)) 0).2 - ((a :: l).getD ((i + 1 + 1) % (m + 1 + 1)) 0).1 * ((a :: l).getD (i + 1) 0).2
        = (l.getD i 0).1 * (l.getD (i + 1) 0).2 - (l.getD (i + 1) 0).1 * (l.getD i 0).2 := by
      intro i hi
      rw [Finset.mem_range] at hi
      rw [Nat.mod_eq_of_lt (by omega)]
      simp only [List.getD_cons_succ]
    rw [Finset.sum_congr rfl e]
    have t : ∑ i ∈ range m, (((l.getD i 0).1 - a.1) * ((l.getD (i + 1) 0).2 - a.2) - ((l.getD i 0).2 - a.2) * ((l.getD (i + 1) 0).1 - a.1)) / 2
        = (∑ i ∈ range m, ((l.getD i 0).1 * (l.getD (i + 1) 0).2 - (l.getD (i + 1) 0).1 * (l.getD i 0).2)) / 2
          + (a.2 * ((l.getD m 0).1 - (l.getD 0 0).1) - a.1 * ((l.getD m 0).2 - (l.getD 0 0).2)) / 2 := by
      rw [← Finset.sum_range_sub (fun i => (l.getD i 0).1) m, ← Finset.sum_range_sub (fun i => (l.getD i 0).2) m, Finset.mul_sum, Finset.mul_sum, ← Finset.sum_sub_distrib, Finset.sum_div, Finset.sum_div,
        ← Finset.sum_add_distrib]
      exact Finset.sum_congr rfl fun i _ => by ring
    rw [t, Nat.mod_eq_of_lt (by omega : 0 + 1 < m + 1 + 1)]
    simp only [List.getD_cons_succ, List.getD_cons_zero]
    ring

theorem fan_rectangle (f : ℝ → ℝ → ℝ) (hf : Continuous fun p : ℝ × ℝ => f p.1 p.2) (x0 y0 x1 y1 : ℝ) :
    fan (x0, y0) [(x1, y0), (x1, y1), (x0, y1)] f = ∫ y in y0..y1, ∫ x in x0..x1, f x y := by
  set G : ℝ → ℝ → ℝ := fun u v => f (x0 + (x1 - x0) * u) (y0 + (y1 - y0) * v) with hG
  have hGc : Continuous fun p : ℝ × ℝ => G p.1 p.2 :=
    hf.comp (by fun_prop : Continuous fun p : ℝ × ℝ => ((x0 + (x1 - x0) * p.1, y0 + (y1 - y0) * p.2) : ℝ × ℝ))
  have hG1 : ∀ v, Continuous fun u => G u v := fun v => hGc.comp (by fun_prop : Continuous fun u : ℝ => ((u, v) : ℝ × ℝ))
  have e1 : triangle (x0, y0) (x1, y0) (x1, y1) f = ((x1 - x0) * (y1 - y0)) * ∫ v in (0 : ℝ)..1, ∫ s in v..(1 : ℝ), G s v := by
    unfold triangle dblquad
    rw [← intervalIntegral.integral_const_mul]
    refine intervalIntegral.integral_congr fun v _ => ?_
    beta_reduce
    have h := intervalIntegral.integral_comp_add_right (fun s => G s v) v (a := 0) (b := 1 - v)
    rw [zero_add, sub_add_cancel] at h
    rw [← h, ← intervalIntegral.integral_const_mul]
    refine intervalIntegral.integral_congr fun u _ => ?_
    simp only [hG]
    rw [show x0 + u * (x1 - x0) + v * (x1 - x0) = x0 + (x1 - x0) * (u + v) by ring, show y0 + u * (y0 - y0) + v * (y1 - y0) = y0 + (y1 - y0) * v by ring]
    ring
  have e2 : triangle (x0, y0) (x1, y1) (x0, y1) f = ((x1 - x0) * (y1 - y0)) * ∫ v in (0 : ℝ)..1, ∫ s in (0 : ℝ)..v, G s v := by
    rw [← Triangle.tri_swap' G hGc]
    unfold triangle dblquad
    rw [← intervalIntegral.integral_const_mul]
    rw [← Triangle.tri_swap (fun u v => f (x0 + u * (x1 - x0) + v * (x0 - x0)) (y0 + u * (y1 - y0) + v * (y1 - y0)) * ((x1 - x0) * (y1 - y0) - (y1 - y0) * (x0 - x0)))
      ((hf.comp (by fun_prop : Continuous fun p : ℝ × ℝ => ((x0 + p.1 * (x1 - x0) + p.2 * (x0 - x0), y0 + p.1 * (y1 - y0) + p.2 * (y1 - y0)) : ℝ × ℝ))).mul continuous_const)]
    refine intervalIntegral.integral_congr fun u _ => ?_
    beta_reduce
    have h := intervalIntegral.integral_comp_add_right (fun s => G u s) u (a := 0) (b := 1 - u)
    rw [zero_add, sub_add_cancel] at h
    rw [← h, ← intervalIntegral.integral_const_mul]
    refine intervalIntegral.integral_congr fun v _ => ?_
    simp only [hG]
    rw [show x0 + u * (x1 - x0) + v * (x0 - x0) = x0 + (x1 - x0) * u by ring, show y0 + u * (y1 - y0) + v * (y1 - y0) = y0 + (y1 - y0) * (v + u) by ring]
    ring
  have e3 : fan (x0, y0) [(x1, y0), (x1, y1), (x0, y1)] f = triangle (x0, y0) (x1, y0) (x1, y1) f + triangle (x0, y0) (x1, y1) (x0, y1) f := by
    simp [fan]
  rw [e3, e1, e2, ← mul_add, ← intervalIntegral.integral_add]
  · have e4 : ∀ v : ℝ, (∫ s in v..(1 : ℝ), G s v) + (∫ s in (0 : ℝ)..v, G s v) = ∫ s in (0 : ℝ)..1, G s v := fun v => by
      rw [add_comm, intervalIntegral.integral_add_adjacent_intervals ((hG1 v).intervalIntegrable _ _) ((hG1 v).intervalIntegrable _ _)]
    simp only [e4]
    have e5 : ∀ v : ℝ, (x1 - x0) * ∫ s in (0 : ℝ)..1, G s v = ∫ x in x0..x1, f x (y0 + (y1 - y0) * v) := fun v => by
      have h := intervalIntegral.smul_integral_comp_add_mul (a := 0) (b := 1) (fun x => f x (y0 + (y1 - y0) * v)) (x1 - x0) x0
      rw [mul_zero, mul_one, add_zero, add_sub_cancel, smul_eq_mul] at h
      exact h
    have h := intervalIntegral.smul_integral_comp_add_mul (a := 0) (b := 1) (fun y => ∫ x in x0..x1, f x y) (y1 - y0) y0
    rw [mul_zero, mul_one, add_zero, add_sub_cancel, smul_eq_mul] at h
    rw [← h, mul_comm (x1 - x0), mul_assoc, ← intervalIntegral.integral_const_mul]
    simp only [e5]
  · refine Continuous.intervalIntegrable ?_ _ _
    simp only [intervalIntegral.integral_symm 1]
    exact (intervalIntegral.continuous_parametric_intervalIntegral_of_continuous (f := fun v s => G s v) (hGc.comp continuous_swap) continuous_id).neg
  · refine Continuous.intervalIntegrable ?_ _ _
    exact intervalIntegral.continuous_parametric_intervalIntegral_of_continuous (f := fun v s => G s v) (hGc.comp continuous_swap) continuous_id

example : Continuous fun p : ℝ × ℝ => (fun x y : ℝ => Real.sin (x * y)) p.1 p.2 := by fun_prop

/-- C43 on an axis-parallel rectangle: the iterated integral of `f`. -/
theorem C43_rectangle (f : ℝ → ℝ → ℝ) (hf : Continuous fun p : ℝ × ℝ => f p.1 p.2) (x0 y0 x1 y1 : ℝ) :
    integrate_2form [(x0, y0), (x1, y0), (x1, y1), (x0, y1)] f = .ok (∫ y in y0..y1, ∫ x in x0..x1, f x y) :=
  congrArg Except.ok (fan_rectangle f hf x0 y0 x1 y1)

end Dec.Props
