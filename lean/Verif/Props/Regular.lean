import Verif.Lib.RegularGrid
import Verif.Model.Grids

set_option linter.unusedSimpArgs false
set_option linter.unusedVariables false

/-!
# C03 and C04: the Hodge stars of the regular grid
-/

namespace Dec.Props

open Real Finset Dec.Sp

/-- C03: the four complex-valued Hodge star functions return real values on real arrays (of any length). -/
theorem C03_real (f : List ℝ) (z : ℂ)
    (hz : z ∈ Regular.H0 (toC f) ∨ z ∈ Regular.H1 (toC f) ∨ z ∈ Regular.H0d (toC f) ∨ z ∈ Regular.H1d (toC f)) : z.im = 0 := by
  rw [Regular.H0_real, Regular.H1_real, Regular.H0d_real, Regular.H1d_real] at hz
  simp only [toC, List.mem_map] at hz
  rcases hz with ⟨a, _, rfl⟩ | ⟨a, _, rfl⟩ | ⟨a, _, rfl⟩ | ⟨a, _, rfl⟩ <;> simp

/-- C03: on every regular grid the Hodge stars invert each other. -/
theorem C03_regular_hodge_inverse (n : ℕ) (hn : 2 ≤ n) (xmin xmax : ℝ) (t : Bool) :
    (∀ a : List ℝ, a.length = (Regular.make n xmin xmax).N 0 t →
      ((Regular.make n xmin xmax).H 0 t a >>= (Regular.make n xmin xmax).H 1 (!t)) = .ok a) ∧
    (∀ a : List ℝ, a.length = (Regular.make n xmin xmax).N 1 t →
      ((Regular.make n xmin xmax).H 1 t a >>= (Regular.make n xmin xmax).H 0 (!t)) = .ok a) := by
  have h0 : 0 < n - 1 := by omega
  cases t
  · refine ⟨fun a ha => ?_, fun a ha => ?_⟩
    · show Except.ok (re (Regular.H1 (toC (re (Regular.H0d (toC a)))))) = _
      rw [Regular.H0d_real, re_toC, Regular.H1_real, re_toC, Regular.rH1_rH0d h0 a ha]
    · show Except.ok (re (Regular.H0 (toC (re (Regular.H1d (toC a)))))) = _
      rw [Regular.H1d_real, re_toC, Regular.H0_real, re_toC, Regular.rH0_rH1d hn a ha]
  · refine ⟨fun a ha => ?_, fun a ha => ?_⟩
    · show Except.ok (re (Regular.H1d (toC (re (Regular.H0 (toC a)))))) = _
      rw [Regular.H0_real, re_toC, Regular.H1d_real, re_toC, Regular.rH1d_rH0 hn a ha]
    · show Except.ok (re (Regular.H0d (toC (re (Regular.H1 (toC a)))))) = _
      rw [Regular.H1_real, re_toC, Regular.H0d_real, re_toC, Regular.rH0d_rH1 h0 a ha]

/-- Non-vacuity: the arrays of C03 exist. -/
example : ([1, 2, 3] : List ℝ).length = (Regular.make 3 0 π).N 0 true := rfl

theorem res_of_isCos0 {K n : ℕ} (hn : 2 ≤ n) (hK : K + 1 ≤ n) {f : ℝ → ℝ} (hf : IsCos K f) :
    Res (2 * n - 2) 0 f ∧ ∀ θ, f (-θ) = f θ := by
  obtain ⟨a, ha⟩ := hf
  refine ⟨(Res.sum (range (K + 1)) (p := fun k θ => a k * cos (k * θ)) fun k hk => Res.const_mul ?_ _).congr ha, fun θ => ?_⟩
  · rw [mem_range] at hk
    by_cases h : 2 * k < 2 * n - 2
    · exact (Res.cos_lt (N := 2 * n - 2) (m := k) (by rw [Nat.abs_cast]; omega) 0 0).congr fun θ => by simp
    · have hk' : k = n - 1 := by omega
      have := Res.cos_nyquist (m := n - 1) (by omega) 0
      rw [show 2 * (n - 1) = 2 * n - 2 by omega] at this
      exact this.congr fun θ => by rw [hk', sub_zero]
  · rw [ha, ha]; simp [mul_neg, cos_neg]

theorem res_of_isCos1 {K m : ℕ} (hK : K < m) {f : ℝ → ℝ} (hf : IsCos K f) :
    Res (2 * m) (hh (2 * m) / 2) f ∧ ∀ θ, f (-θ) = f θ := by
  obtain ⟨a, ha⟩ := hf
  refine ⟨(Res.sum (range (K + 1)) (p := fun k θ => a k * cos (k * θ)) fun k hk => Res.const_mul ?_ _).congr ha, fun θ => ?_⟩
  · rw [mem_range] at hk
    exact (Res.cos_lt (N := 2 * m) (m := k) (by rw [Nat.abs_cast]; push_cast; omega) _ 0).congr fun θ => by simp
  · rw [ha, ha]; simp [mul_neg, cos_neg]

/-- C04: exactness on the primal vertices and dual edges, for cosine polynomials of degree at most `n - 1`. -/
theorem C04_regular_hodge_exact_primal (n K : ℕ) (hn : 2 ≤ n) (hK : K ≤ n - 1) (f : ℝ → ℝ) (hf : IsCos K f) :
    (Regular.make n).H 0 true ((Regular.make n).P 0 true f) = .ok ((Regular.make n).P 1 false f) ∧
    (Regular.make n).H 1 false ((Regular.make n).P 1 false f) = .ok ((Regular.make n).P 0 true f) := by
  obtain ⟨hr, ev⟩ := res_of_isCos0 hn (by omega) hf
  have hg := Regular.isInterval hn 0 π
  have e0 : (Regular.make n 0 π).P 0 true f = tab n fun j => f (j * hh (2 * n - 2)) := by
    rw [hg.P0, hh_double hn]; exact tab_congr fun j _ => by simp
  have e1 : (Regular.make n 0 π).P 1 false f
      = tab n (fun j => ∫ ξ in (Regular.lo (hh (2 * n - 2)) j)..(Regular.hi n (hh (2 * n - 2)) j), f ξ) := by
    rw [hg.P1d, hh_double hn]; unfold Regular.lo Regular.hi
    refine tab_congr fun j _ => ?_
    show (∫ t in (if j = 0 then (0 : ℝ) else _)..(if j < n - 1 then _ else π), f t) = _
    simp
  rw [e0, e1]
  refine ⟨?_, ?_⟩
  · show Except.ok (re (Regular.H0 (toC _))) = _
    rw [Regular.H0_real, re_toC, Regular.rH0_exact hn hr ev]
  · show Except.ok (re (Regular.H1d (toC _))) = _
    rw [Regular.H1d_real, re_toC, Regular.rH1d_exact hn hr ev]

/-- C04: exactness on the dual vertices and primal edges, for cosine polynomials of degree at most `n - 2`. -/
theorem C04_regular_hodge_exact_dual (n K : ℕ) (hn : 2 ≤ n) (hK : K ≤ n - 2) (f : ℝ → ℝ) (hf : IsCos K f) :
    (Regular.make n).H 0 false ((Regular.make n).P 0 false f) = .ok ((Regular.make n).P 1 true f) ∧
    (Regular.make n).H 1 true ((Regular.make n).P 1 true f) = .ok ((Regular.make n).P 0 false f) := by
  obtain ⟨hr, ev⟩ := res_of_isCos1 (m := n - 1) (by omega) hf
  have hg := Regular.isInterval hn 0 π
  have e : 2 * (n - 1) = 2 * n - 2 := by omega
  have e0 : (Regular.make n 0 π).P 0 false f = tab (n - 1) fun j => f (hh (2 * (n - 1)) / 2 + j * hh (2 * (n - 1))) := by
    rw [hg.P0d, e, hh_double hn]; exact tab_congr fun j _ => by congr 1; simp; ring
  have e1 : (Regular.make n 0 π).P 1 true f
      = tab (n - 1) (fun j => ∫ ξ in (j * hh (2 * (n - 1)))..((j + 1) * hh (2 * (n - 1))), f ξ) := by
    rw [hg.P1, e, hh_double hn]
    exact tab_congr fun j _ => by simp
  rw [e0, e1]
  refine ⟨?_, ?_⟩
  · show Except.ok (re (Regular.H0d (toC _))) = _
    rw [Regular.H0d_real, re_toC, Regular.rH0d_exact (by omega) hr ev]
  · show Except.ok (re (Regular.H1 (toC _))) = _
    rw [Regular.H1_real, re_toC, Regular.rH1_exact (by omega) hr ev]

/-- Non-vacuity: `cos 2x` on three primal points (the highest resolved degree), and `cos x` on the two dual points. -/
example : IsCos 2 (fun x => cos ((2 : ℕ) * x)) ∧ 2 ≤ 3 - 1 ∧ IsCos 1 (fun x => cos ((1 : ℕ) * x)) ∧ 1 ≤ 3 - 2 :=
  ⟨⟨fun k => if k = 2 then 1 else 0, fun θ => by simp⟩, by norm_num, ⟨fun k => if k = 1 then 1 else 0, fun θ => by simp⟩, by norm_num⟩

end Dec.Props
