import Verif.Lib.Strong
import Mathlib.Tactic
import Mathlib.RingTheory.Polynomial.Chebyshev
import Mathlib.Analysis.Calculus.Deriv.Polynomial
import Mathlib.Analysis.SpecialFunctions.Trigonometric.Chebyshev.Basic

/-! # Chebyshev sums and the Dirichlet problem for a Chebyshev polynomial -/

namespace Dec

open Finset Real

/-- Sampled at the midpoints, a cosine of frequency `0 < m < 2 N` has sum zero. -/
theorem sum_cos_mid {N m : ℕ} (h0 : 0 < m) (h1 : m < 2 * N) : ∑ j ∈ range N, cos (m * (((j : ℝ) + 1 / 2) * (π / N))) = 0 := by
  have hN : (0 : ℝ) < N := by
    have : 0 < N := by omega
    exact_mod_cast this
  set a : ℝ := m * (π / N) / 2 with ha
  have hs : 0 < sin a := by
    refine sin_pos_of_pos_of_lt_pi (by positivity) ?_
    rw [ha, div_lt_iff₀ two_pos, mul_div_assoc', div_lt_iff₀ hN]
    have : (m : ℝ) < 2 * N := by exact_mod_cast h1
    nlinarith [pi_pos]
  have e : ∀ j : ℕ, 2 * sin a * cos (m * (((j : ℝ) + 1 / 2) * (π / N))) = sin (2 * ((j + 1 : ℕ) : ℝ) * a) - sin (2 * (j : ℝ) * a) := fun j => by
    rw [show m * (((j : ℝ) + 1 / 2) * (π / N)) = 2 * j * a + a by rw [ha]; ring, show 2 * ((j + 1 : ℕ) : ℝ) * a = 2 * j * a + a + a by push_cast; ring]
    rw [show (2 * j * a : ℝ) = (2 * j * a + a) - a by ring]
    generalize (2 * (j : ℝ) * a + a) = y
    rw [show y - a + a = y by ring, sin_add, sin_sub]; ring
  have h : 2 * sin a * ∑ j ∈ range N, cos (m * (((j : ℝ) + 1 / 2) * (π / N))) = 0 := by
    rw [mul_sum, sum_congr rfl fun j _ => e j, sum_range_sub (fun j : ℕ => sin (2 * (j : ℝ) * a))]
    rw [show 2 * (N : ℝ) * a = m * π by rw [ha]; field_simp, sin_nat_mul_pi]
    simp
  exact (mul_eq_zero.1 h).resolve_left (by positivity)

/-- Discrete orthogonality of the cosines at the midpoints. -/
theorem sum_cos_cos_mid {N k l : ℕ} (hk : k < N) (hl : l < N) :
    ∑ j ∈ range N, cos (k * (((j : ℝ) + 1 / 2) * (π / N))) * cos (l * (((j : ℝ) + 1 / 2) * (π / N))) = if k = l then (if k = 0 then (N : ℝ) else N / 2) else 0 := by
  have e : ∀ j : ℕ, cos (k * (((j : ℝ) + 1 / 2) * (π / N))) * cos (l * (((j : ℝ) + 1 / 2) * (π / N)))
      = (cos (((k + l : ℕ) : ℝ) * (((j : ℝ) + 1 / 2) * (π / N))) + cos (((max k l - min k l : ℕ) : ℝ) * (((j : ℝ) + 1 / 2) * (π / N)))) / 2 := fun j => by
    have : ((max k l - min k l : ℕ) : ℝ) = |(k : ℝ) - l| := by
      rcases le_total k l with h | h
      · rw [max_eq_right h, min_eq_left h, Nat.cast_sub h, abs_sub_comm, abs_of_nonneg (by simpa using h)]
      · rw [max_eq_left h, min_eq_right h, Nat.cast_sub h, abs_of_nonneg (by simpa using h)]
    rw [this]
    generalize ((j : ℝ) + 1 / 2) * (π / N) = y
    have e2 : cos (|(k : ℝ) - l| * y) = cos ((k - l) * y) := by
      rcases abs_choice ((k : ℝ) - l) with h | h <;> rw [h]
      rw [neg_mul, cos_neg]
    rw [e2]; push_cast
    rw [add_mul, sub_mul, cos_add, cos_sub]; ring
  rw [sum_congr rfl fun j _ => e j, ← sum_div, sum_add_distrib]
  by_cases h : k = l
  · subst h
    rw [if_pos rfl, max_self, min_self, Nat.sub_self]
    simp only [Nat.cast_zero, zero_mul, cos_zero, sum_const, card_range, nsmul_eq_mul, mul_one]
    by_cases h0 : k = 0
    · subst h0
      simp
    · rw [if_neg h0, sum_cos_mid (by omega) (by omega)]; ring
  · rw [if_neg h, sum_cos_mid (by omega) (by omega), sum_cos_mid (by omega) (by omega)]; simp

/-- The coefficients of a cosine polynomial from its values at the midpoints. -/
theorem coef_mid {N : ℕ} (a : ℕ → ℝ) {k : ℕ} (hk : k < N) :
    ∑ j ∈ range N, (∑ l ∈ range N, a l * cos (l * (((j : ℝ) + 1 / 2) * (π / N)))) * cos (k * (((j : ℝ) + 1 / 2) * (π / N))) = a k * if k = 0 then (N : ℝ) else N / 2 := by
  simp only [sum_mul]
  rw [sum_comm, sum_eq_single k]
  · simp only [mul_assoc]
    rw [← mul_sum, sum_cos_cos_mid hk hk, if_pos rfl]
  · intro l hl hne
    simp only [mul_assoc]
    rw [← mul_sum, sum_cos_cos_mid (mem_range.1 hl) hk, if_neg hne, mul_zero]
  · intro h; exact absurd (mem_range.2 hk) h

theorem coef_mid_bound {N : ℕ} (a : ℕ → ℝ) {k : ℕ} (hk : k < N) :
    |a k| ≤ (if k = 0 then 1 else 2) * ((∑ j ∈ range N, |∑ l ∈ range N, a l * cos (l * (((j : ℝ) + 1 / 2) * (π / N)))|) / N) := by
  have hN : (0 : ℝ) < N := by
    have : 0 < N := by omega
    exact_mod_cast this
  have h := congrArg abs (coef_mid a hk)
  have h2 : |∑ j ∈ range N, (∑ l ∈ range N, a l * cos (l * (((j : ℝ) + 1 / 2) * (π / N)))) * cos (k * (((j : ℝ) + 1 / 2) * (π / N)))|
      ≤ ∑ j ∈ range N, |∑ l ∈ range N, a l * cos (l * (((j : ℝ) + 1 / 2) * (π / N)))| := (abs_sum_le_sum_abs _ _).trans (sum_le_sum fun j _ => by
    rw [abs_mul]
    exact mul_le_of_le_one_right (abs_nonneg _) (abs_cos_le_one _))
  rw [h, abs_mul] at h2
  rw [mul_div_assoc', le_div_iff₀ hN]
  split_ifs at h2 ⊢
  · rw [abs_of_pos hN] at h2; linarith
  · rw [abs_of_pos (show (0 : ℝ) < N / 2 by positivity)] at h2; linarith

/-! ## Antiderivatives of Chebyshev polynomials -/

open Polynomial Polynomial.Chebyshev in
theorem T_antideriv (k : ℕ) (x : ℝ) :
    HasDerivAt (fun x => (T ℝ ((k + 3 : ℕ) : ℤ)).eval x / (2 * (k + 3)) - (T ℝ ((k + 1 : ℕ) : ℤ)).eval x / (2 * (k + 1))) ((T ℝ ((k + 2 : ℕ) : ℤ)).eval x) x := by
  have h1 := (T ℝ ((k + 3 : ℕ) : ℤ)).hasDerivAt x
  have h2 := (T ℝ ((k + 1 : ℕ) : ℤ)).hasDerivAt x
  rw [T_derivative_eq_U] at h1 h2
  refine ((h1.div_const (2 * (k + 3))).sub (h2.div_const (2 * (k + 1)))).congr_deriv ?_
  have e1 : T ℝ ((k + 2 : ℕ) : ℤ) = U ℝ ((k + 2 : ℕ) : ℤ) - X * U ℝ ((k + 1 : ℕ) : ℤ) := by
    have := T_eq_U_sub_X_mul_U ℝ ((k + 2 : ℕ) : ℤ)
    rw [this, show ((k + 2 : ℕ) : ℤ) - 1 = ((k + 1 : ℕ) : ℤ) by push_cast; ring]
  have e2 : U ℝ ((k + 2 : ℕ) : ℤ) = 2 * X * U ℝ ((k + 1 : ℕ) : ℤ) - U ℝ (k : ℤ) := by
    have := U_add_two ℝ (k : ℤ)
    push_cast; exact this
  have e3 := congrArg (Polynomial.eval x) e1
  have e4 := congrArg (Polynomial.eval x) e2
  simp only [eval_sub, eval_mul, eval_X, eval_ofNat] at e3 e4
  rw [show ((k + 3 : ℕ) : ℤ) - 1 = ((k + 2 : ℕ) : ℤ) by push_cast; ring, show ((k + 1 : ℕ) : ℤ) - 1 = (k : ℤ) by push_cast; ring]
  simp only [eval_mul, eval_intCast]
  rw [e3, e4]
  have : (k : ℝ) + 1 ≠ 0 := by positivity
  have : (k : ℝ) + 3 ≠ 0 := by positivity
  push_cast
  field_simp
  ring

theorem T_abs_le (m : ℕ) {x : ℝ} (hx : x ∈ Set.Icc (-1 : ℝ) 1) : |(Polynomial.Chebyshev.T ℝ (m : ℤ)).eval x| ≤ 1 := by
  obtain ⟨θ, rfl⟩ : ∃ θ, cos θ = x := ⟨arccos x, cos_arccos hx.1 hx.2⟩
  rw [Polynomial.Chebyshev.T_real_cos]
  exact abs_cos_le_one _

open Polynomial.Chebyshev in
/-- The solution of the Dirichlet problem with a Chebyshev polynomial of degree at least three as source decreases like the square of the degree. -/
theorem T_green (k : ℕ) : ∃ I I' : ℝ → ℝ, (∀ x, HasDerivAt I (I' x) x) ∧ (∀ x, HasDerivAt I' ((T ℝ ((k + 3 : ℕ) : ℤ)).eval x) x) ∧ I (-1) = 0 ∧ I 1 = 0 ∧
    ∀ x ∈ Set.Icc (-1 : ℝ) 1, |I x| ≤ (1 / ((k : ℝ) + 1) - 1 / (k + 5)) / 2 := by
  set p' : ℝ → ℝ := fun x => (T ℝ ((k + 4 : ℕ) : ℤ)).eval x / (2 * (k + 4)) - (T ℝ ((k + 2 : ℕ) : ℤ)).eval x / (2 * (k + 2)) with hp'
  set p : ℝ → ℝ := fun x => ((T ℝ ((k + 5 : ℕ) : ℤ)).eval x / (2 * (k + 5)) - (T ℝ ((k + 3 : ℕ) : ℤ)).eval x / (2 * (k + 3))) / (2 * (k + 4))
    - ((T ℝ ((k + 3 : ℕ) : ℤ)).eval x / (2 * (k + 3)) - (T ℝ ((k + 1 : ℕ) : ℤ)).eval x / (2 * (k + 1))) / (2 * (k + 2)) with hp
  set B : ℝ := (1 / ((k : ℝ) + 1) - 1 / (k + 5)) / 4 with hB
  have d1 : ∀ x, HasDerivAt p' ((T ℝ ((k + 3 : ℕ) : ℤ)).eval x) x := fun x => by
    have : HasDerivAt (fun x => (T ℝ ((k + 4 : ℕ) : ℤ)).eval x / (2 * (((k + 1 : ℕ) : ℝ) + 3)) - (T ℝ ((k + 2 : ℕ) : ℤ)).eval x / (2 * (((k + 1 : ℕ) : ℝ) + 1)))
      ((T ℝ ((k + 3 : ℕ) : ℤ)).eval x) x := T_antideriv (k + 1) x
    rw [show ((k + 1 : ℕ) : ℝ) + 3 = k + 4 by push_cast; ring, show ((k + 1 : ℕ) : ℝ) + 1 = k + 2 by push_cast; ring] at this
    exact this
  have d2 : ∀ x, HasDerivAt p (p' x) x := fun x => by
    have h1 : HasDerivAt (fun x => (T ℝ ((k + 5 : ℕ) : ℤ)).eval x / (2 * (((k + 2 : ℕ) : ℝ) + 3)) - (T ℝ ((k + 3 : ℕ) : ℤ)).eval x / (2 * (((k + 2 : ℕ) : ℝ) + 1)))
      ((T ℝ ((k + 4 : ℕ) : ℤ)).eval x) x := T_antideriv (k + 2) x
    rw [show ((k + 2 : ℕ) : ℝ) + 3 = k + 5 by push_cast; ring, show ((k + 2 : ℕ) : ℝ) + 1 = k + 3 by push_cast; ring] at h1
    exact (h1.div_const (2 * ((k : ℝ) + 4))).sub ((T_antideriv k x).div_const (2 * ((k : ℝ) + 2)))
  have hb : ∀ x ∈ Set.Icc (-1 : ℝ) 1, |p x| ≤ B := fun x hx => by
    have t1 := abs_le.1 (T_abs_le (k + 5) hx)
    have t2 := abs_le.1 (T_abs_le (k + 3) hx)
    have t3 := abs_le.1 (T_abs_le (k + 1) hx)
    have e : B = 1 / (4 * ((k : ℝ) + 4) * (k + 5)) + (1 / (4 * (k + 4) * (k + 3)) + 1 / (4 * (k + 2) * (k + 3))) + 1 / (4 * (k + 2) * (k + 1)) := by
      rw [hB]
      field_simp
      ring
    have e2 : p x = (T ℝ ((k + 5 : ℕ) : ℤ)).eval x * (1 / (4 * ((k : ℝ) + 4) * (k + 5))) - (T ℝ ((k + 3 : ℕ) : ℤ)).eval x * (1 / (4 * (k + 4) * (k + 3)) + 1 / (4 * (k + 2) * (k + 3)))
        + (T ℝ ((k + 1 : ℕ) : ℤ)).eval x * (1 / (4 * (k + 2) * (k + 1))) := by
      simp only [hp]
      field_simp
      ring
    have w1 : 0 < 1 / (4 * ((k : ℝ) + 4) * (k + 5)) := by positivity
    have w2 : 0 < 1 / (4 * ((k : ℝ) + 4) * (k + 3)) + 1 / (4 * (k + 2) * (k + 3)) := by positivity
    have w3 : 0 < 1 / (4 * ((k : ℝ) + 2) * (k + 1)) := by positivity
    rw [e, e2, abs_le]
    constructor <;> nlinarith [mul_le_mul_of_nonneg_right t1.1 w1.le, mul_le_mul_of_nonneg_right t1.2 w1.le, mul_le_mul_of_nonneg_right t2.1 w2.le,
      mul_le_mul_of_nonneg_right t2.2 w2.le, mul_le_mul_of_nonneg_right t3.1 w3.le, mul_le_mul_of_nonneg_right t3.2 w3.le]
  have ha := abs_le.1 (hb (-1) (by norm_num))
  have hc := abs_le.1 (hb 1 (by norm_num))
  refine ⟨fun x => p x - (p (-1) * ((1 - x) / 2) + p 1 * ((1 + x) / 2)), fun x => p' x - (p 1 - p (-1)) / 2, fun x => ?_, fun x => (d1 x).sub_const _, by norm_num, by norm_num, fun x hx => ?_⟩
  · have h := (((hasDerivAt_id' x).const_sub 1).div_const 2).const_mul (p (-1))
    have h' := (((hasDerivAt_id' x).const_add 1).div_const 2).const_mul (p 1)
    exact ((d2 x).sub (h.add h')).congr_deriv (by ring)
  · have h := abs_le.1 (hb x hx)
    have g1 : 0 ≤ (1 - x) / 2 := by linarith [hx.2]
    have g2 : 0 ≤ (1 + x) / 2 := by linarith [hx.1]
    rw [show (1 / ((k : ℝ) + 1) - 1 / (k + 5)) / 2 = 2 * B by rw [hB]; ring, abs_le]
    constructor <;> nlinarith [mul_le_mul_of_nonneg_right ha.1 g1, mul_le_mul_of_nonneg_right ha.2 g1, mul_le_mul_of_nonneg_right hc.1 g2, mul_le_mul_of_nonneg_right hc.2 g2]

theorem green_sum (K : ℕ) : ∑ k ∈ range K, (1 / ((k : ℝ) + 1) - 1 / (k + 5)) / 2 ≤ 25 / 24 := by
  have h : ∑ k ∈ range K, (1 / ((k : ℝ) + 1) - 1 / (k + 5)) / 2 = 25 / 24 - (1 / ((K : ℝ) + 1) + 1 / (K + 2) + 1 / (K + 3) + 1 / (K + 4)) / 2 := by
    induction K with
    | zero => norm_num
    | succ K ih =>
      rw [sum_range_succ, ih]
      push_cast
      ring_nf
  rw [h]
  have : 0 ≤ (1 / ((K : ℝ) + 1) + 1 / (K + 2) + 1 / (K + 3) + 1 / (K + 4)) / 2 := by positivity
  linarith

end Dec
