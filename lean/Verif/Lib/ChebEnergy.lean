import Verif.Lib.ChebL2
import Verif.Lib.Strong
import Verif.Lib.LagrangePoly
import Mathlib.RingTheory.Polynomial.Chebyshev
import Mathlib.Analysis.SpecialFunctions.Trigonometric.Chebyshev.Basic

/-! # The second derivative is negative on the Chebyshev points -/

namespace Dec

open Finset Real Polynomial

theorem factor_ends {P : ℝ[X]} (h1 : P.eval (-1) = 0) (h2 : P.eval 1 = 0) : ∃ H : ℝ[X], P = (1 - X ^ 2) * H := by
  obtain ⟨A, rfl⟩ := dvd_iff_isRoot.2 h2
  have h3 : A.eval (-1) = 0 := by
    simp at h1
    rcases h1 with h | h
    · norm_num at h
    · exact h
  obtain ⟨B, rfl⟩ := dvd_iff_isRoot.2 h3
  refine ⟨-B, ?_⟩
  simp only [C_neg, C_1]
  ring

/-- The integral in the angle. -/
theorem energy_angle (H : ℝ[X]) :
    ∫ θ in (0 : ℝ)..π, (((1 - X ^ 2) * H).eval (-cos θ)) * ((derivative (derivative ((1 - X ^ 2) * H))).eval (-cos θ))
      = -(∫ θ in (0 : ℝ)..π, (cos θ * H.eval (-cos θ) + sin θ ^ 2 * (derivative H).eval (-cos θ)) ^ 2) - 1 / 2 * ∫ θ in (0 : ℝ)..π, H.eval (-cos θ) ^ 2 := by
  have hc : ∀ Q : ℝ[X], Continuous fun θ : ℝ => Q.eval (-cos θ) := fun Q => Q.continuous.comp (by fun_prop)
  have hd : ∀ (Q : ℝ[X]) (θ : ℝ), HasDerivAt (fun θ : ℝ => Q.eval (-cos θ)) ((derivative Q).eval (-cos θ) * sin θ) θ := fun Q θ => by
    have := (Q.hasDerivAt (-cos θ)).comp θ (((hasDerivAt_cos θ).fun_neg).congr_deriv (neg_neg _))
    exact this
  have hc0 := hc H
  have hc1 := hc (derivative H)
  have hc2 := hc (derivative (derivative H))
  have key := intervalIntegral.integral_eq_sub_of_hasDerivAt (a := 0) (b := π)
    (f := fun θ => 3 / 2 * (sin θ * cos θ) * H.eval (-cos θ) ^ 2 + sin θ ^ 3 * (H.eval (-cos θ) * (derivative H).eval (-cos θ)))
    (f' := fun θ => (sin θ ^ 2 * H.eval (-cos θ)) * (sin θ ^ 2 * (derivative (derivative H)).eval (-cos θ) + 4 * cos θ * (derivative H).eval (-cos θ) - 2 * H.eval (-cos θ))
      + ((cos θ * H.eval (-cos θ) + sin θ ^ 2 * (derivative H).eval (-cos θ)) ^ 2 + 1 / 2 * H.eval (-cos θ) ^ 2)) (fun θ _ => by
      refine ((((hasDerivAt_sin θ).mul (hasDerivAt_cos θ)).const_mul (3 / 2)).mul ((hd H θ).pow 2)).add (((hasDerivAt_sin θ).pow 3).mul ((hd H θ).mul (hd (derivative H) θ))) |>.congr_deriv ?_
      have := sin_sq_add_cos_sq θ
      simp only [Pi.mul_apply, Pi.pow_apply]
      push_cast
      linear_combination (1 / 2 * H.eval (-cos θ) ^ 2) * this) (Continuous.intervalIntegrable (by fun_prop) _ _)
  simp only [sin_zero, sin_pi, zero_mul, mul_zero, ne_eq, OfNat.ofNat_ne_zero, not_false_eq_true, zero_pow, add_zero, sub_zero] at key
  rw [intervalIntegral.integral_add (Continuous.intervalIntegrable (by fun_prop) _ _) (Continuous.intervalIntegrable (by fun_prop) _ _),
    intervalIntegral.integral_add (Continuous.intervalIntegrable (by fun_prop) _ _) (Continuous.intervalIntegrable (by fun_prop) _ _), intervalIntegral.integral_const_mul] at key
  have e : ∀ θ : ℝ, (((1 - X ^ 2) * H).eval (-cos θ)) * ((derivative (derivative ((1 - X ^ 2) * H))).eval (-cos θ))
      = (sin θ ^ 2 * H.eval (-cos θ)) * (sin θ ^ 2 * (derivative (derivative H)).eval (-cos θ) + 4 * cos θ * (derivative H).eval (-cos θ) - 2 * H.eval (-cos θ)) := fun θ => by
    have := sin_sq_add_cos_sq θ
    have h1 : derivative (derivative ((1 - X ^ 2) * H)) = (1 - X ^ 2) * derivative (derivative H) - 4 * X * derivative H - 2 * H := by
      simp only [derivative_mul, derivative_sub, derivative_one, derivative_pow, derivative_X, derivative_add, map_natCast]
      simp
      ring
    rw [h1]
    simp only [eval_mul, eval_sub, eval_one, eval_pow, eval_X, eval_ofNat]
    rw [show (1 : ℝ) - (-cos θ) ^ 2 = sin θ ^ 2 by linear_combination -this]
    ring
  rw [intervalIntegral.integral_congr fun θ _ => e θ]
  linarith

theorem cheb_energy_poly {N : ℕ} (hN : 0 < N) {P : ℝ[X]} (hP : P.natDegree ≤ N + 1) (h1 : P.eval (-1) = 0) (h2 : P.eval 1 = 0) :
    ∃ H : ℝ[X], H.natDegree < N ∧ P = (1 - X ^ 2) * H ∧
      ∑ j ∈ range N, P.eval (-cos (((j : ℝ) + 1 / 2) * (π / N))) * (derivative (derivative P)).eval (-cos (((j : ℝ) + 1 / 2) * (π / N)))
        ≤ -(1 / 2) * ∑ j ∈ range N, H.eval (-cos (((j : ℝ) + 1 / 2) * (π / N))) ^ 2 := by
  obtain ⟨H, rfl⟩ := factor_ends h1 h2
  have hH : H.natDegree < N := by
    by_cases h0 : H = 0
    · rw [h0, natDegree_zero]; exact hN
    · have e : (1 - X ^ 2 : ℝ[X]).natDegree = 2 := by compute_degree!
      have hne : (1 - X ^ 2 : ℝ[X]) ≠ 0 := fun h => by rw [h, natDegree_zero] at e; omega
      rw [natDegree_mul hne h0, e] at hP
      omega
  refine ⟨H, hH, rfl, ?_⟩
  have ha := energy_angle H
  set P : ℝ[X] := (1 - X ^ 2) * H with hPdef
  clear_value P
  have hN' : (N : ℝ) ≠ 0 := by positivity
  have hpos : (0 : ℝ) < π / N := by positivity
  set T := Polynomial.Chebyshev.T ℝ (N : ℤ) with hT
  have hTd : T.natDegree = N := by rw [hT, Polynomial.Chebyshev.natDegree_T]; rfl
  have hT0 : 0 < T.coeff N := by
    have := Polynomial.Chebyshev.leadingCoeff_T (R := ℝ) (N : ℤ)
    rw [leadingCoeff, ← hT, hTd] at this
    rw [this]; positivity
  have hd1 : (derivative P).natDegree ≤ N := (natDegree_derivative_le P).trans (by omega)
  have hd2 : (derivative (derivative P)).natDegree ≤ N - 1 := (natDegree_derivative_le _).trans (by omega)
  set κ := (P.coeff (N + 1)) ^ 2 * ((N + 1) * N) / T.coeff N ^ 2 with hκ
  have hκ0 : 0 ≤ κ := by positivity
  set V : ℝ[X] := P * derivative (derivative P) - C κ * (T * T) with hV
  have hVd : V.natDegree ≤ 2 * N := by
    refine (natDegree_sub_le _ _).trans (max_le (natDegree_mul_le.trans (by omega)) ((natDegree_C_mul_le _ _).trans (natDegree_mul_le.trans (by omega))))
  have hVc : V.coeff (2 * N) = 0 := by
    rw [hV, coeff_sub, coeff_C_mul]
    rw [show (P * derivative (derivative P)).coeff (2 * N) = P.coeff (N + 1) * (derivative (derivative P)).coeff (N - 1) by
      rw [show 2 * N = (N + 1) + (N - 1) by omega]; exact coeff_mul_add_eq_of_natDegree_le hP hd2]
    rw [show (T * T).coeff (2 * N) = T.coeff N * T.coeff N by rw [two_mul]; exact coeff_mul_add_eq_of_natDegree_le hTd.le hTd.le]
    rw [coeff_derivative, coeff_derivative, show N - 1 + 1 = N by omega, hκ, Nat.cast_sub (by omega)]
    push_cast
    field_simp
    ring
  have hVl : V.natDegree < 2 * N := by
    refine lt_of_le_of_ne hVd fun e => ?_
    rw [← e] at hVc
    have : V = 0 := leadingCoeff_eq_zero.1 hVc
    rw [this, natDegree_zero] at e
    omega
  have hVI := mid_exact hN (K := 2 * N - 1) (by omega) ((isPoly_eval hVl).isCos (K := 2 * N - 1) (by omega))
  have hTj : ∀ j : ℕ, T.eval (-cos (((j : ℝ) + 1 / 2) * (π / N))) = 0 := fun j => by
    rw [← cos_pi_sub, hT, Polynomial.Chebyshev.T_real_cos]
    have : ((N : ℤ) : ℝ) * (π - ((j : ℝ) + 1 / 2) * (π / N)) = ((2 * (N - 1 - j : ℤ) + 1 : ℤ) : ℝ) * π / 2 := by push_cast; field_simp; ring
    rw [this, cos_eq_zero_iff]
    exact ⟨(N - 1 - j : ℤ), by push_cast; ring⟩
  have hc : ∀ Q : ℝ[X], Continuous fun θ : ℝ => Q.eval (-cos θ) := fun Q => Q.continuous.comp (by fun_prop)
  have e1 : ∫ θ in (0 : ℝ)..π, V.eval (-cos θ) ≤ ∫ θ in (0 : ℝ)..π, (P.eval (-cos θ)) * ((derivative (derivative P)).eval (-cos θ)) := by
    refine intervalIntegral.integral_mono_on pi_pos.le ((hc V).intervalIntegrable _ _) (((hc P).mul (hc _)).intervalIntegrable _ _) fun θ _ => ?_
    rw [hV, eval_sub, eval_mul, eval_mul, eval_C, eval_mul]
    nlinarith [mul_nonneg hκ0 (mul_self_nonneg (T.eval (-cos θ)))]
  have e2 : 0 ≤ ∫ θ in (0 : ℝ)..π, (cos θ * H.eval (-cos θ) + sin θ ^ 2 * (derivative H).eval (-cos θ)) ^ 2 := intervalIntegral.integral_nonneg pi_pos.le fun θ _ => sq_nonneg _
  have hHI := mid_exact hN (K := 2 * N - 2) (by omega) (q := fun θ => H.eval (-cos θ) ^ 2) (by
    have : (H ^ 2).natDegree < 2 * N - 1 := natDegree_pow_le.trans_lt (by omega)
    have h := (isPoly_eval this).isCos (K := 2 * N - 2) (by omega)
    simpa only [eval_pow] using h)
  have e3 : π / N * ∑ j ∈ range N, V.eval (-cos (((j : ℝ) + 1 / 2) * (π / N))) ≤ π / N * (-(1 / 2) * ∑ j ∈ range N, H.eval (-cos (((j : ℝ) + 1 / 2) * (π / N))) ^ 2) := by
    rw [← hVI]
    have : π / N * (-(1 / 2) * ∑ j ∈ range N, H.eval (-cos (((j : ℝ) + 1 / 2) * (π / N))) ^ 2) = -(1 / 2) * ∫ θ in (0 : ℝ)..π, H.eval (-cos θ) ^ 2 := by rw [hHI]; ring
    rw [this]
    linarith
  have e4 := le_of_mul_le_mul_left e3 hpos
  refine le_of_eq_of_le (sum_congr rfl fun j _ => ?_) e4
  rw [hV, eval_sub, eval_mul, eval_mul, eval_C, eval_mul, hTj j]
  ring

/-- A polynomial that vanishes at both ends of `[-1, 1]`: at the midpoints in the angle, the sum of its products with its second derivative is at most minus half the sum of its squares. -/
theorem cheb_energy {N : ℕ} (hN : 0 < N) {u u' u'' : ℝ → ℝ} (hu : IsPoly (N + 2) u) (d1 : ∀ x, HasDerivAt u (u' x) x) (d2 : ∀ x, HasDerivAt u' (u'' x) x) (h1 : u (-1) = 0) (h2 : u 1 = 0) :
    ∑ j ∈ range N, u (-cos (((j : ℝ) + 1 / 2) * (π / N))) * u'' (-cos (((j : ℝ) + 1 / 2) * (π / N))) ≤ -(1 / 2) * ∑ j ∈ range N, u (-cos (((j : ℝ) + 1 / 2) * (π / N))) ^ 2 := by
  obtain ⟨P, hd, hP⟩ := hu.exists_eval
  have hPn : P.natDegree ≤ N + 1 := by
    by_cases h0 : P = 0
    · rw [h0, natDegree_zero]; omega
    · have := (natDegree_lt_iff_degree_lt h0).2 hd
      omega
  obtain rfl : u = fun x => P.eval x := funext hP
  have e1 : u' = fun x => (derivative P).eval x := funext fun x => (d1 x).unique (P.hasDerivAt x)
  subst e1
  have e2 : u'' = fun x => (derivative (derivative P)).eval x := funext fun x => (d2 x).unique ((derivative P).hasDerivAt x)
  subst e2
  obtain ⟨H, -, rfl, h⟩ := cheb_energy_poly hN hPn h1 h2
  refine h.trans ?_
  have : ∑ j ∈ range N, ((1 - X ^ 2) * H).eval (-cos (((j : ℝ) + 1 / 2) * (π / N))) ^ 2 ≤ ∑ j ∈ range N, H.eval (-cos (((j : ℝ) + 1 / 2) * (π / N))) ^ 2 := sum_le_sum fun j _ => by
    generalize ((j : ℝ) + 1 / 2) * (π / N) = θ
    have := sin_sq_add_cos_sq θ
    simp only [eval_mul, eval_sub, eval_one, eval_pow, eval_X]
    rw [show (1 : ℝ) - (-cos θ) ^ 2 = sin θ ^ 2 by linear_combination -this, mul_pow]
    refine mul_le_of_le_one_left (sq_nonneg _) ?_
    have h1 := sin_sq_le_one θ
    nlinarith [sq_nonneg (sin θ)]
  linarith

end Dec
