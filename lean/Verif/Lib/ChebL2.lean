import Verif.Lib.ChebStab
import Mathlib.Analysis.SpecialFunctions.Integrals.Basic
import Mathlib.MeasureTheory.Integral.IntervalIntegral.IntegrationByParts

/-! # The integral of the absolute value of a polynomial from its values at the Chebyshev points -/

namespace Dec

open Finset Real

theorem int_cos_nat {m : ℕ} (hm : 0 < m) : ∫ θ in (0 : ℝ)..π, cos (m * θ) = 0 := by
  have hm' : (m : ℝ) ≠ 0 := by positivity
  rw [intervalIntegral.integral_comp_mul_left (fun x => cos x) hm', integral_cos]
  simp

theorem IsCos.continuous' {K : ℕ} {q : ℝ → ℝ} (hq : IsCos K q) : Continuous q := by
  obtain ⟨a, ha⟩ := hq
  rw [show q = fun θ => ∑ k ∈ range (K + 1), a k * cos (k * θ) from funext ha]
  fun_prop

theorem isPoly_cont {m : ℕ} {p : ℝ → ℝ} (hp : IsPoly m p) : Continuous p := by
  obtain ⟨a, ha⟩ := hp
  rw [show p = fun x => ∑ k ∈ range m, a k * x ^ k from funext ha]
  fun_prop

/-- A linear rule with the value `π` for the constant 1 and zero for the cosines integrates cosine polynomials. -/
theorem rule_exact {K : ℕ} {q : ℝ → ℝ} (hq : IsCos K q) (R : (ℝ → ℝ) → ℝ) (hadd : ∀ (s : Finset ℕ) (a : ℕ → ℝ), R (fun θ => ∑ k ∈ s, a k * cos (k * θ)) = ∑ k ∈ s, a k * R fun θ => cos (k * θ))
    (h0 : R (fun _ => 1) = π) (h : ∀ k, 0 < k → k ≤ K → R (fun θ => cos (k * θ)) = 0) : ∫ θ in (0 : ℝ)..π, q θ = R q := by
  obtain ⟨a, ha⟩ := hq
  rw [show q = fun θ => ∑ k ∈ range (K + 1), a k * cos (k * θ) from funext ha, hadd, intervalIntegral.integral_finsetSum (fun k _ => Continuous.intervalIntegrable (by fun_prop) _ _)]
  refine sum_congr rfl fun k hk => ?_
  rw [intervalIntegral.integral_const_mul]
  congr 1
  rcases Nat.eq_zero_or_pos k with rfl | h1
  · simp only [Nat.cast_zero, zero_mul, cos_zero]
    rw [h0]; simp
  · rw [int_cos_nat h1, h k h1 (by have := mem_range.1 hk; omega)]

/-- The midpoint rule. -/
theorem mid_exact {N K : ℕ} (hN : 0 < N) (hK : K < 2 * N) {q : ℝ → ℝ} (hq : IsCos K q) : ∫ θ in (0 : ℝ)..π, q θ = π / N * ∑ j ∈ range N, q (((j : ℝ) + 1 / 2) * (π / N)) := by
  have hN' : (N : ℝ) ≠ 0 := by positivity
  refine rule_exact hq (fun q => π / N * ∑ j ∈ range N, q (((j : ℝ) + 1 / 2) * (π / N))) (fun s a => ?_) ?_ fun k h1 h2 => ?_
  · simp only
    rw [sum_comm, mul_sum]
    refine sum_congr rfl fun k _ => ?_
    rw [← mul_sum]; ring
  · simp; field_simp
  · simp only
    rw [sum_cos_mid h1 (by omega), mul_zero]

/-- The trapezoid rule. -/
theorem trap_exact {N K : ℕ} (hN : 0 < N) (hK : K < 2 * N) {q : ℝ → ℝ} (hq : IsCos K q) :
    ∫ θ in (0 : ℝ)..π, q θ = π / N * ∑ j ∈ range N, (q (j * (π / N)) + q ((j + 1 : ℕ) * (π / N))) / 2 := by
  have hN' : (N : ℝ) ≠ 0 := by positivity
  refine rule_exact hq (fun q => π / N * ∑ j ∈ range N, (q (j * (π / N)) + q ((j + 1 : ℕ) * (π / N))) / 2) (fun s a => ?_) ?_ fun k h1 h2 => ?_
  · simp only
    simp only [← sum_add_distrib, sum_div]
    rw [sum_comm, mul_sum]
    refine sum_congr rfl fun k _ => ?_
    rw [show a k * (π / N * ∑ j ∈ range N, (cos (k * (j * (π / N))) + cos (k * ((j + 1 : ℕ) * (π / N)))) / 2) = π / N * (a k * ∑ j ∈ range N, (cos (k * (j * (π / N))) + cos (k * ((j + 1 : ℕ) * (π / N)))) / 2) by ring,
      mul_sum (a := a k)]
    congr 1
    exact sum_congr rfl fun j _ => by ring
  · simp; field_simp
  · simp only
    have e : ∀ j : ℕ, (cos (k * (j * (π / N))) + cos (k * ((j + 1 : ℕ) * (π / N)))) / 2 = cos (k * (π / N) / 2) * cos (k * (((j : ℝ) + 1 / 2) * (π / N))) := fun j => by
      rw [show k * (j * (π / N)) = k * (((j : ℝ) + 1 / 2) * (π / N)) - k * (π / N) / 2 by ring,
        show k * (((j + 1 : ℕ) : ℝ) * (π / N)) = k * (((j : ℝ) + 1 / 2) * (π / N)) + k * (π / N) / 2 by push_cast; ring, cos_add, cos_sub]
      ring
    rw [sum_congr rfl fun j _ => e j, ← mul_sum, sum_cos_mid h1 (by omega)]
    ring

/-- Cauchy-Schwarz in the angle. -/
theorem l1_angle {p : ℝ → ℝ} (hp : Continuous p) : (∫ x in (-1 : ℝ)..1, |p x|) ^ 2 ≤ π / 2 * ∫ θ in (0 : ℝ)..π, p (-cos θ) ^ 2 := by
  set S := ∫ x in (-1 : ℝ)..1, |p x| with hS
  set Q := ∫ θ in (0 : ℝ)..π, p (-cos θ) ^ 2 with hQ
  have e : S = ∫ θ in (0 : ℝ)..π, |p (-cos θ)| * sin θ := by
    have h := intervalIntegral.integral_comp_mul_deriv (a := 0) (b := π) (f := fun θ => -cos θ) (f' := sin) (g := fun x => |p x|)
      (fun θ _ => ((hasDerivAt_cos θ).fun_neg).congr_deriv (neg_neg _)) continuous_sin.continuousOn (by fun_prop)
    simp only [Function.comp, cos_zero, cos_pi, neg_neg] at h
    rw [hS, ← h]
  have hS0 : 0 ≤ S := intervalIntegral.integral_nonneg (by norm_num) fun x _ => abs_nonneg _
  have hQ0 : 0 ≤ Q := intervalIntegral.integral_nonneg pi_pos.le fun x _ => sq_nonneg _
  have key : ∀ c : ℝ, 0 < c → 2 * S ≤ Q / c + c * (π / 2) := fun c hc => by
    have hs : ∫ θ in (0 : ℝ)..π, sin θ ^ 2 = π / 2 := by rw [integral_sin_sq]; simp
    have : 2 * S = ∫ θ in (0 : ℝ)..π, 2 * (|p (-cos θ)| * sin θ) := by rw [e, intervalIntegral.integral_const_mul]
    rw [this, hQ, ← hs, ← intervalIntegral.integral_div, ← intervalIntegral.integral_const_mul,
      ← intervalIntegral.integral_add (Continuous.intervalIntegrable (by fun_prop) _ _) (Continuous.intervalIntegrable (by fun_prop) _ _)]
    refine intervalIntegral.integral_mono_on pi_pos.le (Continuous.intervalIntegrable (by fun_prop) _ _) (Continuous.intervalIntegrable (by fun_prop) _ _) fun θ _ => ?_
    rw [← sq_abs (p (-cos θ)), div_add' _ _ _ hc.ne', le_div_iff₀ hc]
    nlinarith [sq_nonneg (|p (-cos θ)| - c * sin θ)]
  rcases hS0.eq_or_lt with h | h
  · rw [← h, zero_pow two_ne_zero]; positivity
  · have k := key (2 * S / π) (by positivity)
    have e2 : Q / (2 * S / π) + 2 * S / π * (π / 2) = Q * π / (2 * S) + S := by
      have := pi_ne_zero
      field_simp
    rw [e2] at k
    have k2 : S ≤ Q * π / (2 * S) := by linarith
    rw [le_div_iff₀ (by positivity)] at k2
    nlinarith

/-- From the values at the midpoints of the angle. -/
theorem l1_dual {N : ℕ} (hN : 0 < N) {p : ℝ → ℝ} (hp : IsPoly N p) : (∫ x in (-1 : ℝ)..1, |p x|) ^ 2 ≤ π ^ 2 / (2 * N) * ∑ j ∈ range N, p (-cos (((j : ℝ) + 1 / 2) * (π / N))) ^ 2 := by
  have h := hp.isCos (K := N - 1) (by omega)
  have h2 := (h.mul h).congr (q := fun θ => p (-cos θ) ^ 2) fun θ => by ring
  refine (l1_angle (isPoly_cont hp)).trans (le_of_eq ?_)
  rw [mid_exact hN (by omega) h2]
  have : (N : ℝ) ≠ 0 := by positivity
  field_simp

/-- From the values at the ends and equidistant angles. -/
theorem l1_primal {N : ℕ} (hN : 0 < N) {p : ℝ → ℝ} (hp : IsPoly (N + 1) p) : (∫ x in (-1 : ℝ)..1, |p x|) ^ 2 ≤ π ^ 2 / (2 * N) * ∑ j ∈ range (N + 1), p (-cos ((j : ℝ) * (π / N))) ^ 2 := by
  have hN' : (0 : ℝ) < N := by exact_mod_cast hN
  obtain ⟨a, ha⟩ := hp.isCos (K := N) le_rfl
  set q : ℝ → ℝ := fun θ => ∑ k ∈ range N, a k * cos (k * θ) with hq
  have hqc : IsCos (N - 1) q := ⟨a, fun θ => by rw [hq, show N - 1 + 1 = N by omega]⟩
  set b := a N with hb
  have hpq : ∀ θ, p (-cos θ) = q θ + b * cos (N * θ) := fun θ => (ha θ).trans (sum_range_succ _ _)
  set r : ℝ → ℝ := fun θ => q θ * q θ + 2 * b * (q θ * cos (N * θ)) with hr
  have hrc : IsCos (2 * N - 1) r :=
    ((hqc.mul hqc).mono (by omega)).add (((hqc.mul (isCos_cos le_rfl)).mono (by omega)).const_mul (2 * b))
  have e : ∀ θ, p (-cos θ) ^ 2 = r θ + b ^ 2 * cos (N * θ) ^ 2 := fun θ => by rw [hpq, hr]; ring
  have hQ : ∫ θ in (0 : ℝ)..π, p (-cos θ) ^ 2 = (∫ θ in (0 : ℝ)..π, r θ) + b ^ 2 * (π / 2) := by
    have hc2 : ∫ θ in (0 : ℝ)..π, cos (N * θ) ^ 2 = π / 2 := by
      have h1 : ∀ θ : ℝ, cos (N * θ) ^ 2 = 1 / 2 + 1 / 2 * cos (((2 * N : ℕ) : ℝ) * θ) := fun θ => by
        rw [cos_sq]; push_cast; rw [show 2 * (N : ℝ) * θ = 2 * (N * θ) by ring]; ring
      rw [intervalIntegral.integral_congr fun θ _ => h1 θ, intervalIntegral.integral_add (Continuous.intervalIntegrable (by fun_prop) _ _) (Continuous.intervalIntegrable (by fun_prop) _ _),
        intervalIntegral.integral_const_mul, int_cos_nat (by omega)]
      simp
      ring
    rw [intervalIntegral.integral_congr fun θ _ => e θ, intervalIntegral.integral_add (hrc.continuous'.intervalIntegrable _ _) (Continuous.intervalIntegrable (by fun_prop) _ _),
      intervalIntegral.integral_const_mul, hc2]
  have hc1 : ∀ j : ℕ, cos (N * ((j : ℝ) * (π / N))) ^ 2 = 1 := fun j => by
    rw [show N * ((j : ℝ) * (π / N)) = j * π by field_simp, cos_nat_mul_pi, ← pow_mul, mul_comm, pow_mul]
    norm_num
  have htr : ∑ j ∈ range N, (p (-cos (j * (π / N))) ^ 2 + p (-cos ((j + 1 : ℕ) * (π / N))) ^ 2) / 2 = (∑ j ∈ range N, (r (j * (π / N)) + r ((j + 1 : ℕ) * (π / N))) / 2) + N * b ^ 2 := by
    have : ∀ j : ℕ, (p (-cos (j * (π / N))) ^ 2 + p (-cos ((j + 1 : ℕ) * (π / N))) ^ 2) / 2 = (r (j * (π / N)) + r ((j + 1 : ℕ) * (π / N))) / 2 + b ^ 2 := fun j => by
      rw [e, e, hc1, hc1]; ring
    rw [sum_congr rfl fun j _ => this j, sum_add_distrib, sum_const, card_range, nsmul_eq_mul]
  have hle : ∑ j ∈ range N, (p (-cos (j * (π / N))) ^ 2 + p (-cos ((j + 1 : ℕ) * (π / N))) ^ 2) / 2 ≤ ∑ j ∈ range (N + 1), p (-cos ((j : ℝ) * (π / N))) ^ 2 := by
    rw [← sum_div, sum_add_distrib]
    have h1 := sum_range_succ (fun j : ℕ => p (-cos ((j : ℝ) * (π / N))) ^ 2) N
    have h2 := sum_range_succ' (fun j : ℕ => p (-cos ((j : ℝ) * (π / N))) ^ 2) N
    have h3 := sq_nonneg (p (-cos ((N : ℝ) * (π / N))))
    have h4 := sq_nonneg (p (-cos (((0 : ℕ) : ℝ) * (π / N))))
    linarith
  refine (l1_angle (isPoly_cont hp)).trans ?_
  rw [hQ, trap_exact hN (by omega) hrc]
  have h5 : π / N * (∑ j ∈ range N, (r (j * (π / N)) + r ((j + 1 : ℕ) * (π / N))) / 2) + b ^ 2 * (π / 2) ≤ π / N * ∑ j ∈ range (N + 1), p (-cos ((j : ℝ) * (π / N))) ^ 2 := by
    have h6 := mul_le_mul_of_nonneg_left hle (show 0 ≤ π / N by positivity)
    rw [htr, mul_add, show π / N * (N * b ^ 2) = π * b ^ 2 by field_simp] at h6
    nlinarith [sq_nonneg b, pi_pos]
  calc _ ≤ π / 2 * (π / N * ∑ j ∈ range (N + 1), p (-cos ((j : ℝ) * (π / N))) ^ 2) := mul_le_mul_of_nonneg_left h5 (by positivity)
    _ = _ := by field_simp

end Dec
