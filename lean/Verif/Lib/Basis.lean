import Verif.Lib.Trig
import Verif.Model.Spectral

set_option linter.unusedSimpArgs false
set_option linter.unusedVariables false

/-! The cardinal functions `alpha0` and `beta0`. -/

namespace Dec.Sp

open Finset Real

/-- The trigonometric polynomial behind `alpha0`. -/
noncomputable def Ak (N : ℕ) (x : ℝ) : ℝ :=
  if N % 2 = 0 then (1 + 2 * ∑ n ∈ Ico 1 (N / 2), cos (n * x) + cos ((N / 2 : ℕ) * x)) / N
  else (1 + 2 * ∑ n ∈ Ico 1 ((N - 1) / 2 + 1), cos (n * x)) / N

theorem dirichlet (M : ℕ) (x : ℝ) : sin (x / 2) * (1 + 2 * ∑ n ∈ Ico 1 (M + 1), cos (n * x)) = sin ((M + 1 / 2) * x) := by
  induction M with
  | zero => simp; congr 1; ring
  | succ M ih =>
    rw [Finset.sum_Ico_succ_top (by omega)]
    have e0 : ∀ S c : ℝ, sin (x / 2) * (1 + 2 * (S + c)) = sin (x / 2) * (1 + 2 * S) + 2 * sin (x / 2) * c := fun S c => by ring
    rw [e0, ih]
    have h1 : ((M + 1 : ℕ) + 1 / 2 : ℝ) * x = ((M + 1 : ℕ) : ℝ) * x + x / 2 := by push_cast; ring
    have h2 : ((M : ℝ) + 1 / 2) * x = ((M + 1 : ℕ) : ℝ) * x - x / 2 := by push_cast; ring
    rw [h1, h2, sin_add, sin_sub]; ring

theorem Ak_mul {N : ℕ} (hN : 0 < N) (x : ℝ) : N * sin (x / 2) * Ak N x = sin (N * x / 2) * (if N % 2 = 0 then cos (x / 2) else 1) := by
  have hN' : (N : ℝ) ≠ 0 := by positivity
  unfold Ak
  split_ifs with h
  · obtain ⟨m, rfl⟩ : ∃ m, N = 2 * (m + 1) := ⟨N / 2 - 1, by omega⟩
    rw [show 2 * (m + 1) / 2 = m + 1 by omega]
    have hd := dirichlet m x
    have e : ((2 * (m + 1) : ℕ) : ℝ) * x / 2 = ((m + 1 : ℕ) : ℝ) * x := by push_cast; ring
    have h2 : ((m : ℝ) + 1 / 2) * x = ((m + 1 : ℕ) : ℝ) * x - x / 2 := by push_cast; ring
    rw [h2, sin_sub] at hd
    rw [e]
    rw [mul_assoc, mul_div_assoc', mul_div_assoc', mul_div_cancel_left₀ _ hN']
    rw [mul_add, hd]; ring
  · obtain ⟨m, rfl⟩ : ∃ m, N = 2 * m + 1 := ⟨N / 2, by omega⟩
    rw [show (2 * m + 1 - 1) / 2 = m by omega]
    have hd := dirichlet m x
    have e : ((2 * m + 1 : ℕ) : ℝ) * x / 2 = ((m : ℝ) + 1 / 2) * x := by push_cast; ring
    rw [e, ← hd, mul_assoc, mul_div_assoc', mul_div_assoc', mul_div_cancel_left₀ _ hN']; ring

theorem Ak_zero {N : ℕ} (hN : 0 < N) : Ak N 0 = 1 := by
  have hN' : (N : ℝ) ≠ 0 := by positivity
  unfold Ak
  simp only [mul_zero, cos_zero, sum_const, Nat.card_Ico, nsmul_eq_mul, mul_one]
  split_ifs with h
  · rw [div_eq_one_iff_eq hN']
    have : ((N / 2 - 1 : ℕ) : ℝ) * 2 + 2 = N := by exact_mod_cast (by omega : (N / 2 - 1) * 2 + 2 = N)
    linarith
  · rw [div_eq_one_iff_eq hN']
    have : ((((N - 1) / 2 + 1) - 1 : ℕ) : ℝ) * 2 + 1 = N := by exact_mod_cast (by omega : ((N - 1) / 2 + 1 - 1) * 2 + 1 = N)
    linarith

theorem Ak_isTrig (N : ℕ) : IsTrig (N / 2) (Ak N) := by
  by_cases h : N % 2 = 0
  · have e : ∀ x, Ak N x = (1 / N) * ((1 + 2 * ∑ n ∈ Ico 1 (N / 2), cos (n * x)) + cos ((N / 2 : ℕ) * x)) := fun x => by
      unfold Ak; rw [if_pos h]; ring
    refine IsTrig.congr (IsTrig.const_mul (IsTrig.add (IsTrig.add (isTrig_const _ 1) (IsTrig.const_mul (IsTrig.sum _ fun n hn => isTrig_cos_nat ?_) 2)) (isTrig_cos_nat le_rfl)) _) e
    have := mem_Ico.1 hn; omega
  · have e : ∀ x, Ak N x = (1 / N) * (1 + 2 * ∑ n ∈ Ico 1 ((N - 1) / 2 + 1), cos (n * x)) := fun x => by
      unfold Ak; rw [if_neg h]; ring
    refine IsTrig.congr (IsTrig.const_mul (IsTrig.add (isTrig_const _ 1) (IsTrig.const_mul (IsTrig.sum _ fun n hn => isTrig_cos_nat ?_) 2)) _) e
    have := mem_Ico.1 hn; omega

theorem Ak_even (N : ℕ) (x : ℝ) : Ak N (-x) = Ak N x := by
  unfold Ak; simp only [mul_neg, cos_neg]

theorem Ak_periodic (N : ℕ) : Function.Periodic (Ak N) (2 * π) := (Ak_isTrig N).periodic

theorem alpha0_eq {N : ℕ} (hN : 0 < N) {x : ℝ} (hx : x = 0 ∨ sin (x / 2) ≠ 0) : alpha0 N x = some (Ak N x) := by
  have hN' : (N : ℝ) ≠ 0 := by positivity
  unfold alpha0
  by_cases h0 : x = 0
  · rw [if_pos h0, h0, Ak_zero hN]
  · have hs : sin (x / 2) ≠ 0 := hx.resolve_left h0
    have h := Ak_mul hN x
    rw [if_neg h0, if_neg hs]
    split_ifs with h2
    · rw [if_pos h2] at h
      congr 1
      rw [div_div_eq_mul_div, ← h]; field_simp
    · rw [if_neg h2] at h
      congr 1
      field_simp; linarith

theorem sin_half_ne {N : ℕ} (hN : 0 < N) {m : ℤ} (hm : ¬ (N : ℤ) ∣ m) : sin (2 * π / N * m / 2) ≠ 0 := by
  have hN' : (N : ℝ) ≠ 0 := by positivity
  intro h
  rw [sin_eq_zero_iff] at h
  obtain ⟨k, hk⟩ := h
  apply hm
  refine ⟨k, ?_⟩
  have : (k : ℝ) * N = m := by
    have hpi := pi_ne_zero
    field_simp at hk
    linarith
  exact_mod_cast (by linarith : (m : ℝ) = N * k)

theorem Ak_node {N : ℕ} (hN : 0 < N) (m : ℤ) : Ak N (2 * π / N * m) = if (N : ℤ) ∣ m then 1 else 0 := by
  have hN' : (N : ℝ) ≠ 0 := by positivity
  split_ifs with h
  · obtain ⟨k, rfl⟩ := h
    have e : 2 * π / N * ((N * k : ℤ) : ℝ) = 0 + k * (2 * π) := by push_cast; field_simp; ring
    rw [e, (Ak_periodic N).int_mul k 0, Ak_zero hN]
  · have hs := sin_half_ne hN h
    have h1 := Ak_mul hN (2 * π / N * m)
    have e : (N : ℝ) * (2 * π / N * m) / 2 = m * π := by field_simp
    rw [e, sin_int_mul_pi, zero_mul] at h1
    rcases mul_eq_zero.1 h1 with h2 | h2
    · rcases mul_eq_zero.1 h2 with h3 | h3
      · exact absurd h3 hN'
      · exact absurd h3 hs
    · exact h2

theorem Ak_node' {N : ℕ} (hN : 0 < N) {m : ℤ} (h1 : -(N : ℤ) < m) (h2 : m < N) : Ak N (2 * π / N * m) = if m = 0 then 1 else 0 := by
  rw [Ak_node hN]
  have : (N : ℤ) ∣ m ↔ m = 0 := ⟨fun h => Int.eq_zero_of_abs_lt_dvd h (abs_lt.2 ⟨h1, h2⟩), fun h => h ▸ dvd_zero _⟩
  simp only [this]

/-- An antiderivative of `beta0`. -/
noncomputable def Bk (N : ℕ) (x : ℝ) : ℝ :=
  if N % 2 = 0 then x / (2 * π) - sin (N * x / 2) / (2 * N) + ∑ n ∈ Ico 1 (N / 2 + 1), sin (n * x) / sin (n * π / N) / N
  else x / (2 * π) + ∑ n ∈ Ico 1 ((N - 1) / 2 + 1), sin (n * x) / sin (n * π / N) / N

theorem hasDerivAt_sinn (n : ℕ) (c : ℝ) (x : ℝ) : HasDerivAt (fun x => sin (n * x) * c) (n * cos (n * x) * c) x := by
  have h : HasDerivAt (fun x : ℝ => (n : ℝ) * x) n x := by simpa using (hasDerivAt_id x).const_mul (n : ℝ)
  exact ((h.sin).mul_const c).congr_deriv (by ring)

theorem hasDerivAt_Bk {N : ℕ} (hN : 0 < N) (x : ℝ) : HasDerivAt (Bk N) (beta0 N x) x := by
  have hN' : (N : ℝ) ≠ 0 := by positivity
  have hsum : ∀ s : Finset ℕ, HasDerivAt (fun x => ∑ n ∈ s, sin (n * x) / sin (n * π / N) / N) (∑ n ∈ s, n * cos (n * x) / sin (n * π / N) / N) x := fun s => by
    refine HasDerivAt.fun_sum fun n _ => ?_
    refine ((hasDerivAt_sinn n (1 / sin (n * π / N) / N) x).congr_deriv (by ring)).congr_of_eventuallyEq ?_
    exact Filter.Eventually.of_forall fun y => by ring
  have hid : HasDerivAt (fun x : ℝ => x / (2 * π)) (1 / (2 * π)) x := (hasDerivAt_id x).div_const _
  unfold Bk beta0
  split_ifs with h
  · have h2 : HasDerivAt (fun x : ℝ => sin (N * x / 2) / (2 * N)) (cos (N * x / 2) / 4) x := by
      have h3 : HasDerivAt (fun x : ℝ => (N : ℝ) * x / 2) (N / 2) x := by
        simpa using ((hasDerivAt_id x).const_mul (N : ℝ)).div_const 2
      exact ((h3.sin).div_const _).congr_deriv (by field_simp; ring)
    exact (hid.sub h2).add (hsum _)
  · exact hid.add (hsum _)

theorem beta0_even (N : ℕ) (x : ℝ) : beta0 N (-x) = beta0 N x := by
  unfold beta0; simp only [mul_neg, neg_div, cos_neg]

theorem continuous_beta0 (N : ℕ) : Continuous (beta0 N) := by
  unfold beta0
  split_ifs <;> fun_prop

theorem beta0_isTrig (N : ℕ) : IsTrig (N / 2) (beta0 N) := by
  by_cases h : N % 2 = 0
  · obtain ⟨m, rfl⟩ : ∃ m, N = 2 * m := ⟨N / 2, by omega⟩
    have e : ∀ x, beta0 (2 * m) x = 1 / (2 * π) - (1 / 4) * cos (m * x) + ∑ n ∈ Ico 1 (2 * m / 2 + 1), (n / sin (n * π / (2 * m : ℕ)) / (2 * m : ℕ)) * cos (n * x) := fun x => by
      unfold beta0; rw [if_pos h, show ((2 * m : ℕ) : ℝ) * x / 2 = m * x by push_cast; ring]
      congr 1
      · ring
      · exact Finset.sum_congr rfl fun n _ => by ring
    refine IsTrig.congr (IsTrig.add (IsTrig.sub (isTrig_const _ _) (IsTrig.const_mul (isTrig_cos_nat (by omega)) _)) (IsTrig.sum _ fun n hn => IsTrig.const_mul (isTrig_cos_nat ?_) _)) e
    have := mem_Ico.1 hn; omega
  · have e : ∀ x, beta0 N x = 1 / (2 * π) + ∑ n ∈ Ico 1 ((N - 1) / 2 + 1), (n / sin (n * π / N) / N) * cos (n * x) := fun x => by
      unfold beta0; rw [if_neg h]
      congr 1
      exact Finset.sum_congr rfl fun n _ => by ring
    refine IsTrig.congr (IsTrig.add (isTrig_const _ _) (IsTrig.sum _ fun n hn => IsTrig.const_mul (isTrig_cos_nat ?_) _)) e
    have := mem_Ico.1 hn; omega

theorem beta0_periodic (N : ℕ) : Function.Periodic (beta0 N) (2 * π) := (beta0_isTrig N).periodic

theorem integral_beta0 {N : ℕ} (hN : 0 < N) (a b : ℝ) : ∫ x in a..b, beta0 N x = Bk N b - Bk N a :=
  intervalIntegral.integral_eq_sub_of_hasDerivAt (fun x _ => hasDerivAt_Bk hN x) ((continuous_beta0 N).intervalIntegrable _ _)

theorem sin_ne {N n : ℕ} (h1 : 1 ≤ n) (h2 : n < N) : sin (n * π / N) ≠ 0 := by
  have hN : (0 : ℝ) < N := by exact_mod_cast (by omega : 0 < N)
  have hn : (0 : ℝ) < n := by exact_mod_cast h1
  have hlt : (n : ℝ) < N := by exact_mod_cast h2
  refine ne_of_gt (sin_pos_of_pos_of_lt_pi (by positivity) ?_)
  rw [div_lt_iff₀ hN]
  nlinarith [pi_pos]

/-- The integral of `beta0` over the cell around `y` is the value of the cardinal function at `y`. -/
theorem integral_beta0_cell {N : ℕ} (hN : 0 < N) (y : ℝ) : ∫ x in (y - π / N)..(y + π / N), beta0 N x = Ak N y := by
  have hN' : (N : ℝ) ≠ 0 := by positivity
  have hpi := pi_ne_zero
  rw [integral_beta0 hN]
  have hd : ∀ n : ℕ, sin (n * (y + π / N)) - sin (n * (y - π / N)) = 2 * cos (n * y) * sin (n * π / N) := fun n => by
    rw [show (n : ℝ) * (y + π / N) = n * y + n * π / N by ring, show (n : ℝ) * (y - π / N) = n * y - n * π / N by ring, sin_add, sin_sub]; ring
  have hs : ∀ s : Finset ℕ, (∀ n ∈ s, 1 ≤ n ∧ n < N) →
      ∑ n ∈ s, sin (n * (y + π / N)) / sin (n * π / N) / N - ∑ n ∈ s, sin (n * (y - π / N)) / sin (n * π / N) / N = 2 * (∑ n ∈ s, cos (n * y)) / N := fun s h => by
    rw [← Finset.sum_sub_distrib, Finset.mul_sum, Finset.sum_div]
    refine Finset.sum_congr rfl fun n hn => ?_
    have hne := sin_ne (h n hn).1 (h n hn).2
    rw [← sub_div, ← sub_div, hd n]
    field_simp
  have hx : (y + π / N) / (2 * π) - (y - π / N) / (2 * π) = 1 / N := by field_simp; ring
  unfold Bk Ak
  split_ifs with h
  · have h1 := hs (Ico 1 (N / 2 + 1)) (fun n hn => by have := mem_Ico.1 hn; omega)
    rw [Finset.sum_Ico_succ_top (by omega) (fun n => cos ((n : ℝ) * y))] at h1
    have e2 : ((N / 2 : ℕ) : ℝ) = N / 2 := by
      have : ((N / 2 : ℕ) : ℝ) * 2 = N := by exact_mod_cast (by omega : N / 2 * 2 = N)
      linarith
    rw [e2] at h1 ⊢
    have h3 : sin (N * (y + π / N) / 2) - sin (N * (y - π / N) / 2) = 2 * cos (N / 2 * y) := by
      rw [show (N : ℝ) * (y + π / N) / 2 = N / 2 * y + π / 2 by field_simp, show (N : ℝ) * (y - π / N) / 2 = N / 2 * y - π / 2 by field_simp,
        sin_add, sin_sub]; simp; ring
    have h4 : sin (N * (y + π / N) / 2) / (2 * N) - sin (N * (y - π / N) / 2) / (2 * N) = cos (N / 2 * y) / N := by
      rw [← sub_div, h3]; field_simp
    have e5 : (1 + 2 * ∑ n ∈ Ico 1 (N / 2), cos (n * y) + cos (N / 2 * y)) / N
      = 1 / N - cos (N / 2 * y) / N + 2 * (∑ n ∈ Ico 1 (N / 2), cos (n * y) + cos (N / 2 * y)) / N := by ring
    rw [e5]
    linarith
  · have h1 := hs (Ico 1 ((N - 1) / 2 + 1)) (fun n hn => by have := mem_Ico.1 hn; omega)
    have e5 : (1 + 2 * ∑ n ∈ Ico 1 ((N - 1) / 2 + 1), cos (n * y)) / N = 1 / N + 2 * (∑ n ∈ Ico 1 ((N - 1) / 2 + 1), cos (n * y)) / N := by ring
    rw [e5]
    linarith

end Dec.Sp
