import Verif.Lib.LinOps

set_option linter.unusedSimpArgs false
set_option linter.unusedVariables false

/-! The operator `fourier_K`: multiplication by the sine followed by integration. -/

namespace Dec.Sp

open Finset Real

/-- The padded array `0, X_0, ..., X_{N-1}, 0`. -/
def pad {R : Type*} [Zero R] (N : ℕ) (X : ℕ → R) (k : ℕ) : R := if k = 0 then 0 else if k ≤ N then X (k - 1) else 0

theorem pad_list {R : Type*} [Zero R] (N : ℕ) (X : ℕ → R) : [0] ++ tab N X ++ [0] = tab (N + 2) (pad N X) := by
  rw [List.singleton_append, cons_tab, append_singleton_tab]
  refine tab_congr fun k hk => ?_
  unfold pad
  by_cases h0 : k = 0
  · simp [h0]
  · by_cases h1 : k ≤ N
    · rw [if_pos (by omega), if_neg h0, if_neg h0, if_pos h1]
    · rw [if_neg (by omega), if_neg h0, if_neg h1]

/-- Entry `k` of the padded product with the sine: `x_{k-1} - x_{k+1}` (zero outside). -/
def dif {R : Type*} [AddGroup R] (N : ℕ) (X : ℕ → R) (k : ℕ) : R := (if k = 0 then 0 else pad N X (k - 1)) - pad N X (k + 1)

theorem pad_dif {R : Type*} [AddGroup R] {N : ℕ} (X : ℕ → R) :
    vsub (roll (tab (N + 2) (pad N X)) 1) (roll (tab (N + 2) (pad N X)) (-1)) = tab (N + 2) (dif N X) := by
  rw [roll_one_tab, roll_neg_one_tab, vsub_tab]
  refine tab_congr fun k hk => ?_
  unfold dif
  have e0 : pad N X 0 = 0 := by simp [pad]
  have e1 : pad N X (N + 1) = 0 := by simp [pad]
  have e2 : pad N X (N + 2) = 0 := by simp [pad]
  congr 1
  · by_cases h0 : k = 0
    · subst h0; rw [if_pos rfl]
      rw [show (0 + (N + 2) - 1) % (N + 2) = N + 1 by rw [Nat.mod_eq_of_lt] <;> omega, e1]
    · rw [if_neg h0]; congr 1
      rw [show k + (N + 2) - 1 = (k - 1) + (N + 2) by omega, Nat.add_mod_right, Nat.mod_eq_of_lt (by omega)]
  · by_cases h1 : k = N + 1
    · subst h1; rw [Nat.mod_self, e0, e2]
    · rw [Nat.mod_eq_of_lt (by omega)]

theorem fr_pad (N k : ℕ) : fr (N + 2) k = (k : ℤ) - 1 - ((N / 2 : ℕ) : ℤ) := by
  unfold fr; omega

theorem fr_pad_succ (N k : ℕ) : fr (N + 2) (k + 1) = fr N k := by
  unfold fr; omega

/-- The aliased entries of `fourier_K`. -/
theorem fourier_K_tab {N : ℕ} (hN : 0 < N) (X : ℕ → ℂ) (a b : ℝ) :
    fourier_K (tab N X) a b = tab N (fun i =>
      dif N X (i + 1) * (Id (fr (N + 2) (i + 1)) a b / (2 * Complex.I))
      + (if i = 0 then dif N X (N + 1) * (Id (fr (N + 2) (N + 1)) a b / (2 * Complex.I)) else 0)
      + (if i = N - 1 then dif N X 0 * (Id (fr (N + 2) 0) a b / (2 * Complex.I)) else 0)) := by
  unfold fourier_K
  simp only [length_tab]
  rw [pad_list, pad_dif, I_diag_tab, map_tab, vmul_tab, tail_tab, dropLast_tab, getD_tab (by omega), getD_tab (by omega)]
  apply List.ext_getElem
  · simp
  · intro i h1 h2
    simp only [List.length_modify, length_tab] at h1 h2
    simp only [List.getElem_modify, getElem_tab, eq_comm (a := i)]
    split_ifs <;> simp_all

theorem sum_range_pad {M : Type*} [AddCommMonoid M] (N : ℕ) (f : ℕ → M) :
    ∑ k ∈ range (N + 2), f k = (∑ i ∈ range N, f (i + 1)) + f (N + 1) + f 0 := by
  rw [Finset.sum_range_succ', Finset.sum_range_succ]

theorem sin_E (ξ : ℝ) : ((sin ξ : ℝ) : ℂ) = (E 1 ξ - E (-1) ξ) / (2 * Complex.I) := by
  unfold E
  push_cast
  rw [Complex.sin]
  rw [show Complex.I * (-1) * (ξ : ℂ) = -ξ * Complex.I by ring, show Complex.I * 1 * (ξ : ℂ) = ξ * Complex.I by ring]
  field_simp
  rw [Complex.I_sq]; ring

/-- Multiplication by the sine in Fourier space. -/
theorem synth_sin (N : ℕ) (c : ℕ → ℂ) (ξ : ℝ) :
    ∑ k ∈ range (N + 2), dif N c k * (1 / (2 * Complex.I)) * E (fr (N + 2) k) ξ = synth N c ξ * ((sin ξ : ℝ) : ℂ) := by
  have h1 : ∑ k ∈ range (N + 2), (if k = 0 then 0 else pad N c (k - 1)) * E (fr (N + 2) k) ξ = synth N c ξ * E 1 ξ := by
    rw [Finset.sum_range_succ', Finset.sum_range_succ']
    simp only [if_neg (Nat.succ_ne_zero _), if_pos, Nat.add_sub_cancel, pad, zero_mul, add_zero, Nat.zero_add]
    unfold synth
    rw [Finset.sum_mul]
    refine Finset.sum_congr rfl fun k hk => ?_
    rw [mem_range] at hk
    rw [if_pos (by omega), mul_assoc, ← E_add']
    simp only [fr_pad]
    congr 2; unfold fr; push_cast; ring
  have h2 : ∑ k ∈ range (N + 2), pad N c (k + 1) * E (fr (N + 2) k) ξ = synth N c ξ * E (-1) ξ := by
    rw [Finset.sum_range_succ, Finset.sum_range_succ]
    simp only [pad, if_neg (Nat.succ_ne_zero _), Nat.add_sub_cancel]
    rw [if_neg (by omega), if_neg (by omega), zero_mul, zero_mul, add_zero, add_zero]
    unfold synth
    rw [Finset.sum_mul]
    refine Finset.sum_congr rfl fun k hk => ?_
    rw [mem_range] at hk
    rw [if_pos (by omega), mul_assoc, ← E_add']
    simp only [fr_pad]
    congr 2; unfold fr; push_cast; ring
  rw [sin_E, mul_div_assoc', mul_sub, ← h1, ← h2, ← Finset.sum_sub_distrib, Finset.sum_div]
  refine Finset.sum_congr rfl fun k _ => ?_
  unfold dif; ring

/-- On the grid, `fourier_K` followed by the inverse transform is integration against the sine. -/
theorem Finv_fourier_K {N : ℕ} (hN : 0 < N) (c : ℕ → ℂ) (a b : ℝ) :
    Finv (fourier_K (tab N fun k => (N : ℂ) * c k) a b)
      = tab N (fun j => ∫ ξ in ((j : ℝ) * hh N + a)..(j * hh N + b), synth N c ξ * ((sin ξ : ℝ) : ℂ)) := by
  have hN' : (N : ℂ) ≠ 0 := by exact_mod_cast hN.ne'
  rw [fourier_K_tab hN, Finv_tab]
  refine tab_congr fun j hj => ?_
  set θ := (j : ℝ) * hh N with hθ
  have hd : ∀ k, dif N (fun k => (N : ℂ) * c k) k = N * dif N c k := by
    intro k; unfold dif pad; split_ifs <;> ring
  have hint : ∫ ξ in (θ + a)..(θ + b), synth N c ξ * ((sin ξ : ℝ) : ℂ)
      = ∑ k ∈ range (N + 2), dif N c k * (1 / (2 * Complex.I)) * (Id (fr (N + 2) k) a b * E (fr (N + 2) k) θ) := by
    simp_rw [← synth_sin]
    rw [intervalIntegral.integral_finsetSum]
    · refine Finset.sum_congr rfl fun k _ => ?_
      rw [intervalIntegral.integral_const_mul, integral_E]
    · intro k _; exact (continuous_const.mul (continuous_E _)).intervalIntegrable _ _
  rw [hint, sum_range_pad, div_eq_iff hN', synth]
  have a1 : E (fr (N + 2) (N + 1)) θ = E (fr N 0) θ := by
    have := E_alias_of_dvd (n := fr (N + 2) (N + 1)) (m := fr N 0) hN ⟨1, by unfold fr; omega⟩ (j : ℤ)
    simpa [hθ] using this
  have a2 : E (fr (N + 2) 0) θ = E (fr N (N - 1)) θ := by
    have := E_alias_of_dvd (n := fr (N + 2) 0) (m := fr N (N - 1)) hN ⟨-1, by unfold fr; omega⟩ (j : ℤ)
    simpa [hθ] using this
  simp_rw [add_mul, Finset.sum_add_distrib, hd, ite_mul, zero_mul]
  rw [Finset.sum_ite_eq' , Finset.sum_ite_eq', if_pos (by simpa using hN), if_pos (by simp; omega), a1, a2, Finset.sum_mul]
  congr 1
  · congr 1
    · refine Finset.sum_congr rfl fun k _ => ?_
      rw [fr_pad_succ]; ring
    · ring
  · ring

theorem lin_fourier_K {N : ℕ} (hN : 0 < N) (a b : ℝ) : Lin N N (fun x => fourier_K x a b) := by
  have h1 : ∀ (x y : ℕ → ℂ) k, dif N (fun j => x j + y j) k = dif N x k + dif N y k := by
    intro x y k; unfold dif pad; split_ifs <;> ring
  have h2 : ∀ (c : ℝ) (x : ℕ → ℂ) k, dif N (fun j => c • x j) k = c * dif N x k := by
    intro c x k; unfold dif pad; simp only [Complex.real_smul]; split_ifs <;> ring
  refine Lin.of_tab _ (fun x => fourier_K_tab hN x a b) (fun x y k _ => ?_) (fun c x k _ => ?_)
  · simp only [h1]; split_ifs <;> ring
  · simp only [h2]; simp only [Complex.real_smul]; split_ifs <;> ring

end Dec.Sp
