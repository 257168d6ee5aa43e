import Verif.Lib.ChebyshevStar
import Mathlib.Analysis.Real.Pi.Bounds

set_option linter.unusedSimpArgs false
set_option linter.unusedVariables false

/-! When `fourier_K_inv` accepts the operator of the Chebyshev grid: exactly for `m ≤ 926`. -/

namespace Dec.Chebyshev

open Finset Real Dec.Sp

theorem weightsOk {m : ℕ} (hm : 0 < m) : WeightsOk (2 * m) 0 (hh (2 * m)) := by
  have hpos := hh_pos (show 0 < 2 * m by omega)
  refine ⟨fun k h1 h2 => ?_, fun h => by omega⟩
  rw [fr_pad]
  set f : ℤ := (k : ℤ) - 1 - ((2 * m / 2 : ℕ) : ℤ) with hf
  unfold Sp.Id
  split_ifs with h0
  · simp only [sub_zero]; exact_mod_cast hpos.ne'
  · have hi : (Complex.I * (f : ℂ)) ≠ 0 := by simp [h0]
    refine div_ne_zero ?_ hi
    rw [E_zero, sub_ne_zero]
    intro h
    have hre := congrArg Complex.re h
    rw [E_re, Complex.one_re, cos_eq_one_iff] at hre
    obtain ⟨q, hq⟩ := hre
    have h3 := mul_hh (show 0 < 2 * m by omega)
    have h4 : ((q * (2 * m : ℕ) : ℤ) : ℝ) * hh (2 * m) = (f : ℝ) * hh (2 * m) := by
      rw [← hq, ← h3]; push_cast; ring
    have h5 := mul_right_cancel₀ hpos.ne' h4
    have h6 : q * ((2 * m : ℕ) : ℤ) = f := by exact_mod_cast h5
    have h7 : |f| < ((2 * m : ℕ) : ℤ) := by rw [abs_lt]; omega
    rw [← h6, abs_mul, Nat.abs_cast] at h7
    have h8 : |q| < 1 := by
      by_contra hc
      push Not at hc
      nlinarith
    have : q = 0 := by rw [← Int.abs_lt_one_iff]; exact h8
    rw [this] at h6; simp at h6; exact h0 h6.symm

/-- `1 + e^{-ih}`. -/
noncomputable def zz (m : ℕ) : ℂ := 1 + E (-1) (hh (2 * m))

theorem norm_zz {m : ℕ} (hm : 0 < m) : ‖zz m‖ = 2 * cos (π / (2 * m)) := by
  have e : hh (2 * m) = π / (2 * m) + π / (2 * m) := by unfold hh; push_cast; field_simp; ring
  have h1 : zz m = E (-1) (π / (2 * m)) * ((2 * cos (π / (2 * m)) : ℝ) : ℂ) := by
    unfold zz
    rw [e, E_add]
    have hc : ((2 * cos (π / (2 * m)) : ℝ) : ℂ) = E 1 (π / (2 * m)) + E (-1) (π / (2 * m)) := by
      apply Complex.ext
      · simp only [Complex.add_re, E_re, Complex.ofReal_re]; simp; ring
      · simp only [Complex.add_im, E_im, Complex.ofReal_im]; simp
    rw [hc, mul_add, ← E_add, mul_comm (E (-1) _) (E 1 _), E_neg 1 (π / (2 * m)), mul_inv_cancel₀ (E_ne_zero _ _)]
  have hc : 0 ≤ cos (π / (2 * m)) := by
    apply cos_nonneg_of_neg_pi_div_two_le_of_le
    · have : 0 ≤ π / (2 * m) := by positivity
      linarith [pi_pos]
    · have : (1 : ℝ) ≤ m := by exact_mod_cast hm
      rw [div_le_div_iff₀ (by positivity) (by norm_num)]
      nlinarith [pi_pos]
  rw [h1, norm_mul, norm_E, one_mul, Complex.norm_real, Real.norm_of_nonneg (by positivity)]

theorem E_half {m : ℕ} (hm : 0 < m) : E m (hh (2 * m)) = -1 := by
  have h := mul_hh_half hm
  apply Complex.ext
  · rw [E_re, Int.cast_natCast, h]; simp
  · rw [E_im, Int.cast_natCast, h]; simp

theorem E_half' {m : ℕ} (hm : 0 < m) : E (-m) (hh (2 * m)) = -1 := by
  rw [E_neg, E_half hm]; norm_num

section
variable {m : ℕ} (hm : 0 < m)
include hm

set_option linter.unusedSectionVars false

theorem fr0 : fr (2 * m + 2) 0 = -(m + 1 : ℕ) := by unfold fr; push_cast; omega
theorem fr1 : fr (2 * m + 2) 1 = -m := by unfold fr; push_cast; omega
theorem frN : fr (2 * m + 2) (2 * m) = (m - 1 : ℕ) := by unfold fr; omega
theorem frM : fr (2 * m + 2) (2 * m + 1) = m := by unfold fr; push_cast; omega

theorem I1_eq : Sp.Id (fr (2 * m + 2) 1) 0 (hh (2 * m)) = -(2 * Complex.I / m) := by
  have hm' : (m : ℂ) ≠ 0 := by exact_mod_cast hm.ne'
  rw [fr1 hm, Sp.Id, if_neg (by omega), E_half' hm, E_zero]
  push_cast
  rw [div_eq_iff (by simp [hm'])]
  field_simp
  rw [Complex.I_sq]; ring

theorem IM_eq : Sp.Id (fr (2 * m + 2) (2 * m + 1)) 0 (hh (2 * m)) = 2 * Complex.I / m := by
  have hm' : (m : ℂ) ≠ 0 := by exact_mod_cast hm.ne'
  rw [frM hm, Sp.Id, if_neg (by omega), E_half hm, E_zero]
  push_cast
  rw [div_eq_iff (by simp [hm'])]
  field_simp
  rw [Complex.I_sq]; ring

theorem I0_eq : Sp.Id (fr (2 * m + 2) 0) 0 (hh (2 * m)) = -(Complex.I * zz m / (m + 1)) := by
  have hm' : ((m : ℂ) + 1) ≠ 0 := by exact_mod_cast (by omega : m + 1 ≠ 0)
  have e : (-((m + 1 : ℕ) : ℤ)) = -(m : ℤ) + -1 := by push_cast; ring
  rw [fr0 hm, Sp.Id, if_neg (by omega), E_zero, e, E_add', E_half' hm]
  unfold zz
  push_cast
  rw [div_eq_iff (by
    have : (-(m : ℂ) + -1) = -(m + 1) := by ring
    rw [this]; exact mul_ne_zero Complex.I_ne_zero (neg_ne_zero.2 hm'))]
  field_simp
  rw [Complex.I_sq]; ring
end

theorem IN_eq {m : ℕ} (hm : 2 ≤ m) : Sp.Id (fr (2 * m + 2) (2 * m)) 0 (hh (2 * m)) = Complex.I * zz m / (m - 1) := by
  have e : (((m - 1 : ℕ) : ℕ) : ℤ) = (m : ℤ) + -1 := by omega
  have hm' : ((m : ℂ) - 1) ≠ 0 := by
    intro h
    have : (m : ℂ) = ((1 : ℕ) : ℂ) := by push_cast; linear_combination h
    have : m = 1 := by exact_mod_cast this
    omega
  rw [frN (by omega), Sp.Id, if_neg (by omega), E_zero, e, E_add', E_half (by omega)]
  unfold zz
  push_cast
  rw [show (m : ℂ) + -1 = m - 1 by ring, div_eq_iff (by simp [hm'])]
  field_simp
  rw [Complex.I_sq]; ring

theorem norm_nat_sub {m : ℕ} (hm : 2 ≤ m) : ‖((m : ℂ) - 1)‖ = (m : ℝ) - 1 := by
  have h2 : (2 : ℝ) ≤ m := by exact_mod_cast hm
  rw [show ((m : ℂ) - 1) = (((m : ℝ) - 1 : ℝ) : ℂ) by push_cast; ring, Complex.norm_real, Real.norm_of_nonneg (by linarith)]

theorem norm_nat_add {m : ℕ} : ‖((m : ℂ) + 1)‖ = (m : ℝ) + 1 := by
  rw [show ((m : ℂ) + 1) = (((m : ℝ) + 1 : ℝ) : ℂ) by push_cast; ring, Complex.norm_real, Real.norm_of_nonneg (by positivity)]

/-- The rejection test in real numbers, for `m ≥ 2`. -/
theorem rejects_iff {m : ℕ} (hm : 2 ≤ m) : Rejects (2 * m) 0 (hh (2 * m)) ↔
    4 * cos (π / (2 * m)) * m / ((m - 1) * (m + 1)) ≤ 1e-8 + 1e-5 * (2 * cos (π / (2 * m)) / (m - 1)) ∨
    4 / (m : ℝ) ≤ 1e-8 + 1e-5 * (2 / m) ∨
    8 * cos (π / (2 * m)) / (m * (m - 1) * (m + 1)) ≤ 1e-8 + 1e-5 * (4 * cos (π / (2 * m)) / (m * (m - 1))) := by
  have h2 : (2 : ℝ) ≤ m := by exact_mod_cast hm
  have hmC : (m : ℂ) ≠ 0 := by exact_mod_cast (by omega : m ≠ 0)
  have hpC : ((m : ℂ) + 1) ≠ 0 := by exact_mod_cast (by omega : m + 1 ≠ 0)
  have hsC : ((m : ℂ) - 1) ≠ 0 := by
    rw [← norm_ne_zero_iff, norm_nat_sub hm]; linarith
  have hz := norm_zz (m := m) (by omega)
  unfold Rejects isclose
  simp only []
  rw [I0_eq (by omega), I1_eq (by omega), IN_eq hm, IM_eq (by omega)]
  have a1 : -(Complex.I * zz m / (m + 1)) - Complex.I * zz m / (m - 1) = -(Complex.I * zz m * (2 * m) / (((m : ℂ) - 1) * (m + 1))) := by
    field_simp; ring
  have a2 : -(2 * Complex.I / (m : ℂ)) - 2 * Complex.I / m = -(4 * Complex.I / m) := by ring
  have a3 : -(Complex.I * zz m / (m + 1)) * -(2 * Complex.I / (m : ℂ)) - Complex.I * zz m / (m - 1) * (2 * Complex.I / m)
      = -(Complex.I * Complex.I * zz m * 4 / (m * ((m : ℂ) - 1) * (m + 1))) := by
    field_simp; ring
  have b1 : ‖-(Complex.I * zz m / (m + 1)) - Complex.I * zz m / (m - 1)‖ = 4 * cos (π / (2 * m)) * m / ((m - 1) * (m + 1)) := by
    rw [a1, norm_neg, norm_div, norm_mul, norm_mul, norm_mul, norm_mul, Complex.norm_I, hz, norm_nat_sub hm, norm_nat_add]
    simp; ring
  have b2 : ‖-(2 * Complex.I / (m : ℂ)) - 2 * Complex.I / m‖ = 4 / (m : ℝ) := by
    rw [a2, norm_neg, norm_div, norm_mul, Complex.norm_I]; simp
  have b3 : ‖-(Complex.I * zz m / (m + 1)) * -(2 * Complex.I / (m : ℂ)) - Complex.I * zz m / (m - 1) * (2 * Complex.I / m)‖
      = 8 * cos (π / (2 * m)) / (m * (m - 1) * (m + 1)) := by
    rw [a3, norm_neg, norm_div, norm_mul, norm_mul, norm_mul, norm_mul, norm_mul, Complex.norm_I, hz, norm_nat_sub hm, norm_nat_add]
    simp; ring
  have c1 : ‖Complex.I * zz m / (m - 1)‖ = 2 * cos (π / (2 * m)) / (m - 1) := by
    rw [norm_div, norm_mul, Complex.norm_I, hz, norm_nat_sub hm, one_mul]
  have c2 : ‖2 * Complex.I / (m : ℂ)‖ = 2 / (m : ℝ) := by rw [norm_div, norm_mul, Complex.norm_I]; simp
  have c3 : ‖Complex.I * zz m / (m - 1) * (2 * Complex.I / (m : ℂ))‖ = 4 * cos (π / (2 * m)) / (m * (m - 1)) := by
    rw [norm_mul, c1, c2, div_mul_div_comm]; congr 1 <;> ring
  rw [b1, b2, b3, c1, c2, c3]

theorem not_rejects_one : ¬ Rejects (2 * 1) 0 (hh (2 * 1)) := by
  have hz : zz 1 = 0 := by
    rw [← norm_eq_zero, norm_zz one_pos]; simp
  have hN : Sp.Id (fr (2 * 1 + 2) (2 * 1)) 0 (hh (2 * 1)) = (π : ℂ) := by
    rw [frN one_pos, Sp.Id, if_pos (by norm_num)]; unfold hh; push_cast; ring
  unfold Rejects isclose
  simp only []
  rw [I0_eq one_pos, I1_eq one_pos, hN, IM_eq one_pos, hz]
  have hpi : ‖(π : ℂ)‖ = π := by rw [Complex.norm_real, Real.norm_of_nonneg pi_pos.le]
  have h3 := pi_gt_three
  have h4 := pi_lt_d2
  push Not
  refine ⟨?_, ?_, ?_⟩
  · simp only [mul_zero, zero_div, neg_zero, zero_sub, norm_neg, hpi]; norm_num; linarith
  · have : -(2 * Complex.I / ((1 : ℕ) : ℂ)) - 2 * Complex.I / ((1 : ℕ) : ℂ) = -(4 * Complex.I) := by push_cast; ring
    rw [this]; simp; norm_num
  · simp only [mul_zero, zero_div, neg_zero, zero_mul, zero_sub, norm_neg, norm_mul, hpi]; simp; norm_num; linarith

theorem accepts {m : ℕ} (hm : 0 < m) (h926 : m ≤ 926) : ¬ Rejects (2 * m) 0 (hh (2 * m)) := by
  rcases Nat.eq_or_lt_of_le (show 1 ≤ m from hm) with h1 | h1
  · rw [← h1]; exact not_rejects_one
  have h2 : (2 : ℝ) ≤ m := by exact_mod_cast h1
  have h9 : (m : ℝ) ≤ 926 := by exact_mod_cast h926
  have h3 := pi_gt_three
  have h4 := pi_lt_d2
  set x : ℝ := π / (2 * m) with hx
  have hx0 : 0 < x := by positivity
  have hxm : x * (2 * m) = π := by rw [hx]; field_simp
  set c := cos x with hc
  have hc1 : c ≤ 1 := cos_le_one _
  have hcl : 1 - x ^ 2 / 2 ≤ c := one_sub_sq_div_two_le_cos
  have hc6 : 0.68 ≤ c := by
    have : x ≤ 0.7875 := by nlinarith
    nlinarith
  have hmain : 1e-8 * (m * ((m : ℝ) ^ 2 - 1)) + 4e-5 * c * (m + 1) < 8 * c := by
    by_cases h100 : m < 100
    · have h100' : (m : ℝ) ≤ 100 := by exact_mod_cast h100.le
      have : (m : ℝ) * (m ^ 2 - 1) ≤ 100 * 10000 := by
        apply mul_le_mul h100' _ _ (by norm_num) <;> nlinarith
      nlinarith
    · have h100' : (100 : ℝ) ≤ m := by exact_mod_cast (by omega : 100 ≤ m)
      have hx1 : x ≤ 0.01575 := by nlinarith
      have hc9 : 0.99987 ≤ c := by nlinarith
      have : (m : ℝ) * (m ^ 2 - 1) ≤ 926 * (926 ^ 2 - 1) := by
        apply mul_le_mul h9 _ _ (by norm_num) <;> nlinarith
      nlinarith
  rw [rejects_iff h1, ← hx, ← hc]
  have hm1 : (0 : ℝ) < m - 1 := by linarith
  push Not
  refine ⟨?_, ?_, ?_⟩
  · rw [lt_div_iff₀ (by positivity)]
    have : (1e-8 + 1e-5 * (2 * c / ((m : ℝ) - 1))) * (((m : ℝ) - 1) * (m + 1)) = 1e-8 * ((m - 1) * (m + 1)) + 2e-5 * c * (m + 1) := by
      field_simp; ring
    rw [this]
    nlinarith
  · rw [lt_div_iff₀ (by positivity)]
    have : (1e-8 + 1e-5 * (2 / (m : ℝ))) * m = 1e-8 * m + 2e-5 := by field_simp; ring
    rw [this]; nlinarith
  · rw [lt_div_iff₀ (by positivity)]
    have : (1e-8 + 1e-5 * (4 * c / (m * ((m : ℝ) - 1)))) * (m * ((m : ℝ) - 1) * (m + 1)) = 1e-8 * (m * ((m : ℝ) ^ 2 - 1)) + 4e-5 * c * (m + 1) := by
      field_simp; ring
    rw [this]; exact hmain

theorem rejects {m : ℕ} (h927 : 927 ≤ m) : Rejects (2 * m) 0 (hh (2 * m)) := by
  have h9 : (927 : ℝ) ≤ m := by exact_mod_cast h927
  rw [rejects_iff (by omega)]
  right; right
  set c := cos (π / (2 * m)) with hc
  have hc1 : c ≤ 1 := cos_le_one _
  have hc0 : 0 ≤ c := by
    have := norm_zz (m := m) (by omega)
    have := norm_nonneg (zz m)
    linarith
  have hm1 : (0 : ℝ) < m - 1 := by linarith
  rw [div_le_iff₀ (by positivity)]
  have : (1e-8 + 1e-5 * (4 * c / (m * ((m : ℝ) - 1)))) * (m * ((m : ℝ) - 1) * (m + 1)) = 1e-8 * (m * ((m : ℝ) ^ 2 - 1)) + 4e-5 * c * (m + 1) := by
    field_simp; ring
  rw [this]
  have h3 : 927 * (927 ^ 2 - 1) ≤ (m : ℝ) * (m ^ 2 - 1) := by
    apply mul_le_mul h9 _ _ (by positivity) <;> nlinarith
  nlinarith

end Dec.Chebyshev
