import Verif.Lib.DualityGrids

set_option linter.unusedSimpArgs false
set_option linter.unusedVariables false

/-! Duality of the basis functions on the Chebyshev grid. -/

namespace Dec

open Finset Real Dec.Sp MeasureTheory

section
variable {N : ℕ}

/-- Left end of dual edge `i` in the angle variable. -/
noncomputable def eL (N i : ℕ) : ℝ := if i = 0 then 0 else i * hh (2 * N - 2) - hh (2 * N - 2) / 2
/-- Right end of dual edge `i` in the angle variable. -/
noncomputable def eR (N i : ℕ) : ℝ := if i < N - 1 then i * hh (2 * N - 2) + hh (2 * N - 2) / 2 else π

theorem cos_mid (hN : 2 ≤ N) (i : ℤ) : cos (((N : ℝ) - 1) * (i * hh (2 * N - 2) + hh (2 * N - 2) / 2)) = 0 := by
  have hpi : ((N : ℝ) - 1) * hh (2 * N - 2) = π := by
    have := mul_hh_double hN
    rwa [Nat.cast_sub (by omega), Nat.cast_one] at this
  rw [show ((N : ℝ) - 1) * (i * hh (2 * N - 2) + hh (2 * N - 2) / 2) = ((N : ℝ) - 1) * hh (2 * N - 2) * (2 * i + 1) / 2 by ring, hpi]
  exact cos_eq_zero_iff.2 ⟨i, by ring⟩

theorem cos_eR (hN : 2 ≤ N) {i : ℕ} (hi : i < N - 1) : cos (((N : ℝ) - 1) * eR N i) = 0 := by
  unfold eR; rw [if_pos hi]; exact_mod_cast cos_mid hN i

theorem cos_eL (hN : 2 ≤ N) {i : ℕ} (hi : i ≠ 0) : cos (((N : ℝ) - 1) * eL N i) = 0 := by
  unfold eL; rw [if_neg hi]
  have := cos_mid hN ((i : ℤ) - 1)
  rw [← this]; congr 1; push_cast; ring

theorem integral_delta_dual (hN : 2 ≤ N) {i : ℕ} (hi : i < N) : ∫ x in (eL N i)..(eR N i), deltaf N x = if i = 0 then 1 else 0 := by
  rw [integral_deltaf hN]
  have hR : cos (((N : ℝ) - 1) * eR N i) * (1 + cos (eR N i)) = 0 := by
    by_cases h : i < N - 1
    · rw [cos_eR hN h, zero_mul]
    · unfold eR; rw [if_neg h]; simp
  rw [hR]
  split_ifs with h
  · subst h; unfold eL; simp
  · rw [cos_eL hN h]; simp

theorem eL_reflect (hN : 2 ≤ N) {i : ℕ} (hi : i < N) : π - eR N i = eL N (N - 1 - i) ∧ π - eL N i = eR N (N - 1 - i) := by
  have hpi : ((N - 1 : ℕ) : ℝ) * hh (2 * N - 2) = π := mul_hh_double hN
  have hc : ((N - 1 - i : ℕ) : ℝ) = (N - 1 : ℕ) - i := by rw [Nat.cast_sub (by omega)]
  constructor
  · unfold eR eL
    by_cases h : i < N - 1
    · rw [if_pos h, if_neg (by omega), hc]; linear_combination -hpi
    · rw [if_neg h, if_pos (by omega), sub_self]
  · unfold eR eL
    by_cases h : i = 0
    · rw [if_pos h, if_neg (by omega), sub_zero]
    · rw [if_neg h, if_pos (by omega), hc]; linear_combination -hpi

theorem integral_delta_dual' (hN : 2 ≤ N) {i : ℕ} (hi : i < N) : ∫ x in (eL N i)..(eR N i), deltaf N (π - x) = if i = N - 1 then 1 else 0 := by
  rw [intervalIntegral.integral_comp_sub_left (fun x => deltaf N x), (eL_reflect hN hi).1, (eL_reflect hN hi).2, integral_delta_dual hN (by omega)]
  congr 1
  rw [eq_iff_iff]; omega

theorem Bk_odd (M : ℕ) (x : ℝ) : Bk M (-x) = -Bk M x := by
  unfold Bk
  simp only [mul_neg, neg_div, sin_neg, Finset.sum_neg_distrib]
  split_ifs <;> ring

/-- `gamma` is the integral of a shifted `beta0` over the first half cell. -/
theorem gamma_eq (hN : 2 ≤ N) (k : ℕ) : gamma (2 * N - 2) k = ∫ x in (0 : ℝ)..(hh (2 * N - 2) / 2), beta0 (2 * N - 2) (x - k * hh (2 * N - 2)) := by
  have hM : 0 < 2 * N - 2 := by omega
  rw [intervalIntegral.integral_comp_sub_right (fun x => beta0 (2 * N - 2) x), integral_beta0 hM]
  rw [show (0 : ℝ) - k * hh (2 * N - 2) = -(k * hh (2 * N - 2)) by ring, show hh (2 * N - 2) / 2 - k * hh (2 * N - 2) = -(k * hh (2 * N - 2) - hh (2 * N - 2) / 2) by ring,
    Bk_odd, Bk_odd]
  generalize hMe : 2 * N - 2 = M at *
  have hM' : (M : ℝ) ≠ 0 := by positivity
  have hev : M % 2 = 0 := by omega
  have hpi := pi_ne_zero
  unfold gamma Bk hh
  simp only [if_pos hev]
  have e1 : -((k * (2 * π / M) - 2 * π / M / 2) / (2 * π)) + k * (2 * π / M) / (2 * π) = 1 / (2 * M) := by
    field_simp; ring
  have e2 : sin (M * (k * (2 * π / M)) / 2) = 0 := by
    rw [show (M : ℝ) * (k * (2 * π / M)) / 2 = k * π by field_simp]; exact sin_nat_mul_pi k
  have e3 : sin (M * (k * (2 * π / M) - 2 * π / M / 2) / 2) = -(-1) ^ k := by
    rw [show (M : ℝ) * (k * (2 * π / M) - 2 * π / M / 2) / 2 = k * π - π / 2 by field_simp, sin_sub, sin_nat_mul_pi, cos_nat_mul_pi]; simp
  rw [e2, e3]
  have e4 : ∑ n ∈ Ico 1 (M / 2 + 1), (sin (2 * n * k * π / M) - sin ((2 * k - 1) * n * π / M)) / sin (n * π / M) / M
      = ∑ n ∈ Ico 1 (M / 2 + 1), sin (n * (k * (2 * π / M))) / sin (n * π / M) / M - ∑ n ∈ Ico 1 (M / 2 + 1), sin (n * (k * (2 * π / M) - 2 * π / M / 2)) / sin (n * π / M) / M := by
    rw [← Finset.sum_sub_distrib]
    refine Finset.sum_congr rfl fun n _ => ?_
    rw [sub_div, sub_div]
    congr 4
    · ring
    · ring
  rw [e4]
  generalize ∑ n ∈ Ico 1 (M / 2 + 1), sin (n * (k * (2 * π / M))) / sin (n * π / M) / M = S1
  generalize ∑ n ∈ Ico 1 (M / 2 + 1), sin (n * (k * (2 * π / M) - 2 * π / M / 2)) / sin (n * π / M) / M = S2
  generalize (k * (2 * π / M) - 2 * π / M / 2) / (2 * π) = x2 at *
  generalize k * (2 * π / M) / (2 * π) = x1 at *
  linear_combination -e1

/-- The antisymmetrised `beta` behind `kappad1`. -/
noncomputable def betaA (N n : ℕ) (x : ℝ) : ℝ := beta (2 * N - 2) n x - beta (2 * N - 2) n (2 * π - x)

theorem continuous_betaA (N n : ℕ) : Continuous (betaA N n) := (continuous_beta _ _).sub (continuous_beta_reflect _ _)

theorem integral_betaA (N n : ℕ) (a b : ℝ) : ∫ x in a..b, betaA N n x = (∫ x in a..b, beta (2 * N - 2) n x) - ∫ x in a..b, beta (2 * N - 2) n (2 * π - x) :=
  intervalIntegral.integral_sub ((continuous_beta _ _).intervalIntegrable _ _) ((continuous_beta_reflect _ _).intervalIntegrable _ _)

theorem betaA_first (hN : 2 ≤ N) {j : ℕ} (h0 : 0 < j) (h1 : j < N - 1) : ∫ x in (0 : ℝ)..(hh (2 * N - 2) / 2), betaA N j x = 2 * gamma (2 * N - 2) j := by
  have hM : 0 < 2 * N - 2 := by omega
  rw [integral_betaA]
  have e1 : ∫ x in (0 : ℝ)..(hh (2 * N - 2) / 2), beta (2 * N - 2) j x = gamma (2 * N - 2) j := by
    rw [gamma_eq hN]
    refine intervalIntegral.integral_congr fun x _ => ?_
    unfold beta hh; beta_reduce; congr 1; ring
  have e2 : ∫ x in (0 : ℝ)..(hh (2 * N - 2) / 2), beta (2 * N - 2) j (2 * π - x) = ∫ x in (-(hh (2 * N - 2) / 2))..0, beta (2 * N - 2) j x := by
    have h := intervalIntegral.integral_comp_neg (fun x => beta (2 * N - 2) j x) (a := 0) (b := hh (2 * N - 2) / 2)
    rw [neg_zero] at h
    rw [← h]
    refine intervalIntegral.integral_congr fun x _ => ?_
    beta_reduce
    rw [beta_reflect, ← beta0_even]
    unfold beta; congr 1; ring
  have h3 := (dual_integrals hN (i := 0) (j := j) (by omega) (by omega)).1
  rw [if_neg (by omega)] at h3
  simp only [Nat.cast_zero, zero_mul, zero_sub, zero_add] at h3
  have h4 := intervalIntegral.integral_add_adjacent_intervals ((continuous_beta (2 * N - 2) j).intervalIntegrable (μ := volume) (-(hh (2 * N - 2) / 2)) 0)
    ((continuous_beta (2 * N - 2) j).intervalIntegrable 0 (hh (2 * N - 2) / 2))
  rw [h3, e1] at h4
  rw [e1, e2]; linarith

theorem betaA_reflect (hN : 2 ≤ N) {j : ℕ} (h1 : j < N) (x : ℝ) : betaA N j (π - x) = betaA N (N - 1 - j) x := by
  have hpi : ((N - 1 : ℕ) : ℝ) * (2 * π / (2 * N - 2 : ℕ)) = π := mul_hh_double hN
  have hc : ((N - 1 - j : ℕ) : ℝ) = (N - 1 : ℕ) - j := by rw [Nat.cast_sub (by omega)]
  unfold betaA
  rw [beta_reflect, beta_reflect]
  unfold beta
  rw [hc]
  congr 1
  · rw [← beta0_even]; congr 1; linear_combination hpi
  · rw [← beta0_even, ← beta0_periodic (2 * N - 2)]; congr 1; linear_combination -hpi

theorem integral_betaA_dual (hN : 2 ≤ N) {i j : ℕ} (hi : i < N) (h0 : 0 < j) (h1 : j < N - 1) :
    ∫ x in (eL N i)..(eR N i), betaA N j x
      = if i = 0 then 2 * gamma (2 * N - 2) j else if i = N - 1 then 2 * gamma (2 * N - 2) (N - j - 1) else if i = j then 1 else 0 := by
  by_cases hi0 : i = 0
  · subst hi0
    rw [if_pos rfl, ← betaA_first hN h0 h1]
    unfold eL eR
    rw [if_pos rfl, if_pos (by omega)]; simp
  · rw [if_neg hi0]
    by_cases hl : i = N - 1
    · rw [if_pos hl, show N - j - 1 = N - 1 - j by omega, ← betaA_first hN (by omega) (by omega)]
      have hr := intervalIntegral.integral_comp_sub_left (fun x => betaA N j x) π (a := 0) (b := hh (2 * N - 2) / 2)
      simp only [betaA_reflect hN (show j < N by omega)] at hr
      rw [hr]
      have hpi : ((N - 1 : ℕ) : ℝ) * hh (2 * N - 2) = π := mul_hh_double hN
      unfold eL eR
      rw [if_neg hi0, if_neg (by omega), hl, hpi, sub_zero]
    · rw [if_neg hl, integral_betaA]
      obtain ⟨h2, h3⟩ := dual_integrals hN hi (show j < N by omega)
      rw [if_neg (c := i = j ∧ (i = 0 ∨ i = N - 1)) (by omega)] at h3
      unfold eL eR
      rw [if_neg hi0, if_pos (by omega), h2, h3, sub_zero]

/-- The function behind `kappad1`. -/
noncomputable def kd1 (N n : ℕ) (x : ℝ) : ℝ :=
  if n = 0 then deltaf N x
  else if n = N - 1 then deltaf N (π - x)
  else betaA N n x - (2 * gamma (2 * N - 2) n * deltaf N x + 2 * gamma (2 * N - 2) (N - n - 1) * deltaf N (π - x))

theorem continuous_kd1 (N n : ℕ) : Continuous (kd1 N n) := by
  have h1 := continuous_deltaf N
  have h2 := continuous_betaA N n
  unfold kd1
  split_ifs <;> fun_prop

theorem kappad1_eq (hN : 2 ≤ N) (n : ℕ) {x : ℝ} (h0 : 0 < x) (h1 : x < π) : kappad1 N n x = some (kd1 N n x) := by
  have d1 := delta_eq hN (x := x) h0 (by linarith [pi_pos])
  have d2 := delta_eq hN (x := π - x) (by linarith) (by linarith [pi_pos])
  unfold kappad1 kd1
  by_cases hn0 : n = 0
  · rw [if_pos hn0, if_pos hn0, d1]
  · rw [if_neg hn0, if_neg hn0]
    by_cases hn1 : n = N - 1
    · rw [if_pos hn1, if_pos hn1, d2]
    · rw [if_neg hn1, if_neg hn1]
      unfold rho
      rw [d1, d2]
      simp [oadd, osub, betaA]

theorem integral_kd1 (hN : 2 ≤ N) {i j : ℕ} (hi : i < N) (hj : j < N) : ∫ x in (eL N i)..(eR N i), kd1 N j x = if i = j then 1 else 0 := by
  have hc := continuous_deltaf N
  by_cases h0 : j = 0
  · subst h0
    have e : kd1 N 0 = deltaf N := by funext x; unfold kd1; rw [if_pos rfl]
    rw [e, integral_delta_dual hN hi]
  · by_cases h1 : j = N - 1
    · have e : kd1 N j = fun x => deltaf N (π - x) := by funext x; unfold kd1; rw [if_neg h0, if_pos h1]
      rw [e, integral_delta_dual' hN hi, h1]
    · have e : kd1 N j = fun x => betaA N j x - (2 * gamma (2 * N - 2) j * deltaf N x + 2 * gamma (2 * N - 2) (N - j - 1) * deltaf N (π - x)) := by
        funext x; unfold kd1; rw [if_neg h0, if_neg h1]
      have c1 : Continuous (fun x => 2 * gamma (2 * N - 2) j * deltaf N x) := by fun_prop
      have c2 : Continuous (fun x => 2 * gamma (2 * N - 2) (N - j - 1) * deltaf N (π - x)) := by fun_prop
      have c3 : Continuous (fun x => 2 * gamma (2 * N - 2) j * deltaf N x + 2 * gamma (2 * N - 2) (N - j - 1) * deltaf N (π - x)) := by fun_prop
      rw [e, intervalIntegral.integral_sub ((continuous_betaA N j).intervalIntegrable _ _) (c3.intervalIntegrable _ _),
        intervalIntegral.integral_add (c1.intervalIntegrable _ _) (c2.intervalIntegrable _ _), intervalIntegral.integral_const_mul, intervalIntegral.integral_const_mul,
        integral_betaA_dual hN hi (by omega) (by omega), integral_delta_dual hN hi, integral_delta_dual' hN hi]
      by_cases hi0 : i = 0
      · rw [if_pos hi0, if_pos hi0, if_neg (c := i = N - 1) (by omega), if_neg (c := i = j) (by omega)]; ring
      · by_cases hi1 : i = N - 1
        · rw [if_neg hi0, if_pos hi1, if_neg hi0, if_pos hi1, if_neg (by omega)]; ring
        · rw [if_neg hi0, if_neg hi1, if_neg hi0, if_neg hi1]; ring

end

theorem sqrt_sin {θ : ℝ} (h0 : 0 ≤ θ) (h1 : θ ≤ π) : Real.sqrt (1 - (-cos θ) ^ 2) = sin θ := by
  rw [neg_sq, ← sin_sq]
  exact Real.sqrt_sq (sin_nonneg_of_nonneg_of_le_pi h0 h1)

theorem Chebyshev.dualBasis {n : ℕ} (hn : 2 ≤ n) : DualBasis (Chebyshev.make n) := by
  have hI := Chebyshev.isInterval hn (-1) 1
  have hh1 : π / ((n - 1 : ℕ) : ℝ) = hh (2 * n - 2) := (hh_double hn).symm
  have hpt : ∀ θ, Chebyshev.pt (-1) 1 θ = -cos θ := fun θ => by unfold Chebyshev.pt; ring
  simp only [hh1, hpt] at hI
  have hpos : 0 < hh (2 * n - 2) := hh_pos (by omega)
  have hpi : ((n - 1 : ℕ) : ℝ) * hh (2 * n - 2) = π := mul_hh_double hn
  have hle : ∀ i : ℕ, i ≤ n - 1 → (i : ℝ) * hh (2 * n - 2) ≤ π := fun i hi => by
    have : (i : ℝ) ≤ (n - 1 : ℕ) := by exact_mod_cast hi
    nlinarith
  refine hI.dualBasis (fun i hi j hj => ?_) (fun i hi j hj => ?_) (fun i hi j hj => ?_) (fun i hi j hj => ?_)
  · have hi : i < n := hi
    show kappa0 n j (arccos (-(-cos (i * hh (2 * n - 2))))) = _
    rw [neg_neg, arccos_cos (by positivity) (hle i (by omega))]
    exact kappa0_node hn hi hj
  · have hi : i < n - 1 := hi
    show kappad0 n j (arccos (-(-cos ((i + 1 / 2) * hh (2 * n - 2))))) = _
    rw [neg_neg, arccos_cos (by positivity) (by have := hle (i + 1) (by omega); push_cast at this; nlinarith),
      show ((i : ℝ) + 1 / 2) * hh (2 * n - 2) = hh (2 * n - 2) / 2 + i * hh (2 * n - 2) by ring]
    exact kappad0_node hn hi hj
  · have hi : i < n - 1 := hi
    have hj : j < n - 1 := hj
    have h1 := hle (i + 1) (by omega)
    push_cast at h1
    show OInt (psi1 n j) (-cos (i * hh (2 * n - 2))) (-cos ((i + 1 : ℕ) * hh (2 * n - 2))) _
    rw [show ((i + 1 : ℕ) : ℝ) * hh (2 * n - 2) = (i + 1) * hh (2 * n - 2) by push_cast; ring]
    refine OInt.of_angle (κ := kappa1 n j) (by positivity) (by nlinarith) h1 (continuous_kappa1 n j) (fun θ hθ => ?_) (integral_kappa1 hn hi hj)
    have h3 : 0 < θ := lt_of_le_of_lt (by positivity) hθ.1
    have h4 : θ < π := lt_of_lt_of_le hθ.2 h1
    unfold psi1 odiv
    rw [sqrt_sin h3.le h4.le, neg_neg, arccos_cos h3.le h4.le, if_neg (sin_pos_of_pos_of_lt_pi h3 h4).ne']
    rfl
  · have hi : i < n := hi
    have hj : j < n := hj
    obtain ⟨g1, g2, g3⟩ := ends_regular hn hi
    have e1 : (if i = 0 then (Chebyshev.make n).xmin else -cos (((i - 1 : ℕ) + 1 / 2) * hh (2 * n - 2))) = -cos (eL n i) := by
      show (if i = 0 then (-1 : ℝ) else _) = _
      unfold eL
      split_ifs with h
      · simp
      · have : ((i - 1 : ℕ) : ℝ) = i - 1 := by rw [Nat.cast_sub (by omega)]; simp
        rw [this]; congr 2; ring
    have e2 : (if i < (Chebyshev.make n).n - 1 then -cos ((i + 1 / 2) * hh (2 * n - 2)) else (Chebyshev.make n).xmax) = -cos (eR n i) := by
      show (if i < n - 1 then _ else (1 : ℝ)) = _
      unfold eR
      split_ifs with h
      · congr 2; ring
      · simp
    rw [e1, e2]
    show OInt (psid1 n j) _ _ _
    refine OInt.of_angle (κ := kd1 n j) g1 g2 g3 (continuous_kd1 n j) (fun θ hθ => ?_) (integral_kd1 hn hi hj)
    have h3 : 0 < θ := lt_of_le_of_lt g1 hθ.1
    have h4 : θ < π := lt_of_lt_of_le hθ.2 g3
    have hs := sin_pos_of_pos_of_lt_pi h3 h4
    have hc1 : cos θ ≠ 1 := fun h => by have := sin_sq_add_cos_sq θ; rw [h] at this; nlinarith
    have hc2 : cos θ ≠ -1 := fun h => by have := sin_sq_add_cos_sq θ; rw [h] at this; nlinarith
    have hfix : fixSingularity (-cos θ) = -cos θ := by
      unfold fixSingularity
      rw [if_neg (fun h => hc1 (by linarith)), if_neg (fun h => hc2 (by linarith))]
    unfold psid1
    simp only [hfix]
    unfold odiv
    rw [sqrt_sin h3.le h4.le, neg_neg, arccos_cos h3.le h4.le, if_neg hs.ne', kappad1_eq hn j h3 h4]
    rfl

end Dec
