import Verif.Lib.ChebyshevGrid
import Verif.Lib.KInv
import Verif.Lib.Strong

set_option linter.unusedSimpArgs false
set_option linter.unusedVariables false

/-!
# C48: the spectral integrators are exact on resolvable functions
-/

namespace Dec.Props

open Real Finset Dec.Sp

/-- `N + 1` equidistant points from `x0` to `x0 + 2π`. -/
noncomputable def circlePoints (N : ℕ) (x0 : ℝ) : List ℝ := tab (N + 1) fun i => x0 + i * (2 * π / N)

theorem hh_halve {N : ℕ} (hN : 0 < N) : hh (2 * N) = hh N / 2 := by
  unfold hh; push_cast
  have : (N : ℝ) ≠ 0 := by positivity
  field_simp

theorem midpoints_tab (N : ℕ) (x0 h : ℝ) :
    vadd (tab (N + 1) fun i => x0 + i * h).dropLast (smul (1 / 2) (diff (tab (N + 1) fun i => x0 + i * h))) = tab N fun i => x0 + h / 2 + i * h := by
  rw [dropLast_tab, diff_tab, smul_tab, vadd_tab]
  refine tab_congr' (by omega) fun i _ => ?_
  push_cast; ring

theorem subdivide_tab (N : ℕ) (x0 h : ℝ) : subdivide (tab (N + 1) fun i => x0 + i * h) = tab (2 * N + 1) fun i => x0 + i * (h / 2) := by
  unfold subdivide
  rcases Nat.eq_zero_or_pos N with rfl | hN
  · simp [tab_succ]
  rw [if_neg (by rw [length_tab]; omega), midpoints_tab, dropLast_tab, Nat.add_sub_cancel, Periodic.weave_tab, length_tab, getD_tab (by omega), tab_succ']
  congr 1
  · refine tab_congr fun i _ => ?_
    rcases Nat.even_or_odd' i with ⟨k, rfl | rfl⟩
    · rw [if_pos (by omega), show 2 * k / 2 = k by omega]; push_cast; ring
    · rw [if_neg (by omega), show (2 * k + 1) / 2 = k by omega]; push_cast; ring
  · rw [Nat.add_sub_cancel]; push_cast; congr 1; ring

/-- C48: `integrate_spectral_coarse` gives the integrals over the cells of a full period, for trigonometric polynomials of degree less than `N/2`. -/
theorem C48_coarse (N : ℕ) (x0 : ℝ) (K : ℕ) (hK : 2 * K < N) (p : ℝ → ℝ) (hp : IsTrig K p) :
    integrate_spectral_coarse (circlePoints N x0) p = tab N fun i => ∫ x in (x0 + i * (2 * π / N))..(x0 + (i + 1) * (2 * π / N)), p x := by
  unfold integrate_spectral_coarse circlePoints
  rw [midpoints_tab, map_tab]
  have h := (Res_of_isTrig hK hp (x0 + hh N / 2)).Hs
  unfold samp hh at h
  rw [h]
  refine tab_congr fun i _ => ?_
  congr 1 <;> ring

theorem strides8 (N k : ℕ) (hk : k < 8) (f : ℕ → ℝ) : stride2 (stride2 (stride2 ((tab (8 * N) f).drop k))) = tab N fun i => f (8 * i + k) := by
  rw [drop_tab, stride2_tab, stride2_tab, stride2_tab]
  refine tab_congr' (by omega) fun i _ => ?_
  rw [show k + 2 * (2 * (2 * i)) = 8 * i + k by ring]

/-- `integrate_spectral` adds up eight integrals of `integrate_spectral_coarse` on the points of the grid subdivided three times. -/
theorem spectral_of_coarse (N : ℕ) (hN : 0 < N) (x0 : ℝ) (f : ℝ → ℝ) (F : ℕ → ℝ) (hF : integrate_spectral_coarse (circlePoints (8 * N) x0) f = tab (8 * N) F) :
    integrate_spectral (circlePoints N x0) f = tab N fun i => ∑ k ∈ range 8, F (8 * i + k) := by
  have e : subdivide (subdivide (subdivide (circlePoints N x0))) = circlePoints (8 * N) x0 := by
    unfold circlePoints
    rw [subdivide_tab, subdivide_tab, subdivide_tab]
    refine tab_congr' (by omega) fun i _ => ?_
    have : (N : ℝ) ≠ 0 := by positivity
    push_cast; field_simp; ring
  unfold integrate_spectral
  rw [e, hF]
  have hs := strides8 N
  dsimp only
  rw [hs 0 (by norm_num) F, hs 1 (by norm_num) F, hs 2 (by norm_num) F, hs 3 (by norm_num) F, hs 4 (by norm_num) F, hs 5 (by norm_num) F, hs 6 (by norm_num) F,
    hs 7 (by norm_num) F, vadd_tab, vadd_tab, vadd_tab, vadd_tab, vadd_tab, vadd_tab, vadd_tab]
  refine tab_congr fun i _ => ?_
  simp only [Finset.sum_range_succ, Finset.sum_range_zero, zero_add]

/-- The integrals over the eight parts of a cell add up to the integral over the cell. -/
theorem sum_eighths (N : ℕ) (hN : 0 < N) (x0 : ℝ) (p : ℝ → ℝ) (hp : Continuous p) (i : ℕ) :
    ∑ k ∈ range 8, ∫ x in (x0 + (8 * i + k : ℕ) * (2 * π / (8 * N : ℕ)))..(x0 + ((8 * i + k : ℕ) + 1) * (2 * π / (8 * N : ℕ))), p x
      = ∫ x in (x0 + i * (2 * π / N))..(x0 + (i + 1) * (2 * π / N)), p x := by
  have hc : ∀ a b : ℝ, IntervalIntegrable p MeasureTheory.volume a b := fun a b => hp.intervalIntegrable a b
  have hsum := intervalIntegral.sum_integral_adjacent_intervals (f := p) (μ := MeasureTheory.volume) (a := fun k : ℕ => x0 + ((8 * i + k : ℕ) : ℝ) * (2 * π / (8 * N : ℕ))) (n := 8)
    fun k _ => hc _ _
  have hl : x0 + ((8 * i + 0 : ℕ) : ℝ) * (2 * π / (8 * N : ℕ)) = x0 + i * (2 * π / N) := by
    have : (N : ℝ) ≠ 0 := by positivity
    push_cast; field_simp; ring
  have hr : x0 + ((8 * i + 8 : ℕ) : ℝ) * (2 * π / (8 * N : ℕ)) = x0 + (i + 1) * (2 * π / N) := by
    have : (N : ℝ) ≠ 0 := by positivity
    push_cast; field_simp
  rw [hl, hr] at hsum
  rw [← hsum]
  have ha : ∀ k : ℕ, (((8 * i + k : ℕ) : ℝ) + 1) = ((8 * i + (k + 1) : ℕ) : ℝ) := fun k => by push_cast; ring
  simp only [ha]

/-- C48: `integrate_spectral` gives the integrals over the cells of a full period, for trigonometric polynomials of degree less than `4 N`. -/
theorem C48_spectral (N : ℕ) (x0 : ℝ) (K : ℕ) (hK : K < 4 * N) (p : ℝ → ℝ) (hp : IsTrig K p) :
    integrate_spectral (circlePoints N x0) p = tab N fun i => ∫ x in (x0 + i * (2 * π / N))..(x0 + (i + 1) * (2 * π / N)), p x := by
  have hN : 0 < N := by omega
  rw [spectral_of_coarse N hN x0 p _ (C48_coarse (8 * N) x0 K (by omega) p hp)]
  exact tab_congr fun i _ => sum_eighths N hN x0 p hp.continuous i

/-- Non-vacuity: the example of the documentation, `sin` on two cells starting at `-π`, has degree 1. -/
example : 1 < 4 * 2 ∧ IsTrig 1 sin := ⟨by omega, (isTrig_sin_nat (m := 1) le_rfl).congr fun θ => by simp⟩

/-- The points `-cos(i π/m)`, `i = 0 … m`: the vertices of a Chebyshev grid of `m + 1` vertices. -/
noncomputable def chebPoints (m : ℕ) : List ℝ := tab (m + 1) fun i => -cos (i * (π / m))

/-- `integrate_chebyshev` integrates over the circle. -/
theorem chebyshev_of_spectral (m : ℕ) (hm : 0 < m) (p : ℝ → ℝ) (F : ℕ → ℝ) (hF : integrate_spectral (circlePoints (2 * m) 0) (fun θ => p (-cos θ) * sin θ) = tab (2 * m) F) :
    integrate_chebyshev (chebPoints m) p = tab m F := by
  have hm' : (m : ℝ) ≠ 0 := by positivity
  have e1 : (chebPoints m).map varphi = tab (m + 1) fun i => i * (π / m) := by
    unfold chebPoints
    rw [map_tab]
    refine tab_congr fun i hi => ?_
    unfold varphi
    have hi' : (i : ℝ) ≤ m := by exact_mod_cast (by omega : i ≤ m)
    rw [neg_neg, arccos_cos (by positivity)]
    rw [← mul_div_assoc, div_le_iff₀ (by positivity), mul_comm]
    exact mul_le_mul_of_nonneg_left hi' pi_pos.le
  have e2 : (tab (m + 1) fun i : ℕ => (i : ℝ) * (π / m)) ++ ((tab (m + 1) fun i : ℕ => (i : ℝ) * (π / m)).tail.map (· + π)) = circlePoints (2 * m) 0 := by
    unfold circlePoints
    rw [tail_tab, map_tab, append_tab]
    refine tab_congr' (by omega) fun i hi => ?_
    by_cases h : i < m + 1
    · rw [if_pos h]; push_cast; field_simp; ring
    · rw [if_neg h]
      obtain ⟨k, rfl⟩ : ∃ k, i = m + 1 + k := ⟨i - (m + 1), by omega⟩
      rw [show m + 1 + k - (m + 1) = k by omega]; push_cast; field_simp; ring
  unfold integrate_chebyshev
  simp only [e1, e2]
  rw [hF, take_tab]
  have hl : (chebPoints m).length = m + 1 := length_tab _ _
  exact tab_congr' (by omega) fun i hi => rfl

/-- C48: `integrate_chebyshev` gives the integrals over the cells of the Chebyshev grid, for polynomials of degree less than `8 m - 1`. -/
theorem C48_chebyshev (m : ℕ) (hm : 0 < m) (K : ℕ) (hK : K < 8 * m) (p : ℝ → ℝ) (hp : IsPoly K p) :
    integrate_chebyshev (chebPoints m) p = tab m fun i => ∫ x in (-cos (i * (π / m)))..(-cos ((i + 1) * (π / m))), p x := by
  have hm' : (m : ℝ) ≠ 0 := by positivity
  have hG : IsTrig K (fun θ => p (-cos θ) * sin θ) := by
    rcases Nat.eq_zero_or_pos K with rfl | hK0
    · obtain ⟨a, ha⟩ := hp
      exact (isTrig_const 0 0).congr fun θ => by simp [ha]
    have h1 := (IsPoly.isCos (K := K - 1) (by omega) hp).isTrig
    have h2 : IsTrig 1 (fun θ => sin θ) := (isTrig_sin_nat (m := 1) le_rfl).congr fun θ => by simp
    exact (h1.mul h2).mono (by omega)
  rw [chebyshev_of_spectral m hm p _ (C48_spectral (2 * m) 0 K (by omega) _ hG)]
  refine tab_congr fun i hi => ?_
  have hpc : Continuous p := by
    obtain ⟨a, ha⟩ := hp
    have : p = fun x => ∑ k ∈ range K, a k * x ^ k := funext ha
    rw [this]; fun_prop
  rw [Chebyshev.integral_subst hpc]
  have e : ∀ j : ℝ, 0 + j * (2 * π / (2 * m : ℕ)) = j * (π / m) := fun j => by push_cast; field_simp; ring
  rw [e, e]

/-- Non-vacuity: the example of the documentation, `x` on the three points `-1, 0, 1`. -/
example : 0 < 2 ∧ 2 < 8 * 2 ∧ IsPoly 2 (fun x => x) :=
  ⟨by omega, by omega, fun k => if k = 1 then 1 else 0, fun x => by simp [Finset.sum_range_succ]⟩

/-- The dual points of the Chebyshev grid of `m + 1` vertices with both end points. -/
noncomputable def chebDualPoints (m : ℕ) : List ℝ := [-1] ++ (tab m fun i => -cos ((i + 1 / 2) * (π / m))) ++ [1]

/-- `integrate_chebyshev_dual` adds up the integrals over the halves of the dual edges. -/
theorem dual_of_primal (m : ℕ) (hm : 0 < m) (p : ℝ → ℝ) (F : ℕ → ℝ) (hF : integrate_chebyshev (chebPoints (2 * m)) p = tab (2 * m) F) :
    integrate_chebyshev_dual (chebDualPoints m) p = tab (m + 1) fun i => (if i = 0 then 0 else F (2 * i - 1)) + if i = m then 0 else F (2 * i) := by
  have hm' : (m : ℝ) ≠ 0 := by positivity
  have e1 : (chebDualPoints m).map varphi = [0] ++ (tab m fun i => π / m / 2 + i * (π / m)) ++ [π] := by
    unfold chebDualPoints
    rw [List.map_append, List.map_append, map_tab]
    have h0 : ([-1] : List ℝ).map varphi = [0] := by simp [varphi]
    have h1 : ([1] : List ℝ).map varphi = [π] := by simp [varphi]
    rw [h0, h1]
    congr 2
    refine tab_congr fun i hi => ?_
    unfold varphi
    have hi' : (i : ℝ) + 1 ≤ m := by exact_mod_cast hi
    rw [neg_neg, arccos_cos (by positivity)]
    · ring
    rw [← mul_div_assoc, div_le_iff₀ (by positivity), mul_comm]
    exact mul_le_mul_of_nonneg_left (by linarith) pi_pos.le
  have e2 : (([0] ++ (tab m fun i => π / m / 2 + i * (π / m)) ++ [π] : List ℝ)).tail.dropLast = tab m fun i => π / m / 2 + i * (π / m) := by
    simp [List.dropLast_append_of_ne_nil]
  have e3 : (([0] ++ (tab m fun i => π / m / 2 + i * (π / m)) ++ [π] : List ℝ)).getD (([0] ++ (tab m fun i => π / m / 2 + i * (π / m)) ++ [π] : List ℝ).length - 1) 0 = π := by
    have hl : ([0] ++ (tab m fun i => π / m / 2 + i * (π / m)) ++ [π] : List ℝ).length - 1 = m + 1 := by simp
    rw [hl, List.getD_eq_getElem?_getD, List.getElem?_append_right (by simp)]
    simp
  have e4 : ([0] ++ subdivide (tab m fun i => π / m / 2 + i * (π / m)) ++ [π] : List ℝ).map varphi_inv = chebPoints (2 * m) := by
    obtain ⟨k, rfl⟩ : ∃ k, m = k + 1 := ⟨m - 1, by omega⟩
    rw [subdivide_tab, singleton_tab, singleton_tab, append_tab, append_tab, map_tab]
    unfold chebPoints
    refine tab_congr' (by omega) fun i hi => ?_
    unfold varphi_inv
    congr 2
    by_cases h0 : i = 0
    · subst h0; simp
    by_cases h1 : i < 1 + (2 * k + 1)
    · rw [if_pos h1, if_neg (by omega), Nat.cast_sub (by omega)]; push_cast; push_cast at hm'; field_simp; ring
    · rw [if_neg h1]
      have : i = 2 * (k + 1) := by omega
      subst this
      push_cast; push_cast at hm'; field_simp
  unfold integrate_chebyshev_dual
  simp only [e1, e2, e3]
  have e5 : (([0] ++ (tab m fun i => π / m / 2 + i * (π / m)) ++ [π] : List ℝ)).getD 0 0 = 0 := by simp
  rw [e5, e4, hF]
  rw [singleton_tab, append_tab, append_tab, stride2_tab, stride2'_tab]
  rw [show (1 + 2 * m + 1) / 2 = m + 1 by omega, show (1 + 2 * m + 1 + 1) / 2 = m + 1 by omega, vadd_tab]
  refine tab_congr fun i hi => ?_
  by_cases h0 : i = 0
  · subst h0
    rw [if_pos (by omega), if_pos (by omega), if_pos (by omega), if_neg (by omega), if_pos rfl, if_neg (by omega)]
  by_cases h1 : i = m
  · subst h1
    rw [if_pos (by omega), if_neg (by omega), if_neg (by omega), if_neg h0, if_pos rfl]
  · rw [if_pos (by omega), if_neg (by omega), if_pos (by omega), if_neg (by omega), if_neg h0, if_neg h1]
    rfl

/-- C48: `integrate_chebyshev_dual` gives the integrals over the dual edges of the Chebyshev grid, half edges at the boundary included. -/
theorem C48_chebyshev_dual (m : ℕ) (hm : 0 < m) (K : ℕ) (hK : K < 16 * m) (p : ℝ → ℝ) (hp : IsPoly K p) :
    integrate_chebyshev_dual (chebDualPoints m) p = tab (m + 1) fun i =>
      ∫ x in (if i = 0 then -1 else -cos ((i - 1 / 2) * (π / m)))..(if i = m then 1 else -cos ((i + 1 / 2) * (π / m))), p x := by
  have hm' : (m : ℝ) ≠ 0 := by positivity
  have hpc : Continuous p := by
    obtain ⟨a, ha⟩ := hp
    have : p = fun x => ∑ k ∈ range K, a k * x ^ k := funext ha
    rw [this]; fun_prop
  rw [dual_of_primal m hm p _ (C48_chebyshev (2 * m) (by omega) K (by omega) p hp)]
  refine tab_congr fun i hi => ?_
  have hint : ∀ a b : ℝ, IntervalIntegrable p MeasureTheory.volume a b := fun a b => hpc.intervalIntegrable a b
  have hc : ((2 * m : ℕ) : ℝ) = 2 * m := by push_cast; rfl
  by_cases h0 : i = 0
  · subst h0
    rw [if_pos rfl, if_neg (by omega), if_pos rfl, if_neg (by omega), zero_add]
    congr 1
    · simp
    · congr 2; rw [hc]; push_cast; field_simp; ring
  by_cases h1 : i = m
  · subst h1
    rw [if_neg h0, if_pos rfl, if_neg h0, if_pos rfl, add_zero, Nat.cast_sub (by omega)]
    congr 1
    · congr 2; rw [hc]; push_cast; field_simp
    · rw [hc]; push_cast
      rw [show (2 * (i : ℝ) - 1 + 1) * (π / (2 * i)) = π by field_simp; ring, cos_pi, neg_neg]
  · rw [if_neg h0, if_neg h1, if_neg h0, if_neg h1]
    have hadj := intervalIntegral.integral_add_adjacent_intervals (hint (-cos ((i - 1 / 2) * (π / m))) (-cos (i * (π / m)))) (hint (-cos (i * (π / m))) (-cos ((i + 1 / 2) * (π / m))))
    rw [← hadj, Nat.cast_sub (by omega), hc]
    congr 2
    · congr 2; push_cast; field_simp
    · congr 2; push_cast; field_simp; ring
    · congr 2; push_cast; field_simp
    · congr 2; push_cast; field_simp

end Dec.Props
