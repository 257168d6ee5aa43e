import Verif.Lib.Duality
import Verif.Lib.RegularGrid

set_option linter.unusedSimpArgs false
set_option linter.unusedVariables false

/-! Duality of the basis functions on the periodic and the regular grid. -/

namespace Dec

open Finset Real Dec.Sp

theorem alpha_node {M : ℕ} (hM : 0 < M) {c x : ℝ} {m : ℤ} (h : x - 2 * π / M * c = 2 * π / M * m) (h1 : -(M : ℤ) < m) (h2 : m < M) :
    alpha M c x = some (if m = 0 then 1 else 0) := by
  unfold alpha
  rw [h, alpha0_eq hM, Ak_node' hM h1 h2]
  by_cases h0 : m = 0
  · left; rw [h0]; simp
  · right
    exact sin_half_ne hM fun hd => h0 (Int.eq_zero_of_abs_lt_dvd hd (abs_lt.2 ⟨h1, h2⟩))

theorem continuous_beta (M : ℕ) (c : ℝ) : Continuous (beta M c) := (continuous_beta0 M).comp (by fun_prop)

theorem beta_reflect (M : ℕ) (c x : ℝ) : beta M c (2 * π - x) = beta0 M (x + 2 * π / M * c) := by
  unfold beta
  rw [← beta0_even, ← beta0_periodic M]
  congr 1; ring

theorem continuous_beta_reflect (M : ℕ) (c : ℝ) : Continuous (fun x => beta M c (2 * π - x)) :=
  (continuous_beta M c).comp (by fun_prop)

theorem integral_beta_cell {M : ℕ} (hM : 0 < M) (c y : ℝ) : ∫ x in (y - π / M)..(y + π / M), beta M c x = Ak M (y - 2 * π / M * c) := by
  unfold beta
  rw [intervalIntegral.integral_comp_sub_right (fun x => beta0 M x), ← integral_beta0_cell hM]
  congr 1 <;> ring

theorem integral_beta_reflect {M : ℕ} (hM : 0 < M) (c y : ℝ) : ∫ x in (y - π / M)..(y + π / M), beta M c (2 * π - x) = Ak M (y + 2 * π / M * c) := by
  simp only [beta_reflect]
  rw [intervalIntegral.integral_comp_add_right (fun x => beta0 M x), ← integral_beta0_cell hM]
  congr 1 <;> ring

namespace Periodic

theorem dualBasis {n : ℕ} (hn : 1 ≤ n) : DualBasis (make n) where
  len0 t := by cases t <;> simp [make, cells, verts_dual_tab, verts_tab]
  len1 t := by cases t <;> simp [make, cells, verts_dual_tab, pnts_tab]
  len2 t := by cases t <;> simp [make, cells, verts_dual_tab, pnts_tab]
  v0 := by
    have hn' : (n : ℝ) ≠ 0 := by positivity
    intro t i hi' j hj'
    have hi : i < n := hi'
    have hj : j < n := hj'
    clear hi' hj'
    cases t
    · show phid0 n j ((verts_dual n 0 (2 * π)).getD i 0) = _
      rw [verts_dual_tab, getD_tab hi]
      unfold phid0
      rw [alpha_node (m := (i : ℤ) - j) (by omega) (by push_cast; ring) (by omega) (by omega)]
      simp [sub_eq_zero]
    · show phi0 n j ((verts n 0 (2 * π)).getD i 0) = _
      rw [verts_tab, getD_tab hi]
      unfold phi0
      rw [alpha_node (m := (i : ℤ) - j) (by omega) (by push_cast; ring) (by omega) (by omega)]
      simp [sub_eq_zero]
  e1 := by
    have hn' : (n : ℝ) ≠ 0 := by positivity
    have hp := pi_pos
    intro t i hi' j hj'
    have hi : i < n := hi'
    have hj : j < n := hj'
    clear hi' hj'
    have hA : Ak n (2 * π / n * ((i : ℤ) - j : ℤ)) = if i = j then 1 else 0 := by
      rw [Ak_node' (by omega) (by omega) (by omega)]; simp [sub_eq_zero]
    cases t
    · show OInt (phid1 n j) (((roll (verts_dual n 0 (2 * π)) 1).modify 0 (· - |2 * π - 0|)).getD i 0) ((verts_dual n 0 (2 * π)).getD i 0) _
      rw [edges_dual_tab (by positivity), verts_dual_tab, getD_tab hi, getD_tab hi]
      have e1 : 0 + ((i : ℝ) - 1 / 2) * ((2 * π - 0) / n) = 2 * π / n * i - π / n := by field_simp; ring
      have e2 : 0 + ((i : ℝ) + 1 / 2) * ((2 * π - 0) / n) = 2 * π / n * i + π / n := by field_simp; ring
      rw [e1, e2]
      refine OInt.of_cont (b := beta n j) (by have : 0 < π / n := by positivity
                                              linarith) (continuous_beta _ _) (fun s _ => rfl) ?_
      rw [integral_beta_cell (by omega), ← hA]
      congr 1; push_cast; ring
    · show OInt (phi1 n j) ((pnts n 0 (2 * π)).dropLast.getD i 0) ((pnts n 0 (2 * π)).tail.getD i 0) _
      rw [pnts_tab, dropLast_tab, tail_tab, getD_tab (by omega), getD_tab (by omega)]
      have e1 : 0 + (i : ℝ) * ((2 * π - 0) / n) = 2 * π / n * (i + 1 / 2) - π / n := by field_simp; ring
      have e2 : 0 + ((i + 1 : ℕ) : ℝ) * ((2 * π - 0) / n) = 2 * π / n * (i + 1 / 2) + π / n := by push_cast; field_simp; ring
      rw [e1, e2]
      refine OInt.of_cont (b := beta n (j + 1 / 2)) (by have : 0 < π / n := by positivity
                                                        linarith) (continuous_beta _ _) (fun s _ => rfl) ?_
      rw [integral_beta_cell (by omega), ← hA]
      congr 1; push_cast; ring

end Periodic

/-! ## The functions `kappa` in the angle variable -/

section kappa

variable {N : ℕ}

theorem kappa0_node (hN : 2 ≤ N) {i j : ℕ} (hi : i < N) (hj : j < N) : kappa0 N j (i * hh (2 * N - 2)) = some (if i = j then 1 else 0) := by
  have hM : 0 < 2 * N - 2 := by omega
  have hM' : ((2 * N - 2 : ℕ) : ℝ) ≠ 0 := by positivity
  have h1 : alpha (2 * N - 2) j (i * hh (2 * N - 2)) = some (if i = j then 1 else 0) := by
    rw [alpha_node (m := (i : ℤ) - j) hM (by unfold hh; push_cast; ring) (by omega) (by omega)]
    simp [sub_eq_zero]
  unfold kappa0
  by_cases h : j = 0 ∨ j = N - 1
  · rw [if_pos h, h1]
  · have h2 : alpha (2 * N - 2) j (2 * π - i * hh (2 * N - 2)) = some 0 := by
      rw [alpha_node (m := ((2 * N - 2 : ℕ) : ℤ) - i - j) hM (by unfold hh; push_cast; field_simp) (by omega) (by omega), if_neg (by omega)]
    rw [if_neg h, h1, h2]; simp [oadd]

theorem kappad0_node (hN : 2 ≤ N) {i j : ℕ} (hi : i < N - 1) (hj : j < N - 1) :
    kappad0 N j (hh (2 * N - 2) / 2 + i * hh (2 * N - 2)) = some (if i = j then 1 else 0) := by
  have hM : 0 < 2 * N - 2 := by omega
  have hM' : ((2 * N - 2 : ℕ) : ℝ) ≠ 0 := by positivity
  have h1 : alpha (2 * N - 2) (j + 1 / 2) (hh (2 * N - 2) / 2 + i * hh (2 * N - 2)) = some (if i = j then 1 else 0) := by
    rw [alpha_node (m := (i : ℤ) - j) hM (by unfold hh; push_cast; ring) (by omega) (by omega)]
    simp [sub_eq_zero]
  have h2 : alpha (2 * N - 2) (j + 1 / 2) (2 * π - (hh (2 * N - 2) / 2 + i * hh (2 * N - 2))) = some 0 := by
    rw [alpha_node (m := ((2 * N - 2 : ℕ) : ℤ) - i - j - 1) hM (by unfold hh; push_cast; field_simp; ring) (by omega) (by omega), if_neg (by omega)]
  unfold kappad0
  rw [h1, h2]; simp [oadd]

theorem continuous_kappa1 (N n : ℕ) : Continuous (kappa1 N n) := by
  unfold kappa1
  exact (continuous_beta _ _).sub ((continuous_beta _ _).comp (by fun_prop))

theorem continuous_kappa1_symm (N n : ℕ) : Continuous (kappa1_symm N n) := by
  unfold kappa1_symm
  exact (continuous_beta _ _).add ((continuous_beta _ _).comp (by fun_prop))

theorem continuous_kappad1_symm (N n : ℕ) : Continuous (kappad1_symm N n) := by
  unfold kappad1_symm
  exact (continuous_beta _ _).add ((continuous_beta _ _).comp (by fun_prop))

theorem pi_div_M (hN : 2 ≤ N) : π / (2 * N - 2 : ℕ) = hh (2 * N - 2) / 2 := by unfold hh; ring

/-- The two integrals behind `kappa1` over the primal edge `i`. -/
theorem edge_integrals (hN : 2 ≤ N) {i j : ℕ} (hi : i < N - 1) (hj : j < N - 1) :
    ∫ x in (i * hh (2 * N - 2))..((i + 1) * hh (2 * N - 2)), beta (2 * N - 2) (j + 1 / 2) x = (if i = j then 1 else 0) ∧
    ∫ x in (i * hh (2 * N - 2))..((i + 1) * hh (2 * N - 2)), beta (2 * N - 2) (j + 1 / 2) (2 * π - x) = 0 := by
  have hM : 0 < 2 * N - 2 := by omega
  have hM' : ((2 * N - 2 : ℕ) : ℝ) ≠ 0 := by positivity
  have hp := pi_div_M hN
  have e1 : (i : ℝ) * hh (2 * N - 2) = (hh (2 * N - 2) / 2 + i * hh (2 * N - 2)) - π / (2 * N - 2 : ℕ) := by rw [hp]; ring
  have e2 : ((i : ℝ) + 1) * hh (2 * N - 2) = (hh (2 * N - 2) / 2 + i * hh (2 * N - 2)) + π / (2 * N - 2 : ℕ) := by rw [hp]; ring
  rw [e1, e2, integral_beta_cell hM, integral_beta_reflect hM]
  constructor
  · have e : hh (2 * N - 2) / 2 + i * hh (2 * N - 2) - 2 * π / (2 * N - 2 : ℕ) * (j + 1 / 2) = 2 * π / (2 * N - 2 : ℕ) * ((i : ℤ) - j : ℤ) := by
      unfold hh; push_cast; ring
    rw [e, Ak_node' hM (by omega) (by omega)]; simp [sub_eq_zero]
  · have e : hh (2 * N - 2) / 2 + i * hh (2 * N - 2) + 2 * π / (2 * N - 2 : ℕ) * (j + 1 / 2) = 2 * π / (2 * N - 2 : ℕ) * ((i : ℤ) + j + 1 : ℤ) := by
      unfold hh; push_cast; ring
    rw [e, Ak_node' hM (by omega) (by omega), if_neg (by omega)]

theorem integral_kappa1 (hN : 2 ≤ N) {i j : ℕ} (hi : i < N - 1) (hj : j < N - 1) :
    ∫ x in (i * hh (2 * N - 2))..((i + 1) * hh (2 * N - 2)), kappa1 N j x = if i = j then 1 else 0 := by
  obtain ⟨h1, h2⟩ := edge_integrals hN hi hj
  have h := intervalIntegral.integral_sub (μ := MeasureTheory.volume) (a := i * hh (2 * N - 2)) (b := (i + 1) * hh (2 * N - 2)) ((continuous_beta (2 * N - 2) (j + 1 / 2)).intervalIntegrable _ _)
    ((continuous_beta_reflect (2 * N - 2) (j + 1 / 2)).intervalIntegrable _ _)
  rw [h1, h2, sub_zero] at h
  exact h

theorem integral_kappa1_symm (hN : 2 ≤ N) {i j : ℕ} (hi : i < N - 1) (hj : j < N - 1) :
    ∫ x in (i * hh (2 * N - 2))..((i + 1) * hh (2 * N - 2)), kappa1_symm N j x = if i = j then 1 else 0 := by
  obtain ⟨h1, h2⟩ := edge_integrals hN hi hj
  have h := intervalIntegral.integral_add (μ := MeasureTheory.volume) (a := i * hh (2 * N - 2)) (b := (i + 1) * hh (2 * N - 2)) ((continuous_beta (2 * N - 2) (j + 1 / 2)).intervalIntegrable _ _)
    ((continuous_beta_reflect (2 * N - 2) (j + 1 / 2)).intervalIntegrable _ _)
  rw [h1, h2, add_zero] at h
  exact h

/-- The two integrals over the interval of one cell around the vertex `i`. -/
theorem dual_integrals (hN : 2 ≤ N) {i j : ℕ} (hi : i < N) (hj : j < N) :
    ∫ x in (i * hh (2 * N - 2) - hh (2 * N - 2) / 2)..(i * hh (2 * N - 2) + hh (2 * N - 2) / 2), beta (2 * N - 2) j x = (if i = j then 1 else 0) ∧
    ∫ x in (i * hh (2 * N - 2) - hh (2 * N - 2) / 2)..(i * hh (2 * N - 2) + hh (2 * N - 2) / 2), beta (2 * N - 2) j (2 * π - x)
      = if i = j ∧ (i = 0 ∨ i = N - 1) then 1 else 0 := by
  have hM : 0 < 2 * N - 2 := by omega
  have hM' : ((2 * N - 2 : ℕ) : ℝ) ≠ 0 := by positivity
  rw [← pi_div_M hN, integral_beta_cell hM, integral_beta_reflect hM]
  constructor
  · have e : i * hh (2 * N - 2) - 2 * π / (2 * N - 2 : ℕ) * j = 2 * π / (2 * N - 2 : ℕ) * ((i : ℤ) - j : ℤ) := by
      unfold hh; push_cast; ring
    rw [e, Ak_node' hM (by omega) (by omega)]; simp [sub_eq_zero]
  · have e : i * hh (2 * N - 2) + 2 * π / (2 * N - 2 : ℕ) * j = 2 * π / (2 * N - 2 : ℕ) * ((i : ℤ) + j : ℤ) := by
      unfold hh; push_cast; ring
    rw [e, Ak_node hM]
    have : ((2 * N - 2 : ℕ) : ℤ) ∣ (i : ℤ) + j ↔ i = j ∧ (i = 0 ∨ i = N - 1) := by
      constructor
      · rintro ⟨k, hk⟩
        have hk0 : 0 ≤ k := by
          by_contra hneg
          have : ((2 * N - 2 : ℕ) : ℤ) * k < 0 := by nlinarith
          omega
        have hk2 : k < 2 := by
          by_contra hge
          have : ((2 * N - 2 : ℕ) : ℤ) * 2 ≤ ((2 * N - 2 : ℕ) : ℤ) * k := by nlinarith
          omega
        have : k = 0 ∨ k = 1 := by omega
        rcases this with rfl | rfl <;> omega
      · rintro ⟨rfl, h | h⟩
        · exact ⟨0, by omega⟩
        · exact ⟨1, by omega⟩
    simp only [this]

theorem kappad1_symm_even (N n : ℕ) (x : ℝ) : kappad1_symm N n (-x) = kappad1_symm N n x := by
  unfold kappad1_symm
  rw [beta_reflect, beta_reflect]
  unfold beta
  rw [← beta0_even (2 * N - 2) (-x - _), ← beta0_even (2 * N - 2) (-x + _)]
  rw [add_comm]
  congr 2 <;> ring

theorem kappad1_symm_pi (N n : ℕ) (x : ℝ) : kappad1_symm N n (2 * π - x) = kappad1_symm N n x := by
  unfold kappad1_symm
  rw [show 2 * π - (2 * π - x) = x by ring]; ring

/-- The integral of a function over half of a cell around a centre of symmetry. -/
theorem half_integral {f : ℝ → ℝ} (hf : Continuous f) (c w : ℝ) (hs : ∀ x, f (2 * c - x) = f x) :
    ∫ x in c..(c + w), f x = (∫ x in (c - w)..(c + w), f x) / 2 ∧ ∫ x in (c - w)..c, f x = (∫ x in (c - w)..(c + w), f x) / 2 := by
  have h1 : ∫ x in (c - w)..c, f x = ∫ x in c..(c + w), f x := by
    have h := intervalIntegral.integral_comp_sub_left f (2 * c) (a := c) (b := c + w)
    simp only [hs] at h
    rw [h]; congr 1 <;> ring
  have h2 := intervalIntegral.integral_add_adjacent_intervals (hf.intervalIntegrable (c - w) c (μ := MeasureTheory.volume)) (hf.intervalIntegrable c (c + w))
  constructor <;> linarith

/-- Integrals of `kappad1_symm` over the dual edges, with the half edges at both ends. -/
theorem integral_kappad1_symm (hN : 2 ≤ N) {i j : ℕ} (hi : i < N) (hj : j < N) :
    ∫ x in (if i = 0 then 0 else i * hh (2 * N - 2) - hh (2 * N - 2) / 2)..(if i < N - 1 then i * hh (2 * N - 2) + hh (2 * N - 2) / 2 else π), kappad1_symm N j x
      = if i = j then 1 else 0 := by
  obtain ⟨h1, h2⟩ := dual_integrals hN hi hj
  have hfull : ∫ x in (i * hh (2 * N - 2) - hh (2 * N - 2) / 2)..(i * hh (2 * N - 2) + hh (2 * N - 2) / 2), kappad1_symm N j x
      = (if i = j then 1 else 0) + if i = j ∧ (i = 0 ∨ i = N - 1) then 1 else 0 := by
    rw [← h1, ← h2]
    exact intervalIntegral.integral_add ((continuous_beta _ _).intervalIntegrable _ _) (((continuous_beta _ _).comp (by fun_prop)).intervalIntegrable _ _)
  by_cases h0 : i = 0
  · subst h0
    rw [if_pos rfl, if_pos (by omega)]
    have h := (half_integral (continuous_kappad1_symm N j) 0 (hh (2 * N - 2) / 2) (fun x => by rw [show 2 * 0 - x = -x by ring, kappad1_symm_even])).1
    simp only [Nat.cast_zero, zero_mul] at hfull ⊢
    rw [h, hfull]
    by_cases hij : 0 = j <;> simp [hij]
  · rw [if_neg h0]
    by_cases hl : i < N - 1
    · rw [if_pos hl, hfull, if_neg (c := i = j ∧ (i = 0 ∨ i = N - 1)) (by omega), add_zero]
    · rw [if_neg hl]
      have hi' : i = N - 1 := by omega
      have hpi : (i : ℝ) * hh (2 * N - 2) = π := by rw [hi']; exact mul_hh_double hN
      rw [hpi] at hfull ⊢
      rw [(half_integral (continuous_kappad1_symm N j) π (hh (2 * N - 2) / 2) (fun x => kappad1_symm_pi N j x)).2, hfull]
      by_cases hij : i = j <;> simp [hij]
      rw [if_pos (by omega)]; norm_num

end kappa

theorem IsInterval.dualBasis {g : Grid1} {v w : ℕ → ℝ} (hI : IsInterval g v w)
    (h0 : ∀ i < g.n, ∀ j < g.n, g.B 0 true j (v i) = some (if i = j then 1 else 0))
    (h0d : ∀ i < g.n - 1, ∀ j < g.n - 1, g.B 0 false j (w i) = some (if i = j then 1 else 0))
    (h1 : ∀ i < g.n - 1, ∀ j < g.n - 1, OInt (g.B 1 true j) (v i) (v (i + 1)) (if i = j then 1 else 0))
    (h1d : ∀ i < g.n, ∀ j < g.n, OInt (g.B 1 false j) (if i = 0 then g.xmin else w (i - 1)) (if i < g.n - 1 then w i else g.xmax) (if i = j then 1 else 0)) :
    DualBasis g := by
  refine ⟨?_, ?_, ?_, ?_, ?_⟩
  · intro t; cases t
    · rw [hI.verts_dual, hI.N00, length_tab]
    · rw [hI.verts, hI.N01, length_tab]
  · intro t; cases t
    · rw [hI.edges_dual, hI.N10, length_tab]
    · rw [hI.edges, hI.N11, length_tab]
  · intro t; cases t
    · rw [hI.edges_dual, hI.N10, length_tab]
    · rw [hI.edges, hI.N11, length_tab]
  · intro t; cases t
    · intro i hi j hj
      rw [hI.N00] at hi hj
      rw [hI.verts_dual, getD_tab hi]
      exact h0d i hi j hj
    · intro i hi j hj
      rw [hI.N01] at hi hj
      rw [hI.verts, getD_tab hi]
      exact h0 i hi j hj
  · intro t; cases t
    · intro i hi j hj
      rw [hI.N10] at hi hj
      rw [hI.edges_dual]
      dsimp only
      rw [getD_tab hi, getD_tab hi]
      exact h1d i hi j hj
    · intro i hi j hj
      rw [hI.N11] at hi hj
      rw [hI.edges]
      dsimp only
      rw [getD_tab hi, getD_tab hi]
      exact h1 i hi j hj

theorem ends_regular {n : ℕ} (hn : 2 ≤ n) {i : ℕ} (hi : i < n) :
    0 ≤ (if i = 0 then 0 else i * hh (2 * n - 2) - hh (2 * n - 2) / 2) ∧
    (if i = 0 then 0 else i * hh (2 * n - 2) - hh (2 * n - 2) / 2) ≤ (if i < n - 1 then i * hh (2 * n - 2) + hh (2 * n - 2) / 2 else π) ∧
    (if i < n - 1 then i * hh (2 * n - 2) + hh (2 * n - 2) / 2 else π) ≤ π := by
  have hpos : 0 < hh (2 * n - 2) := hh_pos (by omega)
  have hpi : ((n - 1 : ℕ) : ℝ) * hh (2 * n - 2) = π := mul_hh_double hn
  have hi2 : (i : ℝ) ≤ (n - 1 : ℕ) := by exact_mod_cast (by omega : i ≤ n - 1)
  have h3 : i ≠ 0 → (1 : ℝ) ≤ i := fun h => by exact_mod_cast (by omega : 1 ≤ i)
  have h4 : i < n - 1 → (i : ℝ) + 1 ≤ (n - 1 : ℕ) := fun h => by exact_mod_cast (by omega : i + 1 ≤ n - 1)
  have h5 : (0 : ℝ) ≤ i := by positivity
  refine ⟨?_, ?_, ?_⟩
  · split_ifs with h1
    · exact le_rfl
    · have := h3 h1; nlinarith
  · split_ifs with h1 h2 h2
    · nlinarith
    · exact pi_pos.le
    · linarith
    · nlinarith
  · split_ifs with h2
    · have := h4 h2; nlinarith
    · exact le_rfl

theorem Regular.dualBasis {n : ℕ} (hn : 2 ≤ n) : DualBasis (Regular.make n) := by
  have hh1 : (π - 0) / ((n - 1 : ℕ) : ℝ) = hh (2 * n - 2) := by rw [hh_double hn, sub_zero]
  have hI := Regular.isInterval hn 0 π
  rw [hh1] at hI
  have hpos : 0 < hh (2 * n - 2) := hh_pos (by omega)
  refine hI.dualBasis (fun i hi j hj => ?_) (fun i hi j hj => ?_) (fun i hi j hj => ?_) (fun i hi j hj => ?_)
  · show kappa0 n j _ = _
    beta_reduce
    rw [zero_add]
    exact kappa0_node hn hi hj
  · show kappad0 n j _ = _
    beta_reduce
    rw [show (0 : ℝ) + (i + 1 / 2) * hh (2 * n - 2) = hh (2 * n - 2) / 2 + i * hh (2 * n - 2) by ring]
    exact kappad0_node hn hi hj
  · beta_reduce
    rw [zero_add, zero_add, show ((i + 1 : ℕ) : ℝ) * hh (2 * n - 2) = (i + 1) * hh (2 * n - 2) by push_cast; ring]
    exact OInt.of_cont (b := kappa1_symm n j) (by nlinarith) (continuous_kappa1_symm n j) (fun s _ => rfl) (integral_kappa1_symm hn hi hj)
  · have hi : i < n := hi
    have hj : j < n := hj
    show OInt _ (if i = 0 then 0 else 0 + (((i - 1 : ℕ) : ℝ) + 1 / 2) * hh (2 * n - 2)) (if i < n - 1 then 0 + ((i : ℝ) + 1 / 2) * hh (2 * n - 2) else π) _
    have e1 : (if i = 0 then 0 else 0 + (((i - 1 : ℕ) : ℝ) + 1 / 2) * hh (2 * n - 2)) = if i = 0 then 0 else i * hh (2 * n - 2) - hh (2 * n - 2) / 2 := by
      split_ifs with h
      · rfl
      · have : ((i - 1 : ℕ) : ℝ) = i - 1 := by rw [Nat.cast_sub (by omega)]; simp
        rw [this]; ring
    have e2 : (if i < n - 1 then 0 + ((i : ℝ) + 1 / 2) * hh (2 * n - 2) else π) = if i < n - 1 then i * hh (2 * n - 2) + hh (2 * n - 2) / 2 else π := by
      split_ifs with h
      · ring
      · rfl
    rw [e1, e2]
    obtain ⟨_, hle, _⟩ := ends_regular hn hi
    exact OInt.of_cont (b := kappad1_symm n j) hle (continuous_kappad1_symm n j) (fun s _ => rfl) (integral_kappad1_symm hn hi hj)

/-! ## The Chebyshev grid -/

/-- An antiderivative of `delta` is `-cos((N-1) x) (1 + cos x) / 2`. -/
noncomputable def deltaf (N : ℕ) (x : ℝ) : ℝ := (((N : ℝ) - 1) ^ 2 * Ak (2 * N - 2) x + 1 / 2 * cos ((N - 1) * x)) * sin x

theorem continuous_deltaf (N : ℕ) : Continuous (deltaf N) := by
  unfold deltaf
  have := (Ak_isTrig (2 * N - 2)).continuous
  fun_prop

theorem delta_eq {N : ℕ} (hN : 2 ≤ N) {x : ℝ} (h0 : 0 < x) (h1 : x < 2 * π) : Sp.delta N x = some (deltaf N x) := by
  unfold Sp.delta alpha deltaf
  rw [mul_zero, sub_zero, alpha0_eq (by omega) (.inr ?_)]
  · rfl
  · exact (sin_pos_of_pos_of_lt_pi (by linarith) (by linarith)).ne'

theorem deltaf_closed {N : ℕ} (hN : 2 ≤ N) (x : ℝ) :
    deltaf N x = (N - 1) / 2 * sin ((N - 1) * x) * (1 + cos x) + 1 / 2 * cos ((N - 1) * x) * sin x := by
  have h := Ak_mul (N := 2 * N - 2) (by omega) x
  have hc : ((2 * N - 2 : ℕ) : ℝ) = 2 * (N - 1) := by
    rw [Nat.cast_sub (by omega)]; push_cast; ring
  rw [if_pos (by omega), hc, show 2 * ((N : ℝ) - 1) * x / 2 = (N - 1) * x by ring] at h
  have hs : sin x = 2 * sin (x / 2) * cos (x / 2) := by rw [← sin_two_mul]; congr 1; ring
  have hcx : cos x = 2 * cos (x / 2) ^ 2 - 1 := by rw [← cos_two_mul]; congr 1; ring
  unfold deltaf
  rw [add_mul]
  congr 1
  rw [hs, hcx]
  linear_combination (((N : ℝ) - 1) * cos (x / 2)) * h

theorem integral_deltaf {N : ℕ} (hN : 2 ≤ N) (a b : ℝ) :
    ∫ x in a..b, deltaf N x = cos ((N - 1) * a) * (1 + cos a) / 2 - cos ((N - 1) * b) * (1 + cos b) / 2 := by
  have h : ∀ x, HasDerivAt (fun x => -(cos ((N - 1) * x) * (1 + cos x) / 2)) (deltaf N x) x := fun x => by
    have h1 : HasDerivAt (fun x : ℝ => ((N : ℝ) - 1) * x) (N - 1) x := by simpa using (hasDerivAt_id x).const_mul ((N : ℝ) - 1)
    refine ((h1.cos.mul ((hasDerivAt_cos x).const_add 1)).div_const 2).neg.congr_deriv ?_
    rw [deltaf_closed hN]; ring
  rw [intervalIntegral.integral_eq_sub_of_hasDerivAt (fun x _ => h x) ((continuous_deltaf N).intervalIntegrable _ _)]
  ring

end Dec
