import Verif.Props.Lagrange
import Verif.Props.Chebyshev

set_option linter.unusedSimpArgs false
set_option linter.unusedVariables false

/-! # The star on dual 0-forms of a Chebyshev grid is injective: C05 -/

namespace Dec.Props

open Finset Real Sp Polynomial

/-- A polynomial of degree less than the number of consecutive intervals over which its integrals vanish is zero. -/
theorem poly_zero_of_integrals {m : ℕ} {x : ℕ → ℝ} (hx : ∀ i < m, x i < x (i + 1)) {P : ℝ[X]} (hd : P.degree < m)
    (h : ∀ i < m, ∫ y in (x i)..(x (i + 1)), P.eval y = 0) : P = 0 := by
  have hc : Continuous fun y => P.eval y := P.continuous
  have root : ∀ i, ∃ c, i < m → x i < c ∧ c < x (i + 1) ∧ P.eval c = 0 := fun i => by
    by_cases hi : i < m
    · obtain ⟨c, hc1, hc2⟩ := exists_hasDerivAt_eq_zero (f := fun u => ∫ y in (x i)..u, P.eval y) (f' := fun u => P.eval u) (hx i hi)
        (continuous_iff_continuousAt.2 fun u => (intervalIntegral.integral_hasDerivAt_right (hc.intervalIntegrable _ _) (hc.stronglyMeasurableAtFilter _ _) hc.continuousAt).continuousAt).continuousOn
        (by beta_reduce; rw [intervalIntegral.integral_same, h i hi])
        (fun u _ => intervalIntegral.integral_hasDerivAt_right (hc.intervalIntegrable _ _) (hc.stronglyMeasurableAtFilter _ _) hc.continuousAt)
      exact ⟨c, fun _ => ⟨hc1.1, hc1.2, hc2⟩⟩
    · exact ⟨0, fun h => absurd h hi⟩
  choose c hcr using root
  have mono : ∀ k i, i < m → i + k < m → x i ≤ x (i + k) := by
    intro k
    induction k with
    | zero => intro i _ _; exact le_rfl
    | succ k ih => intro i hi hk; exact (ih i hi (by omega)).trans (hx (i + k) (by omega)).le
  have lt : ∀ i j, i < j → j < m → c i < c j := by
    intro i j hij hj
    have h1 := (hcr i (by omega)).2.1
    have h2 := (hcr j hj).1
    have h3 := mono (j - (i + 1)) (i + 1) (by omega) (by omega)
    rw [show i + 1 + (j - (i + 1)) = j by omega] at h3
    linarith
  refine eq_zero_of_degree_lt_of_eval_index_eq_zero (s := range m) (v := c) (fun i hi j hj hij => ?_) (by rwa [card_range]) fun i hi => (hcr i (mem_range.1 hi)).2.2
  have hi' : i < m := by simpa using hi
  have hj' : j < m := by simpa using hj
  rcases lt_trichotomy i j with h | h | h
  · exact absurd hij (lt i j h hj').ne
  · exact h
  · exact absurd hij (lt j i h hi').ne'

/-- C05: on every Chebyshev grid the star on dual 0-forms is injective.  So the star on primal 1-forms, its inverse, is well defined for every size,
although the code rejects all forms from 928 vertices on (`C05_chebyshev_hodge_rejects`). -/
theorem C05_dual_star_injective (n : ℕ) (hn : 2 ≤ n) (xmin xmax : ℝ) (a b : List ℝ) (ha : a.length = n - 1) (hb : b.length = n - 1)
    (h : (Chebyshev.make n xmin xmax).H 0 false a = (Chebyshev.make n xmin xmax).H 0 false b) : a = b := by
  replace h : (Chebyshev.make n).H 0 false a = (Chebyshev.make n).H 0 false b := h
  have hpos : 0 < hh (2 * n - 2) := hh_pos (by omega)
  have hle : ∀ j < n - 1, ((j : ℝ) + 1) * hh (2 * n - 2) ≤ π := fun j hj => by
    rw [← mul_hh_double hn]
    have : (j : ℝ) + 1 ≤ (n - 1 : ℕ) := by exact_mod_cast (by omega : j + 1 ≤ n - 1)
    exact mul_le_mul_of_nonneg_right this hpos.le
  let z : ℕ → ℝ := fun j => -cos (hh (2 * n - 2) / 2 + j * hh (2 * n - 2))
  have hz : Set.InjOn z (range (n - 1)) := by
    intro i hi j hj hij
    have hi' : i < n - 1 := by simpa using hi
    have hj' : j < n - 1 := by simpa using hj
    have := injOn_cos ⟨by positivity, by have := hle i hi'; nlinarith⟩ ⟨by positivity, by have := hle j hj'; nlinarith⟩ (neg_injective hij)
    exact_mod_cast mul_right_cancel₀ hpos.ne' (add_left_cancel this)
  have rep : ∀ c : List ℝ, c.length = n - 1 → ∃ P : ℝ[X], P.degree < (n - 1 : ℕ) ∧ IsPoly (n - 1) (fun y => P.eval y) ∧ (Chebyshev.make n).P 0 false (fun y => P.eval y) = c := by
    intro c hcl
    have hd : (Lagrange.interpolate (range (n - 1)) z fun i => c.getD i 0).degree < (n - 1 : ℕ) := by
      have := Lagrange.degree_interpolate_lt (fun i => c.getD i 0) hz
      rwa [card_range] at this
    refine ⟨_, hd, isPoly_eval ?_, ?_⟩
    · by_cases h0 : (Lagrange.interpolate (range (n - 1)) z fun i => c.getD i 0) = 0
      · rw [h0, natDegree_zero]; omega
      · exact (natDegree_lt_iff_degree_lt h0).2 hd
    rw [Chebyshev.P0d hn]
    conv_rhs => rw [eq_tab' hcl 0]
    exact tab_congr fun i hi => Lagrange.eval_interpolate_at_node _ hz (by simpa using hi)
  obtain ⟨P, hP1, hP2, hP3⟩ := rep a ha
  obtain ⟨Q, hQ1, hQ2, hQ3⟩ := rep b hb
  have eP := (C06_chebyshev_hodge_exact_dual n hn _ hP2).1
  have eQ := (C06_chebyshev_hodge_exact_dual n hn _ hQ2).1
  rw [hP3] at eP
  rw [hQ3] at eQ
  rw [eP, eQ] at h
  have h1 := Except.ok.inj h
  rw [(Chebyshev.isInterval hn (-1) 1).P1, (Chebyshev.isInterval hn (-1) 1).P1] at h1
  have hz0 : P - Q = 0 := by
    refine poly_zero_of_integrals (m := n - 1) (x := fun i => -cos (i * hh (2 * n - 2))) (fun i hi => ?_) ((degree_sub_le _ _).trans_lt (max_lt hP1 hQ1)) fun i hi => ?_
    · have h2 := hle i hi
      have := strictAntiOn_cos (a := i * hh (2 * n - 2)) (b := (i + 1 : ℕ) * hh (2 * n - 2)) ⟨by positivity, by push_cast; nlinarith⟩ ⟨by positivity, by push_cast; exact h2⟩ (by push_cast; nlinarith)
      exact neg_lt_neg this
    · have := congrArg (·.getD i 0) h1
      simp only [getD_tab (show i < (Chebyshev.make n).n - 1 from hi), Chebyshev.pt_default, ← hh_double hn] at this
      simp only [eval_sub]
      rw [intervalIntegral.integral_sub (P.continuous.intervalIntegrable _ _) (Q.continuous.intervalIntegrable _ _)]
      exact sub_eq_zero.2 this
  rw [← hP3, ← hQ3, sub_eq_zero.1 hz0]

/-- Two different arrays on the dual vertices of a grid with 1000 vertices. -/
example : (List.replicate 999 (1 : ℝ)).length = 1000 - 1 ∧ (List.replicate 999 (2 : ℝ)).length = 1000 - 1 :=
  ⟨List.length_replicate, List.length_replicate⟩

end Dec.Props
