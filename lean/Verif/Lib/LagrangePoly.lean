import Verif.Model.Spectral
import Verif.Lib.Tab
import Verif.Spec
import Mathlib.LinearAlgebra.Lagrange

set_option linter.unusedSimpArgs false
set_option linter.unusedVariables false

/-! Lagrange polynomials. -/

namespace Dec

open Finset Dec.Sp Polynomial

theorem foldl_mul (l : List ℝ) (a : ℝ) : l.foldl (· * ·) a = a * l.prod := by
  induction l generalizing a with
  | nil => simp
  | cons b l ih => rw [List.foldl_cons, ih, List.prod_cons, mul_assoc]

/-- Polynomials of Mathlib with fewer than `m` coefficients. -/
theorem isPoly_eval {m : ℕ} {P : ℝ[X]} (h : P.natDegree < m) : IsPoly m (fun y => P.eval y) :=
  ⟨fun k => P.coeff k, fun x => Polynomial.eval_eq_sum_range' h x⟩

theorem IsPoly.exists_eval {m : ℕ} {p : ℝ → ℝ} (h : IsPoly m p) : ∃ P : ℝ[X], P.degree < m ∧ ∀ x, p x = P.eval x := by
  obtain ⟨a, ha⟩ := h
  refine ⟨∑ k ∈ range m, Polynomial.C (a k) * X ^ k, ?_, fun x => ?_⟩
  · rcases Nat.eq_zero_or_pos m with rfl | hm
    · simp
    refine lt_of_le_of_lt (Polynomial.degree_sum_le _ _) ?_
    rw [Finset.sup_lt_iff (by exact WithBot.bot_lt_coe m)]
    intro k hk
    refine lt_of_le_of_lt (Polynomial.degree_C_mul_X_pow_le k (a k)) ?_
    exact_mod_cast mem_range.1 hk
  · rw [ha, Polynomial.eval_finset_sum]
    exact Finset.sum_congr rfl fun k _ => by simp

theorem getD_injOn {x : List ℝ} (hx : x.Nodup) : Set.InjOn (fun j => x.getD j 0) (range x.length : Set ℕ) := by
  intro i hi j hj h
  simp only [coe_range, Set.mem_Iio] at hi hj
  simp only [List.getD_eq_getElem?_getD, List.getElem?_eq_getElem hi, List.getElem?_eq_getElem hj, Option.getD_some] at h
  exact (List.Nodup.getElem_inj_iff hx).1 h

/-- The code computes the Lagrange basis polynomial. -/
theorem lagrange_eq {x : List ℝ} (hx : x.Nodup) (h2 : 2 ≤ x.length) {i : ℕ} (hi : i < x.length) (y : ℝ) :
    lagrange x i y = .ok ((Lagrange.basis (range x.length) (fun j => x.getD j 0) i).eval y) := by
  have hne : ∀ j ∈ (List.range x.length).filter (· ≠ i), x.getD i 0 - x.getD j 0 ≠ 0 := fun j hj h => by
    simp only [List.mem_filter, List.mem_range, decide_eq_true_eq] at hj
    exact hj.2 (getD_injOn hx (by simpa using hj.1) (by simpa using hi) (by simpa using (sub_eq_zero.1 h).symm))
  unfold lagrange
  simp only
  rw [if_neg]
  · have hprod : ((Lagrange.basis (range x.length) (fun j => x.getD j 0) i).eval y)
        = (((List.range x.length).filter (· ≠ i)).map (fun j => (y - x.getD j 0) / (x.getD i 0 - x.getD j 0))).prod := by
      rw [Lagrange.basis, Polynomial.eval_prod]
      have hnd : ((List.range x.length).filter (· ≠ i)).Nodup := List.nodup_range.filter _
      rw [← List.prod_toFinset _ hnd]
      refine Finset.prod_congr ?_ fun j _ => ?_
      · ext j; simp [and_comm]
      · simp [Lagrange.basisDivisor]; rw [div_eq_mul_inv, mul_comm]
    rw [hprod]
    cases hl : ((List.range x.length).filter (· ≠ i)).map (fun j => (y - x.getD j 0) / (x.getD i 0 - x.getD j 0)) with
    | nil =>
      exfalso
      rw [List.map_eq_nil_iff, List.filter_eq_nil_iff] at hl
      rcases Nat.eq_zero_or_pos i with rfl | h0
      · exact hl 1 (by simp; omega) (by simp)
      · exact hl 0 (by simp; omega) (by simp; omega)
    | cons q qs => simp only; rw [foldl_mul, List.prod_cons]
  · simp only [List.any_eq_true, decide_eq_true_eq, not_exists, not_and]
    exact hne

theorem basis_isPoly {x : List ℝ} (hx : x.Nodup) {i : ℕ} (hi : i < x.length) :
    IsPoly x.length (fun y => (Lagrange.basis (range x.length) (fun j => x.getD j 0) i).eval y) := by
  have hd := Lagrange.degree_basis (s := range x.length) (i := i) (getD_injOn hx) (by simpa using hi)
  refine isPoly_eval ?_
  rw [Polynomial.natDegree_lt_iff_degree_lt]
  · rw [hd, card_range]
    exact_mod_cast (by omega : x.length - 1 < x.length)
  · intro h; rw [h] at hd; simp at hd

end Dec
