import Verif.Lib.Factors
import Verif.Props.Poisson

set_option linter.unusedSimpArgs false
set_option linter.unusedVariables false

/-! # Kernel and image of the one-dimensional derivatives -/

namespace Dec.G2

open Finset Dec.Props

/-- The derivative by a matrix, its sums, its image and its kernel. `op`: the ends of the line are free, `fr`: constants are in the kernel. -/
structure Coh (g : Grid1) (t : Bool) (op fr : Prop) (A : ℕ → ℕ → ℝ) : Prop where
  d : HasMat (g.N 0 t) (g.N 1 t) (g.d0 t) A
  sum_op : op → ∀ f : ℕ → ℝ, ∑ i ∈ range (g.N 1 t), ∑ j ∈ range (g.N 0 t), A i j * f j = f (g.N 0 t - 1) - f 0
  sum_cl : ¬ op → ∀ f : ℕ → ℝ, ∑ i ∈ range (g.N 1 t), ∑ j ∈ range (g.N 0 t), A i j * f j = 0
  im : ∀ X : ℕ → ℝ, (op ∨ ∑ i ∈ range (g.N 1 t), X i = 0) → ∃ f : ℕ → ℝ, ∀ i < g.N 1 t, ∑ j ∈ range (g.N 0 t), A i j * f j = X i
  ker_fr : fr → ∀ f : ℕ → ℝ, (∀ i < g.N 1 t, ∑ j ∈ range (g.N 0 t), A i j * f j = 0) → ∀ i < g.N 0 t, f i = f 0
  ker_cl : ¬ fr → ∀ f : ℕ → ℝ, (∀ i < g.N 1 t, ∑ j ∈ range (g.N 0 t), A i j * f j = 0) → ∀ i < g.N 0 t, f i = 0
  const : fr → ∀ c : ℝ, ∀ i < g.N 1 t, ∑ j ∈ range (g.N 0 t), A i j * c = 0

theorem mat_eq {n m : ℕ} {h : List ℝ → Except Err (List ℝ)} {A : ℕ → ℕ → ℝ} (hA : HasMat n m h A) {f : ℕ → ℝ} {e : ℕ → ℝ} (he : h (tab n f) = .ok (tab m e))
    {i : ℕ} (hi : i < m) : ∑ j ∈ range n, A i j * f j = e i := by
  have := (hA f).symm.trans he
  rw [Except.ok.injEq, tab_inj] at this
  exact this i hi

theorem coh_interval_primal {g : Grid1} {v w : ℕ → ℝ} (hg : IsInterval g v w) : ∃ A, Coh g true True True A := by
  obtain ⟨A, hA⟩ := ((interval_factor hg).d true).exists_mat
  have h2 := hg.two_le
  have e : ∀ f : ℕ → ℝ, ∀ i < g.N 1 true, ∑ j ∈ range (g.N 0 true), A i j * f j = f (i + 1) - f i := fun f i hi => by
    refine mat_eq hA (e := fun i => f (i + 1) - f i) ?_ hi
    rw [(interval_d0 hg _).1, diff_tab, hg.N01, hg.N11]
  have h1 : g.N 1 true = g.N 0 true - 1 := by rw [hg.N01, hg.N11]
  refine ⟨A, hA, fun _ f => ?_, fun h => absurd trivial h, fun X _ => ⟨fun i => ∑ k ∈ range i, X k, fun i hi => ?_⟩, fun _ f h => ?_, fun h => absurd trivial h, fun _ c i hi => ?_⟩
  · rw [sum_congr rfl fun i hi => e f i (mem_range.1 hi), sum_range_sub, h1]
  · rw [e _ i hi, sum_range_succ]; ring
  · intro i
    induction i with
    | zero => intro _; rfl
    | succ i ih =>
      intro hi
      have := h i (by omega)
      rw [e f i (by omega)] at this
      rw [← ih (by omega)]; linarith
  · rw [e (fun _ => c) i hi, sub_self]

theorem coh_interval_dual {g : Grid1} {v w : ℕ → ℝ} (hg : IsInterval g v w) : ∃ A, Coh g false False False A := by
  obtain ⟨A, hA⟩ := ((interval_factor hg).d false).exists_mat
  have h2 := hg.two_le
  have e : ∀ f : ℕ → ℝ, ∀ i < g.N 1 false, ∑ j ∈ range (g.N 0 false), A i j * f j = (if i < g.n - 1 then f i else 0) - (if i = 0 then 0 else f (i - 1)) := fun f i hi => by
    refine mat_eq hA (e := fun i => (if i < g.n - 1 then f i else 0) - (if i = 0 then 0 else f (i - 1))) ?_ hi
    rw [(interval_d0 hg _).2, hg.N00, hg.diff_zero_pad, hg.N10]
  refine ⟨A, hA, fun h => h.elim, fun _ f => ?_, fun X hX => ⟨fun i => ∑ k ∈ range (i + 1), X k, fun i hi => ?_⟩, fun h => h.elim, fun _ f h => ?_, fun h => h.elim⟩
  · have e' : ∀ i ∈ range (g.N 1 false), ∑ j ∈ range (g.N 0 false), A i j * f j
        = (fun i => if i = 0 then 0 else if i < g.n then f (i - 1) else 0) (i + 1) - (fun i => if i = 0 then 0 else if i < g.n then f (i - 1) else 0) i := fun i hi => by
      rw [mem_range, hg.N10] at hi
      rw [e f i (by rw [hg.N10]; exact hi)]
      simp only [Nat.succ_ne_zero, if_false, Nat.add_sub_cancel]
      have h : i + 1 < g.n ↔ i < g.n - 1 := by omega
      simp only [h, hi, if_true]
    refine (sum_congr rfl e').trans ?_
    rw [sum_range_sub (fun i => if i = 0 then 0 else if i < g.n then f (i - 1) else 0), hg.N10]
    simp
  · have hX := hX.resolve_left id
    rw [hg.N10] at hX hi
    rw [e _ i (by rw [hg.N10]; exact hi)]
    by_cases h : i < g.n - 1
    · rw [if_pos h]
      by_cases h0 : i = 0
      · subst h0; simp
      · rw [if_neg h0, sum_range_succ, Nat.sub_add_cancel (by omega)]; ring
    · have : i = g.n - 1 := by omega
      subst this
      rw [if_neg (by omega), if_neg (by omega), Nat.sub_add_cancel (by omega)]
      have := sum_range_succ X (g.n - 1)
      rw [Nat.sub_add_cancel (by omega), hX] at this
      linarith
  · intro i
    rw [hg.N00]
    induction i with
    | zero =>
      intro hi
      have := h 0 (by rw [hg.N10]; omega)
      rw [e f 0 (by rw [hg.N10]; omega), if_pos (by omega), if_pos rfl] at this
      linarith
    | succ i ih =>
      intro hi
      have := h (i + 1) (by rw [hg.N10]; omega)
      rw [e f _ (by rw [hg.N10]; omega), if_pos (by omega), if_neg (by omega), Nat.add_sub_cancel, ih (by omega)] at this
      linarith

theorem coh_periodic {n : ℕ} (hn : 1 ≤ n) (a b : ℝ) (t : Bool) : ∃ A, Coh (Periodic.make n a b) t False True A := by
  obtain ⟨A, hA⟩ := ((periodic_factor hn a b).d t).exists_mat
  have hN0 : (Periodic.make n a b).N 0 t = n := rfl
  have hN1 : (Periodic.make n a b).N 1 t = n := rfl
  rw [hN0, hN1] at hA
  have ker : ∀ f : ℕ → ℝ, (∀ i < n, ∑ j ∈ range n, A i j * f j = 0) ↔ ∃ c, tab n f = List.replicate n c := fun f => by
    rw [← C10_periodic_kernel n a b t (tab n f) (length_tab _ _), replicate_tab]
    constructor
    · intro h
      refine D_of_d0 ((hA f).trans ?_)
      rw [Except.ok.injEq, tab_inj]; exact h
    · intro h i hi
      exact mat_eq hA (d0_of_D h) hi
  refine ⟨A, ?_⟩
  refine ⟨hA, fun h => h.elim, fun _ f => ?_, fun X hX => ?_, fun _ f h => ?_, fun h => absurd trivial h, fun _ c i hi => ?_⟩
  · rw [hN0, hN1]
    obtain ⟨da, e1, e2⟩ := C10_periodic_stokes n a b t (tab n f) (length_tab _ _)
    have e3 := (hA f).symm.trans (d0_of_D e1)
    rw [Except.ok.injEq] at e3
    rw [← e2, ← e3, sum_tab]
  · rw [hN0, hN1] at *
    have hX := hX.resolve_left id
    obtain ⟨m, rfl⟩ : ∃ m, n = m + 1 := ⟨n - 1, by omega⟩
    rw [sum_range_succ] at hX
    cases t
    · refine ⟨fun i => ∑ k ∈ range (i + 1), X k, fun i hi => ?_⟩
      rw [mat_eq hA (e := fun i => (∑ k ∈ range (i + 1), X k) - ∑ k ∈ range ((i + (m + 1) - 1) % (m + 1) + 1), X k) (by rw [(periodic_d0 _ a b _).2, periodic_D0d_tab]) hi]
      rcases Nat.eq_zero_or_pos i with rfl | h
      · rw [show (0 + (m + 1) - 1) % (m + 1) = m by rw [Nat.mod_eq_of_lt] <;> omega, sum_range_succ X m, hX]; simp
      · rw [show (i + (m + 1) - 1) % (m + 1) = i - 1 by rw [show i + (m + 1) - 1 = i - 1 + (m + 1) by omega, Nat.add_mod_right, Nat.mod_eq_of_lt (by omega)],
          Nat.sub_add_cancel h, sum_range_succ]; ring
    · refine ⟨fun i => ∑ k ∈ range i, X k, fun i hi => ?_⟩
      rw [mat_eq hA (e := fun i => (∑ k ∈ range ((i + 1) % (m + 1)), X k) - ∑ k ∈ range i, X k) (by rw [(periodic_d0 _ a b _).1, periodic_D0_tab]) hi]
      by_cases h : i = m
      · subst h; rw [Nat.mod_self]; simp; linarith
      · rw [Nat.mod_eq_of_lt (by omega), sum_range_succ]; ring
  · rw [hN0, hN1] at *
    obtain ⟨c, hc⟩ := (ker f).1 h
    rw [replicate_tab, tab_inj] at hc
    intro i hi
    rw [hc i hi, hc 0 (by omega)]
  · rw [hN0, hN1] at *
    exact (ker fun _ => c).2 ⟨c, by rw [replicate_tab]⟩ i hi

end Dec.G2

namespace Dec.Props

open Finset Dec.G2

/-- The ends of the line of edges are vertices: primal cells of an interval. -/
def openEnds (k : Kind) (t : Bool) : Prop := k ≠ .periodic ∧ t = true

instance (k : Kind) (t : Bool) : Decidable (openEnds k t) := by unfold openEnds; infer_instance

theorem grid_coh (k : Kind) (n : ℕ) (hn : validSize k n) (a b : ℝ) (t : Bool) : ∃ A, Coh (grid k n a b) t (openEnds k t) (free k t) A := by
  cases k
  · have e1 : openEnds .periodic t = False := by simp [openEnds]
    have e2 : free .periodic t = True := by simp [free]
    rw [e1, e2]; exact coh_periodic hn a b t
  · cases t
    · have e1 : openEnds .regular false = False := by simp [openEnds]
      have e2 : free .regular false = False := by simp [free]
      rw [e1, e2]; exact coh_interval_dual (Regular.isInterval hn a b)
    · have e1 : openEnds .regular true = True := by simp [openEnds]
      have e2 : free .regular true = True := by simp [free]
      rw [e1, e2]; exact coh_interval_primal (Regular.isInterval hn a b)
  · cases t
    · have e1 : openEnds .chebyshev false = False := by simp [openEnds]
      have e2 : free .chebyshev false = False := by simp [free]
      rw [e1, e2]; exact coh_interval_dual (Chebyshev.isInterval hn a b)
    · have e1 : openEnds .chebyshev true = True := by simp [openEnds]
      have e2 : free .chebyshev true = True := by simp [free]
      rw [e1, e2]; exact coh_interval_primal (Chebyshev.isInterval hn a b)

end Dec.Props
