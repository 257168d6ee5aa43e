import Verif.Lib.Symmetry

set_option linter.unusedSimpArgs false
set_option linter.unusedVariables false

/-! Translations and reflections of the three kinds of grids. -/

namespace Dec

open Finset Real G2 Sp

theorem per_shift {f : ℝ → ℝ} {L : ℝ} (hf : Function.Periodic f L) (m : ℤ) (x : ℝ) : f (x + m * L) = f x := hf.int_mul m x

theorem per_int {f : ℝ → ℝ} {L : ℝ} (hf : Function.Periodic f L) (m : ℤ) (A B : ℝ) : (∫ x in (A + m * L)..(B + m * L), f x) = ∫ x in A..B, f x := by
  rw [← intervalIntegral.integral_comp_add_right]
  exact intervalIntegral.integral_congr fun x _ => per_shift hf m x

namespace Periodic

theorem vx_eq {n : ℕ} (a b : ℝ) (t : Bool) {i : ℕ} (h : i < n) : vx (make n a b) t i = a + (i + if t then 0 else 1 / 2) * ((b - a) / n) := by
  cases t
  · rw [vx_tab (show (make n a b).cells.v false = _ from verts_dual_tab n a b) h]; simp
  · rw [vx_tab (show (make n a b).cells.v true = _ from verts_tab n a b) h]; simp

theorem lo_eq {n : ℕ} {a b : ℝ} (hab : a ≤ b) (t : Bool) {i : ℕ} (h : i < n) :
    lo (make n a b) t i = a + (i + if t then 0 else -(1 / 2)) * ((b - a) / n) ∧ hi (make n a b) t i = a + (i + if t then 1 else 1 / 2) * ((b - a) / n) := by
  cases t
  · have e : (make n a b).cells.e false = (tab n fun i => a + (i - 1 / 2) * ((b - a) / n), tab n fun i => a + (i + 1 / 2) * ((b - a) / n)) :=
      Prod.ext (edges_dual_tab hab) (verts_dual_tab n a b)
    rw [lo_tab e h, hi_tab e h]
    simp only [Bool.false_eq_true, if_false]
    exact ⟨by ring, trivial⟩
  · have e : (make n a b).cells.e true = (tab n fun i => a + i * ((b - a) / n), tab n fun i => a + (i + 1 : ℕ) * ((b - a) / n)) := by
      show ((pnts n a b).dropLast, (pnts n a b).tail) = _
      rw [pnts_tab, dropLast_tab, tail_tab, Nat.add_sub_cancel]
    rw [lo_tab e h, hi_tab e h]
    simp only [if_true]
    push_cast
    constructor <;> ring

theorem shift_index {n : ℕ} (hn : 0 < n) {a b : ℝ} (j i : ℕ) (x : ℝ) :
    j * ((b - a) / n) + 1 * (a + (i + x) * ((b - a) / n)) = a + (((i + j) % n : ℕ) + x) * ((b - a) / n) + (((i + j) / n : ℕ) : ℤ) * (b - a) := by
  have hn' : (n : ℝ) ≠ 0 := by positivity
  have e : ((i : ℝ) + j) = n * ((i + j) / n : ℕ) + ((i + j) % n : ℕ) := by exact_mod_cast (Nat.div_add_mod (i + j) n).symm
  have e2 : (b - a) = n * ((b - a) / n) := by field_simp
  set h := (b - a) / n
  rw [e2, Int.cast_natCast]
  linear_combination h * e

/-- Where a cell goes under the reflection of the circle. -/
def flip (n : ℕ) (d : Fin 2) (t : Bool) (i : ℕ) : ℕ := if (d = 0) = (t = true) then (n - i) % n else n - 1 - i

theorem flip_lt {n : ℕ} (d : Fin 2) (t : Bool) {i : ℕ} (h : i < n) : flip n d t i < n := by
  unfold flip
  split_ifs
  · exact Nat.mod_lt _ (by omega)
  · omega

theorem flip_index0 {n : ℕ} {a b : ℝ} {i : ℕ} (h : i < n) (x : ℝ) :
    ∃ m : ℤ, a + b + -1 * (a + (i + x) * ((b - a) / n)) = a + (((n - i) % n : ℕ) + -x) * ((b - a) / n) + m * (b - a) := by
  have hn' : (n : ℝ) ≠ 0 := by
    have : 0 < n := by omega
    positivity
  have e2 : (b - a) = n * ((b - a) / n) := by field_simp
  by_cases h0 : i = 0
  · subst h0
    refine ⟨1, ?_⟩
    rw [Nat.sub_zero, Nat.mod_self]
    push_cast; ring
  · refine ⟨0, ?_⟩
    rw [Nat.mod_eq_of_lt (by omega), Nat.cast_sub h.le]
    push_cast
    linear_combination e2

theorem flip_index1 {n : ℕ} {a b : ℝ} {i : ℕ} (h : i < n) (x : ℝ) :
    a + b + -1 * (a + (i + x) * ((b - a) / n)) = a + ((n - 1 - i : ℕ) + (1 - x)) * ((b - a) / n) := by
  have hn' : (n : ℝ) ≠ 0 := by
    have : 0 < n := by omega
    positivity
  have e2 : (b - a) = n * ((b - a) / n) := by field_simp
  rw [show n - 1 - i = n - (1 + i) by omega, Nat.cast_sub (by omega)]
  push_cast
  linear_combination e2

/-- Translation by `j` cells. -/
theorem isometry_shift {n : ℕ} (hn : 0 < n) {a b : ℝ} (hab : a < b) (j : ℕ) {V : Fin 2 → Bool → (ℝ → ℝ) → Prop} (hs : ∀ d t f, V d t f → Function.Periodic f (b - a))
    (hp : ∀ d t f, V d t f → V d t fun x => f (j * ((b - a) / n) + 1 * x)) :
    Isometry (make n a b) V (fun f => Function.Periodic f (b - a)) 1 (j * ((b - a) / n)) (fun _ _ i => (i + j) % n) where
  sign := Or.inl rfl
  lt := fun d t i _ => Nat.mod_lt _ hn
  sub := hs
  pull := hp
  v := fun f hf t i hi => by
    have hi' : i < n := hi
    rw [vx_eq a b t hi', vx_eq a b t (Nat.mod_lt _ hn), shift_index hn, per_shift hf]
  e := fun f hf t i hi => by
    have hi' : i < n := hi
    rw [(lo_eq hab.le t hi').1, (lo_eq hab.le t hi').2, (lo_eq hab.le t (Nat.mod_lt _ hn)).1, (lo_eq hab.le t (Nat.mod_lt _ hn)).2,
      intervalIntegral.integral_comp_add_mul f one_ne_zero, shift_index hn, shift_index hn, per_int hf]
    simp

/-- Reflection. -/
theorem isometry_flip {n : ℕ} (hn : 0 < n) {a b : ℝ} (hab : a < b) {V : Fin 2 → Bool → (ℝ → ℝ) → Prop} (hs : ∀ d t f, V d t f → Function.Periodic f (b - a))
    (hp : ∀ d t f, V d t f → V d t fun x => f (a + b + -1 * x)) :
    Isometry (make n a b) V (fun f => Function.Periodic f (b - a)) (-1) (a + b) (flip n) where
  sign := Or.inr rfl
  lt := fun d t i hi => flip_lt d t hi
  sub := hs
  pull := hp
  v := fun f hf t i hi => by
    have hi' : i < n := hi
    rw [vx_eq a b t hi', vx_eq a b t (flip_lt 0 t hi')]
    cases t
    · have e : flip n 0 false i = n - 1 - i := by simp [flip]
      rw [e, flip_index1 hi']
      simp only [Bool.false_eq_true, if_false]
      norm_num
    · have e : flip n 0 true i = (n - i) % n := by simp [flip]
      obtain ⟨m, hm⟩ := flip_index0 (a := a) (b := b) hi' 0
      simp only [if_true]
      rw [e, hm, per_shift hf, neg_zero]
  e := fun f hf t i hi => by
    have hi' : i < n := hi
    rw [(lo_eq hab.le t hi').1, (lo_eq hab.le t hi').2, (lo_eq hab.le t (flip_lt 1 t hi')).1, (lo_eq hab.le t (flip_lt 1 t hi')).2,
      intervalIntegral.integral_comp_add_mul f (by norm_num : (-1 : ℝ) ≠ 0), intervalIntegral.integral_symm]
    cases t
    · have e : flip n 1 false i = (n - i) % n := by simp [flip]
      obtain ⟨m, hm⟩ := flip_index0 (a := a) (b := b) hi' (-(1 / 2))
      obtain ⟨m', hm'⟩ := flip_index0 (a := a) (b := b) hi' (1 / 2)
      have hmm : (m : ℝ) * (b - a) = m' * (b - a) := by linear_combination hm' - hm
      simp only [Bool.false_eq_true, if_false]
      rw [e, hm, hm', ← hmm, per_int hf, neg_neg]
      norm_num
    · have e : flip n 1 true i = n - 1 - i := by simp [flip]
      simp only [if_true]
      rw [e, flip_index1 hi', flip_index1 hi']
      norm_num

end Periodic

/-- Reflection of a grid on an interval. -/
theorem isometry_interval {g : Grid1} {v w : ℕ → ℝ} (hg : IsInterval g v w) (hv : ∀ i < g.n, v (g.n - 1 - i) = g.xmin + g.xmax - v i) (hw : ∀ i < g.n - 1, w (g.n - 1 - 1 - i) = g.xmin + g.xmax - w i)
    {V : Fin 2 → Bool → (ℝ → ℝ) → Prop} (hp : ∀ d t f, V d t f → V d t fun x => f (g.xmin + g.xmax + -1 * x)) :
    Isometry g V (fun _ => True) (-1) (g.xmin + g.xmax) (fun d t i => g.N d t - 1 - i) where
  sign := Or.inr rfl
  lt := fun d t i hi => by omega
  sub := fun _ _ _ _ => trivial
  pull := hp
  v := fun f _ t i hi => by
    cases t
    · rw [hg.N00] at hi ⊢
      rw [vx_tab hg.verts_dual hi, vx_tab hg.verts_dual (by omega), hw i hi]
      congr 1; ring
    · rw [hg.N01] at hi ⊢
      rw [vx_tab hg.verts hi, vx_tab hg.verts (by omega), hv i hi]
      congr 1; ring
  e := fun f _ t i hi => by
    rw [intervalIntegral.integral_comp_add_mul f (by norm_num : (-1 : ℝ) ≠ 0), intervalIntegral.integral_symm]
    have hn := hg.two_le
    cases t
    · rw [hg.N10] at hi ⊢
      have e := hg.edges_dual
      rw [lo_tab e hi, hi_tab e hi, lo_tab e (show g.n - 1 - i < g.n by omega), hi_tab e (show g.n - 1 - i < g.n by omega)]
      have e1 : (g.xmin + g.xmax + -1 * if i < g.n - 1 then w i else g.xmax) = if g.n - 1 - i = 0 then g.xmin else w (g.n - 1 - i - 1) := by
        by_cases h : i < g.n - 1
        · rw [if_pos h, if_neg (by omega), show g.n - 1 - i - 1 = g.n - 1 - 1 - i by omega, hw i h]; ring
        · rw [if_neg h, if_pos (by omega)]; ring
      have e2 : (g.xmin + g.xmax + -1 * if i = 0 then g.xmin else w (i - 1)) = if g.n - 1 - i < g.n - 1 then w (g.n - 1 - i) else g.xmax := by
        by_cases h : i = 0
        · rw [if_pos h, if_neg (by omega)]; ring
        · rw [if_neg h, if_pos (by omega), show g.n - 1 - i = g.n - 1 - 1 - (i - 1) by omega, hw (i - 1) (by omega)]; ring
      rw [e1, e2]
      norm_num
    · rw [hg.N11] at hi ⊢
      have e := hg.edges
      rw [lo_tab e hi, hi_tab e hi, lo_tab e (show g.n - 1 - 1 - i < g.n - 1 by omega), hi_tab e (show g.n - 1 - 1 - i < g.n - 1 by omega)]
      rw [show g.n - 1 - 1 - i = g.n - 1 - (i + 1) by omega, hv (i + 1) (by omega), show g.n - 1 - (i + 1) + 1 = g.n - 1 - i by omega, hv i (by omega)]
      simp only [neg_mul, one_mul, ← sub_eq_add_neg]
      norm_num

end Dec
