import Verif.Lib.Mirror
import Verif.Lib.ELin
import Verif.Model.Helper
import Mathlib.Tactic

set_option linter.unusedSimpArgs false
set_option linter.unusedVariables false

/-!
# C45, C47, C49 (binomial coefficients) and C52: array helpers
-/

namespace Dec.Props

open Finset Dec.Sp

variable {R : Type*}

/-! ## C45 -/

/-- C45: `unmirror0` undoes `mirror0`, whatever the sign. -/
theorem C45_unmirror0_mirror0 [MulZeroClass R] (f : List R) (hf : 2 ≤ f.length) (s : R) : unmirror0 (mirror0 f s) = f := by
  rw [eq_tab f 0]
  generalize hn : f.length = n at *
  rw [mirror0_tab hf, unmirror0_tab hf]
  refine tab_congr fun i hi => by simp [hi]

/-- C45: `unmirror1` undoes `mirror1`, whatever the sign. -/
theorem C45_unmirror1_mirror1 [MulZeroClass R] (f : List R) (s : R) : unmirror1 (mirror1 f s) = f := by
  rw [eq_tab f 0]
  generalize hn : f.length = n at *
  rw [mirror1_tab, unmirror1_tab]
  refine tab_congr fun i hi => by simp [hi]

/-- C45: the mirror image of an array at its end points is (anti)symmetric about the first entry. -/
theorem C45_mirror0_symmetric [CommRing R] (f : List R) (hf : 2 ≤ f.length) (s : R) (hs : s * s = 1) (i : ℕ) (h0 : 0 < i) (h1 : i < f.length - 1) :
    (mirror0 f s).length = 2 * f.length - 2 ∧ (mirror0 f s).getD (2 * f.length - 2 - i) 0 = s * (mirror0 f s).getD i 0 := by
  rw [eq_tab f 0]
  generalize hn : f.length = n at *
  rw [mirror0_tab hf, length_tab, length_tab, getD_tab (by omega), getD_tab (by omega), if_neg (by omega), if_pos (by omega)]
  refine ⟨rfl, ?_⟩
  congr 2
  omega

/-- C45: the mirror image of an array beyond its end points is (anti)symmetric. -/
theorem C45_mirror1_symmetric [CommRing R] (f : List R) (s : R) (hs : s * s = 1) (i : ℕ) (h1 : i < 2 * f.length) :
    (mirror1 f s).length = 2 * f.length ∧ (mirror1 f s).getD (2 * f.length - 1 - i) 0 = s * (mirror1 f s).getD i 0 := by
  rw [eq_tab f 0]
  generalize hn : f.length = n at *
  rw [mirror1_tab, length_tab, length_tab, getD_tab (by omega), getD_tab (by omega)]
  refine ⟨rfl, ?_⟩
  by_cases h : i < n
  · rw [if_neg (by omega), if_pos h]; congr 2; omega
  · rw [if_pos (by omega), if_neg h, ← mul_assoc, hs, one_mul]

/-- C45: folding a mirror image with the same sign doubles the array. -/
theorem C45_fold1_mirror1 [CommRing R] (f : List R) (s : R) (hs : s * s = 1) : fold1 (mirror1 f s) s = smul 2 f := by
  rw [eq_tab f 0]
  generalize hn : f.length = n at *
  rw [mirror1_tab]
  unfold fold1
  rw [reverse_tab, take_tab, take_tab, smul_tab, length_tab, vadd_tab, smul_tab]
  refine tab_congr' (by omega) fun i hi => ?_
  have hi' : i < n := by omega
  rw [if_pos hi', if_neg (by omega), ← mul_assoc, hs, one_mul, show 2 * n - 1 - (2 * n - 1 - i) = i by omega]
  ring

/-- C45: folding with the other sign gives zero. -/
theorem C45_fold1_mirror1_neg [CommRing R] (f : List R) (s : R) (hs : s * s = 1) : fold1 (mirror1 f s) (-s) = List.replicate f.length 0 := by
  rw [eq_tab f 0]
  generalize hn : f.length = n at *
  rw [mirror1_tab]
  unfold fold1
  rw [reverse_tab, take_tab, take_tab, smul_tab, length_tab, length_tab, vadd_tab, replicate_tab]
  refine tab_congr' (by omega) fun i hi => ?_
  have hi' : i < n := by omega
  rw [if_pos hi', if_neg (by omega), ← mul_assoc, neg_mul, hs, show 2 * n - 1 - (2 * n - 1 - i) = i by omega]
  ring

/-- C45: `fold0` with sign `-1` undoes `unfold0`. -/
theorem C45_fold0_unfold0 [Field R] [CharZero R] (f : List R) (hf : 2 ≤ f.length) : fold0 (unfold0 f) (-1) = f := by
  have e : unfold0 f = tab (2 * f.length - 2) fun i => if i = 0 then f.getD 0 0 else if i < f.length - 1 then 1 / 2 * f.getD i 0
      else if i = f.length - 1 then -f.getD (f.length - 1) 0 else -1 / 2 * f.getD (2 * f.length - 2 - i) 0 := by
    have ht : f.tail.dropLast = tab (f.length - 2) fun i => f.getD (i + 1) 0 := by
      conv_lhs => rw [eq_tab f 0, tail_tab, dropLast_tab]
      exact tab_congr' (by omega) fun i _ => rfl
    unfold unfold0
    rw [ht, smul_tab, smul_tab, reverse_tab, singleton_tab, singleton_tab, append_tab, append_tab, append_tab]
    refine tab_congr' (by omega) fun i hi => ?_
    have hc : ∀ j : ℕ, 1 + (f.length - 2) + 1 = f.length := fun _ => by omega
    by_cases h0 : i = 0
    · subst h0; simp
    by_cases h1 : i < f.length - 1
    · rw [if_pos (by omega), if_pos (by omega), if_neg (by omega), if_neg h0, if_pos h1]
      congr 2; omega
    by_cases h2 : i = f.length - 1
    · rw [if_pos (by omega), if_neg (by omega), if_neg h0, if_neg h1, if_pos h2]
    · rw [if_neg (by omega), if_neg h0, if_neg h1, if_neg h2]
      congr 2; omega
  conv_rhs => rw [eq_tab f 0]
  rw [e]
  generalize hn : f.length = n at *
  unfold fold0
  rw [reverse_tab, take_tab, take_tab, singleton_tab, append_tab, append_tab, smul_tab, length_tab]; unfold vadd; rw [zipWith_tab']
  refine tab_congr' (by omega) fun i hi => ?_
  have hi' : i < n := by omega
  have hm : min ((2 * n - 2) / 2) (2 * n - 2) = n - 1 := by omega
  rw [hm]
  rcases Nat.eq_zero_or_pos i with h0 | h0
  · subst h0
    rw [if_pos (by omega), if_pos rfl, if_pos (by omega), mul_zero, add_zero]
  rcases Nat.lt_or_ge i (n - 1) with h1 | h1
  · have e3 : 2 * n - 2 - (2 * n - 2 - 1 - (i - 1)) = i := by omega
    rw [if_pos h1, if_neg (by omega), if_pos h1, if_neg (by omega), if_neg (by omega), if_neg (by omega), if_neg (by omega), e3]
    ring
  · have : i = n - 1 := by omega
    subst this
    have e3 : 2 * n - 2 - 1 - (n - 1 - 1) = n - 1 := by omega
    rw [if_neg (by omega), if_neg (by omega), e3, if_neg (by omega), if_neg (by omega), if_pos rfl]
    ring

theorem pySlice_tab {α : Type*} (M : ℕ) (g : ℕ → α) (a b : ℤ) (lo hi : ℕ) (hlo : ((if a < 0 then max (a + M) 0 else min a M) : ℤ) = lo)
    (hhi : ((if b < 0 then max (b + M) 0 else min b M) : ℤ) = hi) (hM : hi ≤ M) : pySlice (tab M g) a b = tab (hi - lo) fun i => g (lo + i) := by
  unfold pySlice
  simp only [length_tab, hlo, hhi, Int.toNat_natCast, take_tab, drop_tab]
  rw [min_eq_left hM]

/-- C45: what the inner `_unextend` computes: the two tails of width `n` are added to the opposite ends of the middle. -/
theorem unextend_tab [AddMonoid R] (N n : ℕ) (h1 : 1 ≤ n) (h2 : n ≤ N) (g : ℕ → R) :
    unextend_ (tab (N + 2 * n) g) n
      = .ok (tab N fun i => (g (n + i) + (if i < n then g (N + n + i) else 0)) + (if N - n ≤ i then g (i - (N - n)) else 0)) := by
  unfold unextend_
  have hn0 : n ≠ 0 := by omega
  have s1 : pySlice (tab (N + 2 * n) g) n (-n) = tab N fun i => g (n + i) := by
    rw [pySlice_tab (N + 2 * n) g n (-n) n (N + n) (by rw [if_neg (by omega)]; push_cast; omega) (by rw [if_pos (by omega)]; push_cast; omega) (by omega)]
    exact tab_congr' (by omega) fun i _ => rfl
  have s2 : pySlice (tab N fun i => g (n + i)) 0 n = tab n fun i => g (n + i) := by
    rw [pySlice_tab N _ 0 n 0 n (by rw [if_neg (by omega)]; push_cast; omega) (by rw [if_neg (by omega)]; push_cast; omega) (by omega)]
    exact tab_congr' (by omega) fun i _ => by rw [zero_add]
  have s3 : pySlice (tab (N + 2 * n) g) (-n) (N + 2 * n : ℕ) = tab n fun i => g (N + n + i) := by
    rw [pySlice_tab (N + 2 * n) g (-n) (N + 2 * n : ℕ) (N + n) (N + 2 * n) (by rw [if_pos (by omega)]; push_cast; omega) (by rw [if_neg (by omega)]; push_cast; omega) (by omega)]
    exact tab_congr' (by omega) fun i _ => rfl
  have s4 : pySlice (tab (N + 2 * n) g) 0 n = tab n g := by
    rw [pySlice_tab (N + 2 * n) g 0 n 0 n (by rw [if_neg (by omega)]; push_cast; omega) (by rw [if_neg (by omega)]; push_cast; omega) (by omega)]
    exact tab_congr' (by omega) fun i _ => by rw [zero_add]
  simp only [length_tab, s1, s2, s3, s4, if_neg hn0, if_neg (show ¬ N + 2 * n < 2 * n by omega), if_true, vadd_tab, drop_tab, append_tab, take_tab]
  rw [if_pos (by omega)]
  simp only [length_tab, vadd_tab, append_tab]
  congr 1
  have e0 : n + (N - n) - (n + (N - n) - n) = n := by omega
  rw [e0, vadd_tab, append_tab]
  refine tab_congr' (by omega) fun i hi => ?_
  by_cases ha : i < N - n
  · rw [if_pos (by omega), if_neg (c := N - n ≤ i) (by omega), add_zero]
    by_cases hb : i < n
    · rw [if_pos hb, if_pos hb]
    · rw [if_neg hb, if_neg hb, add_zero]; congr 1; omega
  · rw [if_neg (by omega), if_pos (c := N - n ≤ i) (by omega)]
    have e1 : n + (N - n) - n + (i - min (n + (N - n) - n) (n + (N - n))) = i := by omega
    have e2 : i - min (n + (N - n) - n) (n + (N - n)) = i - (N - n) := by omega
    rw [e1, e2]
    by_cases hb : i < n
    · rw [if_pos hb, if_pos hb]
    · rw [if_neg hb, if_neg hb, add_zero]; congr 2; omega

/-- C45: `unextend` undoes `extend` for every width from one to the length of the array. -/
theorem C45_unextend_extend [Field R] [CharZero R] (f : List R) (n : ℕ) (h1 : 1 ≤ n) (h2 : n ≤ f.length) : unextend (extend f n) n = .ok f := by
  have e : extend f n = tab (f.length + 2 * n) fun i => (f.length + 2 * n) / f.length * (if n ≤ i ∧ i < n + f.length then f.getD (i - n) 0 else 0) := by
    unfold extend extend_
    rw [replicate_tab]
    conv_lhs => rw [eq_tab f 0]
    rw [append_tab, append_tab, smul_tab]
    refine tab_congr' (by omega) fun i hi => ?_
    simp only [length_tab]
    by_cases ha : i < n
    · rw [if_pos (by omega), if_pos ha, if_neg (by omega)]
    by_cases hb : i < n + f.length
    · rw [if_pos hb, if_neg ha, if_pos ⟨by omega, hb⟩]
    · rw [if_neg hb, if_neg (by omega)]
  have hL : (f.length : R) ≠ 0 := by
    rw [Nat.cast_ne_zero]; omega
  have hL2 : (f.length + 2 * n : R) ≠ 0 := by
    have : ((f.length + 2 * n : ℕ) : R) ≠ 0 := by rw [Nat.cast_ne_zero]; omega
    push_cast at this; exact this
  conv_rhs => rw [eq_tab f 0]
  rw [e]
  generalize hN : f.length = N at *
  unfold unextend
  rw [unextend_tab N n h1 h2]
  show Except.ok _ = Except.ok _
  rw [smul_tab, length_tab]
  congr 1
  refine tab_congr fun i hi => ?_
  rw [if_pos ⟨by omega, by omega⟩, show n + i - n = i by omega]
  have z1 : (if i < n then ((N : R) + 2 * n) / N * (if n ≤ N + n + i ∧ N + n + i < n + N then f.getD (N + n + i - n) 0 else 0) else 0) = 0 := by
    rw [if_neg (c := n ≤ N + n + i ∧ N + n + i < n + N) (by omega), mul_zero, ite_self]
  have z2 : (if N - n ≤ i then ((N : R) + 2 * n) / N * (if n ≤ i - (N - n) ∧ i - (N - n) < n + N then f.getD (i - (N - n) - n) 0 else 0) else 0) = 0 := by
    rw [if_neg (c := n ≤ i - (N - n) ∧ i - (N - n) < n + N) (by omega), mul_zero, ite_self]
  rw [z1, z2]
  push_cast
  field_simp
  ring

/-- Non-vacuity: width two on an array of length four, the example of the documentation. -/
example : 1 ≤ 2 ∧ 2 ≤ ([1, 2, 3, 4] : List ℚ).length := by decide

/-- C45, the limits: a width beyond the length of the array makes `unextend` raise `ValueError` ... -/
theorem C45_unextend_wide [Field R] (f : List R) (n : ℕ) (h0 : 1 ≤ f.length) (h : f.length < n) : unextend (extend f n) n = .error .valueError := by
  have hl : (extend f n).length = f.length + 2 * n := by
    unfold extend extend_ smul; simp; omega
  obtain ⟨g, hg⟩ : ∃ g, extend f n = tab (f.length + 2 * n) g := ⟨_, eq_tab' hl 0⟩
  rw [hg]
  generalize f.length = N at *
  unfold unextend unextend_
  have s1 : pySlice (tab (N + 2 * n) g) n (-n) = tab N fun i => g (n + i) := by
    rw [pySlice_tab (N + 2 * n) g n (-n) n (N + n) (by rw [if_neg (by omega)]; push_cast; omega) (by rw [if_pos (by omega)]; push_cast; omega) (by omega)]
    exact tab_congr' (by omega) fun i _ => rfl
  have s2 : pySlice (tab N fun i => g (n + i)) 0 n = tab N fun i => g (n + i) := by
    rw [pySlice_tab N _ 0 n 0 N (by rw [if_neg (by omega)]; push_cast; omega) (by rw [if_neg (by omega)]; push_cast; omega) (by omega)]
    exact tab_congr' (by omega) fun i _ => by rw [zero_add]
  have s3 : pySlice (tab (N + 2 * n) g) (-n) (N + 2 * n : ℕ) = tab n fun i => g (N + n + i) := by
    rw [pySlice_tab (N + 2 * n) g (-n) (N + 2 * n : ℕ) (N + n) (N + 2 * n) (by rw [if_pos (by omega)]; push_cast; omega) (by rw [if_neg (by omega)]; push_cast; omega) (by omega)]
    exact tab_congr' (by omega) fun i _ => rfl
  obtain ⟨m, rfl⟩ : ∃ m, n = m + 2 := ⟨n - 2, by omega⟩
  simp only [length_tab, s1, s2, s3, if_neg (show ¬ N + 2 * (m + 2) < 2 * (m + 2) by omega), if_neg (show ¬ m + 2 = 0 by omega), tab_succ]
  rw [if_neg (by simp; omega)]
  rfl

/-- ... and width zero makes it raise `ValueError` on every array of length two or more, although `extend(f, 0)` is `f`. -/
theorem C45_unextend_zero [Field R] (f : List R) (h : 2 ≤ f.length) : unextend f 0 = .error .valueError := by
  obtain ⟨g, hg⟩ : ∃ g, f = tab f.length g := ⟨_, eq_tab f 0⟩
  rw [hg]
  obtain ⟨m, hm⟩ : ∃ m, f.length = m + 2 := ⟨f.length - 2, by omega⟩
  rw [hm]
  unfold unextend unextend_
  have s1 : ∀ (l : List R), pySlice l 0 0 = [] := fun l => by
    unfold pySlice; simp
  have s2 : pySlice (tab (m + 2) g) ((0 : ℕ) : ℤ) (-((0 : ℕ) : ℤ)) = [] := by
    simpa using s1 _
  simp only [length_tab, s2, if_true, mul_zero, if_neg (show ¬ m + 2 < 0 by omega)]
  have s3 : pySlice ([] : List R) 0 ((0 : ℕ) : ℤ) = [] := s1 _
  rw [s3]
  simp [tab_succ, Except.map]

/-! ## C47 -/

/-- `f` is a linear operator from arrays of length `N` to arrays of length `M`. -/
structure IsLinear [Semiring R] (N M : ℕ) (f : List R → List R) : Prop where
  length : ∀ x, x.length = N → (f x).length = M
  add : ∀ x y, x.length = N → y.length = N → f (vadd x y) = vadd (f x) (f y)
  smul : ∀ c x, x.length = N → f (Dec.smul c x) = Dec.smul c (f x)

theorem IsLinear.expand [Semiring R] {N M : ℕ} {f : List R → List R} (hf : IsLinear N M f) (k : ℕ) (x : ℕ → R) (i : ℕ) (hi : i < M) :
    (f (tab N fun j => if j < k then x j else 0)).getD i 0 = ∑ j ∈ range (min k N), x j * (f (eyeRow N j)).getD i 0 := by
  induction k with
  | zero =>
    have h := hf.smul 0 (tab N fun _ => 0) (length_tab _ _)
    rw [smul_tab] at h
    have e : (tab N fun j => if j < 0 then x j else 0) = tab N fun i : ℕ => (0 : R) * 0 := tab_congr fun j _ => by simp
    rw [e, h, eq_tab' (hf.length _ (length_tab _ _)) 0, smul_tab, getD_tab hi]
    simp
  | succ k ih =>
    by_cases hk : k < N
    · have e : (tab N fun j => if j < k + 1 then x j else 0) = vadd (tab N fun j => if j < k then x j else 0) (Dec.smul (x k) (eyeRow N k)) := by
        unfold eyeRow
        rw [smul_tab, vadd_tab]
        refine tab_congr fun j _ => ?_
        rcases lt_trichotomy j k with h | h | h
        · simp [h, Nat.ne_of_lt h, Nat.lt_succ_of_lt h]
        · simp [h]
        · simp [show ¬ j < k + 1 by omega, show ¬ j < k by omega, show j ≠ k by omega]
      have l1 : (eyeRow N k : List R).length = N := length_tab _ _
      rw [e, hf.add _ _ (length_tab _ _) (by unfold eyeRow; rw [smul_tab, length_tab]), hf.smul _ _ l1,
        eq_tab' (hf.length (tab N fun j => if j < k then x j else 0) (length_tab _ _)) 0, eq_tab' (hf.length (eyeRow N k) l1) 0, smul_tab, vadd_tab, getD_tab hi, ih,
        min_eq_left (by omega), min_eq_left (by omega), Finset.sum_range_succ]
    · rw [min_eq_right (by omega)] at ih ⊢
      rw [← ih]
      congr 2
      refine tab_congr fun j hj => ?_
      rw [if_pos (by omega), if_pos (by omega)]

/-- C47: multiplying by `to_matrix(f, N)` is applying `f`, for every linear operator `f` and every array. -/
theorem C47_to_matrix [CommRing R] (N M : ℕ) (f : List R → List R) (hf : IsLinear N M f) (x : List R) (hx : x.length = N) : matVec (toMatrix f N M) x = f x := by
  rw [eq_tab' (hf.length x hx) 0]
  have h := hf.expand N (fun j => x.getD j 0)
  have e : (tab N fun j => if j < N then x.getD j 0 else 0) = x := by
    conv_rhs => rw [eq_tab' hx 0]
    exact tab_congr fun j hj => if_pos hj
  rw [e] at h
  unfold matVec toMatrix
  rw [map_tab]
  refine tab_congr fun i hi => ?_
  rw [h i hi, min_self]
  conv_lhs => rw [eq_tab' hx 0]
  rw [zipWith_tab, sum_tab]
  exact Finset.sum_congr rfl fun j _ => mul_comm _ _

/-- C47: two linear operators with the same matrix agree on every array. -/
theorem C47_injective [CommRing R] (N M : ℕ) (f g : List R → List R) (hf : IsLinear N M f) (hg : IsLinear N M g) (h : toMatrix f N M = toMatrix g N M)
    (x : List R) (hx : x.length = N) : f x = g x := by
  rw [← C47_to_matrix N M f hf x hx, h, C47_to_matrix N M g hg x hx]

/-- C47: the matrix of a composition is the product of the matrices. -/
theorem C47_comp [CommRing R] (N M K : ℕ) (f g : List R → List R) (hf : IsLinear N M f) (hg : IsLinear M K g) (j : ℕ) (hj : j < N) :
    tab K (fun i => ((toMatrix (fun x => g (f x)) N K).getD i []).getD j 0) = matVec (toMatrix g M K) (tab M fun i => ((toMatrix f N M).getD i []).getD j 0) := by
  have l1 : (eyeRow N j : List R).length = N := length_tab _ _
  have e1 : (tab M fun i => ((toMatrix f N M).getD i []).getD j 0) = f (eyeRow N j) := by
    conv_rhs => rw [eq_tab' (hf.length _ l1) 0]
    refine tab_congr fun i hi => ?_
    unfold toMatrix
    rw [getD_tab hi, getD_tab hj]
  rw [e1, C47_to_matrix M K g hg _ (hf.length _ l1)]
  conv_rhs => rw [eq_tab' (hg.length _ (hf.length _ l1)) 0]
  refine tab_congr fun i hi => ?_
  unfold toMatrix
  rw [getD_tab hi, getD_tab hj]

/-- Non-vacuity: the cyclic shift is a linear operator. -/
example : IsLinear (R := ℚ) 3 3 (fun x => roll x 1) where
  length x hx := by simp [hx]
  add x y hx hy := by
    rw [eq_tab' hx 0, eq_tab' hy 0, vadd_tab, roll_one_tab, roll_one_tab, roll_one_tab, vadd_tab]
  smul c x hx := by
    rw [eq_tab' hx 0, smul_tab, roll_one_tab, roll_one_tab, smul_tab]

/-- C47: `to_matrix_by_index` puts `f i j` in row `i` and column `j`. -/
theorem C47_by_index (f : ℕ → ℕ → R) (N i j : ℕ) (hi : i < N) (hj : j < N) (z : R) : ((toMatrixByIndex f N).getD i []).getD j z = f i j := by
  unfold toMatrixByIndex
  rw [getD_tab hi, getD_tab hj]

/-! ## C52 -/

theorem stride2_weave (a b : List R) (h : a.length = b.length ∨ a.length = b.length + 1) : stride2 (weave a b) = a ∧ stride2' (weave a b) = b := by
  induction a generalizing b with
  | nil =>
    have : b = [] := by
      rcases h with h | h
      · exact List.length_eq_zero_iff.1 (by simpa using h.symm)
      · simp at h
    subst this; simp [weave, stride2, stride2']
  | cons x a ih =>
    cases b with
    | nil =>
      have : a = [] := by
        rcases h with h | h
        · simp at h
        · exact List.length_eq_zero_iff.1 (by simpa using h)
      subst this; simp [weave, stride2, stride2']
    | cons y b =>
      obtain ⟨h1, h2⟩ := ih b (by simpa using h)
      refine ⟨?_, ?_⟩
      · simp only [weave, stride2, h1]
      · unfold stride2' at h2 ⊢
        simp only [weave, List.tail_cons]
        cases hw : weave a b with
        | nil =>
          rw [hw] at h2
          simp [stride2] at h2 ⊢
          exact h2
        | cons z w =>
          rw [hw] at h2
          simp only [List.tail_cons] at h2
          simp [stride2, h2]

/-- C52: the even entries of `interweave(a, b)` are `a` and the odd ones `b`, when both arrays have the same element type. -/
theorem C52_interweave (a b : List R) (h : a.length = b.length ∨ a.length = b.length + 1) :
    ∃ c, interweave a b = .ok c ∧ c.length = a.length + b.length ∧ stride2 c = a ∧ stride2' c = b := by
  refine ⟨weave a b, if_pos h, ?_, stride2_weave a b h⟩
  induction a generalizing b with
  | nil => rcases h with h | h <;> simp_all [weave]
  | cons x a ih =>
    cases b with
    | nil => rcases h with h | h <;> simp_all [weave]
    | cons y b =>
      have := ih b (by simpa using h)
      simp only [weave, List.length_cons, this]; omega

/-- C52: other lengths are rejected. -/
theorem C52_rejects (a b : List R) (h : ¬ (a.length = b.length ∨ a.length = b.length + 1)) : interweave a b = .error .valueError := if_neg h

/-- C52: the result has the element type of `b`. If `b` is a float array, or both are integer arrays, nothing is lost. -/
theorem C52_typed (a b : TArr) (h : a.data.length = b.data.length ∨ a.data.length = b.data.length + 1)
    (ha : a.dtype = .int → ∀ x ∈ a.data, ∃ m : ℤ, x = m) (hb : b.dtype = .int → ∀ x ∈ b.data, ∃ m : ℤ, x = m)
    (ht : b.dtype = .flt ∨ a.dtype = .int) :
    ∃ c, interweaveTyped a b = .ok c ∧ c.dtype = b.dtype ∧ stride2 c.data = a.data ∧ stride2' c.data = b.data := by
  obtain ⟨c, hc, hl, h1, h2⟩ := C52_interweave a.data b.data h
  have hcast : ∀ x ∈ c, castTo b.dtype x = x := by
    intro x hx
    cases hd : b.dtype with
    | flt => rfl
    | int =>
      have hm : x ∈ a.data ∨ x ∈ b.data := by
        have : c = weave a.data b.data := by
          unfold interweave at hc; rw [if_pos h] at hc; cases hc; rfl
        rw [this] at hx
        clear * - hx
        generalize a.data = u at hx ⊢
        generalize b.data = v at hx ⊢
        induction u generalizing v with
        | nil => simp [weave] at hx
        | cons p u ih =>
          cases v with
          | nil => simp [weave] at hx; simp [hx]
          | cons q v =>
            simp only [weave, List.mem_cons] at hx ⊢
            rcases hx with hx | hx | hx
            · exact .inl (.inl hx)
            · exact .inr (.inl hx)
            · rcases ih v hx with h | h
              · exact .inl (.inr h)
              · exact .inr (.inr h)
      have hm' : ∃ m : ℤ, x = m := by
        rcases hm with hm | hm
        · exact ha (by rcases ht with ht | ht; · rw [hd] at ht; cases ht
                       · exact ht) x hm
        · exact hb hd x hm
      obtain ⟨m, rfl⟩ := hm'
      unfold castTo
      simp
  have hmap : c.map (castTo b.dtype) = c := by
    conv_rhs => rw [← List.map_id c]
    exact List.map_congr_left hcast
  refine ⟨⟨b.dtype, c⟩, ?_, rfl, h1, h2⟩
  unfold interweaveTyped
  rw [hc]
  simp only [hmap]

theorem stride2_map {S : Type*} (f : R → S) (c : List R) : stride2 (c.map f) = (stride2 c).map f := by
  induction c using stride2.induct with
  | case1 => simp [stride2]
  | case2 => simp [stride2]
  | case3 _ _ _ ih => simp [stride2, ih]

/-- C52: in general both arrays are cast to the element type of `b`, entry by entry. -/
theorem C52_casts (a b : TArr) (h : a.data.length = b.data.length ∨ a.data.length = b.data.length + 1) :
    ∃ c, interweaveTyped a b = .ok c ∧ c.dtype = b.dtype ∧
      stride2 c.data = a.data.map (castTo b.dtype) ∧ stride2' c.data = b.data.map (castTo b.dtype) := by
  obtain ⟨c, hc, -, h1, h2⟩ := C52_interweave a.data b.data h
  refine ⟨⟨b.dtype, c.map (castTo b.dtype)⟩, by simp [interweaveTyped, hc], rfl, ?_, ?_⟩
  · rw [stride2_map, h1]
  · rw [← h2]; unfold stride2'; rw [← List.map_tail, stride2_map]

/-- C52: if `b` is an integer array, an entry `x` of `a` becomes the integer next to `x` on the side of zero. -/
theorem C52_truncation (a b : TArr) (h : a.data.length = b.data.length ∨ a.data.length = b.data.length + 1) (hb : b.dtype = .int) :
    ∃ c, interweaveTyped a b = .ok c ∧ ∀ i, i < a.data.length → ∃ m : ℤ, (stride2 c.data).getD i 0 = m ∧
      |(m : ℚ)| ≤ |a.data.getD i 0| ∧ |a.data.getD i 0 - m| < 1 ∧ 0 ≤ a.data.getD i 0 * m := by
  obtain ⟨c, hc, -, h1, -⟩ := C52_casts a b h
  refine ⟨c, hc, fun i hi => ?_⟩
  have e1 : (a.data.map (castTo b.dtype)).getD i 0 = castTo .int (a.data.getD i 0) := by
    simp [List.getD_eq_getElem?_getD, List.getElem?_eq_getElem hi, hb]
  rw [h1, e1]
  generalize a.data.getD i 0 = x
  unfold castTo
  by_cases hx : 0 ≤ x
  · have f0 : (0 : ℚ) ≤ ⌊x⌋ := by exact_mod_cast Int.floor_nonneg.2 hx
    refine ⟨⌊x⌋, by simp [hx], ?_, ?_, mul_nonneg hx f0⟩
    · rw [abs_of_nonneg f0, abs_of_nonneg hx]; exact Int.floor_le x
    · rw [abs_of_nonneg (sub_nonneg.2 (Int.floor_le x))]; linarith [Int.lt_floor_add_one x]
  · have hx' : x ≤ 0 := le_of_lt (not_le.1 hx)
    have f0 : ((⌈x⌉ : ℤ) : ℚ) ≤ 0 := by exact_mod_cast Int.ceil_nonpos.2 hx'
    refine ⟨⌈x⌉, by simp [hx], ?_, ?_, mul_nonneg_of_nonpos_of_nonpos hx' f0⟩
    · rw [abs_of_nonpos f0, abs_of_nonpos hx']; linarith [Int.le_ceil x]
    · rw [abs_of_nonpos (sub_nonpos.2 (Int.le_ceil x))]; linarith [Int.ceil_lt_add_one x]

/-- C52, the defect: a float array interwoven with an integer array is truncated to integers. -/
theorem C52_truncates : ∃ a b c : TArr, a.dtype = .flt ∧ b.dtype = .int ∧ a.data.length = b.data.length ∧
    interweaveTyped a b = .ok c ∧ stride2 c.data ≠ a.data := by
  refine ⟨⟨.flt, [1 / 2]⟩, ⟨.int, [1]⟩, ⟨.int, [0, 1]⟩, rfl, rfl, rfl, ?_, ?_⟩
  · have : (⌊(2 : ℚ)⁻¹⌋ : ℤ) = 0 := by norm_num
    simp [interweaveTyped, interweave, weave, castTo, this]
  · simp [stride2]

end Dec.Props
