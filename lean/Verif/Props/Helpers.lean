import Verif.Model.Misc
import Mathlib.Analysis.InnerProductSpace.PiL2
import Verif.Lib.Arr2
import Verif.Lib.Factors
import Verif.Props.Grid2Exact
import Verif.Props.ChebyshevCalculus
import Verif.Props.Periodic

set_option linter.unusedSimpArgs false
set_option linter.unusedVariables false

/-! # C75: array helpers; C76: cell coordinates, simplex measures, dispatch and named tuples -/

namespace Dec.Props

open Finset

/-! ## C75 -/

/-- **C75** (sparse_diag): the matrix multiplies entry by entry. -/
theorem C75_diag_apply (x y : List ℝ) (h : y.length = x.length) :
    (matVec (sparseDiag x) y).length = x.length ∧ ∀ i < x.length, (matVec (sparseDiag x) y).getD i 0 = x.getD i 0 * y.getD i 0 := by
  obtain ⟨g, rfl⟩ : ∃ f, y = tab x.length f := ⟨_, eq_tab' h 0⟩
  refine ⟨by simp [matVec, sparseDiag], fun i hi => ?_⟩
  simp only [matVec, sparseDiag, map_tab]
  rw [getD_tab hi, zipWith_tab, sum_tab, getD_tab hi, sum_eq_single i]
  · simp
  · intro j _ hj; rw [if_neg (Ne.symm hj), zero_mul]
  · intro hn; exact absurd (mem_range.2 hi) hn

/-- **C75** (sparse_matrix): row `i` of the product with `y` is the sum of `k*y[j]` over the triples `(i, j, k)`; triples at the same place add up. -/
theorem C75_sparse_apply (ijk : List (ℕ × ℕ × ℝ)) (N M : ℕ) (h : ∀ e ∈ ijk, e.1 < N ∧ e.2.1 < M) (y : List ℝ) (hy : y.length = M) :
    (matVec (sparseMatrix ijk N M) y).length = N ∧
    ∀ i < N, (matVec (sparseMatrix ijk N M) y).getD i 0 = ((ijk.filter fun e => e.1 = i).map fun e => e.2.2 * y.getD e.2.1 0).sum := by
  obtain ⟨g, rfl⟩ : ∃ f, y = tab M f := ⟨_, eq_tab' hy 0⟩
  refine ⟨by simp [matVec, sparseMatrix], fun i hi => ?_⟩
  simp only [matVec, sparseMatrix, map_tab]
  rw [getD_tab hi, zipWith_tab, sum_tab]
  clear hy
  induction ijk with
  | nil => simp
  | cons e l ih =>
    have ih := ih fun e he => h e (List.mem_cons_of_mem _ he)
    have he := h e List.mem_cons_self
    by_cases h1 : e.1 = i
    · rw [List.filter_cons_of_pos (by simpa using h1), List.map_cons, List.sum_cons, ← ih]
      rw [show e.2.2 * (tab M g).getD e.2.1 0 = ∑ j ∈ range M, (if e.2.1 = j then e.2.2 else 0) * g j by
        rw [sum_eq_single e.2.1, if_pos rfl, getD_tab he.2]
        · intro j _ hj; rw [if_neg (Ne.symm hj), zero_mul]
        · intro hn; exact absurd (mem_range.2 he.2) hn, ← sum_add_distrib]
      refine sum_congr rfl fun j _ => ?_
      by_cases h2 : e.2.1 = j
      · rw [List.filter_cons_of_pos (by simp [h1, h2]), if_pos h2, List.map_cons, List.sum_cons, add_mul]
      · rw [List.filter_cons_of_neg (by simp [h1, h2]), if_neg h2, zero_mul, zero_add]
    · rw [List.filter_cons_of_neg (by simpa using h1), ← ih]
      refine sum_congr rfl fun j _ => ?_
      rw [List.filter_cons_of_neg (by simp [h1])]

/-- **C75**: `sparse_diag(x)` is `sparse_matrix` of the triples `(i, i, x[i])`. -/
theorem C75_diag_sparse (x : List ℝ) : sparseDiag x = sparseMatrix (tab x.length fun i => (i, i, x.getD i 0)) x.length x.length := by
  have key : ∀ n i j, j < n →
      (((tab n fun i => (i, i, x.getD i 0)).filter fun e => e.1 = i ∧ e.2.1 = j).map fun e => e.2.2).sum = if i = j then x.getD i 0 else 0 := by
    have out : ∀ n i j, n ≤ j →
        (((tab n fun i => (i, i, x.getD i 0)).filter fun e => e.1 = i ∧ e.2.1 = j).map fun e => e.2.2).sum = 0 := by
      intro n i j hj
      rw [List.filter_eq_nil_iff.2]; · simp
      intro e he
      simp only [tab, List.mem_map, List.mem_range] at he
      obtain ⟨k, hk, rfl⟩ := he
      simp; omega
    intro n
    induction n with
    | zero => intro i j h; omega
    | succ n ih =>
      intro i j hj
      rw [tab_succ', List.filter_append, List.map_append, List.sum_append]
      rcases Nat.lt_succ_iff_lt_or_eq.1 hj with h | rfl
      · rw [ih i j h, List.filter_cons_of_neg (by simp; omega)]; simp
      · rw [out j i j le_rfl]
        by_cases h : i = j
        · subst h; simp
        · rw [List.filter_cons_of_neg (by simp; omega)]; simp [h]
  unfold sparseDiag sparseMatrix
  exact tab_congr fun i hi => tab_congr fun j hj => (key _ i j hj).symm

/-- **C75** (bndry_with_zeros): one zero before and one after; the rest is unchanged. -/
theorem C75_bndry (a : List ℝ) : (bndryWithZeros a).length = a.length + 2 ∧ (bndryWithZeros a).getD 0 1 = 0 ∧
    (∀ i < a.length, (bndryWithZeros a).getD (i + 1) 0 = a.getD i 0) ∧ (bndryWithZeros a).getD (a.length + 1) 1 = 0 := by
  refine ⟨by simp [bndryWithZeros], by simp [bndryWithZeros], fun i hi => ?_, ?_⟩
  · simp [bndryWithZeros, List.getElem?_append_left hi]
  · simp [bndryWithZeros]

/-- **C75**: the differences of the extended array add up to zero (this is what makes the sum of a dual derivative vanish). -/
theorem C75_bndry_telescopes (a : List ℝ) : (diff (bndryWithZeros a)).length = a.length + 1 ∧ (diff (bndryWithZeros a)).sum = 0 := by
  obtain ⟨f, h⟩ : ∃ f, a = tab a.length f := ⟨_, eq_tab a 0⟩
  have e : bndryWithZeros a = tab (a.length + 2) fun i => (bndryWithZeros a).getD i 0 := eq_tab' (C75_bndry a).1 0
  rw [e, diff_tab]
  refine ⟨by simp, ?_⟩
  rw [sum_tab, sum_range_sub (fun i => (bndryWithZeros a).getD i 0)]
  simp [bndryWithZeros]

/-- **C75**: on an interval grid the derivative of a dual 0-form is the difference of the array extended by zeros. -/
theorem C75_dual_derivative (k : IKind) (n : ℕ) (a b : ℝ) (f : List ℝ) :
    (intervalGrid k n a b).D 0 false f = some (diff (bndryWithZeros f)) := by
  cases k <;> rfl

/-- **C75** (bndry_with_zeros along an axis): two more rows, zero; every other entry is where it was, one row further down. -/
theorem C75_bndry_axis0 (r c : ℕ) (hc : 0 < c) (f : ℕ → ℕ → ℝ) :
    bndryWithZeros0 (G2.mtab r c f) = .ok (G2.mtab (r + 2) c fun i j => if i = 0 ∨ i = r + 1 then 0 else f (i - 1) j) := by
  refine G2.apply0_mtab hc fun j hj => congrArg Except.ok ?_
  refine eq_tab_of (by simp [bndryWithZeros]) 0 fun i hi => ?_
  have h := C75_bndry (tab r fun i => f i j)
  rcases Nat.eq_zero_or_pos i with rfl | h0
  · simp [bndryWithZeros]
  · obtain ⟨i, rfl⟩ : ∃ k, i = k + 1 := ⟨i - 1, by omega⟩
    rcases Nat.lt_or_ge i r with h1 | h1
    · rw [h.2.2.1 i (by simpa using h1), getD_tab h1, if_neg (by omega)]; simp
    · obtain rfl : i = r := by omega
      simp [bndryWithZeros]

/-- **C75** (bndry_with_zeros along the last axis): two more columns. -/
theorem C75_bndry_axis1 (r c : ℕ) (hr : 0 < r) (f : ℕ → ℕ → ℝ) :
    bndryWithZeros1 (G2.mtab r c f) = .ok (G2.mtab r (c + 2) fun i j => if j = 0 ∨ j = c + 1 then 0 else f i (j - 1)) := by
  refine G2.apply1_mtab hr fun i hi => congrArg Except.ok ?_
  refine eq_tab_of (by simp [bndryWithZeros]) 0 fun j hj => ?_
  have h := C75_bndry (tab c (f i))
  rcases Nat.eq_zero_or_pos j with rfl | h0
  · simp [bndryWithZeros]
  · obtain ⟨j, rfl⟩ : ∃ k, j = k + 1 := ⟨j - 1, by omega⟩
    rcases Nat.lt_or_ge j c with h1 | h1
    · rw [h.2.2.1 j (by simpa using h1), getD_tab h1, if_neg (by omega)]; simp
    · obtain rfl : j = c := by omega
      simp [bndryWithZeros]

theorem foldl_set (identify : List (ℕ × ℕ)) : ∀ (mp : List ℕ) (i : ℕ), i < mp.length → (identify.map Prod.fst).Nodup →
    (identify.foldl (fun mp e => mp.set e.1 e.2) mp).getD i 0 = (identify.lookup i).getD (mp.getD i 0) := by
  induction identify with
  | nil => intro mp i _ _; rfl
  | cons e l ih =>
    intro mp i hi hn
    rw [List.map_cons, List.nodup_cons] at hn
    rw [List.foldl_cons, ih _ i (by simpa using hi) hn.2]
    obtain ⟨k, v⟩ := e
    by_cases h : i = k
    · subst h
      have : l.lookup i = none := by
        rw [List.lookup_eq_none_iff]
        intro p hp
        simp only [beq_iff_eq, bne_iff_ne, ne_eq]
        intro e; exact hn.1 (List.mem_map.2 ⟨p, hp, e.symm⟩)
      rw [this, List.lookup_cons_self]
      simp [hi]
    · rw [List.lookup_cons, beq_eq_false_iff_ne.2 h]
      simp [List.getD_eq_getElem?_getD, List.getElem?_set, Ne.symm h]

/-- **C75** (apply_map): every entry that is a key is replaced by its value, every other entry stays, and positions do not move; `identify` is a dictionary, so its keys are distinct.
The call fails exactly on an empty array (`ValueError`) and on a key larger than every entry (`IndexError`). -/
theorem C75_apply_map (data : List ℕ) (identify : List (ℕ × ℕ)) (hn : (identify.map Prod.fst).Nodup) :
    (data = [] → applyMap data identify = .error .valueError) ∧
    (data ≠ [] → (∃ e ∈ identify, ∀ i ∈ data, i < e.1) → applyMap data identify = .error .indexError) ∧
    (data ≠ [] → (∀ e ∈ identify, ∃ i ∈ data, e.1 ≤ i) → applyMap data identify = .ok (data.map fun i => (identify.lookup i).getD i)) := by
  refine ⟨fun h => by subst h; rfl, fun h he => ?_, fun h he => ?_⟩
  · obtain ⟨m, hm⟩ := Option.ne_none_iff_exists'.1 (mt List.max?_eq_none_iff.1 h)
    obtain ⟨e, h1, h2⟩ := he
    simp only [applyMap, hm]
    rw [if_pos]
    rw [List.any_eq_true]
    exact ⟨e, h1, by simpa using h2 m (List.max?_mem hm)⟩
  · obtain ⟨m, hm⟩ := Option.ne_none_iff_exists'.1 (mt List.max?_eq_none_iff.1 h)
    have hle : ∀ i ∈ data, i ≤ m := (List.max?_eq_some_iff.1 hm).2
    simp only [applyMap, hm]
    rw [if_neg]
    · congr 1
      refine List.map_congr_left fun i hi => ?_
      rw [foldl_set _ _ _ (by simpa using Nat.lt_succ_of_le (hle i hi)) hn]
      congr 1
      simp [List.getD_eq_getElem?_getD, List.getElem?_range (Nat.lt_succ_of_le (hle i hi))]
    · rw [List.any_eq_true]
      rintro ⟨e, h1, h2⟩
      obtain ⟨i, hi, hle'⟩ := he e h1
      have := hle i hi
      simp at h2; omega

example : applyMap [0, 1, 2, 1] [(0, 3), (2, 5)] = .ok [3, 1, 5, 1] := by decide
example : applyMap [0, 1] [(7, 3)] = .error .indexError := by decide

/-- **C75** (cartesian_product): the pairs are listed with the first coordinate running fastest. -/
theorem C75_cartesian {α : Type*} (X Y : List α) (z : α) :
    (G2.cartesian_product X Y).1.length = X.length * Y.length ∧ (G2.cartesian_product X Y).2.length = X.length * Y.length ∧
    ∀ i < X.length, ∀ j < Y.length,
      (G2.cartesian_product X Y).1.getD (j * X.length + i) z = X.getD i z ∧ (G2.cartesian_product X Y).2.getD (j * X.length + i) z = Y.getD j z := by
  have e1 : (G2.cartesian_product X Y).1 = tab (Y.length * X.length) fun k => X.getD (k % X.length) z := by
    rw [← G2.flatten_tab Y.length X.length fun _ i => X.getD i z]
    simp only [G2.cartesian_product, G2.meshgrid]
    rw [List.flatMap_def, ← eq_tab]
    congr 1
    rw [eq_tab Y z, map_tab, length_tab]
  have e2 : (G2.cartesian_product X Y).2 = tab (Y.length * X.length) fun k => Y.getD (k / X.length) z := by
    rw [← G2.flatten_tab Y.length X.length fun j _ => Y.getD j z]
    simp only [G2.cartesian_product, G2.meshgrid, replicate_tab]
    rw [List.flatMap_def]
    congr 1
    conv_lhs => rw [eq_tab Y z]
    rw [map_tab]
  refine ⟨by rw [e1, length_tab, mul_comm], by rw [e2, length_tab, mul_comm], fun i hi j hj => ?_⟩
  rw [e1, e2, getD_tab (G2.idx_lt hj hi), getD_tab (G2.idx_lt hj hi), G2.idx_mod hi, G2.idx_div hi]
  exact ⟨rfl, rfl⟩

/-- **C75** (cartesian_product): every pair occurs, and when the entries of `X` and of `Y` are distinct, exactly once. -/
theorem C75_cartesian_pairs {α : Type*} (X Y : List α) :
    (∀ p, p ∈ List.zip (G2.cartesian_product X Y).1 (G2.cartesian_product X Y).2 ↔ p.1 ∈ X ∧ p.2 ∈ Y) ∧
    (X.Nodup → Y.Nodup → (List.zip (G2.cartesian_product X Y).1 (G2.cartesian_product X Y).2).Nodup) := by
  have e : List.zip (G2.cartesian_product X Y).1 (G2.cartesian_product X Y).2 = Y.flatMap fun y => X.map fun x => (x, y) := by
    simp only [G2.cartesian_product, G2.meshgrid]
    induction Y with
    | nil => rfl
    | cons y Y ih =>
      rw [List.flatMap_cons, List.flatMap_cons, List.flatMap_cons, List.zip_append (by simp), ih]
      congr 1
      clear ih
      induction X with
      | nil => rfl
      | cons x X ih => simp [List.replicate_succ, ih]
  rw [e]
  refine ⟨fun p => ?_, fun hX hY => ?_⟩
  · obtain ⟨a, b⟩ := p
    simp only [List.mem_flatMap, List.mem_map, Prod.mk.injEq]
    constructor
    · rintro ⟨y, hy, x, hx, rfl, rfl⟩; exact ⟨hx, hy⟩
    · rintro ⟨h1, h2⟩; exact ⟨b, h2, a, h1, rfl, rfl⟩
  · rw [List.nodup_flatMap]
    refine ⟨fun y _ => hX.map fun a b h => (Prod.mk.inj h).1, ?_⟩
    refine hY.imp fun {a b} hab => ?_
    rw [Function.onFun, List.disjoint_left]
    intro p h1 h2
    simp only [List.mem_map] at h1 h2
    obtain ⟨x, _, rfl⟩ := h1
    obtain ⟨x', _, h⟩ := h2
    exact hab (Prod.mk.inj h).2.symm

example : G2.cartesian_product [0, 1, 2] [7, 8] = ([0, 1, 2, 0, 1, 2], [7, 7, 7, 8, 8, 8]) := by decide

/-! ## C76 -/

theorem toString_lt_ten {i : ℕ} (h : i < 10) : ∃ c : Char, (toString i).toList = [c] := by
  interval_cases i <;> exact ⟨_, rfl⟩

/-- **C76** (enumerate_coords): vertex by vertex, the coordinates in order, each with the number of the vertex appended. -/
theorem C76_enumerate (coords : List String) (deg : ℕ) :
    (Sym.enumerate_coords coords deg).length = (deg + 1) * coords.length ∧
    ∀ i ≤ deg, ∀ j < coords.length, (Sym.enumerate_coords coords deg).getD (i * coords.length + j) "" = coords.getD j "" ++ toString i := by
  have e : Sym.enumerate_coords coords deg = tab ((deg + 1) * coords.length) fun k => coords.getD (k % coords.length) "" ++ toString (k / coords.length) := by
    rw [← G2.flatMap_tab (deg + 1) coords.length fun i j => coords.getD j "" ++ toString i]
    unfold Sym.enumerate_coords
    congr 1
    funext i
    conv_lhs => rw [eq_tab coords ""]
    rw [map_tab]
  refine ⟨by rw [e, length_tab], fun i hi j hj => ?_⟩
  rw [e, getD_tab (G2.idx_lt (by omega) hj), G2.idx_mod hj, G2.idx_div hj]

/-- **C76** (enumerate_coords): different coordinates of at most ten vertices have different names. -/
theorem C76_enumerate_distinct (coords : List String) (hc : coords.Nodup) (deg : ℕ) (hd : deg ≤ 9) : (Sym.enumerate_coords coords deg).Nodup := by
  have inj : ∀ (c c' : String) (i j : ℕ), i < 10 → j < 10 → c ++ toString i = c' ++ toString j → c = c' ∧ i = j := by
    intro c c' i j hi hj h
    have h := congrArg String.toList h
    rw [String.toList_append, String.toList_append] at h
    obtain ⟨h1, h2⟩ := List.append_inj' h (by obtain ⟨a, ha⟩ := toString_lt_ten hi; obtain ⟨b, hb⟩ := toString_lt_ten hj; rw [ha, hb]; rfl)
    refine ⟨String.toList_inj.1 h1, ?_⟩
    have := String.toList_inj.1 h2
    clear h h1 h2
    revert this
    interval_cases i <;> interval_cases j <;> first | (intro _; rfl) | (intro h; revert h; decide)
  unfold Sym.enumerate_coords
  rw [List.nodup_flatMap]
  constructor
  · intro i hi
    rw [List.mem_range] at hi
    exact hc.map fun a b h => (inj a b i i (by omega) (by omega) h).1
  · refine (List.nodup_range (n := deg + 1)).imp_of_mem fun {a b} ha hb hab => ?_
    rw [List.mem_range] at ha hb
    rw [Function.onFun, List.disjoint_left]
    intro p h1 h2
    simp only [List.mem_map] at h1 h2
    obtain ⟨x, _, rfl⟩ := h1
    obtain ⟨y, _, h⟩ := h2
    exact hab (inj y x b a (by omega) (by omega) h).2.symm

/-- **C76**: from the eleventh vertex on two coordinates may collide: the name of coordinate `x` of vertex 10 is that of coordinate `x1` of vertex 0. -/
theorem C76_enumerate_collision : ¬ (Sym.enumerate_coords ["x", "x1"] 10).Nodup := by decide

/-- **C76** (Chart.cell_coords): defined exactly for degrees up to the dimension; on a chart (one or two coordinates) all names differ. -/
theorem C76_cell_coords (coords : List String) (hc : coords.Nodup) (hn : coords.length ≤ 9) (deg : ℕ) :
    (deg ≤ coords.length → ∃ l, Sym.cell_coords coords deg = .ok l ∧ l.Nodup ∧ l.length = (deg + 1) * coords.length) ∧
    (coords.length < deg → Sym.cell_coords coords deg = .error .assertion) := by
  unfold Sym.cell_coords
  refine ⟨fun h => ⟨_, if_pos h, C76_enumerate_distinct coords hc deg (by omega), (C76_enumerate coords deg).1⟩, fun h => if_neg (by omega)⟩

example : Sym.cell_coords ["x", "y"] 1 = .ok ["x0", "y0", "x1", "y1"] := by decide

/-- **C76** (simplex_measure): an edge in the plane or in space has its Euclidean length, an edge on the line its signed length, a point the measure 1. -/
theorem C76_measure_edges (x0 y0 z0 x1 y1 z1 : ℝ) :
    Sym.simplex_measure [[x0]] = .ok (some 1) ∧ Sym.simplex_measure [[x0, y0]] = .ok (some 1) ∧ Sym.simplex_measure [[x0, y0, z0]] = .ok (some 1) ∧
    Sym.simplex_measure [[x0], [x1]] = .ok (some (∫ _ in x0..x1, (1 : ℝ))) ∧
    Sym.simplex_measure [[x0, y0], [x1, y1]] = .ok (some (dist (!₂[x1, y1] : EuclideanSpace ℝ (Fin 2)) !₂[x0, y0])) ∧
    Sym.simplex_measure [[x0, y0, z0], [x1, y1, z1]] = .ok (some (dist (!₂[x1, y1, z1] : EuclideanSpace ℝ (Fin 3)) !₂[x0, y0, z0])) := by
  refine ⟨by simp [Sym.simplex_measure], by simp [Sym.simplex_measure], by simp [Sym.simplex_measure], by simp [Sym.simplex_measure], ?_, ?_⟩
  · rw [EuclideanSpace.dist_eq]
    simp [Sym.simplex_measure, Real.dist_eq, sq_abs, Fin.sum_univ_two]
  · rw [EuclideanSpace.dist_eq]
    simp [Sym.simplex_measure, Real.dist_eq, sq_abs, Fin.sum_univ_three, add_assoc]

/-- **C76** (simplex_measure): no triangle has a measure: in the plane the call fails because a variable is unbound, in space it is not implemented, and neither is the tetrahedron. -/
theorem C76_measure_triangles (a b c d : List ℝ) :
    (a.length = 2 → b.length = 2 → c.length = 2 → Sym.simplex_measure [a, b, c] = .error .nameError) ∧
    (a.length = 3 → b.length = 3 → c.length = 3 → Sym.simplex_measure [a, b, c] = .error .notImplemented ∧
      (d.length = 3 → Sym.simplex_measure [a, b, c, d] = .error .notImplemented)) := by
  constructor
  · intro ha hb hc
    obtain ⟨a0, a1, rfl⟩ := List.length_eq_two.1 ha
    obtain ⟨b0, b1, rfl⟩ := List.length_eq_two.1 hb
    obtain ⟨c0, c1, rfl⟩ := List.length_eq_two.1 hc
    simp [Sym.simplex_measure]
  · intro ha hb hc
    obtain ⟨a0, a1, a2, rfl⟩ := List.length_eq_three.1 ha
    obtain ⟨b0, b1, b2, rfl⟩ := List.length_eq_three.1 hb
    obtain ⟨c0, c1, c2, rfl⟩ := List.length_eq_three.1 hc
    refine ⟨by simp [Sym.simplex_measure], fun hd => ?_⟩
    obtain ⟨d0, d1, d2, rfl⟩ := List.length_eq_three.1 hd
    simp [Sym.simplex_measure]

open Dispatch in
/-- **C76** (multiple dispatch): after any history of registrations a call uses the last function registered for exactly the degrees of the arguments. -/
theorem C76_dispatch_last {C : Type} (rank : List ℤ → Except Err ℤ) (before after : List (List ℤ × (List C → Except Err C))) (k : List ℤ) (hk : k ≠ [])
    (fn : List C → Except Err C) (hl : ∀ r ∈ after, r.1 ≠ k) (args : List (ℤ × C)) (ha : args.map Prod.fst = k) :
    call ((before ++ (k, fn) :: after).foldl (fun d r => register d r.1 r.2) (new rank)) args =
      (do let r ← rank k; let c ← fn (args.map Prod.snd); .ok (r, c)) := by
  have inv : ∀ (l : List (List ℤ × (List C → Except Err C))) (d : Fn C), (l.foldl (fun d r => register d r.1 r.2) d).rank = d.rank := by
    intro l
    induction l with
    | nil => intro d; rfl
    | cons r l ih => intro d; rw [List.foldl_cons, ih]; unfold register; split_ifs <;> rfl
  have keep : ∀ (l : List (List ℤ × (List C → Except Err C))), (∀ r ∈ l, r.1 ≠ k) → ∀ d : Fn C,
      (l.foldl (fun d r => register d r.1 r.2) d).multi k = d.multi k := by
    intro l
    induction l with
    | nil => intro _ d; rfl
    | cons r l ih =>
      intro h d
      rw [List.foldl_cons, ih fun r hr => h r (List.mem_cons_of_mem _ hr)]
      unfold register
      split_ifs
      · rfl
      · simp only; rw [if_neg (Ne.symm (h r List.mem_cons_self))]
  unfold call
  simp only [ha, inv]
  rw [List.foldl_append, List.foldl_cons, keep after hl]
  simp only [register, if_neg hk, if_true]
  rfl

open Dispatch in
/-- **C76** (multiple dispatch): degrees that were never registered are an error, even when a default was registered. -/
theorem C76_dispatch_missing {C : Type} (rank : List ℤ → Except Err ℤ) (regs : List (List ℤ × (List C → Except Err C))) (args : List (ℤ × C))
    (hl : ∀ r ∈ regs, r.1 ≠ args.map Prod.fst ∨ r.1 = []) (r : ℤ) (hr : rank (args.map Prod.fst) = .ok r) :
    call (regs.foldl (fun d r => register d r.1 r.2) (new rank)) args = .error .keyError := by
  have inv : ∀ (l : List (List ℤ × (List C → Except Err C))) (d : Fn C), (l.foldl (fun d r => register d r.1 r.2) d).rank = d.rank := by
    intro l
    induction l with
    | nil => intro d; rfl
    | cons r l ih => intro d; rw [List.foldl_cons, ih]; unfold register; split_ifs <;> rfl
  have keep : ∀ (l : List (List ℤ × (List C → Except Err C))), (∀ r ∈ l, r.1 ≠ args.map Prod.fst ∨ r.1 = []) → ∀ d : Fn C,
      (l.foldl (fun d r => register d r.1 r.2) d).multi (args.map Prod.fst) = d.multi (args.map Prod.fst) := by
    intro l
    induction l with
    | nil => intro _ d; rfl
    | cons r l ih =>
      intro h d
      rw [List.foldl_cons, ih fun r hr => h r (List.mem_cons_of_mem _ hr)]
      unfold register
      split_ifs with h0
      · rfl
      · simp only; rw [if_neg (Ne.symm ((h r List.mem_cons_self).resolve_right h0))]
  unfold call
  simp only [inv, keep regs hl, new, hr]
  rfl

/-- **C76** (make_namedtuple): the tuple holds the values of the fields in the order of the fields; a missing field is a `KeyError`; keys that are not fields do not matter. -/
theorem C76_namedtuple {V : Type} (fields : List String) (dict : String → Option V) :
    (∀ vs, makeNamedtuple fields dict = .ok vs ↔ fields.map dict = vs.map some) ∧
    (makeNamedtuple fields dict = .error .keyError ↔ ∃ f ∈ fields, dict f = none) ∧
    (∀ dict', (∀ f ∈ fields, dict' f = dict f) → makeNamedtuple fields dict' = makeNamedtuple fields dict) := by
  have base : ∀ fields : List String, (∃ vs, makeNamedtuple fields dict = .ok vs ∧ fields.map dict = vs.map some) ∨
      (makeNamedtuple fields dict = .error .keyError ∧ ∃ f ∈ fields, dict f = none) := by
    intro fields
    induction fields with
    | nil => exact .inl ⟨[], rfl, rfl⟩
    | cons f l ih =>
      unfold makeNamedtuple at *
      rw [List.mapM_cons]
      cases hf : dict f with
      | none => exact .inr ⟨rfl, f, List.mem_cons_self, hf⟩
      | some v =>
        rcases ih with ⟨vs, h1, h2⟩ | ⟨h1, g, hg, h2⟩
        · refine .inl ⟨v :: vs, by rw [h1]; rfl, by simp [hf, h2]⟩
        · refine .inr ⟨by rw [h1]; rfl, g, List.mem_cons_of_mem _ hg, h2⟩
  refine ⟨fun vs => ?_, ?_, fun dict' h => ?_⟩
  · rcases base fields with ⟨ws, h1, h2⟩ | ⟨h1, g, hg, h2⟩
    · rw [h1, h2]
      constructor
      · intro h; injection h with h; rw [h]
      · intro h; rw [List.map_injective_iff.2 (Option.some_injective _) h]
    · rw [h1]
      refine ⟨fun h => (by cases h), fun h => ?_⟩
      have : dict g ∈ vs.map some := h ▸ List.mem_map_of_mem hg
      rw [h2] at this
      simp at this
  · rcases base fields with ⟨ws, h1, h2⟩ | ⟨h1, g, hg, h2⟩
    · rw [h1]
      refine ⟨fun h => (by cases h), fun ⟨g, hg, h⟩ => ?_⟩
      have : dict g ∈ ws.map some := h2 ▸ List.mem_map_of_mem hg
      rw [h] at this
      simp at this
    · exact ⟨fun _ => ⟨g, hg, h2⟩, fun _ => h1⟩
  · unfold makeNamedtuple
    induction fields with
    | nil => rfl
    | cons f l ih =>
      rw [List.mapM_cons, List.mapM_cons, h f List.mem_cons_self, ih fun g hg => h g (List.mem_cons_of_mem _ hg)]

example : makeNamedtuple ["x", "y"] (fun s => if s = "x" then some 1 else if s = "y" then some 2 else some 3) = .ok [1, 2] := by decide

/-! ## C77 -/

open Decform

/-- **C77**: the attribute `I` of a discrete form fails on every grid: no grid has an interpolation table. -/
theorem C77_interpolation (h : Heap) (x : DForm) : Decform.I h x = .error .keyError := by
  unfold Decform.I bunchGet decKeys
  split_ifs with h1 h2 h2
  all_goals first | rfl | (exfalso; revert h2; decide)

/-- **C77**: the tables that do exist: those of the operators `D`, `H`, `W`, `C`, of the projection and of the basis on every grid of dimension 1 or 2; those of the boundary
terms and of numerical projection on grids of dimension 2 only. -/
theorem C77_tables (h : Heap) (x : DForm) (hd : (h x.grid).dim = 1 ∨ (h x.grid).dim = 2) :
    (∀ s ∈ ["P", "B", "D", "H", "W", "C"], bunchGet (decKeys (h x.grid).dim) s = .ok ()) ∧
    (∀ s ∈ ["Pn", "BC"], bunchGet (decKeys (h x.grid).dim) s = if (h x.grid).dim = 2 then .ok () else .error .keyError) := by
  rcases hd with hd | hd <;> rw [hd] <;> decide

/-- **C77**: on a periodic or Chebyshev grid, `g.P(d, t, f).Rf` of a resolved `f` are the values of `f` at `g.points`. -/
theorem C77_refine_1d {k : Kind} {n : ℕ} (h : Refinable k n) (addr : ℕ) (d : Fin 2) (t : Bool) (f : ℝ → ℝ) (hf : Resolved k ((grid₀ k n).N d t) f) :
    ∃ pts x, (grid₀ k n).points = .ok pts ∧ project1 (grid₀ k n) addr d t f = .ok x ∧ Rf1 (grid₀ k n) x = .ok (pts.map f) ∧
      x.degree = d ∧ x.isprimal = t ∧ x.grid = addr := by
  obtain ⟨M, p, r⟩ := grid₀_refine h
  have hk : Decform.key 2 d.val = .ok d := by unfold Decform.key; rw [dif_pos d.2]
  refine ⟨_, _, r.points, by unfold project1; rw [hk]; rfl, ?_, rfl, rfl, rfl⟩
  simp only [Rf1, hk]
  rw [map_tab]
  exact r.T d t f hf

/-- **C77**: on a product of periodic and Chebyshev grids, `g.P(d, t, f).Rf` of a resolved form are the values of its components at `g.points`. -/
theorem C77_refine_2d {k k' : Kind} {n n' : ℕ} (h : Refinable k n) (h' : Refinable k' n') (addr : ℕ) (d : Fin 3) (t : Bool) (σ : List (ℝ → ℝ → ℝ))
    (hσ : TensorForm (fun d => Resolved k ((grid₀ k n).N d t)) (fun d => Resolved k' ((grid₀ k' n').N d t)) d σ) :
    ∃ X Y x, (G2.product (grid₀ k n) (grid₀ k' n')).points = .ok (X, Y) ∧ project2 (G2.product (grid₀ k n) (grid₀ k' n')) addr d t σ = .ok x ∧
      Rf2 (G2.product (grid₀ k n) (grid₀ k' n')) x = .ok (σ.map fun f => G2.map2 f X Y) ∧ x.degree = d ∧ x.isprimal = t ∧ x.grid = addr := by
  obtain ⟨X, Y, e1, e2, -⟩ := C59_refine_samples h h'
  obtain ⟨a, e3, e4⟩ := e2 d t σ hσ
  have hk : Decform.key 3 d.val = .ok d := by unfold Decform.key; rw [dif_pos d.2]
  refine ⟨X, Y, ⟨d, t, addr, a⟩, e1, ?_, ?_, rfl, rfl, rfl⟩
  · simp only [project2, hk]
    show (G2.Grid2.P _ d t σ >>= _) = _
    rw [e3]; rfl
  · simp only [Rf2, hk]; exact e4

/-- **C77**: `g.rand(d, t)` is a form of that degree and duality on `g` with as many entries as `g.N[d, t]`, on one- and two-dimensional grids; a degree above the dimension is a `KeyError`. -/
theorem C77_rand (h : Heap) (addr d : ℕ) (t : Bool) (draw : ℕ → ℝ) :
    (∀ N, (h addr).N d t = .ok N → ∃ x, Decform.rand h addr d t draw = .ok x ∧ x.degree = d ∧ x.isprimal = t ∧ x.grid = addr ∧
      (h x.grid).N x.degree x.isprimal = .ok x.array.length ∧ ∀ i < N, x.array.getD i 0 = draw i) ∧
    (∀ g, h addr = ops1 g → (2 ≤ d → Decform.rand h addr d t draw = .error .keyError) ∧ (d < 2 → ∃ N, (h addr).N d t = .ok N)) ∧
    (∀ k k' n n' a b a' b', validSize k n → validSize k' n' → h addr = ops2 (G2.product (grid k n a b) (grid k' n' a' b')) →
      (3 ≤ d → Decform.rand h addr d t draw = .error .keyError) ∧ (d < 3 → ∃ N, (h addr).N d t = .ok N)) := by
  refine ⟨fun N e => ?_, fun g e => ?_, fun k k' n n' a b a' b' hv hv' e => ?_⟩
  · refine ⟨⟨d, t, addr, tab N draw⟩, by unfold Decform.rand; rw [e]; rfl, rfl, rfl, rfl, by simp [e], fun i hi => getD_tab hi 0⟩
  · refine ⟨fun hd => ?_, fun hd => ?_⟩
    · unfold Decform.rand; rw [e]
      simp only [ops1, Decform.key, dif_neg (show ¬ d < 2 by omega)]; rfl
    · rw [e]; simp only [ops1, Decform.key, dif_pos hd]; exact ⟨_, rfl⟩
  · refine ⟨fun hd => ?_, fun hd => ?_⟩
    · unfold Decform.rand; rw [e]
      simp only [ops2, Decform.key, dif_neg (show ¬ d < 3 by omega)]; rfl
    · rw [e]; simp only [ops2, Decform.key, dif_pos hd]; exact ⟨_, G2.N_eq (G2.grid_factor _ _ hv _ _) (G2.grid_factor _ _ hv' _ _) _ _⟩

end Dec.Props

namespace Dec.Props

example : Refinable .chebyshev 5 ∧ Refinable .periodic 4 := ⟨⟨by norm_num [validSize], by decide, by norm_num⟩, ⟨by norm_num [validSize], by decide, by norm_num⟩⟩
example : (["x", "y"] : List String).Nodup := by decide
example : Dispatch.call ([([1], fun _ => .ok 5), ([], fun _ => .ok 8), ([1], fun c => .ok (c.sum + 1))].foldl (fun d r => Dispatch.register d r.1 r.2) (Dispatch.new fun k => .ok k.sum))
    [(1, (3 : ℤ))] = .ok (1, 4) := by decide

end Dec.Props
