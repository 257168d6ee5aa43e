import Verif.Props.Derivative

set_option linter.unusedSimpArgs false
set_option linter.unusedVariables false

/-!
# Cells of one-dimensional grids: C12
-/

namespace Dec

open Real Finset

theorem pairwise_tab {m : ℕ} {f : ℕ → ℝ} (h : ∀ i, i + 1 < m → f i < f (i + 1)) : (tab m f).Pairwise (· < ·) := by
  rw [← List.isChain_iff_pairwise, List.isChain_iff_getElem]
  intro i hi
  simp only [length_tab] at hi
  simp only [getElem_tab]
  exact h i hi

theorem weave_tab' {α : Type*} (n : ℕ) (f g : ℕ → α) :
    weave (tab (n + 1) f) (tab n g) = tab (2 * n + 1) (fun i => if i % 2 = 0 then f (i / 2) else g (i / 2)) := by
  induction n generalizing f g with
  | zero => simp [weave, tab_succ]
  | succ n ih =>
    rw [tab_succ (n + 1) f, tab_succ n g, weave, ih, show 2 * (n + 1) + 1 = 2 * n + 1 + 1 + 1 by ring, tab_succ (2 * n + 1 + 1), tab_succ (2 * n + 1)]
    simp only [Nat.zero_mod, if_true, Nat.zero_div, List.cons.injEq, true_and]
    refine ⟨by simp, tab_congr fun i _ => ?_⟩
    rw [show i + 1 + 1 = i + 2 by ring, Nat.add_mod_right, Nat.add_div_right _ (by norm_num)]

namespace Props

/-- C12 (interval grids), primal: the edges run from vertex to vertex and partition `[xmin, xmax]`. -/
theorem C12_interval_primal (k : IKind) (n : ℕ) (hn : 2 ≤ n) (xmin xmax : ℝ) (hx : xmin < xmax) :
    IsPartition xmin xmax ((intervalGrid k n xmin xmax).cells.e true).1 ((intervalGrid k n xmin xmax).cells.e true).2 ∧
    ((intervalGrid k n xmin xmax).cells.e true).1 = ((intervalGrid k n xmin xmax).cells.v true).dropLast ∧
    ((intervalGrid k n xmin xmax).cells.e true).2 = ((intervalGrid k n xmin xmax).cells.v true).tail := by
  obtain ⟨v, w, hg, ho⟩ := exists_isInterval k hn hx
  have hf := hg.first; have hl := hg.last
  rw [hg.edges, hg.verts, dropLast_tab, tail_tab]
  simp only [intervalGrid_n, intervalGrid_xmin, intervalGrid_xmax] at hf hl ⊢
  refine ⟨⟨by simp, by simp; omega, ?_, ?_, ?_, ?_⟩, trivial, trivial⟩
  · rw [getD_tab (by omega), hf]
  · rw [length_tab, getD_tab (by omega), show n - 1 - 1 + 1 = n - 1 by omega, hl]
  · intro i hi
    rw [length_tab] at hi
    rw [getD_tab hi, getD_tab hi]; exact (ho i hi).1.trans (ho i hi).2
  · intro i hi
    rw [length_tab] at hi
    rw [getD_tab (by omega), getD_tab hi]

/-- C12 (interval grids), dual: each dual vertex lies strictly inside its primal edge; dual edges run between dual vertices, the first
starts at `xmin`, the last ends at `xmax`, and they partition the interval. -/
theorem C12_interval_dual (k : IKind) (n : ℕ) (hn : 2 ≤ n) (xmin xmax : ℝ) (hx : xmin < xmax) :
    (∀ i < n - 1, ((intervalGrid k n xmin xmax).cells.e true).1.getD i 0 < ((intervalGrid k n xmin xmax).cells.v false).getD i 0 ∧
      ((intervalGrid k n xmin xmax).cells.v false).getD i 0 < ((intervalGrid k n xmin xmax).cells.e true).2.getD i 0) ∧
    IsPartition xmin xmax ((intervalGrid k n xmin xmax).cells.e false).1 ((intervalGrid k n xmin xmax).cells.e false).2 ∧
    ((intervalGrid k n xmin xmax).cells.e false).1.tail = (intervalGrid k n xmin xmax).cells.v false ∧
    ((intervalGrid k n xmin xmax).cells.e false).2.dropLast = (intervalGrid k n xmin xmax).cells.v false := by
  obtain ⟨v, w, hg, ho⟩ := exists_isInterval k hn hx
  have hf := hg.first; have hl := hg.last
  rw [hg.edges, hg.edges_dual, hg.verts_dual]
  simp only [intervalGrid_n, intervalGrid_xmin, intervalGrid_xmax] at hf hl ⊢
  have hm : ∀ i < n - 1, v i < v (i + 1) := fun i hi => (ho i hi).1.trans (ho i hi).2
  have hb : ∀ j < n - 1, xmin < w j ∧ w j < xmax := by
    intro j hj
    constructor
    · rw [← hf]; exact lt_of_le_of_lt (chain_lt hm (Nat.zero_le j) (by omega)) (ho j hj).1
    · rw [← hl]; exact lt_of_lt_of_le (ho j hj).2 (chain_lt hm (by omega) le_rfl)
  refine ⟨fun i hi => ?_, ⟨by simp, by simp; omega, ?_, ?_, ?_, ?_⟩, ?_, ?_⟩
  · rw [getD_tab hi, getD_tab hi, getD_tab hi]; exact ho i hi
  · rw [getD_tab (by omega), if_pos rfl]
  · rw [length_tab, getD_tab (by omega), if_neg (by omega)]
  · intro i hi
    rw [length_tab] at hi
    rw [getD_tab hi, getD_tab hi]
    split_ifs with h1 h2 h2
    · exact (hb i h2).1
    · exact hx
    · have := (ho (i - 1) (by omega)).2
      rw [show i - 1 + 1 = i by omega] at this
      exact this.trans (ho i h2).1
    · exact (hb _ (by omega)).2
  · intro i hi
    rw [length_tab] at hi
    rw [getD_tab (by omega), getD_tab hi, if_pos (by omega), if_neg (by omega), Nat.add_sub_cancel]
  · rw [tail_tab]; exact tab_congr fun i _ => by simp
  · rw [dropLast_tab]; exact tab_congr fun i hi => by simp [hi]

/-- C12 (interval grids), points: primal and dual vertices alternate and increase. -/
theorem C12_interval_points (k : IKind) (n : ℕ) (hn : 2 ≤ n) (xmin xmax : ℝ) (hx : xmin < xmax) :
    ∃ pts, (intervalGrid k n xmin xmax).points = .ok pts ∧ pts.Pairwise (· < ·) ∧ pts.length = 2 * n - 1 ∧
      stride2 pts = (intervalGrid k n xmin xmax).cells.v true ∧ stride2' pts = (intervalGrid k n xmin xmax).cells.v false := by
  obtain ⟨v, w, hg, ho⟩ := exists_isInterval k hn hx
  unfold Grid1.points interweave
  rw [hg.verts, hg.verts_dual]
  simp only [intervalGrid_n, length_tab]
  rw [if_pos (by omega)]
  obtain ⟨m, rfl⟩ : ∃ m, n = m + 1 := ⟨n - 1, by omega⟩
  simp only [Nat.add_sub_cancel] at ho ⊢
  rw [weave_tab']
  refine ⟨_, rfl, pairwise_tab fun i hi => ?_, by simp; omega, ?_, ?_⟩
  · rcases Nat.mod_two_eq_zero_or_one i with h | h
    · rw [if_pos h, if_neg (by omega), show (i + 1) / 2 = i / 2 by omega]
      exact (ho (i / 2) (by omega)).1
    · rw [if_neg (by omega), if_pos (by omega), show (i + 1) / 2 = i / 2 + 1 by omega]
      exact (ho (i / 2) (by omega)).2
  · rw [stride2_tab]
    refine tab_congr' (by omega) fun i _ => ?_
    rw [if_pos (by omega)]; congr 1; omega
  · rw [stride2'_tab]
    refine tab_congr' (by omega) fun i _ => ?_
    rw [if_neg (by omega)]; congr 1; omega

/-- C12 (periodic grids): primal edges partition `[xmin, xmax]`, start at the vertices, and contain one dual vertex each; dual edges
partition the interval moved left by half a cell, end at the dual vertices and contain one primal vertex each. -/
theorem C12_periodic (n : ℕ) (hn : 1 ≤ n) (xmin xmax : ℝ) (hx : xmin < xmax) :
    IsPartition xmin xmax ((Periodic.make n xmin xmax).cells.e true).1 ((Periodic.make n xmin xmax).cells.e true).2 ∧
    ((Periodic.make n xmin xmax).cells.e true).1 = (Periodic.make n xmin xmax).cells.v true ∧
    (∀ i < n, ((Periodic.make n xmin xmax).cells.e true).1.getD i 0 < ((Periodic.make n xmin xmax).cells.v false).getD i 0 ∧
      ((Periodic.make n xmin xmax).cells.v false).getD i 0 < ((Periodic.make n xmin xmax).cells.e true).2.getD i 0) ∧
    IsPartition (xmin - (xmax - xmin) / n / 2) (xmax - (xmax - xmin) / n / 2)
      ((Periodic.make n xmin xmax).cells.e false).1 ((Periodic.make n xmin xmax).cells.e false).2 ∧
    ((Periodic.make n xmin xmax).cells.e false).2 = (Periodic.make n xmin xmax).cells.v false ∧
    (∀ i < n, ((Periodic.make n xmin xmax).cells.e false).1.getD i 0 < ((Periodic.make n xmin xmax).cells.v true).getD i 0 ∧
      ((Periodic.make n xmin xmax).cells.v true).getD i 0 < ((Periodic.make n xmin xmax).cells.e false).2.getD i 0) := by
  have hn' : (0 : ℝ) < n := by exact_mod_cast hn
  have hpos : 0 < (xmax - xmin) / n := div_pos (by linarith) hn'
  have e1 : (Periodic.make n xmin xmax).cells.e true = (tab n fun i => xmin + i * ((xmax - xmin) / n), tab n fun i => xmin + (i + 1) * ((xmax - xmin) / n)) := by
    show ((Periodic.pnts n xmin xmax).dropLast, (Periodic.pnts n xmin xmax).tail) = _
    rw [Periodic.pnts_tab, dropLast_tab, tail_tab, Nat.add_sub_cancel]; push_cast; rfl
  have e2 : (Periodic.make n xmin xmax).cells.e false = (tab n fun i => xmin + (i - 1 / 2) * ((xmax - xmin) / n), tab n fun i => xmin + (i + 1 / 2) * ((xmax - xmin) / n)) := by
    show ((roll (Periodic.verts_dual n xmin xmax) 1).modify 0 (· - |xmax - xmin|), Periodic.verts_dual n xmin xmax) = _
    rw [Periodic.edges_dual_tab hx.le, Periodic.verts_dual_tab]
  have e3 : (Periodic.make n xmin xmax).cells.v true = tab n fun i => xmin + i * ((xmax - xmin) / n) := Periodic.verts_tab _ _ _
  have e4 : (Periodic.make n xmin xmax).cells.v false = tab n fun i => xmin + (i + 1 / 2) * ((xmax - xmin) / n) := Periodic.verts_dual_tab _ _ _
  have hl : ((n - 1 : ℕ) : ℝ) = n - 1 := by rw [Nat.cast_sub hn]; simp
  rw [e1, e2, e3, e4]
  generalize hh : (xmax - xmin) / n = h at *
  have hmul : n * h = xmax - xmin := by rw [← hh]; field_simp
  refine ⟨⟨by simp, by simp; omega, ?_, ?_, ?_, ?_⟩, rfl, ?_, ⟨by simp, by simp; omega, ?_, ?_, ?_, ?_⟩, rfl, ?_⟩
  · rw [getD_tab (by omega)]; simp
  · rw [length_tab, getD_tab (by omega), hl]; linarith
  · intro i hi; rw [length_tab] at hi; rw [getD_tab hi, getD_tab hi]; nlinarith
  · intro i hi; rw [length_tab] at hi; rw [getD_tab (by omega), getD_tab hi]; push_cast; rfl
  · intro i hi; rw [getD_tab hi, getD_tab hi, getD_tab hi]; constructor <;> nlinarith
  · rw [getD_tab (by omega)]; push_cast; ring
  · rw [length_tab, getD_tab (by omega), hl]; linarith
  · intro i hi; rw [length_tab] at hi; rw [getD_tab hi, getD_tab hi]; nlinarith
  · intro i hi; rw [length_tab] at hi; rw [getD_tab (by omega), getD_tab hi]; push_cast; ring
  · intro i hi; rw [getD_tab hi, getD_tab hi, getD_tab hi]; constructor <;> nlinarith

/-- C12 (periodic grids), points: primal and dual vertices alternate and increase. -/
theorem C12_periodic_points (n : ℕ) (hn : 1 ≤ n) (xmin xmax : ℝ) (hx : xmin < xmax) :
    ∃ pts, (Periodic.make n xmin xmax).points = .ok pts ∧ pts.Pairwise (· < ·) ∧ pts.length = 2 * n ∧
      stride2 pts = (Periodic.make n xmin xmax).cells.v true ∧ stride2' pts = (Periodic.make n xmin xmax).cells.v false := by
  have hn' : (0 : ℝ) < n := by exact_mod_cast hn
  have hpos : 0 < (xmax - xmin) / n := div_pos (by linarith) hn'
  have e3 : (Periodic.make n xmin xmax).cells.v true = tab n fun i => xmin + i * ((xmax - xmin) / n) := Periodic.verts_tab _ _ _
  have e4 : (Periodic.make n xmin xmax).cells.v false = tab n fun i => xmin + (i + 1 / 2) * ((xmax - xmin) / n) := Periodic.verts_dual_tab _ _ _
  unfold Grid1.points interweave
  rw [e3, e4]
  simp only [length_tab, true_or, if_true]
  rw [Periodic.weave_tab]
  refine ⟨_, rfl, pairwise_tab fun i hi => ?_, by simp, ?_, ?_⟩
  · rcases Nat.mod_two_eq_zero_or_one i with h | h
    · rw [if_pos h, if_neg (by omega), show (i + 1) / 2 = i / 2 by omega]; nlinarith
    · rw [if_neg (by omega), if_pos (by omega), show (i + 1) / 2 = i / 2 + 1 by omega]; push_cast; nlinarith
  · rw [stride2_tab]
    refine tab_congr' (by omega) fun i _ => ?_
    rw [if_pos (by omega)]; congr 2; push_cast; congr 1; omega
  · rw [stride2'_tab]
    refine tab_congr' (by omega) fun i _ => ?_
    rw [if_neg (by omega)]; congr 3; congr 1; omega

/-- Non-vacuity: the hypotheses hold on the default grids. -/
example : (0 : ℝ) < 2 * π ∧ (0 : ℝ) < π ∧ (-1 : ℝ) < 1 ∧ 2 ≤ 3 := by
  have := Real.pi_pos; refine ⟨by positivity, this, by norm_num, by norm_num⟩

/-- `diff` is the array without its first entry minus the array without its last entry. -/
theorem diff_eq (x : List ℝ) : diff x = vsub x.tail x.dropLast := by
  rw [eq_tab x 0, diff_tab, tail_tab, dropLast_tab, vsub_tab]

/-- C12: `g.delta` holds the lengths of the edges, on both sides. -/
theorem C12_cell_lengths_interval (k : IKind) (n : ℕ) (xmin xmax : ℝ) (t : Bool) :
    (intervalGrid k n xmin xmax).delta t = vsub ((intervalGrid k n xmin xmax).cells.e t).2 ((intervalGrid k n xmin xmax).cells.e t).1 := by
  cases k <;> cases t
  · exact diff_eq (Regular.tmp n xmin xmax)
  · exact diff_eq (Regular.verts n xmin xmax)
  · exact diff_eq (Chebyshev.tmp n xmin xmax)
  · exact diff_eq (Chebyshev.verts n xmin xmax)

/-- C12: `g.delta` holds the lengths of the edges, on both sides; on a periodic grid they are all equal. -/
theorem C12_cell_lengths_periodic (n : ℕ) (hn : 1 ≤ n) (xmin xmax : ℝ) (hx : xmin < xmax) (t : Bool) :
    (Periodic.make n xmin xmax).delta t = vsub ((Periodic.make n xmin xmax).cells.e t).2 ((Periodic.make n xmin xmax).cells.e t).1 ∧
    (Periodic.make n xmin xmax).delta t = List.replicate n ((xmax - xmin) / n) := by
  have e1 : (Periodic.make n xmin xmax).cells.e true = (tab n fun i => xmin + i * ((xmax - xmin) / n), tab n fun i => xmin + (i + 1) * ((xmax - xmin) / n)) := by
    show ((Periodic.pnts n xmin xmax).dropLast, (Periodic.pnts n xmin xmax).tail) = _
    rw [Periodic.pnts_tab, dropLast_tab, tail_tab, Nat.add_sub_cancel]; push_cast; rfl
  have e2 : (Periodic.make n xmin xmax).cells.e false = (tab n fun i => xmin + (i - 1 / 2) * ((xmax - xmin) / n), tab n fun i => xmin + (i + 1 / 2) * ((xmax - xmin) / n)) := by
    show ((roll (Periodic.verts_dual n xmin xmax) 1).modify 0 (· - |xmax - xmin|), Periodic.verts_dual n xmin xmax) = _
    rw [Periodic.edges_dual_tab hx.le, Periodic.verts_dual_tab]
  have e3 : (Periodic.make n xmin xmax).delta t = List.replicate n ((xmax - xmin) / n) := by
    show diff (Periodic.pnts n xmin xmax) = _
    rw [Periodic.pnts_tab, diff_tab, replicate_tab]
    refine tab_congr' (by omega) fun i _ => ?_
    push_cast; ring
  refine ⟨?_, e3⟩
  rw [e3, replicate_tab]
  cases t
  · rw [e2, vsub_tab]; exact tab_congr fun i _ => by ring
  · rw [e1, vsub_tab]; exact tab_congr fun i _ => by ring

example : 1 ≤ 4 ∧ (0 : ℝ) < 2 * π := ⟨by norm_num, by positivity⟩

end Props

end Dec
