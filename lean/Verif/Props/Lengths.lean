import Verif.Lib.Bil
import Verif.Lib.IntervalGrid
import Verif.Lib.RegularGrid

set_option linter.unusedSimpArgs false
set_option linter.unusedVariables false

/-!
# C11: array lengths match the table `N` in one dimension
-/

namespace Dec.Props

open Real Finset Dec.Sp

/-- The sizes for which each constructor produces a grid with at least one cell of each kind. -/
def validSize (k : Kind) (n : ℕ) : Prop :=
  match k with
  | .periodic => 1 ≤ n
  | .regular => 2 ≤ n
  | .chebyshev => 2 ≤ n

theorem interval_cells {g : Grid1} {v w : ℕ → ℝ} (h : IsInterval g v w) :
    (g.cells.v true).length = g.n ∧ (g.cells.v false).length = g.n - 1 ∧
    (g.cells.e true).1.length = g.n - 1 ∧ (g.cells.e true).2.length = g.n - 1 ∧
    (g.cells.e false).1.length = g.n ∧ (g.cells.e false).2.length = g.n := by
  rw [h.verts, h.verts_dual, h.edges, h.edges_dual]; simp

/-- C11: the table `N` counts the vertices and edges, primal and dual. -/
theorem C11_cells (k : Kind) (n : ℕ) (hn : validSize k n) (xmin xmax : ℝ) (t : Bool) :
    ((grid k n xmin xmax).cells.v t).length = (grid k n xmin xmax).N 0 t ∧
    ((grid k n xmin xmax).cells.e t).1.length = (grid k n xmin xmax).N 1 t ∧
    ((grid k n xmin xmax).cells.e t).2.length = (grid k n xmin xmax).N 1 t := by
  cases k
  · cases t <;> simp [grid, Periodic.make, Periodic.cells, Periodic.verts_dual, Periodic.verts, Periodic.pnts, Periodic.delta, linspace, diff, vadd, smul]
  · obtain ⟨h1, h2, h3, h4, h5, h6⟩ := interval_cells (Regular.isInterval hn xmin xmax)
    cases t
    · exact ⟨h2, h5, h6⟩
    · exact ⟨h1, h3, h4⟩
  · obtain ⟨h1, h2, h3, h4, h5, h6⟩ := interval_cells (Chebyshev.isInterval hn xmin xmax)
    cases t
    · exact ⟨h2, h5, h6⟩
    · exact ⟨h1, h3, h4⟩

/-- C11: a projection has as many entries as there are cells. -/
theorem C11_projection (k : Kind) (n : ℕ) (hn : validSize k n) (xmin xmax : ℝ) (d : Fin 2) (t : Bool) (f : ℝ → ℝ) :
    ((grid k n xmin xmax).P d t f).length = (grid k n xmin xmax).N d t := by
  obtain ⟨h0, h1, h2⟩ := C11_cells k n hn xmin xmax t
  obtain rfl | rfl : d = 0 ∨ d = 1 := by omega
  · show (((grid k n xmin xmax).cells.v t).map f).length = _
    rw [List.length_map, h0]
  · show (slow_integration _ _ f).length = _
    unfold slow_integration
    rw [List.length_zipWith, h1, h2, min_self]

/-- C11: the derivative of a 0-form has as many entries as there are edges of the same mesh. -/
theorem C11_derivative (k : Kind) (n : ℕ) (hn : validSize k n) (xmin xmax : ℝ) (t : Bool) (a : List ℝ) (ha : a.length = (grid k n xmin xmax).N 0 t) :
    ∃ b, (grid k n xmin xmax).D 0 t a = some b ∧ b.length = (grid k n xmin xmax).N 1 t := by
  cases k
  · cases t
    · exact ⟨_, rfl, by have ha' : a.length = n := ha; simp [Periodic.D0d, Periodic.D0, ha', grid, Periodic.make]⟩
    · exact ⟨_, rfl, by have ha' : a.length = n := ha; simp [Periodic.D0, ha', grid, Periodic.make]⟩
  · have hn' : 2 ≤ n := hn
    cases t
    · refine ⟨_, rfl, ?_⟩
      have ha' : a.length = n - 1 := ha
      simp [diff, vsub, ha', grid, Regular.make]; omega
    · refine ⟨_, rfl, ?_⟩
      have ha' : a.length = n := ha
      simp [diff, vsub, ha', grid, Regular.make]
  · have hn' : 2 ≤ n := hn
    cases t
    · refine ⟨_, rfl, ?_⟩
      have ha' : a.length = n - 1 := ha
      simp [diff, vsub, ha', grid, Chebyshev.make]; omega
    · refine ⟨_, rfl, ?_⟩
      have ha' : a.length = n := ha
      simp [diff, vsub, ha', grid, Chebyshev.make]

theorem regular_elin_H {n : ℕ} (hn : 2 ≤ n) (a b : ℝ) (d : Fin 2) (t : Bool) :
    ELin ((Regular.make n a b).N d t) ((Regular.make n a b).N (1 - d) (!t)) ((Regular.make n a b).H d t) := by
  have r0 : ∀ x, re (Regular.H0 (toC x)) = Regular.rH0 x := fun x => by rw [Regular.H0_real, re_toC]
  have r1 : ∀ x, re (Regular.H1 (toC x)) = Regular.rH1 x := fun x => by rw [Regular.H1_real, re_toC]
  have r2 : ∀ x, re (Regular.H0d (toC x)) = Regular.rH0d x := fun x => by rw [Regular.H0d_real, re_toC]
  have r3 : ∀ x, re (Regular.H1d (toC x)) = Regular.rH1d x := fun x => by rw [Regular.H1d_real, re_toC]
  have e : (Regular.make n a b).H = wrapTable (fun f => .ok (Regular.rH0 f)) (fun f => .ok (Regular.rH1 f)) (fun f => .ok (Regular.rH0d f)) (fun f => .ok (Regular.rH1d f)) := by
    unfold Regular.make; simp only [r0, r1, r2, r3]
  rw [e]
  have hA : (A_diag n : List ℝ).length = n := by rw [A_diag_tab hn]; simp
  obtain rfl | rfl : d = 0 ∨ d = 1 := by omega
  all_goals cases t
  all_goals simp only [wrapTable]
  · exact ELin.ok (Regular.lin_rH0d (n - 1))
  · exact ELin.ok (Regular.lin_rH0 hn)
  · refine ELin.ok (L := Regular.rH1d) ?_
    have h := (lin_unmirror0 (V := ℝ) hn).comp ((lin_Hinv (2 * n - 2)).comp ((lin_mirror0 hn 1).comp (lin_vdiv_real (A_diag n) hA)))
    exact h.congr fun x hx => by unfold Regular.rH1d; rw [hx]
  · exact ELin.ok (L := Regular.rH1) ((lin_unmirror1 (n - 1)).comp ((lin_Hinv _).comp (lin_mirror1 (n - 1) 1)))

theorem chebyshev_elin_H {n : ℕ} (hn : 2 ≤ n) (a b : ℝ) (d : Fin 2) (t : Bool) (h927 : d = 1 → t = true → n ≤ 927) :
    ELin ((Chebyshev.make n a b).N d t) ((Chebyshev.make n a b).N (1 - d) (!t)) ((Chebyshev.make n a b).H d t) := by
  have e : (Chebyshev.make n a b).H = wrapTable (fun f => .ok (Chebyshev.H0 f)) Chebyshev.H1 (fun f => .ok (Chebyshev.H0d f)) (fun f => .ok (Chebyshev.H1d f)) := by
    unfold Chebyshev.make; simp only []
  rw [e]
  obtain rfl | rfl : d = 0 ∨ d = 1 := by omega
  all_goals cases t
  all_goals simp only [wrapTable]
  · exact ELin.ok (Chebyshev.lin_H0d (m := n - 1) (by omega))
  · exact ELin.ok (Chebyshev.lin_H0 hn)
  · exact Chebyshev.elin_H1d hn
  · exact Chebyshev.elin_H1 hn (h927 rfl rfl)

theorem periodic_elin_H (n : ℕ) (a b : ℝ) (d : Fin 2) (t : Bool) :
    ELin ((Periodic.make n a b).N d t) ((Periodic.make n a b).N (1 - d) (!t)) ((Periodic.make n a b).H d t) := by
  have e : (Periodic.make n a b).H = wrapTable (fun f => .ok (Hs f)) (fun f => .ok (Hinv f)) (fun f => .ok (Hs f)) (fun f => .ok (Hinv f)) := by
    unfold Periodic.make; simp only []
  rw [e]
  obtain rfl | rfl : d = 0 ∨ d = 1 := by omega
  all_goals cases t
  all_goals simp only [wrapTable]
  · exact ELin.ok (lin_Hs n)
  · exact ELin.ok (lin_Hs n)
  · exact ELin.ok (lin_Hinv n)
  · exact ELin.ok (lin_Hinv n)

theorem grid_elin_H (k : Kind) (n : ℕ) (hn : validSize k n) (xmin xmax : ℝ) (d : Fin 2) (t : Bool)
    (h927 : k = .chebyshev → d = 1 → t = true → n ≤ 927) :
    ELin ((grid k n xmin xmax).N d t) ((grid k n xmin xmax).N (1 - d) (!t)) ((grid k n xmin xmax).H d t) := by
  cases k
  · exact periodic_elin_H n xmin xmax d t
  · exact regular_elin_H hn xmin xmax d t
  · exact chebyshev_elin_H hn xmin xmax d t (h927 rfl)

/-- C11: the Hodge star returns an array for the complementary degree on the other mesh.  (Chebyshev grids with more than 927 vertices raise in one case: C05.) -/
theorem C11_hodge (k : Kind) (n : ℕ) (hn : validSize k n) (xmin xmax : ℝ) (d : Fin 2) (t : Bool)
    (h927 : k = .chebyshev → d = 1 → t = true → n ≤ 927) (a : List ℝ) (ha : a.length = (grid k n xmin xmax).N d t) :
    ∃ b, (grid k n xmin xmax).H d t a = .ok b ∧ b.length = (grid k n xmin xmax).N (1 - d) (!t) := by
  obtain ⟨L, hL, h⟩ := grid_elin_H k n hn xmin xmax d t h927
  exact ⟨L a, h a ha, hL.len a ha⟩

/-- C11: refinement returns one value per refined point, unrefinement goes back to the table's length. -/
theorem C11_refinement (g : Grid1) (hg : WedgeGrid g) (d : Fin 2) (t : Bool) (pts : List ℝ) (hp : g.points = .ok pts) :
    (∀ a : List ℝ, a.length = g.N d t → ∃ b, g.T d t a = .ok b ∧ b.length = pts.length) ∧
    (∀ b : List ℝ, b.length = pts.length → ∃ a, g.U d t b = .ok a ∧ a.length = g.N d t) := by
  obtain ⟨⟨M, h, hM⟩, _, _⟩ := hg.refining
  obtain ⟨L, hL, eL⟩ := h.T d t
  obtain ⟨R, hR, eR⟩ := h.U d t
  rw [hM pts hp]
  exact ⟨fun a ha => ⟨L a, eL a ha, hL.len a ha⟩, fun b hb => ⟨R b, eR b hb, hR.len b hb⟩⟩

/-- C11: the wedge product of a `k`-form and an `l`-form has the length of a `(k + l)`-form of the requested duality. -/
theorem C11_wedge (g : Grid1) (hg : WedgeGrid g) (k l : Fin 2) (hkl : k.val + l.val ≤ 1) (s t u : Bool) (a b : List ℝ)
    (ha : a.length = g.N k s) (hb : b.length = g.N l t) :
    ∃ c, g.wedge k s l t u a b = .ok c ∧ c.length = g.N ⟨k.val + l.val, by omega⟩ u := by
  obtain ⟨⟨M, h, _⟩, hW, _⟩ := hg.refining
  obtain ⟨B, hB, e1, _⟩ := h.wedge k l hkl s t u
  refine ⟨B a b, by unfold Grid1.wedge; rw [hW]; exact e1 a b ha hb, ?_⟩
  rw [(hB.left b hb).len a ha]
  congr 1
  apply Fin.ext
  show (k.val + l.val) % 2 = k.val + l.val
  omega

/-- C11: the contraction of two 1-forms has the length of a 0-form of the requested duality. -/
theorem C11_contraction (g : Grid1) (hg : WedgeGrid g) (s t u : Bool) (a b : List ℝ) (ha : a.length = g.N 1 s) (hb : b.length = g.N 1 t) :
    ∃ c, g.contraction s 1 t u a b = .ok c ∧ c.length = g.N 0 u := by
  obtain ⟨⟨M, h, _⟩, _, hC⟩ := hg.refining
  obtain ⟨B, hB, e1⟩ := h.contraction s t u
  exact ⟨B a b, by unfold Grid1.contraction; rw [hC]; exact e1 a b ha hb, (hB.left b hb).len a ha⟩

/-- C11: the refined points of every grid: `2 n` on a periodic grid, `2 n - 1` on an interval. -/
theorem C11_points (k : Kind) (n : ℕ) (hn : validSize k n) (xmin xmax : ℝ) :
    ∃ pts, (grid k n xmin xmax).points = .ok pts ∧ pts.length = (grid k n xmin xmax).N 0 true + (grid k n xmin xmax).N 0 false := by
  obtain ⟨h0, _, _⟩ := C11_cells k n hn xmin xmax true
  obtain ⟨h1, _, _⟩ := C11_cells k n hn xmin xmax false
  refine ⟨weave ((grid k n xmin xmax).cells.v true) ((grid k n xmin xmax).cells.v false), ?_, ?_⟩
  · unfold Grid1.points interweave
    rw [h0, h1]
    cases k
    · rw [if_pos (.inl rfl)]
    · have hn' : 2 ≤ n := hn
      have : n = n - 1 + 1 := by omega
      rw [if_pos (.inr this)]
    · have hn' : 2 ≤ n := hn
      have : n = n - 1 + 1 := by omega
      rw [if_pos (.inr this)]
  · rw [weave_eq_tab (M := (grid k n xmin xmax).N 0 true + (grid k n xmin xmax).N 0 false), length_tab]
    · rw [h0]
      cases k
      · show n = (n + n + 1) / 2; omega
      · have hn' : 2 ≤ n := hn
        show n = (n + (n - 1) + 1) / 2; omega
      · have hn' : 2 ≤ n := hn
        show n = (n + (n - 1) + 1) / 2; omega
    · rw [h1]
      cases k
      · show n = (n + n) / 2; omega
      · have hn' : 2 ≤ n := hn
        show n - 1 = (n + (n - 1)) / 2; omega
      · have hn' : 2 ≤ n := hn
        show n - 1 = (n + (n - 1)) / 2; omega

example : validSize .periodic 1 ∧ validSize .regular 2 ∧ validSize .chebyshev 5 := by simp [validSize]

/-- The Hodge stars and the derivative are linear: every operator of a grid acts on arrays as a matrix. -/
theorem C11_hodge_linear (k : Kind) (n : ℕ) (hn : validSize k n) (xmin xmax : ℝ) (d : Fin 2) (t : Bool)
    (h927 : k = .chebyshev → d = 1 → t = true → n ≤ 927) (r : ℝ) (a b : List ℝ) (ha : a.length = (grid k n xmin xmax).N d t)
    (hb : b.length = (grid k n xmin xmax).N d t) :
    ∃ x y, (grid k n xmin xmax).H d t a = .ok x ∧ (grid k n xmin xmax).H d t b = .ok y ∧
      (grid k n xmin xmax).H d t (vadd (smul r a) b) = .ok (vadd (smul r x) y) := by
  obtain ⟨L, hL, h⟩ := grid_elin_H k n hn xmin xmax d t h927
  have hr : (smul r a).length = (grid k n xmin xmax).N d t := by simp [smul, ha]
  refine ⟨L a, L b, h a ha, h b hb, ?_⟩
  rw [h _ (by simp [hr, hb]), hL.add _ _ hr hb]
  have : L (smul r a) = smul r (L a) := hL.smul r a ha
  rw [this]

end Dec.Props
