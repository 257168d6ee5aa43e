import Verif.Model.Accessors

/-!
# `/repo/dec/plot.py` and the scatter plots of `/repo/dec/grid2.py`: the geometry that is drawn

A call of matplotlib is modelled by the numbers that it is given; colours, titles and legends are not modelled.
-/

namespace Dec.Pictures

/-- The dots of `vertices_1d(ax, g)`, `/repo/dec/plot.py:44-47`: `ax.scatter(verts, 0*verts)`. -/
noncomputable def vertices_1d (g : Grid1) : List (ℝ × ℝ) := (g.cells.v true).zip ((g.cells.v true).map (0 * ·))

/-- The segments of `edges_1d(ax, g)`, `/repo/dec/plot.py:49-53`: `for x0, x1 in zip(*g.edges): ax.plot((x0, x1), (0, 0))`; a segment is the pair of its end points. -/
noncomputable def edges_1d (g : Grid1) : List ((ℝ × ℝ) × (ℝ × ℝ)) := ((g.cells.e true).1.zip (g.cells.e true).2).map fun e => ((e.1, 0), (e.2, 0))

/-- `grid_1d(ax, g)`, `/repo/dec/plot.py:36-42`: the dots and the segments. -/
noncomputable def grid_1d (g : Grid1) : List (ℝ × ℝ) × List ((ℝ × ℝ) × (ℝ × ℝ)) := (vertices_1d g, edges_1d g)

/-- One curve of `plot_bases_1d`: the pairs `(z, b(z)*s)`; `none` is NaN, which is not drawn. For /repo/dec/plot.py:13,19,25,31. -/
noncomputable def curve (z : List ℝ) (b : ℝ → Option ℝ) (s : ℝ) : List (ℝ × Option ℝ) := z.map fun x => (x, (b x).map (· * s))

/-- The curves of the four subplots of `plot_bases_1d(plt, g, xmin, xmax, name)`, `/repo/dec/plot.py:4-34`: `z = linspace(xmin, xmax, 100)`; the basis 0-forms are drawn as they are, the basis
1-forms `b` number `i` as `b(z)*g.delta[t][i]`. -/
noncomputable def plot_bases_1d (g : Grid1) (xmin xmax : ℝ) : List (List (List (ℝ × Option ℝ))) :=
  let z := linspace xmin xmax 100
  let (B0, B1, B0d, B1d) := g.basis_fn
  [B0.map fun b => curve z b 1, (B1.zip (g.delta true)).map fun p => curve z p.1 p.2, B0d.map fun b => curve z b 1, (B1d.zip (g.delta false)).map fun p => curve z p.1 p.2]

/-- `average(pnts)` of `_draw`, `/repo/dec/grid2.py:852-855`: the entrywise mean of the arrays `X` and of the arrays `Y`; without points the unpacking of `zip` fails. -/
noncomputable def average : List (List ℝ × List ℝ) → Except Err (List ℝ × List ℝ)
  | [] => .error .valueError
  | p :: ps =>
    let S := ps.foldl (fun s q => (vadd s.1 q.1, vadd s.2 q.2)) p
    .ok (S.1.map (· / ((ps.length + 1 : ℕ) : ℝ)), S.2.map (· / ((ps.length + 1 : ℕ) : ℝ)))

/-- The labels of `_draw(plt, pnts)`, `/repo/dec/grid2.py:851-866`: the text `i` at the point number `i`. -/
noncomputable def labels (pnts : List (List ℝ × List ℝ)) : Except Err (List (ℕ × ℝ × ℝ)) := do
  let (X, Y) ← average pnts
  pure ((List.range X.length).zip (X.zip Y))

/-- `_plot_scatter(g)`, `/repo/dec/grid2.py:868-880`: the vertices and the dual vertices with their numbers. -/
noncomputable def plot_scatter (g : G2.Grid2) : Except Err (List (ℕ × ℝ × ℝ) × List (ℕ × ℝ × ℝ)) := do
  let a ← labels [g.cells.v true]
  let b ← labels [g.cells.v false]
  pure (a, b)

/-- The corners of the edges and faces as the commented-out calls of `_plot_scatter` pass them, `/repo/dec/grid2.py:873-879`. -/
def edgePoints (g : G2.Grid2) (t : Bool) : List (List ℝ × List ℝ) := [(g.cells.e t).1, (g.cells.e t).2]
/-- See `edgePoints`, `/repo/dec/grid2.py:873-879`. -/
def facePoints (g : G2.Grid2) (t : Bool) : List (List ℝ × List ℝ) := [(g.cells.f t).1, (g.cells.f t).2.1, (g.cells.f t).2.2.1, (g.cells.f t).2.2.2]

end Dec.Pictures
