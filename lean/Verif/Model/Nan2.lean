import Verif.Model.Grid2

/-!
# Two-dimensional projections of functions that may produce NaN, and reconstruction

`Model/Grid2.lean` has the projections of everywhere-defined functions. The basis functions divide zero by zero at some points; `none`
is NaN, as in `Model/Common.lean`.
-/

namespace Dec.G2

open Classical in
/-- `quad(f, a, b)` of a function that may produce NaN: the end points are not evaluated. For /repo/dec/integrate.py:255-268. -/
noncomputable def oint (f : ℝ → Option ℝ) (a b : ℝ) : Option ℝ :=
  if ∃ s ∈ Set.Ioo (min a b) (max a b), f s = none then none else some (∫ s in a..b, (f s).getD 0)

open Classical in
/-- `dblquad(f, y0, y1, x0, x1)` of a function that may produce NaN, `/repo/dec/integrate.py:270-277`: the boundary is not evaluated,
the inner integral is over `x`. -/
noncomputable def oint2 (f : ℝ → ℝ → Option ℝ) (x0 y0 x1 y1 : ℝ) : Option ℝ :=
  if ∃ x ∈ Set.Ioo (min x0 x1) (max x0 x1), ∃ y ∈ Set.Ioo (min y0 y1) (max y0 y1), f x y = none then none
  else some (∫ y in y0..y1, ∫ x in x0..x1, (f x y).getD 0)

/-- `g.dec.Pn[d, t](f)` for a callable `f` with components (`none` is NaN), `/repo/dec/grid2.py:493-531,793`. -/
noncomputable def Grid2.oPn (g : Grid2) (d : Fin 3) (t : Bool) (f : ℝ → ℝ → List (Option ℝ)) : Except Err (List (Option ℝ)) := do
  let v : Val (Option ℝ) := match d with
    | 0 => .arr (map2 (fun x y => (f x y).getD 0 none) (g.bcells.v t).1 (g.bcells.v t).2)
    | 1 =>
      let (((x0, x1), y), (x, (y0, y1))) := g.bcells.e t
      .tup [map3 (fun x0 x1 y => oint (fun s => (f s y).getD 0 none) x0 x1) x0 x1 y,
        map3 (fun x y0 y1 => oint (fun s => (f x s).getD 1 none) y0 y1) x y0 y1]
    | 2 =>
      let ((x0, y0), (x1, y1)) := g.bcells.f t
      .arr (map4 (oint2 fun x y => (f x y).getD 0 none) x0 y0 x1 y1)
  let u ← unshape v
  .ok u.1

/-- The `R` property of a discrete form, `/repo/dec/decform.py:49-58`, on a two-dimensional grid:
`sum(a[i]*B[d,t](i)(x, y) for i in range(N[d,t]))`, component by component. -/
noncomputable def Grid2.R (g : Grid2) (d : Fin 3) (t : Bool) (a : List ℝ) : Except Err (ℝ → ℝ → List (Option ℝ)) := do
  let N ← g.N d t
  let bs ← (List.range N).mapM fun (i : ℕ) => g.B d t i
  .ok fun x y => tab (Grid2.ncomp d) fun c =>
    (List.range N).foldl (fun s i => Sp.oadd s ((((bs.getD i fun _ _ => []) x y).getD c none).map (a.getD i 0 * ·))) (some 0)

end Dec.G2
