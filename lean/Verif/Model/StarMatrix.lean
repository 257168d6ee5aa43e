import Verif.Model.Grids
import Verif.Model.Helper

/-! # Hodge-star matrices from basis functions: `/repo/dec/spectral.py:653-663`, `/repo/dec/periodic.py:152-160` -/

namespace Dec.StarMatrix

open Dec

/-- The four projections `P0, P1, P0d, P1d` returned by `Grid_1D.projection()`, `/repo/dec/grid1.py:82-88`; each takes a function that can produce NaN. -/
noncomputable def projection (g : Grid1) : ((ℝ → Option ℝ) → List (Option ℝ)) × ((ℝ → Option ℝ) → List (Option ℝ)) × ((ℝ → Option ℝ) → List (Option ℝ)) × ((ℝ → Option ℝ) → List (Option ℝ)) :=
  (oP g.cells 0 true, oP g.cells 1 true, oP g.cells 0 false, oP g.cells 1 false)

/-- The four lists of functions returned by `Grid_1D.basis_fn()`, `/repo/dec/grid1.py:90-96`. -/
noncomputable def basis_fn (g : Grid1) : List (ℝ → Option ℝ) × List (ℝ → Option ℝ) × List (ℝ → Option ℝ) × List (ℝ → Option ℝ) :=
  (tab (g.N 0 true) (g.B 0 true), tab (g.N 1 true) (g.B 1 true), tab (g.N 0 false) (g.B 0 false), tab (g.N 1 false) (g.B 1 false))

/-- `numpy.vstack(l).T` for a nonempty sequence of arrays of one length (otherwise `ValueError`): row `i` collects the `i`-th entries.
For /repo/dec/spectral.py:659-662. (`vstack` is given a generator there; the numpy of the project's time accepts one.) -/
def vstackT (l : List (List (Option ℝ))) : Except Err (List (List (Option ℝ))) :=
  match l with
  | [] => .error .valueError
  | c :: _ => if l.all fun x => x.length == c.length then .ok (tab c.length fun i => l.map fun x => x.getD i none) else .error .valueError

/-- `hodge_star_matrix(P, B)`, `/repo/dec/spectral.py:653-663`. -/
def hodge_star_matrix (P : ((ℝ → Option ℝ) → List (Option ℝ)) × ((ℝ → Option ℝ) → List (Option ℝ)) × ((ℝ → Option ℝ) → List (Option ℝ)) × ((ℝ → Option ℝ) → List (Option ℝ)))
    (B : List (ℝ → Option ℝ) × List (ℝ → Option ℝ) × List (ℝ → Option ℝ) × List (ℝ → Option ℝ)) :
    Except Err (List (List (Option ℝ)) × List (List (Option ℝ)) × List (List (Option ℝ)) × List (List (Option ℝ))) := do
  let (P0, P1, P0d, P1d) := P
  let (B0, B1, B0d, B1d) := B
  let H0 ← vstackT (B0.map P1d)
  let H1 ← vstackT (B1.map P0d)
  let H0d ← vstackT (B0d.map P1)
  let H1d ← vstackT (B1d.map P0)
  .ok (H0, H1, H0d, H1d)

/-- `scipy.linalg.toeplitz(c, r)`: entry `(i, j)` is `c[i-j]` for `i ≥ j` and `r[j-i]` otherwise. For /repo/dec/periodic.py:160. -/
def toeplitz {α : Type*} (z : α) (c r : List α) : List (List α) :=
  tab c.length fun i => tab r.length fun j => if j ≤ i then c.getD (i - j) z else r.getD (j - i) z

/-- `hodge_star_toeplitz(g)`, `/repo/dec/periodic.py:152-160`. -/
noncomputable def hodge_star_toeplitz (g : Grid1) : List (List (Option ℝ)) :=
  let column := oP g.cells 1 false (Sp.alpha0 g.n)
  let row := column.take 1 ++ (column.drop 1).reverse
  toeplitz none column row

/-- `differentiation_toeplitz(n)`, `/repo/dec/periodic.py:141-142`: `raise NotImplemented` raises a constant that is no exception, which is a `TypeError`. -/
def differentiation_toeplitz (_n : ℕ) : Except Err (List (List ℝ)) := .error .typeError

/-- The statements after that `raise`, `/repo/dec/periodic.py:143-150`, which are never reached.  At `k = n/2` the tangent has no value; `1/tan` is
then 0 here and 6e-17 in floating point. -/
noncomputable def differentiation_rest (n : ℕ) : Except Err (List (List ℝ)) :=
  let h := 2 * Real.pi / n
  if n % 2 ≠ 0 then .error .assertion else
  let column := [0] ++ tab (n - 1) fun k => (-1) ^ (k + 1) / Real.tan (((k + 1 : ℕ) : ℝ) * h / 2)
  let row := column.take 1 ++ (column.drop 1).reverse
  .ok (toeplitz 0 column row)

end Dec.StarMatrix
