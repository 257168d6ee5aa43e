import Verif.Model.Grids
import Verif.Model.Nan2
import Verif.Model.Names

/-!
# The attributes and operator tuples of `Grid_1D` and `Grid_2D`, and numerical projections of forms and of constant callables
-/

namespace Dec

/-! ## `/repo/dec/grid1.py` -/

namespace Grid1

variable (g : Grid1)

/-- `g.verts`, `/repo/dec/grid1.py:42-44`. -/
def verts : List ℝ := g.cells.v true
/-- `g.edges`, `/repo/dec/grid1.py:46-48`. -/
def edges : List ℝ × List ℝ := g.cells.e true
/-- `g.verts_dual`, `/repo/dec/grid1.py:50-52`. -/
def verts_dual : List ℝ := g.cells.v false
/-- `g.edges_dual`, `/repo/dec/grid1.py:54-56`. -/
def edges_dual : List ℝ × List ℝ := g.cells.e false

/-- `P0, P1, P0d, P1d = g.projection()`, `/repo/dec/grid1.py:82-88`. -/
noncomputable def projection : ((ℝ → ℝ) → List ℝ) × ((ℝ → ℝ) → List ℝ) × ((ℝ → ℝ) → List ℝ) × ((ℝ → ℝ) → List ℝ) :=
  (g.P 0 true, g.P 1 true, g.P 0 false, g.P 1 false)

/-- `B0, B1, B0d, B1d = g.basis_fn()`, `/repo/dec/grid1.py:90-96`. -/
noncomputable def basis_fn : List (ℝ → Option ℝ) × List (ℝ → Option ℝ) × List (ℝ → Option ℝ) × List (ℝ → Option ℝ) :=
  (tab (g.N 0 true) (g.B 0 true), tab (g.N 1 true) (g.B 1 true), tab (g.N 0 false) (g.B 0 false), tab (g.N 1 false) (g.B 1 false))

/-- `sum(a[i]*f(x) for i, f in enumerate(B))`, `/repo/dec/spectral.py:665-673` (`none` is NaN); the array has an entry for every basis function. -/
noncomputable def recon (B : List (ℝ → Option ℝ)) (a : List ℝ) (x : ℝ) : Option ℝ :=
  (List.range B.length).foldl (fun s i => Sp.oadd s (((B.getD i fun _ => none) x).map (a.getD i 0 * ·))) (some 0)

/-- `R0, R1, R0d, R1d = g.reconstruction()`, `/repo/dec/grid1.py:98-100`. -/
noncomputable def reconstruction : (List ℝ → ℝ → Option ℝ) × (List ℝ → ℝ → Option ℝ) × (List ℝ → ℝ → Option ℝ) × (List ℝ → ℝ → Option ℝ) :=
  let (B0, B1, B0d, B1d) := g.basis_fn
  (recon B0, recon B1, recon B0d, recon B1d)

/-- `D0, D0d = g.derivative()`, `/repo/dec/grid1.py:102-106`. -/
def derivative : (List ℝ → Option (List ℝ)) × (List ℝ → Option (List ℝ)) := (g.D 0 true, g.D 0 false)

/-- `H0, H1, H0d, H1d = g.hodge_star()`, `/repo/dec/grid1.py:108-114`. -/
def hodge_star : (List ℝ → Except Err (List ℝ)) × (List ℝ → Except Err (List ℝ)) × (List ℝ → Except Err (List ℝ)) × (List ℝ → Except Err (List ℝ)) :=
  (g.H 0 true, g.H 1 true, g.H 0 false, g.H 1 false)

/-- What `P0(f)` returns for a Python callable, `/repo/dec/common.py:23-32`: `f(x)` on the array of vertices. `lifts = false` is a function like `lambda x: 1` that returns a number. -/
noncomputable def callP0 (t lifts : Bool) (f : ℝ → ℝ) : Names.PyArr :=
  if lifts then .array ((g.cells.v t).map f) else .scalar (f 0)

end Grid1

/-! ## `/repo/dec/grid2.py` -/

namespace G2.Grid2

/-- `Grid_2D.periodic(N, M)`, `/repo/dec/grid2.py:145-147`. -/
noncomputable def periodic (N M : ℕ) : Grid2 := product (Periodic.make N) (Periodic.make M)
/-- `Grid_2D.regular(N, M)`, `/repo/dec/grid2.py:149-151`. -/
noncomputable def regular (N M : ℕ) : Grid2 := product (Regular.make N) (Regular.make M)
/-- `Grid_2D.chebyshev(N, M)`, `/repo/dec/grid2.py:153-155`. -/
noncomputable def chebyshev (N M : ℕ) : Grid2 := product (Chebyshev.make N) (Chebyshev.make M)

variable (g : Grid2)

/-- `g.verts`, `/repo/dec/grid2.py:161-163`. -/
def verts : List ℝ × List ℝ := g.cells.v true
/-- `g.edges`, `/repo/dec/grid2.py:165-167`. -/
def edges : (List ℝ × List ℝ) × (List ℝ × List ℝ) := g.cells.e true
/-- `g.edges_dual`, `/repo/dec/grid2.py:177-179`. -/
def edges_dual : (List ℝ × List ℝ) × (List ℝ × List ℝ) := g.cells.e false
/-- `g.faces`, `/repo/dec/grid2.py:169-171`. -/
def faces : (List ℝ × List ℝ) × (List ℝ × List ℝ) × (List ℝ × List ℝ) × (List ℝ × List ℝ) := g.cells.f true
/-- `g.faces_dual`, `/repo/dec/grid2.py:181-183`. -/
def faces_dual : (List ℝ × List ℝ) × (List ℝ × List ℝ) × (List ℝ × List ℝ) × (List ℝ × List ℝ) := g.cells.f false
/-- `g.verts_dual`, `/repo/dec/grid2.py:173-175`. -/
def verts_dual : List ℝ × List ℝ := g.cells.v false

/-- `P0, P1, P2, P0d, P1d, P2d = g.projection()`, `/repo/dec/grid2.py:185-193`: the numerical projections `Pn`, not `P`. -/
noncomputable def projection : (Fn → Except Err (List ℝ)) × (Fn → Except Err (List ℝ)) × (Fn → Except Err (List ℝ)) ×
    (Fn → Except Err (List ℝ)) × (Fn → Except Err (List ℝ)) × (Fn → Except Err (List ℝ)) :=
  (g.Pn 0 true, g.Pn 1 true, g.Pn 2 true, g.Pn 0 false, g.Pn 1 false, g.Pn 2 false)

/-- `D0, D1, D0d, D1d = g.derivative()`, `/repo/dec/grid2.py:195-201`. -/
def derivative : (List ℝ → Except Err (List ℝ)) × (List ℝ → Except Err (List ℝ)) × (List ℝ → Except Err (List ℝ)) × (List ℝ → Except Err (List ℝ)) :=
  (g.D 0 true, g.D 1 true, g.D 0 false, g.D 1 false)

/-- `H0, H1, H2, H0d, H1d, H2d = g.hodge_star()`, `/repo/dec/grid2.py:203-211`. -/
def hodge_star : (List ℝ → Except Err (List ℝ)) × (List ℝ → Except Err (List ℝ)) × (List ℝ → Except Err (List ℝ)) ×
    (List ℝ → Except Err (List ℝ)) × (List ℝ → Except Err (List ℝ)) × (List ℝ → Except Err (List ℝ)) :=
  (g.H 0 true, g.H 1 true, g.H 2 true, g.H 0 false, g.H 1 false, g.H 2 false)

/-- `R0, R1, R2, R0d, R1d, R2d = g.reconstruction()`, `/repo/dec/grid2.py:213-225`, `/repo/dec/spectral.py:665-673`, on arrays of coefficients of the right length. -/
noncomputable def reconstruction : (List ℝ → Except Err (ℝ → ℝ → List (Option ℝ))) × (List ℝ → Except Err (ℝ → ℝ → List (Option ℝ))) × (List ℝ → Except Err (ℝ → ℝ → List (Option ℝ))) ×
    (List ℝ → Except Err (ℝ → ℝ → List (Option ℝ))) × (List ℝ → Except Err (ℝ → ℝ → List (Option ℝ))) × (List ℝ → Except Err (ℝ → ℝ → List (Option ℝ))) :=
  (g.R 0 true, g.R 1 true, g.R 2 true, g.R 0 false, g.R 1 false, g.R 2 false)

/-- What `P0(f)` returns for a Python callable: `Pn[0, t]`, `/repo/dec/grid2.py:509-513`, followed by `unshape`, `/repo/dec/grid2.py:78-99,764-772`, which accepts arrays only.
`lifts = false` is a function like `lambda x, y: 1`, which returns a number. -/
noncomputable def callP0 (t lifts : Bool) (f : ℝ → ℝ → ℝ) : Except Err (List ℝ) :=
  if lifts then g.Pn 0 t (.scalar f) else .error .typeError

/-- `g.Pn(form, t)`, `/repo/dec/grid2.py:248-252`: the components are turned into one function with `lambdify`, `/repo/dec/grid2.py:499-503`; it returns a tuple. A 0-form gives a tuple
with one element, which `unshape` (`/repo/dec/grid2.py:89-95`) flattens if it is an array; a constant component is a number and has no attribute `shape`. A 2-form passes a function that returns
tuples to `dblquad`. -/
noncomputable def formPn (d : Fin 3) (t : Bool) (σ : List Names.Expr) : Except Err (List ℝ) :=
  match d, σ with
  | 0, [e] => do
    let f ← Names.lam ["x", "y"] e
    if e.free = [] then .error .attributeError else g.Pn 0 t (.scalar fun x y => f [x, y])
  | 1, [e, e'] => do
    let f ← Names.lam ["x", "y"] e
    let f' ← Names.lam ["x", "y"] e'
    g.Pn 1 t (.pair fun x y => (f [x, y], f' [x, y]))
  | 2, [e] => do
    let _ ← Names.lam ["x", "y"] e
    .error .typeError
  | _, _ => .error .valueError

end G2.Grid2

end Dec
