import Verif.Model.Spectral
import Verif.Model.Symbolic
import Mathlib.MeasureTheory.Integral.IntervalIntegral.Basic

/-!
# Model of `/repo/dec/common.py` and of `Grid_1D` in `/repo/dec/grid1.py`

Dictionaries with keys `(degree, isprimal)`, degree 0 or 1, are functions of `Fin 2` and `Bool`.
-/

namespace Dec

/-- The cells of a one-dimensional grid: `v t` is `cells[0, t]`, `e t` is `cells[1, t]` (start points, end points).
`/repo/dec/periodic.py:28-31`, `/repo/dec/regular.py:31-34`, `/repo/dec/chebyshev.py:29-32`. -/
structure Cells where
  v : Bool → List ℝ
  e : Bool → List ℝ × List ℝ

/-- `slow_integration(a, b, f)`, `/repo/dec/integrate.py:338-339`; `scipy.integrate.quad` is taken to return the integral. -/
noncomputable def slow_integration (a b : List ℝ) (f : ℝ → ℝ) : List ℝ :=
  List.zipWith (fun x y => ∫ t in x..y, f t) a b

/-- `projection(cells)[d, t]`, `/repo/dec/common.py:23-32`. -/
noncomputable def P (cells : Cells) (d : Fin 2) (t : Bool) (f : ℝ → ℝ) : List ℝ :=
  match d with
  | 0 => (cells.v t).map f
  | 1 => slow_integration (cells.e t).1 (cells.e t).2 f

open Classical in
/-- The same projection applied to a function that can produce NaN (`none`): a NaN anywhere
strictly inside a cell makes that integral NaN (`quad` does not evaluate the end points). For /repo/dec/common.py:23-32, /repo/dec/grid1.py:73-74. -/
noncomputable def oP (cells : Cells) (d : Fin 2) (t : Bool) (f : ℝ → Option ℝ) : List (Option ℝ) :=
  match d with
  | 0 => (cells.v t).map f
  | 1 => List.zipWith (fun x y =>
      if ∃ s ∈ Set.Ioo (min x y) (max x y), f s = none then none
      else some (∫ s in x..y, (f s).getD 0)) (cells.e t).1 (cells.e t).2

/-- numpy's entrywise operation on two one-dimensional arrays: equal lengths, or one operand of length one. For /repo/dec/common.py:42-46, 69-73; /repo/dec/decform.py:30-40. -/
def bop {α : Type*} (op : α → α → α) (a b : List α) : Except Err (List α) :=
  if a.length = b.length then .ok (List.zipWith op a b)
  else match a, b with
    | [x], b => .ok (b.map (op x))
    | a, [y] => .ok (a.map (op · y))
    | _, _ => .error .valueError

/-- A table of refinement (`T`) or unrefinement (`U`) functions, `wrap_refine`, `/repo/dec/common.py:8-21`. -/
abbrev Table := Fin 2 → Bool → List ℝ → Except Err (List ℝ)

/-- `wrap_refine`, `/repo/dec/common.py:8-21`: the order of the four functions is `0, 1, 0 dual, 1 dual`. -/
def wrapTable (f0 f1 f0d f1d : List ℝ → Except Err (List ℝ)) : Table := fun d t =>
  match d, t with
  | 0, true => f0
  | 1, true => f1
  | 0, false => f0d
  | 1, false => f1d

/-- `wedge(refine)[(d0, p0), (d1, p1), p2](a, b)`, `/repo/dec/common.py:34-59`.  The symbolic table `Ws` acts on
the refined arrays entry by entry.  Keys with `d0 + d1 > 1` are absent. -/
def wedge1 (T U : Table) (d0 : Fin 2) (p0 : Bool) (d1 : Fin 2) (p1 : Bool) (p2 : Bool)
    (a b : List ℝ) : Except Err (List ℝ) :=
  if d0.val + d1.val > 1 then .error .keyError
  else if p0 = p1 ∧ p1 = p2 ∧ d0 = 0 ∧ d1 = 0 then bop (· * ·) a b
  else do
    let a ← T d0 p0 a
    let b ← T d1 p1 b
    match Sym.wedge_1d d0.val d1.val with
    | none => .error .keyError
    | some w =>
      let c ← bop (fun x y => (w [x] [y]).getD 0 0) a b
      U (Fin.ofNat 2 (d0.val + d1.val)) p2 c

/-- `contraction(refine)[p0, (d1, p1), p2](a, b)`, `/repo/dec/common.py:61-82`.  Keys with `d1 = 0` are absent. -/
def contraction1 (T U : Table) (p0 : Bool) (d1 : Fin 2) (p1 : Bool) (p2 : Bool)
    (a b : List ℝ) : Except Err (List ℝ) :=
  if d1 = 0 then .error .keyError
  else do
    let a ← T 1 p0 a
    let b ← T d1 p1 b
    let c ← bop (fun x y => ((Sym.contraction_1d d1.val [x] [y]).getD []).getD 0 0) a b
    U (Fin.ofNat 2 (d1.val - 1)) p2 c

/-- `Grid_1D`, `/repo/dec/grid1.py:28-37`.  `D = none` is the Python integer `0` (the derivative of a
1-form).  `W`, `C` are `none` where Python stores `None` (regular grids). -/
structure Grid1 where
  n : ℕ
  xmin : ℝ
  xmax : ℝ
  delta : Bool → List ℝ
  N : Fin 2 → Bool → ℕ
  cells : Cells
  B : Fin 2 → Bool → ℕ → ℝ → Option ℝ
  D : Fin 2 → Bool → List ℝ → Option (List ℝ)
  H : Table
  T : Table
  U : Table
  W : Option (Fin 2 → Bool → Fin 2 → Bool → Bool → List ℝ → List ℝ → Except Err (List ℝ))
  C : Option (Bool → Fin 2 → Bool → Bool → List ℝ → List ℝ → Except Err (List ℝ))

namespace Grid1

/-- `g.P(...)`, i.e. `g.dec.P[d, t](f)`, `/repo/dec/grid1.py:73-74`, `/repo/dec/common.py:23-32`. -/
noncomputable def P (g : Grid1) (d : Fin 2) (t : Bool) (f : ℝ → ℝ) : List ℝ := Dec.P g.cells d t f

/-- `g.points`, `/repo/dec/grid1.py:58-65`: `p[0::2] = verts; p[1::2] = verts_dual`. -/
def points (g : Grid1) : Except Err (List ℝ) := interweave (g.cells.v true) (g.cells.v false)

/-- `g.boundary_condition(f)`, `/repo/dec/grid1.py:76-80`: `bc[0] = -f(xmin)` and then `bc[-1] = +f(xmax)`
(assignments: for `n = 1` the second overwrites the first). -/
def boundary_condition (g : Grid1) (f : ℝ → ℝ) : List ℝ :=
  ((List.replicate g.n (0 : ℝ)).set 0 (-f g.xmin)).set (g.n - 1) (f g.xmax)

/-- `g.reconstruction()`, `/repo/dec/grid1.py:98-100` and `/repo/dec/spectral.py:665-673`; also the `R` property of a discrete form,
`/repo/dec/decform.py:49-58`: `sum(a[i]*B[d,t](i)(x) for i in range(N[d,t]))`. -/
noncomputable def R (g : Grid1) (d : Fin 2) (t : Bool) (a : List ℝ) (x : ℝ) : Option ℝ :=
  (List.range (g.N d t)).foldl (fun s i => Sp.oadd s ((g.B d t i x).map (a.getD i 0 * ·))) (some 0)

/-- `g.dec.W[(d0, p0), (d1, p1), p2](a, b)`; on a regular grid `g.dec.W` is `None`, which cannot be indexed
(`TypeError`), `/repo/dec/grid1.py:116-117`, `/repo/dec/regular.py:62-63`. -/
def wedge (g : Grid1) (d0 : Fin 2) (p0 : Bool) (d1 : Fin 2) (p1 p2 : Bool) (a b : List ℝ) : Except Err (List ℝ) :=
  match g.W with
  | none => .error .typeError
  | some W => W d0 p0 d1 p1 p2 a b

/-- `g.dec.C[p0, (d1, p1), p2](a, b)`, `/repo/dec/grid1.py:119-120`; `None` on a regular grid. -/
def contraction (g : Grid1) (p0 : Bool) (d1 : Fin 2) (p1 p2 : Bool) (a b : List ℝ) : Except Err (List ℝ) :=
  match g.C with
  | none => .error .typeError
  | some C => C p0 d1 p1 p2 a b

/-- The array `D[0, t](a)`, `/repo/dec/grid1.py:102-106`; the integer `0` (never returned in degree 0) would be rejected by
the array functions applied to it. -/
def d0 (g : Grid1) (t : Bool) (a : List ℝ) : Except Err (List ℝ) :=
  match g.D 0 t a with
  | none => .error .typeError
  | some b => .ok b

/-- `laplacian(g)`, `/repo/dec/spectral.py:1134-1144`: `L = H1d DD H1 D` (`t = true`) and `Ld = H1 D H1d DD` (`t = false`). -/
def laplacian (g : Grid1) (t : Bool) (x : List ℝ) : Except Err (List ℝ) := do
  let y ← g.d0 t x
  let y ← g.H 1 t y
  let y ← g.d0 (!t) y
  g.H 1 (!t) y

end Grid1

end Dec
