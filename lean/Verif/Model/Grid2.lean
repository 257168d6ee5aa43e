import Verif.Model.Common
import Verif.Model.Integrate

/-!
# Model of `/repo/dec/grid2.py`

A two-dimensional array is its shape and its buffer in C order (rows one after the other). Rows are the `y` direction and columns the
`x` direction. Numbers are exact. `scipy.integrate.quad`, `dblquad` and sympy's integration are the exact integral (`Model/Integrate.lean`).
A sympy expression in `x`, `y` is the function it denotes.
-/

namespace Dec.G2

/-- A two-dimensional numpy array of shape `(r, c)`, with its buffer in C order. For /repo/dec/grid2.py:60-117. -/
structure Arr (α : Type*) where
  r : ℕ
  c : ℕ
  data : List α

/-- An array whose buffer has the size given by its shape (every numpy array). For /repo/dec/grid2.py:60-117. -/
def Arr.Wf {α : Type*} (X : Arr α) : Prop := X.data.length = X.r * X.c

/-- What the operators work on before flattening: an array, a tuple of arrays, or the Python integer `0`. For /repo/dec/grid2.py:78-117. -/
inductive Val (α : Type*)
  | arr (a : Arr α)
  | tup (l : List (Arr α))
  | zero

/-- A shape: of one array, or of a tuple of arrays. For /repo/dec/grid2.py:70-117. -/
inductive Shape
  | arr (s : ℕ × ℕ)
  | tup (l : List (ℕ × ℕ))
  deriving DecidableEq

/-! ## Flattening, `/repo/dec/grid2.py:19-117` -/

/-- `cumul_index(shape)`, `/repo/dec/grid2.py:70-76`. -/
def cumul_index (l : List (ℕ × ℕ)) : List ℕ := cumsum (l.map fun s => s.1 * s.2)

/-- `unshape(X)`, `/repo/dec/grid2.py:78-99`. `concatenate` of an empty tuple raises `ValueError`. -/
def unshape {α : Type*} : Val α → Except Err (List α × Shape)
  | .tup l => if l = [] then .error .valueError else .ok (l.flatMap Arr.data, .tup (l.map fun x => (x.r, x.c)))
  | .arr x => .ok (x.data, .arr (x.r, x.c))
  | .zero => .error .typeError

/-- `x[a:b]` with `a ≤ b`. For /repo/dec/grid2.py:112. -/
def slice {α : Type*} (x : List α) (a b : ℕ) : List α := (x.take b).drop a

/-- `numpy.split(x, idx)`, used in `/repo/dec/grid2.py:112`: `x[0:i0], x[i0:i1], ..., x[ik:]`. -/
def split {α : Type*} (x : List α) (idx : List ℕ) : List (List α) :=
  List.zipWith (slice x) (0 :: idx) (idx ++ [x.length])

/-- `x.reshape((r, c))`, used in `/repo/dec/grid2.py:113,115`. -/
def reshape1 {α : Type*} (x : List α) (s : ℕ × ℕ) : Except Err (Arr α) :=
  if x.length = s.1 * s.2 then .ok ⟨s.1, s.2, x⟩ else .error .valueError

/-- `reshape(x, shape)`, `/repo/dec/grid2.py:101-117`. An empty `shape` raises `IndexError` at `shape[0]` (here `valueError`). -/
def reshape {α : Type*} (x : List α) : Shape → Except Err (Val α)
  | .tup l =>
    if l = [] then .error .valueError
    else do
      let as ← (List.zip (split x (cumul_index l).dropLast) l).mapM fun p => reshape1 p.1 p.2
      .ok (.tup as)
  | .arr s => do .ok (.arr (← reshape1 x s))

/-- `arange2(shape)`, `/repo/dec/grid2.py:19-38`. -/
def arange2 : Shape → Except Err (Val ℕ)
  | .arr s => reshape (List.range ((cumul_index [s]).getLastD 0)) (.arr s)
  | .tup l => reshape (List.range ((cumul_index l).getLastD 0)) (.tup l)

/-- `numpy.unravel_index(i, (r, c))`, used in `/repo/dec/grid2.py:57,749`: the row and column of flat position `i`. -/
def unravel_index (i : ℤ) (s : ℕ × ℕ) : Except Err (ℕ × ℕ) :=
  if 0 ≤ i ∧ i < (s.1 * s.2 : ℕ) then .ok (i.toNat / s.2, i.toNat % s.2) else .error .valueError

/-- The loop of `unravel_idx`, `/repo/dec/grid2.py:55-58`, at step `k`. -/
def unravelLoop (i : ℤ) : ℕ → List (ℕ × ℕ) → List (ℕ × ℕ) → Except Err (ℕ × ℕ × ℕ)
  | k, (a, b) :: ab, s :: l =>
    if (a : ℤ) ≤ i ∧ i < b then do
      let p ← unravel_index (i - a) s
      .ok (k, p)
    else unravelLoop i (k + 1) ab l
  | _, _, _ => .error .valueError

/-- `unravel_idx(i, shape)`, `/repo/dec/grid2.py:40-58`. -/
def unravel_idx (i : ℤ) (l : List (ℕ × ℕ)) : Except Err (ℕ × ℕ × ℕ) :=
  let cum := 0 :: cumul_index l
  unravelLoop i 0 (List.zip cum.dropLast cum.tail) l

/-- `numpy.meshgrid(a, b)`, used in `/repo/dec/grid2.py:67,159,422-434`: shape `(len b, len a)`; the rows of the first
array are `a`, the columns of the second array are `b`. -/
def meshgrid {α : Type*} (a b : List α) : Arr α × Arr α :=
  (⟨b.length, a.length, b.flatMap fun _ => a⟩, ⟨b.length, a.length, b.flatMap fun y => List.replicate a.length y⟩)

/-- `cartesian_product(X, Y)`, `/repo/dec/grid2.py:60-68`. -/
def cartesian_product {α : Type*} (X Y : List α) : List α × List α := ((meshgrid X Y).1.data, (meshgrid X Y).2.data)

/-! ## Applying one-dimensional operators along an axis -/

/-- The rows of an array. For /repo/dec/grid2.py:119-122. -/
def Arr.rows {α : Type*} (X : Arr α) : List (List α) := (List.range X.r).map fun i => (X.data.drop (i * X.c)).take X.c

/-- The transposed array (in C order). For /repo/dec/grid2.py:119-122. -/
def Arr.transpose {α : Type*} (X : Arr α) : Arr α :=
  ⟨X.c, X.r, (List.range X.c).flatMap fun j => (List.range X.r).filterMap fun i => X.data[i * X.c + j]?⟩

/-- `numpy.apply_along_axis(h, 1, X)`, used in `/repo/dec/grid2.py:121,330-331`: `h` is applied to every row. It raises `ValueError` when there is
no row; results of different lengths do not fit in one array (`ValueError`). -/
def apply1 (h : List ℝ → Except Err (List ℝ)) (X : Arr ℝ) : Except Err (Arr ℝ) :=
  if X.r = 0 then .error .valueError
  else do
    let ys ← X.rows.mapM h
    let m := (ys.headD []).length
    if ys.all (fun y => y.length == m) then .ok ⟨X.r, m, ys.flatten⟩ else .error .valueError

/-- `numpy.apply_along_axis(h, 0, X)`: `h` is applied to every column. For /repo/dec/grid2.py:119-122. -/
def apply0 (h : List ℝ → Except Err (List ℝ)) (X : Arr ℝ) : Except Err (Arr ℝ) := do
  .ok (← apply1 h X.transpose).transpose

/-- Entrywise operation on two arrays of the same shape (numpy broadcasting of axes of length one is not modelled: the code applies these
operations to arrays of equal shapes). For /repo/dec/grid2.py:326-349, 805-849. -/
def bop2 (op : ℝ → ℝ → ℝ) (X Y : Arr ℝ) : Except Err (Arr ℝ) :=
  if X.r = Y.r ∧ X.c = Y.c then .ok ⟨X.r, X.c, List.zipWith op X.data Y.data⟩ else .error .valueError

/-- `-X`. For /repo/dec/grid2.py:351-378. -/
def Arr.neg (X : Arr ℝ) : Arr ℝ := ⟨X.r, X.c, X.data.map (- ·)⟩

/-! ## Derivative and Hodge star of block arrays -/

/-- `f[0]` of a tuple of arrays (of anything else: not used). For /repo/dec/grid2.py:326-410. -/
def Val.fst {α : Type*} : Val α → Except Err (Arr α)
  | .tup (a :: _) => .ok a
  | _ => .error .typeError

/-- `f[1]` of a tuple of arrays. For /repo/dec/grid2.py:326-410. -/
def Val.snd {α : Type*} : Val α → Except Err (Arr α)
  | .tup (_ :: b :: _) => .ok b
  | _ => .error .typeError

/-- The single array. For /repo/dec/grid2.py:326-410. -/
def Val.get {α : Type*} : Val α → Except Err (Arr α)
  | .arr a => .ok a
  | _ => .error .typeError

/-- `derivative(dx, dy)[d, t](f)`, `/repo/dec/grid2.py:326-349`, with `dx = gx.dec.D`, `dy = gy.dec.D`. -/
def bD (gx gy : Grid1) (d : Fin 3) (t : Bool) (f : Val ℝ) : Except Err (Val ℝ) :=
  match d with
  | 0 => do
    let f ← f.get
    let a ← apply1 (gx.d0 t) f
    let b ← apply0 (gy.d0 t) f
    .ok (.tup [a, b])
  | 1 => do
    let a ← apply0 (gy.d0 t) (← f.fst)
    let b ← apply1 (gx.d0 t) (← f.snd)
    .ok (.arr (← bop2 (· + ·) a.neg b))
  | 2 => .ok .zero

/-- `hodge_star(hx, hy)[d, t](f)`, `/repo/dec/grid2.py:351-378`, with `hx = gx.dec.H`, `hy = gy.dec.H`. -/
def bH (gx gy : Grid1) (d : Fin 3) (t : Bool) (f : Val ℝ) : Except Err (Val ℝ) :=
  match d with
  | 0 => do
    let f ← f.get
    .ok (.arr (← apply1 (gx.H 0 t) (← apply0 (gy.H 0 t) f)))
  | 1 => do
    let fx ← f.fst
    let fy ← f.snd
    let a ← apply1 (gx.H 0 t) (← apply0 (gy.H 1 t) fy)
    let b ← apply0 (gy.H 0 t) (← apply1 (gx.H 1 t) fx)
    .ok (.tup [a.neg, b])
  | 2 => do
    let f ← f.get
    .ok (.arr (← apply1 (gx.H 1 t) (← apply0 (gy.H 1 t) f)))

/-! ## Refinement of block arrays -/

/-- `to_refine(tx, ty)[d, t](f)`, `/repo/dec/grid2.py:380-394`: always a tuple. -/
def bT (gx gy : Grid1) (d : Fin 3) (t : Bool) (f : Val ℝ) : Except Err (List (Arr ℝ)) :=
  match d with
  | 0 => do
    let a ← apply0 (gy.T 0 t) (← apply1 (gx.T 0 t) (← f.get))
    .ok [a]
  | 1 => do
    let a ← apply0 (gy.T 0 t) (← apply1 (gx.T 1 t) (← f.fst))
    let b ← apply0 (gy.T 1 t) (← apply1 (gx.T 0 t) (← f.snd))
    .ok [a, b]
  | 2 => do
    let a ← apply0 (gy.T 1 t) (← apply1 (gx.T 1 t) (← f.get))
    .ok [a]

/-- `from_refine(ux, uy)[d, t](f)`, `/repo/dec/grid2.py:396-410`: takes a tuple. -/
def bU (gx gy : Grid1) (d : Fin 3) (t : Bool) (f : List (Arr ℝ)) : Except Err (Val ℝ) :=
  match d with
  | 0 => do
    let a ← (Val.tup f).fst
    .ok (.arr (← apply0 (gy.U 0 t) (← apply1 (gx.U 0 t) a)))
  | 1 => do
    let a ← (Val.tup f).fst
    let b ← (Val.tup f).snd
    let a ← apply0 (gy.U 0 t) (← apply1 (gx.U 1 t) a)
    let b ← apply0 (gy.U 1 t) (← apply1 (gx.U 0 t) b)
    .ok (.tup [a, b])
  | 2 => do
    let a ← (Val.tup f).fst
    .ok (.arr (← apply0 (gy.U 1 t) (← apply1 (gx.U 1 t) a)))

/-! ## Cells -/

/-- Block cells: vertices `(x, y)`, edges `(((x0, x1), y), (x, (y0, y1)))`, faces `((x0, y0), (x1, y1))`. For /repo/dec/grid2.py:412-444. -/
structure BCells where
  v : Bool → Arr ℝ × Arr ℝ
  e : Bool → ((Arr ℝ × Arr ℝ) × Arr ℝ) × (Arr ℝ × (Arr ℝ × Arr ℝ))
  f : Bool → (Arr ℝ × Arr ℝ) × (Arr ℝ × Arr ℝ)

/-- `product_cells(sx, sy)`, `/repo/dec/grid2.py:412-444`. -/
def product_cells (sx sy : Cells) : BCells where
  v t := meshgrid (sx.v t) (sy.v t)
  e t :=
    let x0 := (meshgrid (sx.e t).1 (sy.v t)).1
    let m1 := meshgrid (sx.e t).2 (sy.v t)
    let y0 := (meshgrid (sx.v t) (sy.e t).1).2
    let m3 := meshgrid (sx.v t) (sy.e t).2
    (((x0, m1.1), m1.2), (m3.1, (y0, m3.2)))
  f t :=
    (meshgrid (sx.e t).1 (sy.e t).1, meshgrid (sx.e t).2 (sy.e t).2)

/-- Flat cells: vertices `(x, y)`, edges `((x0, y0), (x1, y1))`, faces `((x0, y0), (x1, y1), (x2, y2), (x3, y3))`. For /repo/dec/grid2.py:649-681. -/
structure FCells where
  v : Bool → List ℝ × List ℝ
  e : Bool → (List ℝ × List ℝ) × (List ℝ × List ℝ)
  f : Bool → (List ℝ × List ℝ) × (List ℝ × List ℝ) × (List ℝ × List ℝ) × (List ℝ × List ℝ)

/-- `flatten_cells(cells)[0]`, `/repo/dec/grid2.py:649-681`. -/
def flatten_cells (cells : BCells) : FCells where
  v t := ((cells.v t).1.data, (cells.v t).2.data)
  e t :=
    let (((x0, x1), y), (x, (y0, y1))) := cells.e t
    ((x0.data ++ x.data, y.data ++ y0.data), (x1.data ++ x.data, y.data ++ y1.data))
  f t :=
    let ((x0, y0), (x1, y1)) := cells.f t
    ((x0.data, y0.data), (x1.data, y0.data), (x1.data, y1.data), (x0.data, y1.data))

/-- `flatten_cells(cells)[1]`: the shape recorded last for every key, `/repo/dec/grid2.py:661-678`. -/
def cellShape (cells : BCells) (d : Fin 3) (t : Bool) : Shape :=
  match d with
  | 0 => .arr ((cells.v t).2.r, (cells.v t).2.c)
  | 1 => .tup [((cells.e t).1.2.r, (cells.e t).1.2.c), ((cells.e t).2.2.2.r, (cells.e t).2.2.2.c)]
  | 2 => .arr ((cells.f t).2.2.r, (cells.f t).2.2.c)

/-- `countshape(shape)[d, t]`, `/repo/dec/grid2.py:683-707`; unpacking anything that is not a pair of pairs (`deg == 1`) or a pair fails
with `ValueError`/`TypeError`. -/
def countshape (d : Fin 3) : Shape → Except Err ℕ
  | .tup [(hx, hy), (vx, vy)] => if d = 1 then .ok (hx * hy + vx * vy) else .error .typeError
  | .tup _ => .error .valueError
  | .arr (nx, ny) => if d = 1 then .error .typeError else .ok (nx * ny)

/-! ## Projections and boundary terms -/

/-- Entrywise function of several arrays of the same shape. For /repo/dec/grid2.py:455-531. -/
def map2 {α : Type*} (f : ℝ → ℝ → α) (X Y : Arr ℝ) : Arr α := ⟨X.r, X.c, List.zipWith f X.data Y.data⟩
/-- Entrywise function of three arrays of the same shape. For /repo/dec/grid2.py:455-531. -/
def map3 {α : Type*} (f : ℝ → ℝ → ℝ → α) (X Y Z : Arr ℝ) : Arr α := ⟨X.r, X.c, List.zipWith (fun g z => g z) (List.zipWith f X.data Y.data) Z.data⟩
/-- Entrywise function of four arrays of the same shape. For /repo/dec/grid2.py:455-531. -/
def map4 {α : Type*} (f : ℝ → ℝ → ℝ → ℝ → α) (X Y Z W : Arr ℝ) : Arr α :=
  ⟨X.r, X.c, List.zipWith (fun g w => g w) (List.zipWith (fun g z => g z) (List.zipWith f X.data Y.data) Z.data) W.data⟩

/-- `symprojection(cells)[d, t](σ)`, `/repo/dec/grid2.py:455-491`, with `integration_2d_regular`, `/repo/dec/integrate.py:152-191`;
`σ` is the tuple of components (unpacking a tuple of the wrong length raises `ValueError`). -/
noncomputable def bP (cells : BCells) (d : Fin 3) (t : Bool) (σ : List (ℝ → ℝ → ℝ)) : Except Err (Val ℝ) :=
  match d, σ with
  | 0, [f] => .ok (.arr (map2 f (cells.v t).1 (cells.v t).2))
  | 1, [f, g] =>
    let (((x0, x1), y), (x, (y0, y1))) := cells.e t
    .ok (.tup [map3 (Integrate.P1x f) x0 x1 y, map3 (Integrate.P1y g) x y0 y1])
  | 2, [f] =>
    let ((x0, y0), (x1, y1)) := cells.f t
    .ok (.arr (map4 (Integrate.P2r f) x0 y0 x1 y1))
  | _, _ => .error .valueError

/-- A callable given to the numerical projections: a scalar function (degrees 0 and 2) or a pair of functions (degree 1). For /repo/dec/grid2.py:455-531. -/
inductive Fn
  | scalar (f : ℝ → ℝ → ℝ)
  | pair (f : ℝ → ℝ → ℝ × ℝ)

/-- `numprojection(cells)[d, t](f)` for a callable `f`, `/repo/dec/grid2.py:493-531`, with `n_integration_2d_regular`,
`/repo/dec/integrate.py:248-276`. Using a number as a pair, or integrating pairs, fails (`TypeError`); the pair of arrays that a 0-form with two components gives is kept. -/
noncomputable def bPn (cells : BCells) (d : Fin 3) (t : Bool) (f : Fn) : Except Err (Val ℝ) :=
  match d, f with
  | 0, .scalar f => .ok (.arr (map2 f (cells.v t).1 (cells.v t).2))
  | 0, .pair f => .ok (.tup [map2 (fun a b => (f a b).1) (cells.v t).1 (cells.v t).2, map2 (fun a b => (f a b).2) (cells.v t).1 (cells.v t).2])
  | 1, .pair f =>
    let (((x0, x1), y), (x, (y0, y1))) := cells.e t
    .ok (.tup [map3 (Integrate.P1x fun a b => (f a b).1) x0 x1 y, map3 (Integrate.P1y fun a b => (f a b).2) x y0 y1])
  | 2, .scalar f =>
    let ((x0, y0), (x1, y1)) := cells.f t
    .ok (.arr (map4 (Integrate.nP2r f) x0 y0 x1 y1))
  | _, _ => .error .typeError

/-- `projection_2d(cells)[d, t](f)` on flat cells, `/repo/dec/grid2.py:262-274`. `Integrate.fan` is `integrate_2form` of a face with at least one vertex. -/
noncomputable def projection_2d (cells : FCells) (d : Fin 3) (t : Bool) (f : Fn) : Except Err (List ℝ) :=
  match d, f with
  | 0, .scalar f => .ok (List.zipWith f (cells.v t).1 (cells.v t).2)
  | 1, .pair f =>
    let ((x0, y0), (x1, y1)) := cells.e t
    .ok (List.zipWith (fun p q => Integrate.integrate_1form p q f) (List.zip x0 y0) (List.zip x1 y1))
  | 2, .scalar f =>
    let ((x0, y0), (x1, y1), (x2, y2), (x3, y3)) := cells.f t
    .ok (List.zipWith (fun p q => Integrate.fan p.1 [p.2, q.1, q.2] f)
      (List.zip (List.zip x0 y0) (List.zip x1 y1)) (List.zip (List.zip x2 y2) (List.zip x3 y3)))
  | _, _ => .error .typeError

open Classical in
/-- `symboundary(cells, xmin, xmax, ymin, ymax)[d, False](σ)` for `d = 1, 2`, `/repo/dec/grid2.py:578-625`. Other keys are absent. The masked
in-place updates are done entry by entry, in the order of the code. -/
noncomputable def bBC (cells : BCells) (xmin xmax ymin ymax : ℝ) (d : Fin 3) (σ : List (ℝ → ℝ → ℝ)) : Except Err (Val ℝ) :=
  match d, σ with
  | 1, [f] =>
    let (((x0, x1), y), (x, (y0, y1))) := cells.e false
    let βx := map3 (fun X0 X1 Y =>
      let b : ℝ := 0
      let b := if X0 = xmin then b - f X0 Y else b
      if X1 = xmax then b + f X1 Y else b) x0 x1 y
    let βy := map3 (fun X Y0 Y1 =>
      let b : ℝ := 0
      let b := if Y0 = ymin then b - f X Y0 else b
      if Y1 = ymax then b + f X Y1 else b) x y0 y1
    .ok (.tup [βx, βy])
  | 2, [f, g] =>
    let ((x0, y0), (x1, y1)) := cells.f false
    .ok (.arr (map4 (fun X0 Y0 X1 Y1 =>
      let b : ℝ := 0
      let b := if Y0 = ymin then b + Integrate.P1x f X0 X1 Y0 else b
      let b := if X1 = xmax then b + Integrate.P1y g X1 Y0 Y1 else b
      let b := if Y1 = ymax then b + Integrate.P1x f X1 X0 Y1 else b
      if X0 = xmin then b + Integrate.P1y g X0 Y1 Y0 else b) x0 y0 x1 y1))
  | 0, _ => .error .keyError
  | _, _ => .error .valueError

open Classical in
/-- `boundary_condition(edges_dual, faces_dual, xmin, xmax, ymin, ymax)`: `BC0`, `/repo/dec/grid2.py:286-297`. -/
noncomputable def flatBC0 (cells : FCells) (xmin xmax ymin ymax : ℝ) (f : ℝ → ℝ → ℝ) : List ℝ :=
  let ((x0, y0), (x1, y1)) := cells.e false
  List.zipWith (fun p q =>
    let b : ℝ := 0
    let b := if p.1 = xmin then b - f p.1 p.2 else b
    let b := if q.1 = xmax then b + f q.1 q.2 else b
    let b := if p.2 = ymin then b - f p.1 p.2 else b
    if q.2 = ymax then b + f q.1 q.2 else b) (List.zip x0 y0) (List.zip x1 y1)

open Classical in
/-- `boundary_condition(...)`: `BC1`, `/repo/dec/grid2.py:299-310`. `numpy.vectorize` (inside `integrate_1form`) raises `ValueError` on arrays of
size zero, so each of the four masks must select a face. -/
noncomputable def flatBC1 (cells : FCells) (xmin xmax ymin ymax : ℝ) (f : ℝ → ℝ → ℝ × ℝ) : Except Err (List ℝ) :=
  let ((x0, y0), (x1, y1), (x2, y2), (x3, y3)) := cells.f false
  if ymin ∉ y0 ∨ xmax ∉ x1 ∨ ymax ∉ y2 ∨ xmin ∉ x3 then .error .valueError
  else .ok (List.zipWith (fun p q =>
    let b : ℝ := 0
    let b := if p.1.2 = ymin then b + Integrate.integrate_1form p.1 p.2 f else b
    let b := if p.2.1 = xmax then b + Integrate.integrate_1form p.2 q.1 f else b
    let b := if q.1.2 = ymax then b + Integrate.integrate_1form q.1 q.2 f else b
    if q.2.1 = xmin then b + Integrate.integrate_1form q.2 p.1 f else b)
      (List.zip (List.zip x0 y0) (List.zip x1 y1)) (List.zip (List.zip x2 y2) (List.zip x3 y3)))

/-! ## Basis functions -/

/-- Product of two possibly-NaN numbers. For /repo/dec/grid2.py:314-324. -/
noncomputable def omul (a b : Option ℝ) : Option ℝ := a.bind fun u => b.map fun v => u * v

/-- The components of `basis_fn(Bx, By)[d, t]` (block `k`) at `(j, i)` and `(x, y)`, `/repo/dec/grid2.py:314-324`; `none` is NaN. -/
noncomputable def bB (gx gy : Grid1) (d : Fin 3) (t : Bool) (k j i : ℕ) (x y : ℝ) : List (Option ℝ) :=
  match d, k with
  | 0, _ => [omul (gx.B 0 t i x) (gy.B 0 t j y)]
  | 1, 0 => [omul (gx.B 1 t i x) (gy.B 0 t j y), some 0]
  | 1, _ => [some 0, omul (gx.B 0 t i x) (gy.B 1 t j y)]
  | 2, _ => [omul (gx.B 1 t i x) (gy.B 1 t j y)]

/-! ## The flattened grid: `Grid_2D.product(gx, gy)`, `/repo/dec/grid2.py:140-143,709-737,784-801` -/

/-- The grid: the two factors. For /repo/dec/grid2.py:124-143, 710-737. -/
structure Grid2 where
  gx : Grid1
  gy : Grid1

namespace Grid2

/-- `cartesian_product_grids(gx, gy).cells`, `/repo/dec/grid2.py:714`. -/
def bcells (g : Grid2) : BCells := product_cells g.gx.cells g.gy.cells
/-- `g.cells`, `/repo/dec/grid2.py:786`. -/
def cells (g : Grid2) : FCells := flatten_cells g.bcells
/-- `g.shape[d, t]`, `/repo/dec/grid2.py:786`. -/
def shape (g : Grid2) (d : Fin 3) (t : Bool) : Shape := cellShape g.bcells d t
/-- `g.N[d, t]`, `/repo/dec/grid2.py:787`. -/
def N (g : Grid2) (d : Fin 3) (t : Bool) : Except Err ℕ := countshape d (g.shape d t)

/-- `reshapeO(shape, O)[d, t](f)`, `/repo/dec/grid2.py:774-782`. -/
def reshapeO (g : Grid2) (O : Fin 3 → Bool → Val ℝ → Except Err (Val ℝ)) (d : Fin 3) (t : Bool) (f : List ℝ) : Except Err (List ℝ) := do
  let v ← reshape f (g.shape d t)
  let w ← O d t v
  let u ← unshape w
  .ok u.1

/-- `g.dec.D[d, t](f)`, `/repo/dec/grid2.py:796`. -/
def D (g : Grid2) : Fin 3 → Bool → List ℝ → Except Err (List ℝ) := g.reshapeO (bD g.gx g.gy)
/-- `g.dec.H[d, t](f)`, `/repo/dec/grid2.py:797`. -/
def H (g : Grid2) : Fin 3 → Bool → List ℝ → Except Err (List ℝ) := g.reshapeO (bH g.gx g.gy)

/-- `g.refine.T[d, t](f)` (`reshapeT`), `/repo/dec/grid2.py:754-762,789`: the result stays a tuple of two-dimensional arrays. -/
def T (g : Grid2) (d : Fin 3) (t : Bool) (f : List ℝ) : Except Err (List (Arr ℝ)) := do
  bT g.gx g.gy d t (← reshape f (g.shape d t))

/-- `g.refine.U[d, t](f)` (`reshapeU`), `/repo/dec/grid2.py:764-772,790`. -/
def U (g : Grid2) (d : Fin 3) (t : Bool) (f : List (Arr ℝ)) : Except Err (List ℝ) := do
  let w ← bU g.gx g.gy d t f
  let u ← unshape w
  .ok u.1

/-- `g.dec.P[d, t](σ)` (`reshapeU`), `/repo/dec/grid2.py:792`. -/
noncomputable def P (g : Grid2) (d : Fin 3) (t : Bool) (σ : List (ℝ → ℝ → ℝ)) : Except Err (List ℝ) := do
  let u ← unshape (← bP g.bcells d t σ)
  .ok u.1

/-- `g.dec.Pn[d, t](f)` for a callable `f`, `/repo/dec/grid2.py:793`. -/
noncomputable def Pn (g : Grid2) (d : Fin 3) (t : Bool) (f : Fn) : Except Err (List ℝ) := do
  let u ← unshape (← bPn g.bcells d t f)
  .ok u.1

/-- `g.dec.BC[d, False](σ)`, `/repo/dec/grid2.py:719,794`. -/
noncomputable def BC (g : Grid2) (d : Fin 3) (σ : List (ℝ → ℝ → ℝ)) : Except Err (List ℝ) := do
  let u ← unshape (← bBC g.bcells g.gx.xmin g.gx.xmax g.gy.xmin g.gy.xmax d σ)
  .ok u.1

/-- `g.boundary_condition()[0](f)`, `/repo/dec/grid2.py:227-234`. -/
noncomputable def boundary_condition0 (g : Grid2) (f : ℝ → ℝ → ℝ) : List ℝ := flatBC0 g.cells g.gx.xmin g.gx.xmax g.gy.xmin g.gy.xmax f
/-- `g.boundary_condition()[1](f)`, `/repo/dec/grid2.py:227-234`. -/
noncomputable def boundary_condition1 (g : Grid2) (f : ℝ → ℝ → ℝ × ℝ) : Except Err (List ℝ) := flatBC1 g.cells g.gx.xmin g.gx.xmax g.gy.xmin g.gy.xmax f

/-- `g.dec.B[d, t](i)(x, y)` (`reshapeB`), `/repo/dec/grid2.py:739-752,795`: the components. -/
noncomputable def B (g : Grid2) (d : Fin 3) (t : Bool) (i : ℤ) : Except Err (ℝ → ℝ → List (Option ℝ)) :=
  match g.shape d t with
  | .tup l => do
    let (k, j, i) ← unravel_idx i l
    .ok (bB g.gx g.gy d t k j i)
  | .arr s => do
    let (j, i) ← unravel_index i s
    .ok (bB g.gx g.gy d t 0 j i)

/-- `g.points`, `/repo/dec/grid2.py:157-159`. -/
def points (g : Grid2) : Except Err (Arr ℝ × Arr ℝ) := do
  .ok (meshgrid (← g.gx.points) (← g.gy.points))

/-- The entries at the same position of a tuple of arrays. For /repo/dec/grid2.py:739-752. -/
def entry (l : List (Arr ℝ)) (p : ℕ) : List ℝ := l.map fun a => a.data.getD p 0

/-- All arrays of the two tuples have the same shape `(r, c)`. For /repo/dec/grid2.py:805-849. -/
def sameShape (l m : List (Arr ℝ)) : Bool := (l ++ m).all fun a => a.r == (l.headD ⟨0, 0, []⟩).r && a.c == (l.headD ⟨0, 0, []⟩).c

/-- A symbolic operation on components, applied to tuples of arrays: the table of `dec/symbolic.py` uses only ring operations on the
components, which numpy performs entry by entry (arrays of different shapes: `ValueError`). For /repo/dec/grid2.py:805-849. -/
def entrywise (w : List ℝ → List ℝ → List ℝ) (m : ℕ) (a b : List (Arr ℝ)) : Except Err (List (Arr ℝ)) :=
  if sameShape a b then
    let r := (a.headD ⟨0, 0, []⟩).r
    let c := (a.headD ⟨0, 0, []⟩).c
    .ok (tab m fun k => ⟨r, c, tab (r * c) fun p => (w (entry a p) (entry b p)).getD k 0⟩)
  else .error .valueError

/-- The number of components of a form of degree `d` in two dimensions. For /repo/dec/grid2.py:805-849. -/
def ncomp (d : ℕ) : ℕ := if d = 1 then 2 else 1

/-- `g.dec.W[(d0, p0), (d1, p1), p2](a, b)`, `/repo/dec/grid2.py:805-828`. -/
def wedge (g : Grid2) (d0 : Fin 3) (p0 : Bool) (d1 : Fin 3) (p1 p2 : Bool) (a b : List ℝ) : Except Err (List ℝ) :=
  if d0.val + d1.val > 2 then .error .keyError
  else if p0 = p1 ∧ p1 = p2 ∧ d0 = 0 ∧ d1 = 0 then bop (· * ·) a b
  else do
    let a ← g.T d0 p0 a
    let b ← g.T d1 p1 b
    match Sym.wedge_2d (R := ℝ) d0.val d1.val with
    | none => .error .keyError
    | some w =>
      let c ← entrywise w (ncomp (d0.val + d1.val)) a b
      g.U (Fin.ofNat 3 (d0.val + d1.val)) p2 c

/-- `g.dec.C[p0, (d1, p1), p2](a, b)`, `/repo/dec/grid2.py:830-849`. Keys with `d1 = 0` are absent. -/
def contraction (g : Grid2) (p0 : Bool) (d1 : Fin 3) (p1 p2 : Bool) (a b : List ℝ) : Except Err (List ℝ) :=
  if d1 = 0 then .error .keyError
  else do
    let a ← g.T 1 p0 a
    let b ← g.T d1 p1 b
    let c ← entrywise (fun x y => (Sym.contraction_2d d1.val x y).getD []) (ncomp (d1.val - 1)) a b
    g.U (Fin.ofNat 3 (d1.val - 1)) p2 c

end Grid2

/-- `Grid_2D.product(gx, gy)`, `/repo/dec/grid2.py:140-143`. -/
def product (gx gy : Grid1) : Grid2 := ⟨gx, gy⟩

end Dec.G2
