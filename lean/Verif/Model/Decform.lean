import Verif.Model.Grid2

/-!
# Model of `/repo/dec/decform.py`: discrete forms

A discrete form carries a degree, a flag `isprimal`, a reference to a grid and an array. Grids are compared by identity (`is`), so a
grid is an address in a heap; two grids built from the same arguments have different addresses.
-/

namespace Dec.Decform

/-- What a discrete form uses of its grid: `g.dimension`, `g.N`, `g.dec.D`, `g.dec.H`, `g.dec.W`, `g.dec.C`.
`none` in the result of `D` is the Python integer `0`. For /repo/dec/decform.py:79-118. -/
structure Ops where
  dim : ℕ
  N : ℕ → Bool → Except Err ℕ
  D : ℕ → Bool → List ℝ → Except Err (Option (List ℝ))
  H : ℕ → Bool → List ℝ → Except Err (List ℝ)
  W : ℕ → Bool → ℕ → Bool → Bool → List ℝ → List ℝ → Except Err (List ℝ)
  C : Bool → ℕ → Bool → Bool → List ℝ → List ℝ → Except Err (List ℝ)

/-- A degree used as part of a dictionary key: a degree that does not occur is a `KeyError`. For /repo/dec/decform.py:79-118. -/
def key (n d : ℕ) : Except Err (Fin n) := if h : d < n then .ok ⟨d, h⟩ else .error .keyError

/-- A one-dimensional grid, `/repo/dec/grid1.py:28-37`. -/
def ops1 (g : Grid1) : Ops where
  dim := 1
  N d t := do let d ← key 2 d; .ok (g.N d t)
  D d t a := do let d ← key 2 d; .ok (g.D d t a)
  H d t a := do let d ← key 2 d; g.H d t a
  W d p e q r a b := do let d ← key 2 d; let e ← key 2 e; g.wedge d p e q r a b
  C p e q r a b := do let e ← key 2 e; g.contraction p e q r a b

/-- A two-dimensional grid, `/repo/dec/grid2.py:140-143,784-801`. -/
def ops2 (g : G2.Grid2) : Ops where
  dim := 2
  N d t := do let d ← key 3 d; g.N d t
  D d t a := do let d ← key 3 d; let b ← g.D d t a; .ok (some b)
  H d t a := do let d ← key 3 d; g.H d t a
  W d p e q r a b := do let d ← key 3 d; let e ← key 3 e; g.wedge d p e q r a b
  C p e q r a b := do let e ← key 3 e; g.contraction p e q r a b

/-- The grid objects by address. For /repo/dec/decform.py:8-12. -/
abbrev Heap := ℕ → Ops

/-- A discrete form, `/repo/dec/decform.py:8-12`. `grid` is an address. -/
structure DForm where
  degree : ℕ
  isprimal : Bool
  grid : ℕ
  array : List ℝ

/-- The right operand of an arithmetic operation: another form, a number or an array. For /repo/dec/decform.py:30-40. -/
inductive Operand
  | form (y : DForm)
  | scalar (c : ℝ)
  | array (a : List ℝ)

/-- The names in `/repo/dec/decform.py:130-140`. `__div__` is not listed: numpy arrays of Python 3 have no such method. -/
inductive BinOp | add | radd | mul | rmul | sub | rsub | truediv
  deriving DecidableEq

/-- What the numpy method of that name does to one entry (`self`, `other`). Division by zero gives `inf` or NaN in numpy and `0` here; the
theorems about division exclude it. For /repo/dec/decform.py:30-40, 130-140. -/
noncomputable def BinOp.fn : BinOp → ℝ → ℝ → ℝ
  | .add, x, y => x + y
  | .radd, x, y => y + x
  | .mul, x, y => x * y
  | .rmul, x, y => y * x
  | .sub, x, y => x - y
  | .rsub, x, y => y - x
  | .truediv, x, y => x / y

/-- `binary(name)`, `/repo/dec/decform.py:30-40`. -/
noncomputable def binary (op : BinOp) (x : DForm) : Operand → Except Err DForm
  | .form y =>
    if x.degree ≠ y.degree then .error .assertion
    else if x.grid ≠ y.grid then .error .assertion
    else if x.isprimal ≠ y.isprimal then .error .assertion
    else do
      let a ← bop op.fn x.array y.array
      .ok ⟨x.degree, x.isprimal, x.grid, a⟩
  | .scalar c => .ok ⟨x.degree, x.isprimal, x.grid, x.array.map (op.fn · c)⟩
  | .array b => do
    let a ← bop op.fn x.array b
    .ok ⟨x.degree, x.isprimal, x.grid, a⟩

/-- `unary('__neg__')`, `/repo/dec/decform.py:42-46`. -/
def neg (x : DForm) : DForm := ⟨x.degree, x.isprimal, x.grid, x.array.map (- ·)⟩

open Classical in
/-- `numpy.allclose(a, b)` with its default tolerances: `|a - b| <= 1e-8 + 1e-5*|b|` for all entries. For /repo/dec/decform.py:22. -/
noncomputable def allclose (a b : List ℝ) : Except Err Bool := do
  let l ← bop (fun x y => if |x - y| ≤ 1 / 10 ^ 8 + 1 / 10 ^ 5 * |y| then (1 : ℝ) else 0) a b
  .ok (decide (∀ x ∈ l, x = 1))

/-- `__eq__`, `/repo/dec/decform.py:18-22`. -/
noncomputable def eq (x y : DForm) : Except Err Bool :=
  if x.degree = y.degree ∧ x.isprimal = y.isprimal ∧ x.grid = y.grid then allclose x.array y.array else .ok false

/-- `__ne__`, `/repo/dec/decform.py:24-25`. -/
noncomputable def ne (x y : DForm) : Except Err Bool := do .ok (!(← eq x y))

/-- The `D` property, `/repo/dec/decform.py:79-87`; `none` is the integer `0`. -/
def D (h : Heap) (x : DForm) : Except Err (Option DForm) := do
  match ← (h x.grid).D x.degree x.isprimal x.array with
  | none => .ok none
  | some a => .ok (some ⟨x.degree + 1, x.isprimal, x.grid, a⟩)

/-- The `H` property, `/repo/dec/decform.py:89-97`. The degree of the result is `n - d`. -/
def H (h : Heap) (x : DForm) : Except Err DForm := do
  let a ← (h x.grid).H x.degree x.isprimal x.array
  .ok ⟨(h x.grid).dim - x.degree, !x.isprimal, x.grid, a⟩

/-- `W(other, toprimal)`, `/repo/dec/decform.py:99-107`. -/
def W (h : Heap) (x y : DForm) (toprimal : Bool := true) : Except Err DForm :=
  if x.grid ≠ y.grid then .error .assertion
  else do
    let a ← (h x.grid).W x.degree x.isprimal y.degree y.isprimal toprimal x.array y.array
    .ok ⟨x.degree + y.degree, toprimal, x.grid, a⟩

/-- `x ^ y`, `/repo/dec/decform.py:27-28`. -/
def xor (h : Heap) (x y : DForm) : Except Err DForm := W h x y

/-- `C(other, toprimal)`, `/repo/dec/decform.py:109-118`. The result of `g.dec.C` is always an array. -/
def C (h : Heap) (x y : DForm) (toprimal : Bool := true) : Except Err DForm :=
  if x.grid ≠ y.grid ∨ x.degree ≠ 1 then .error .assertion
  else do
    let a ← (h x.grid).C x.isprimal y.degree y.isprimal toprimal x.array y.array
    .ok ⟨y.degree - 1, toprimal, x.grid, a⟩

end Dec.Decform
