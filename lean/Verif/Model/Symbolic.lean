import Verif.Model.Helper
import Mathlib.Algebra.Algebra.Defs
import Mathlib.Algebra.Algebra.Rat

/-!
# Model of `/repo/dec/symbolic.py` and `/repo/dec/symform.py`

sympy expressions are elements of a commutative ring `R` (a `ℚ`-algebra where the code divides by two);
`diff(., x)` and `diff(., y)` are functions `dx dy : R → R`, which the theorems take to be commuting
derivations.  Components are lists.
-/

namespace Dec.Sym

variable {R : Type*}

/-! ## The operator tables, `/repo/dec/symbolic.py` -/

/-- `derivative_1d(x)[k]`, `/repo/dec/symbolic.py:141-153`; `none` is the Python integer `0`. -/
def derivative_1d [Zero R] (dx : R → R) (k : ℕ) (f : List R) : Option (List R) :=
  match k with
  | 0 => some [dx (f.getD 0 0)]
  | _ => none

/-- `derivative_2d(x, y)[k]`, `/repo/dec/symbolic.py:155-173`; `none` is the Python integer `0`. -/
def derivative_2d [Zero R] [Neg R] [Add R] (dx dy : R → R) (k : ℕ) (f : List R) : Option (List R) :=
  match k with
  | 0 => some [dx (f.getD 0 0), dy (f.getD 0 0)]
  | 1 => some [-dy (f.getD 0 0) + dx (f.getD 1 0)]
  | _ => none

/-- `hodge_star_1d()[k]`, `/repo/dec/symbolic.py:175-185`. -/
def hodge_star_1d (_k : ℕ) (f : List R) : List R := f

/-- `hodge_star_2d()[k]`, `/repo/dec/symbolic.py:187-200`. -/
def hodge_star_2d [Zero R] [Neg R] (k : ℕ) (f : List R) : List R :=
  match k with
  | 1 => [-f.getD 1 0, f.getD 0 0]
  | _ => f

/-- The entries of `wedge_1d()` before `antisymmetrize_wedge`, `/repo/dec/symbolic.py:228-232`. -/
def wedge_1d_base [Zero R] [Mul R] (k l : ℕ) : Option (List R → List R → List R) :=
  match k, l with
  | 0, 0 => some fun a b => [a.getD 0 0 * b.getD 0 0]
  | 0, 1 => some fun a b => [a.getD 0 0 * b.getD 0 0]
  | _, _ => none

/-- The entries of `wedge_2d()` before `antisymmetrize_wedge`, `/repo/dec/symbolic.py:251-257`. -/
def wedge_2d_base [Zero R] [Mul R] [Sub R] (k l : ℕ) : Option (List R → List R → List R) :=
  match k, l with
  | 0, 0 => some fun a b => [a.getD 0 0 * b.getD 0 0]
  | 0, 1 => some fun a b => [a.getD 0 0 * b.getD 0 0, a.getD 0 0 * b.getD 1 0]
  | 0, 2 => some fun a b => [a.getD 0 0 * b.getD 0 0]
  | 1, 1 => some fun a b => [a.getD 0 0 * b.getD 1 0 - a.getD 1 0 * b.getD 0 0]
  | _, _ => none

/-- `antisymmetrize_wedge(W)`, `/repo/dec/symbolic.py:202-215`: for every key `(k, l)` present with `k ≠ l` the key
`(l, k)` is set to `(-1)^(k l) W[k, l](b, a)`. -/
def antisymmetrize [Ring R] (W : ℕ → ℕ → Option (List R → List R → List R)) (k l : ℕ) :
    Option (List R → List R → List R) :=
  if k = l then W k l
  else match W l k with
    | some w => some fun a b => (w b a).map (· * (-1) ^ (l * k))
    | none => W k l

/-- `wedge_1d()[k, l]`, `/repo/dec/symbolic.py:217-232`; `none` is a missing key. -/
def wedge_1d [Ring R] : ℕ → ℕ → Option (List R → List R → List R) := antisymmetrize wedge_1d_base

/-- `wedge_2d()[k, l]`, `/repo/dec/symbolic.py:234-257`; `none` is a missing key. -/
def wedge_2d [Ring R] : ℕ → ℕ → Option (List R → List R → List R) := antisymmetrize wedge_2d_base

/-- `contraction_1d()[k]`, `/repo/dec/symbolic.py:259-272`; `none` is the Python integer `0`. -/
def contraction_1d [Zero R] [Mul R] (k : ℕ) (X f : List R) : Option (List R) :=
  match k with
  | 0 => none
  | _ => some [X.getD 0 0 * f.getD 0 0]

/-- `contraction_2d()[k]`, `/repo/dec/symbolic.py:274-291`; `none` is the Python integer `0`. -/
def contraction_2d [Ring R] (k : ℕ) (X f : List R) : Option (List R) :=
  match k with
  | 0 => none
  | 1 => some [X.getD 0 0 * f.getD 0 0 + X.getD 1 0 * f.getD 1 0]
  | _ => some [-X.getD 1 0 * f.getD 0 0, X.getD 0 0 * f.getD 0 0]

/-! ## Charts and forms -/

/-- `Chart`, `/repo/dec/symbolic.py:42-76`.  Charts are compared by object identity, modelled by `id`. -/
structure Chart where
  id : ℕ
  dim : ℕ
  deriving DecidableEq

/-- `Chart(*coords)`, `/repo/dec/symbolic.py:50-69`: only one or two coordinates are implemented. -/
def mkChart (id ncoords : ℕ) : Except Err Chart :=
  if ncoords = 1 ∨ ncoords = 2 then .ok ⟨id, ncoords⟩ else .error .notImplemented

/-- `chart.dec.D[k]`, `/repo/dec/symbolic.py:55,62`. -/
def Chart.D [Ring R] (ch : Chart) (dx dy : R → R) (k : ℕ) (c : List R) : Option (List R) :=
  if ch.dim = 1 then derivative_1d dx k c else derivative_2d dx dy k c
/-- `chart.dec.H[k]`, `/repo/dec/symbolic.py:56,63`. -/
def Chart.H [Ring R] (ch : Chart) (k : ℕ) (c : List R) : List R :=
  if ch.dim = 1 then hodge_star_1d k c else hodge_star_2d k c
/-- `chart.dec.W[k, l]`, `/repo/dec/symbolic.py:57,64`. -/
def Chart.W [Ring R] (ch : Chart) (k l : ℕ) : Option (List R → List R → List R) :=
  if ch.dim = 1 then wedge_1d k l else wedge_2d k l
/-- `chart.dec.C[k]`, `/repo/dec/symbolic.py:58,65`. -/
def Chart.C [Ring R] (ch : Chart) (k : ℕ) (X c : List R) : Option (List R) :=
  if ch.dim = 1 then contraction_1d k X c else contraction_2d k X c

/-- A symbolic form object, `/repo/dec/symform.py:33-39`. -/
structure Form (R : Type*) where
  degree : ℕ
  grid : Chart
  comps : List R

/-- `form(degree, grid, components)`, `/repo/dec/symform.py:33-39`. -/
def mkForm (degree : ℕ) (grid : Chart) (comps : List R) : Except Err (Form R) :=
  if grid.dim < degree then .error .assertion
  else match nCr grid.dim degree with
    | .error e => .error e
    | .ok m => if comps.length = m then .ok ⟨degree, grid, comps⟩ else .error .assertion

/-- What the operators return: a form, or the Python integer `0`. For /repo/dec/symbolic.py:141-291. -/
inductive Val (R : Type*)
  | zero
  | form (f : Form R)

/-- `F(d, ch, c)` as a returned value. For /repo/dec/symform.py:82-110. -/
def ret (degree : ℕ) (grid : Chart) (comps : List R) : Except Err (Val R) :=
  (mkForm degree grid comps).map .form

/-- The `D` property of a form, `/repo/dec/symform.py:82-87`. -/
def Form.D [Ring R] (dx dy : R → R) (f : Form R) : Except Err (Val R) :=
  match f.grid.D dx dy f.degree f.comps with
  | none => .ok .zero
  | some c => ret (f.degree + 1) f.grid c

/-- The `H` property of a form, `/repo/dec/symform.py:89-95`. -/
def Form.H [Ring R] (f : Form R) : Except Err (Val R) :=
  ret (f.grid.dim - f.degree) f.grid (f.grid.H f.degree f.comps)

/-- `a.W(b)` and `a ^ b`, `/repo/dec/symform.py:97-101,59-60`. -/
def Form.W [Ring R] (a b : Form R) : Except Err (Val R) :=
  if a.grid ≠ b.grid then .error .assertion
  else match a.grid.W a.degree b.degree with
    | none => .error .keyError
    | some w => ret (a.degree + b.degree) a.grid (w a.comps b.comps)

/-- `X.C(f)`, `/repo/dec/symform.py:103-110`. -/
def Form.C [Ring R] (X f : Form R) : Except Err (Val R) :=
  if X.degree ≠ 1 then .error .assertion
  else if X.grid ≠ f.grid then .error .assertion
  else match X.grid.C f.degree X.comps f.comps with
    | none => .ok .zero
    | some c => ret (f.degree - 1) X.grid c

/-- `binary(name)` on two forms, `/repo/dec/symform.py:65-74`. -/
def Form.binary (op : R → R → R) (a b : Form R) : Except Err (Form R) :=
  if a.degree ≠ b.degree then .error .assertion
  else if a.grid ≠ b.grid then .error .assertion
  else mkForm a.degree a.grid (List.zipWith op a.comps b.comps)

/-- `binary(name)` with a scalar on the other side, `/repo/dec/symform.py:65-74`. -/
def Form.binaryScalar (op : R → R → R) (a : Form R) (c : R) : Except Err (Form R) :=
  mkForm a.degree a.grid (a.comps.map (op · c))

/-- `a + b`, `/repo/dec/symform.py:136-145`. -/
def Form.add [Ring R] (a b : Form R) : Except Err (Form R) := a.binary (· + ·) b
/-- `a - b`, `/repo/dec/symform.py:136-145`. -/
def Form.sub [Ring R] (a b : Form R) : Except Err (Form R) := a.binary (· - ·) b
/-- `-a`, `/repo/dec/symform.py:76-80,138-141`. -/
def Form.neg [Ring R] (a : Form R) : Except Err (Form R) := mkForm a.degree a.grid (a.comps.map (- ·))
/-- `a / 2` (scalar division used by `adv`), `/repo/dec/symform.py:65-74,135`. -/
def Form.div2 [Ring R] [Algebra ℚ R] (a : Form R) : Except Err (Form R) :=
  mkForm a.degree a.grid (a.comps.map ((1 / 2 : ℚ) • ·))
/-- A positional argument in a Python call of the constructor `form`. For /repo/dec/symform.py:65-74. -/
inductive Arg (R : Type*)
  | degree (k : ℕ)
  | chart (g : Chart)
  | comps (c : List R)

/-- Calling the constructor with a list of positional arguments, `/repo/dec/symform.py:33-39`: its signature is
`(self, degree, grid, components)`; any other number (or kind) of arguments raises `TypeError`. -/
def callForm : List (Arg R) → Except Err (Form R)
  | [.degree k, .chart g, .comps c] => mkForm k g c
  | _ => .error .typeError

/-- `c * a` for a scalar `c`, `/repo/dec/symform.py:53-57`: the constructor is called as
`type(self)(self.degree, (c.__rmul__(other) for c in self.components))`, without the grid. -/
def Form.rmul [Ring R] (c : R) (a : Form R) : Except Err (Form R) :=
  callForm [.degree a.degree, .comps (a.comps.map (c * ·))]

/-- The Python sum of two returned values; `0 + form` and `form + 0` go through `__radd__`/`__add__` with a scalar
(`/repo/dec/symform.py:65-74`), which adds `0` to every component. -/
def Val.add [Ring R] : Val R → Val R → Except Err (Val R)
  | .zero, .zero => .ok .zero
  | .zero, .form b => (b.binaryScalar (fun s o => o + s) 0).map .form
  | .form a, .zero => (a.binaryScalar (fun s o => s + o) 0).map .form
  | .form a, .form b => (a.add b).map .form

/-! ## Module-level functions of `/repo/dec/symbolic.py` -/

/-- `D(f)`, `/repo/dec/symbolic.py:353-362`. -/
def D [Ring R] (dx dy : R → R) : Val R → Except Err (Val R)
  | .zero => .ok .zero
  | .form f => f.D dx dy

/-- `H(f)`, `/repo/dec/symbolic.py:368-377`. -/
def H [Ring R] : Val R → Except Err (Val R)
  | .zero => .ok .zero
  | .form f => f.H

/-- `W(a, b)`, `/repo/dec/symbolic.py:383-394`; the integer `0` has no attribute `W`. -/
def W [Ring R] : Val R → Val R → Except Err (Val R)
  | .form a, .form b => a.W b
  | _, _ => .error .typeError

/-- `Dot(a, b) = H(W(a, H(b)))`, `/repo/dec/symbolic.py:400-415`. -/
def Dot [Ring R] (a b : Val R) : Except Err (Val R) := do H (← W a (← H b))

/-- `C(X, f)`, `/repo/dec/symbolic.py:421-435`. -/
def C [Ring R] : Val R → Val R → Except Err (Val R)
  | .form X, .form f => X.C f
  | _, _ => .ok .zero

/-- `Lie(X, f) = C(X, D(f)) + D(C(X, f))`, `/repo/dec/symbolic.py:441-461`. -/
def Lie [Ring R] (dx dy : R → R) (X f : Val R) : Except Err (Val R) := do
  let u ← C X (← D dx dy f)
  let v ← D dx dy (← C X f)
  u.add v

/-- `Laplacian(f) = H(D(H(D(f)))) + D(H(D(H(f))))`, `/repo/dec/symbolic.py:467-477`. -/
def Laplacian [Ring R] (dx dy : R → R) (f : Val R) : Except Err (Val R) := do
  let u ← H (← D dx dy (← H (← D dx dy f)))
  let v ← D dx dy (← H (← D dx dy (← H f)))
  u.add v

/-- The chart `Chart(x, y)` used by the module-level constructors `F0, F1, F2`, `/repo/dec/symbolic.py:323`. -/
def chart2 : Chart := ⟨0, 2⟩

/-- `F0(f)`, `/repo/dec/symbolic.py:293-321`. -/
def F0 (f : R) : Except Err (Form R) := mkForm 0 chart2 [f]
/-- `F1(u, v)`, `/repo/dec/symbolic.py:293-321`. -/
def F1 (u v : R) : Except Err (Form R) := mkForm 1 chart2 [u, v]
/-- `F2(f)`, `/repo/dec/symbolic.py:293-321`. -/
def F2 (f : R) : Except Err (Form R) := mkForm 2 chart2 [f]

/-- `tuple(v)`: the components of a form; the integer `0` is not iterable. For /repo/dec/symform.py:82-110. -/
def Val.comps : Val R → Except Err (List R)
  | .zero => .error .typeError
  | .form f => .ok f.comps

/-- `v[0]` on a returned value. For /repo/dec/symbolic.py:353-477. -/
def Val.fst [Zero R] : Val R → Except Err R
  | .zero => .error .typeError
  | .form f => .ok (f.comps.getD 0 0)

/-- `grad(f)`, `/repo/dec/symbolic.py:483-489`. -/
def grad [Ring R] (dx dy : R → R) (f : R) : Except Err (List R) := do
  (← D dx dy (.form (← F0 f))).comps

/-- `div(V)`, `/repo/dec/symbolic.py:491-498`. -/
def div [Ring R] (dx dy : R → R) (u v : R) : Except Err R := do
  (← H (← D dx dy (← H (.form (← F1 u v))))).fst

/-- `vort(V)`, `/repo/dec/symbolic.py:500-507`. -/
def vort [Ring R] (dx dy : R → R) (u v : R) : Except Err R := do
  (← H (← D dx dy (.form (← F1 u v)))).fst

/-- `Lie(V_, V_) - G_/2` on returned values, used by `adv`. For /repo/dec/symform.py:65-74. -/
def Val.sub [Ring R] : Val R → Form R → Except Err (Val R)
  | .zero, b => (b.binaryScalar (fun s o => o - s) 0).map .form
  | .form a, b => (a.sub b).map .form

/-- `adv(V)`, `/repo/dec/symbolic.py:509-516`. -/
def adv [Ring R] [Algebra ℚ R] (dx dy : R → R) (u v : R) : Except Err (List R) := do
  let G ← grad dx dy (u ^ 2 + v ^ 2)
  let V_ ← F1 u v
  let G_ ← F1 (G.getD 0 0) (G.getD 1 0)
  (← (← Lie dx dy (.form V_) (.form V_)).sub (← G_.div2)).comps

end Dec.Sym
