import Verif.Model.Decform
import Mathlib.Analysis.SpecialFunctions.Sqrt

/-!
# Model of the small tools: the rest of `/repo/dec/helper.py`, coordinates of cells and measures of simplices in `/repo/dec/symbolic.py`, and the attributes of
`/repo/dec/decform.py` that are not operators
-/

namespace Dec

/-! ## `/repo/dec/helper.py` -/

/-- `bndry_with_zeros(a, axis=0)` of a matrix, `/repo/dec/helper.py:175-193`. -/
def bndryWithZeros0 (a : G2.Arr ℝ) : Except Err (G2.Arr ℝ) := G2.apply0 (fun x => .ok (bndryWithZeros x)) a
/-- `bndry_with_zeros(a, axis=-1)` of a matrix, `/repo/dec/helper.py:175-193`. -/
def bndryWithZeros1 (a : G2.Arr ℝ) : Except Err (G2.Arr ℝ) := G2.apply1 (fun x => .ok (bndryWithZeros x)) a

/-- `make_namedtuple(metaclass, dictionary)`, `/repo/dec/helper.py:153-161`: the values of the fields in the order of the fields. -/
def makeNamedtuple {V : Type*} (fields : List String) (dictionary : String → Option V) : Except Err (List V) :=
  fields.mapM fun f => match dictionary f with
    | some v => .ok v
    | none => .error .keyError

namespace Dispatch

/-- A function decorated with `multipledispatch(T)`, `/repo/dec/helper.py:242-254`: the decorated function `rank` computes the degree of the result, `multi` is the dictionary `__multi__`
(as a function; a key that is absent is `none`), `default` is `__default__`.  `C` is the type of the components. -/
structure Fn (C : Type) where
  rank : List ℤ → Except Err ℤ
  multi : List ℤ → Option (List C → Except Err C)
  default : Option (List C → Except Err C)

/-- `multipledispatch(T)(dispatch_fn)`, `/repo/dec/helper.py:242-254`. -/
def new {C : Type} (rank : List ℤ → Except Err ℤ) : Fn C := ⟨rank, fun _ => none, none⟩

/-- `register(dispatch_fn, *key)(fn)`, `/repo/dec/helper.py:256-262`: an empty key sets `__default__`. -/
def register {C : Type} (d : Fn C) (key : List ℤ) (fn : List C → Except Err C) : Fn C :=
  if key = [] then { d with default := some fn }
  else { d with multi := fun k => if k = key then some fn else d.multi k }

/-- The call of a dispatched function on forms given by degree and components, `/repo/dec/helper.py:245-250`; the result `T(d_, c_)` is the pair. -/
def call {C : Type} (d : Fn C) (args : List (ℤ × C)) : Except Err (ℤ × C) := do
  let k := args.map Prod.fst
  let c := args.map Prod.snd
  let r ← d.rank k
  match d.multi k with
  | none => .error .keyError
  | some fn => do .ok (r, ← fn c)

end Dispatch

/-! ## `/repo/dec/symbolic.py` -/

namespace Sym

/-- `enumerate_coords(coord, deg)`, `/repo/dec/symbolic.py:92-104`.  A sympy symbol is its name; the names are identifiers (`symbols` would split a name at commas, blanks and colons). -/
def enumerate_coords (coord : List String) (deg : ℕ) : List String :=
  (List.range (deg + 1)).flatMap fun i => coord.map fun c => c ++ toString i

/-- `Chart.cell_coords(deg)`, `/repo/dec/symbolic.py:71-73`. -/
def cell_coords (coords : List String) (deg : ℕ) : Except Err (List String) :=
  if deg ≤ coords.length then .ok (enumerate_coords coords deg) else .error .assertion

/-- `simplex_measure(σ)`, `/repo/dec/symbolic.py:106-139`, at numerical vertices.  `none` is the value `None` of a call that falls through.  In the case of a triangle in the plane, line 123
unpacks the third vertex into `y1, y2`, and `x2`, which line 124 reads, is a local variable of the function (it is assigned in lines 134 and 137) that has no value: `UnboundLocalError`. -/
noncomputable def simplex_measure (σ : List (List ℝ)) : Except Err (Option ℝ) :=
  match σ with
  | [] => .error .indexError
  | s :: _ =>
    if σ.all (fun v => v.length == s.length) then
      match σ with
      | [[_]] => .ok (some 1)
      | [[x0], [x1]] => .ok (some (x1 - x0))
      | [[_, _]] => .ok (some 1)
      | [[x0, y0], [x1, y1]] => .ok (some (Real.sqrt ((x1 - x0) ^ 2 + (y1 - y0) ^ 2)))
      | [[_, _], [_, _], [_, _]] => .error .nameError
      | [[_, _, _]] => .ok (some 1)
      | [[x0, y0, z0], [x1, y1, z1]] => .ok (some (Real.sqrt ((x1 - x0) ^ 2 + (y1 - y0) ^ 2 + (z1 - z0) ^ 2)))
      | [[_, _, _], [_, _, _], [_, _, _]] => .error .notImplemented
      | [[_, _, _], [_, _, _], [_, _, _], [_, _, _]] => .error .notImplemented
      | _ => .ok none
    else .error .assertion

end Sym

/-! ## `/repo/dec/decform.py` -/

namespace Decform

/-- The keys of `g.dec`: a `bunch` built in `/repo/dec/periodic.py`, `regular.py`, `chebyshev.py` (dimension 1) and `/repo/dec/grid2.py:792-799` (dimension 2). -/
def decKeys (dim : ℕ) : List String := if dim = 1 then ["P", "B", "D", "H", "W", "C"] else ["P", "Pn", "BC", "B", "D", "H", "W", "C"]

/-- The attribute `b.k` of a `bunch`, `/repo/dec/helper.py:96-98`: `dict.__getitem__`, which raises `KeyError`. -/
def bunchGet (keys : List String) (k : String) : Except Err Unit := if k ∈ keys then .ok () else .error .keyError

/-- The property `I`, `/repo/dec/decform.py:59-67`: `g.dec.I[d, p](a)`; the call is never reached. -/
def I (h : Heap) (x : DForm) : Except Err Unit := bunchGet (decKeys (h x.grid).dim) "I"

/-- The property `Rf` of a form on a one-dimensional grid, `/repo/dec/decform.py:69-76`. -/
def Rf1 (g : Grid1) (x : DForm) : Except Err (List ℝ) := do
  let d ← key 2 x.degree
  g.T d x.isprimal x.array

/-- The property `Rf` of a form on a two-dimensional grid, `/repo/dec/decform.py:69-76`: one array for every component. -/
def Rf2 (g : G2.Grid2) (x : DForm) : Except Err (List (G2.Arr ℝ)) := do
  let d ← key 3 x.degree
  g.T d x.isprimal x.array

/-- `g.P(deg, isprimal, func)` of a one-dimensional grid at address `addr`, `/repo/dec/grid1.py:73-74`. -/
noncomputable def project1 (g : Grid1) (addr d : ℕ) (t : Bool) (f : ℝ → ℝ) : Except Err DForm := do
  let k ← key 2 d
  .ok ⟨d, t, addr, g.P k t f⟩

/-- `g.P(form, isprimal)` of a two-dimensional grid at address `addr`, `/repo/dec/grid2.py:242-246`; `d` is `form.degree`, `σ` are the values of `form.components`. -/
noncomputable def project2 (g : G2.Grid2) (addr d : ℕ) (t : Bool) (σ : List (ℝ → ℝ → ℝ)) : Except Err DForm := do
  let k ← key 3 d
  let a ← g.P k t σ
  .ok ⟨d, t, addr, a⟩

/-- `g.rand(deg, isprimal)`, `/repo/dec/grid1.py:67-71` and `/repo/dec/grid2.py:236-240`: `draw` are the numbers the generator returns. -/
def rand (h : Heap) (addr d : ℕ) (t : Bool) (draw : ℕ → ℝ) : Except Err DForm := do
  let n ← (h addr).N d t
  .ok ⟨d, t, addr, tab n draw⟩

end Decform

end Dec
