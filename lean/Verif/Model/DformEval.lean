import Verif.Model.Decform
import Verif.Model.Nan2

/-!
# Model of `/repo/dec/decform.py`: the property `R` of a discrete form

The properties `I` and `Rf` are in `Model/Misc`. What the code does when the array of the form
does not have the length that belongs to its degree, when the degree does not occur and when the function is called with the wrong number
of coordinates is part of the model.
-/

namespace Dec.Decform

/-- A grid object: one- or two-dimensional. For /repo/dec/decform.py:8-12. -/
inductive AnyGrid
  | one (g : Grid1)
  | two (g : G2.Grid2)

namespace AnyGrid

/-- The operators that the other methods of a discrete form use, `/repo/dec/decform.py:79-118`. -/
def ops : AnyGrid → Ops
  | .one g => ops1 g
  | .two g => ops2 g

/-- The number of components of the values of a form of degree `d`. For /repo/dec/grid2.py:311-321. -/
def comps : AnyGrid → ℕ → ℕ
  | .one _, _ => 1
  | .two _, d => if d = 1 then 2 else 1

/-- `g.dec.B[d, p](i)(*x)`, `/repo/dec/decform.py:57`, `/repo/dec/periodic.py:36-46`, `/repo/dec/grid2.py:739-752`: the components (`none` is NaN).
The basis functions take exactly as many arguments as the grid has dimensions. -/
noncomputable def B : AnyGrid → ℕ → Bool → ℕ → List ℝ → Except Err (List (Option ℝ))
  | .one g, d, p, i, x => do
    let d ← key 2 d
    match x with
    | [s] => .ok [g.B d p i s]
    | _ => .error .typeError
  | .two g, d, p, i, x => do
    let d ← key 3 d
    let b ← g.B d p i
    match x with
    | [s, r] => .ok (b s r)
    | _ => .error .typeError

end AnyGrid

/-- The grid objects by address. For /repo/dec/decform.py:8-12. -/
abbrev GHeap := ℕ → AnyGrid

/-- One summand `a[i]*B(i)(*x)` added to the sum so far, `/repo/dec/decform.py:57`: `a[i]` is evaluated first and raises `IndexError` if the array is
too short. -/
noncomputable def addTerm (B : ℕ → Except Err (List (Option ℝ))) (a : List ℝ) (s : List (Option ℝ)) (i : ℕ) : Except Err (List (Option ℝ)) :=
  match a[i]? with
  | none => .error .indexError
  | some c => do
    let b ← B i
    .ok (List.zipWith (fun u v => Sp.oadd u (v.map (c * ·))) s b)

/-- The `R` property, called with the coordinates `x`, `/repo/dec/decform.py:49-58`: `sum(a[i]*g.dec.B[d, p](i)(*x) for i in range(g.N[d, p]))`.
The integer `0` with which `sum` starts is a list of zeros here. -/
noncomputable def R (h : GHeap) (f : DForm) (x : List ℝ) : Except Err (List (Option ℝ)) := do
  let N ← (h f.grid).ops.N f.degree f.isprimal
  (List.range N).foldlM (fun s i => addTerm (fun i => (h f.grid).B f.degree f.isprimal i x) f.array s i)
    (List.replicate ((h f.grid).comps f.degree) (some 0))

end Dec.Decform
