import Verif.Lib.Smooth
import Verif.Lib.Smooth1
import Verif.Model.Decform
import Verif.Model.Integrate

/-!
# Model of `to_discrete` in `/repo/dec/symform.py`, and of `P` and `BC` of `Grid_2D`

The components of a symbolic form denote smooth functions; `lambdify` returns the function an expression denotes, and `sympy` is taken to find every integral
(`process` raises `ValueError` when it does not).
-/

namespace Dec.Discretise

open Decform

/-- What `to_discrete` builds: a form with an array, or (inside the same Python class) a form whose array is a single number. For /repo/dec/symform.py:186. -/
inductive Result
  | form (x : DForm)
  | scalar (degree : ℕ) (isprimal : Bool) (grid : ℕ) (c : ℝ)

/-- `to_discrete(f, g, isprimal)` for a chart with one coordinate, `/repo/dec/symform.py:155-186`. `occurs` says whether one of the cell coordinates occurs in the
expression `integrate`: if not, `lambdify` produces a function that returns the same number whatever its arguments, not an array. `addr` is the address of `g`. -/
noncomputable def to_discrete1 (g : Grid1) (addr : ℕ) (occurs : Bool) (f : Sym.Form Smooth1) (t : Bool) : Except Err Result :=
  if f.grid.dim ≠ 1 then .error .assertion
  else do
    let d ← key 2 f.degree
    match f.comps with
    | [c] =>
      match d, occurs with
      | 0, true => .ok (.form ⟨f.degree, t, addr, (g.cells.v t).map c.1⟩)
      | 1, true => .ok (.form ⟨f.degree, t, addr, List.zipWith (Integrate.int1 c.1) (g.cells.e t).1 (g.cells.e t).2⟩)
      | 0, false => .ok (.scalar f.degree t addr (c.1 0))
      | 1, false => .ok (.scalar f.degree t addr (Integrate.int1 c.1 0 1))
    | _ => .error .valueError

/-- The functions of two variables that the components denote. For /repo/dec/symform.py:112-117. -/
noncomputable def fns2 (f : Sym.Form Smooth) : List (ℝ → ℝ → ℝ) := f.comps.map fun c x y => c.1 (x, y)

/-- `g.P(f, isprimal)`, `/repo/dec/grid2.py:242-246`. -/
noncomputable def P2 (g : G2.Grid2) (addr : ℕ) (f : Sym.Form Smooth) (t : Bool) : Except Err DForm := do
  let d ← key 3 f.degree
  let a ← g.P d t (fns2 f)
  .ok ⟨f.degree, t, addr, a⟩

/-- `to_discrete(f, g, isprimal)` for a chart with two coordinates, `/repo/dec/symform.py:155-186`. The integral computed there is not used. -/
noncomputable def to_discrete2 (g : G2.Grid2) (addr : ℕ) (f : Sym.Form Smooth) (t : Bool) : Except Err DForm :=
  if f.grid.dim ≠ 2 then .error .assertion else P2 g addr f t

/-- `g.BC(f)`, `/repo/dec/grid2.py:254-260`. -/
noncomputable def BC2 (g : G2.Grid2) (addr : ℕ) (f : Sym.Form Smooth) : Except Err DForm := do
  let d ← key 3 (f.degree + 1)
  let a ← g.BC d (fns2 f)
  .ok ⟨f.degree + 1, false, addr, a⟩

end Dec.Discretise
