import Verif.Lib.Smooth

/-! # Model of the tables of example flows in `/repo/dec/symbolic.py`

sympy expressions in `x` and `y` are the smooth functions they denote. -/

namespace Dec.Sym

open Smooth

/-- `V`, the velocity fields, `/repo/dec/symbolic.py:22-29`. -/
noncomputable def V : List (Smooth × Smooth) :=
  [(-2 * sin Y * cos ((1 / 2 : ℚ) • X) ^ 2, 2 * sin X * cos ((1 / 2 : ℚ) • Y) ^ 2),
   (-cos ((1 / 2 : ℚ) • X) * sin ((1 / 2 : ℚ) • Y), sin ((1 / 2 : ℚ) • X) * cos ((1 / 2 : ℚ) • Y)),
   (-sin Y, sin X),
   (-sin (2 * Y), sin X),
   (1, 0)]

/-- `p`, the pressures, `/repo/dec/symbolic.py:34-40`. -/
noncomputable def p : List Smooth :=
  [(1 / 20 : ℚ) • (-cos (2 * X) * (5 + 4 * cos Y) - 5 * (4 * cos Y + cos (2 * Y)) - 4 * cos X * (5 + 5 * cos Y + cos (2 * Y))),
   (1 / 4 : ℚ) • (-(cos X + cos Y)),
   -cos X * cos Y,
   (1 / 5 : ℚ) • (-4 * cos X * cos (2 * Y)),
   0]

/-- `div(adv(V)) + div(grad(p))`, the expression of the comment in `plot`, `/repo/dec/symbolic.py:538`. -/
noncomputable def residual (V : Smooth × Smooth) (p : Smooth) : Except Err Smooth := do
  let a ← adv dx dy V.1 V.2
  let g ← grad dx dy p
  let d₁ ← Sym.div dx dy (a.getD 0 0) (a.getD 1 0)
  let d₂ ← Sym.div dx dy (g.getD 0 0) (g.getD 1 0)
  return d₁ + d₂

end Dec.Sym
