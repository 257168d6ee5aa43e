import Verif.Model.Periodic
import Verif.Model.Regular
import Verif.Model.Chebyshev

/-! # The constructors of one-dimensional grids -/

namespace Dec

/-- The two kinds of grids on an interval with end points, `/repo/dec/grid1.py:25-26`. -/
inductive IKind | regular | chebyshev
  deriving DecidableEq

/-- `Grid_1D.regular(n, xmin, xmax)` and `Grid_1D.chebyshev(n, xmin, xmax)`, `/repo/dec/grid1.py:25-26`. -/
noncomputable def intervalGrid (k : IKind) (n : ℕ) (xmin xmax : ℝ) : Grid1 :=
  match k with
  | .regular => Regular.make n xmin xmax
  | .chebyshev => Chebyshev.make n xmin xmax

/-- The three kinds of one-dimensional grids, `/repo/dec/grid1.py:24-26`. -/
inductive Kind | periodic | regular | chebyshev
  deriving DecidableEq

/-- `Grid_1D.periodic`, `Grid_1D.regular` and `Grid_1D.chebyshev`, `/repo/dec/grid1.py:24-26`. -/
noncomputable def grid (k : Kind) (n : ℕ) (xmin xmax : ℝ) : Grid1 :=
  match k with
  | .periodic => Periodic.make n xmin xmax
  | .regular => Regular.make n xmin xmax
  | .chebyshev => Chebyshev.make n xmin xmax

/-- The same constructors with what they check, `/repo/dec/periodic.py:6-17`, `/repo/dec/regular.py:6-8`, `/repo/dec/chebyshev.py:6-9`: `regular` asserts `xmax > xmin`;
`periodic` assigns to the first dual edge, which does not exist if `n` is zero; `chebyshev` asks `linspace` for `2 n - 1` points, a negative number if `n` is zero. -/
noncomputable def construct (k : Kind) (n : ℕ) (xmin xmax : ℝ) : Except Err Grid1 :=
  match k with
  | .periodic => if n = 0 then .error .indexError else .ok (Periodic.make n xmin xmax)
  | .regular => if xmax > xmin then .ok (Regular.make n xmin xmax) else .error .assertion
  | .chebyshev => if n = 0 then .error .valueError else .ok (Chebyshev.make n xmin xmax)

end Dec
