import Verif.Model.Chebyshev
import Mathlib.MeasureTheory.Integral.IntervalIntegral.Basic
import Mathlib.LinearAlgebra.Matrix.NonsingularInverse

/-!
# Model of `/repo/examples/hodge.ipynb` and `/repo/examples/whitney.ipynb`

The cells are numbered from 0, counting text cells.
-/

namespace Dec.Notebooks

open Real

/-- `H0_cheb_new(f)`, `/repo/examples/hodge.ipynb` cell 4.  (`H0_cheb` of cell 2 is that of the library, `Chebyshev.H0`.) -/
noncomputable def H0_cheb_new (f : List ℝ) : List ℝ :=
  let f := Sp.mirror0 f 1
  let h := 2 * π / f.length
  let f := Sp.F (toC f)
  let f := Sp.fourier_K f (-h / 2) (h / 2)
  let f := Sp.Finv f
  let f := Sp.unmirror0 f
  re f

/-- `p = Piecewise((0, x<=-1), (x+1, x<0), (-x+1, x<=1), (0, True))`, `/repo/examples/whitney.ipynb` cell 2: the first condition that holds decides. -/
noncomputable def p (x : ℝ) : ℝ := if x ≤ -1 then 0 else if x < 0 then x + 1 else if x ≤ 1 then -x + 1 else 0

/-- `F(x)`, `/repo/examples/whitney.ipynb` cell 4. -/
noncomputable def F (x : ℝ) : ℝ := if -1 < x ∧ x ≤ 0 then x + 1 else if 0 < x ∧ x < 1 then -x + 1 else 0

/-- `a`, `/repo/examples/whitney.ipynb` cell 8 (`sympy.integrate` is taken to return the integral). -/
noncomputable def a : ℝ := ∫ x in (-1 / 2)..(1 / 2), p x

/-- `b`, `/repo/examples/whitney.ipynb` cell 8. -/
noncomputable def b : ℝ := ∫ x in 0..(1 / 2), p x

/-- `c`, `/repo/examples/whitney.ipynb` cell 8. -/
noncomputable def c : ℝ := ∫ x in (1 / 2)..(3 / 2), p x

/-- `H`, `/repo/examples/whitney.ipynb` cell 9.  The notebook writes the matrix out for `n = 5`; this is the same band matrix for every size. -/
noncomputable def H (n : ℕ) : Matrix (Fin n) (Fin n) ℝ := fun i j =>
  if i = j then (if i.val = 0 ∨ i.val = n - 1 then b else a) else if i.val + 1 = j.val ∨ j.val + 1 = i.val then c else 0

/-- `Hinv = np.linalg.inv(H.T)`, `/repo/examples/whitney.ipynb` cell 10 (exact arithmetic; `LinAlgError` if the matrix is singular, which C99 excludes). -/
noncomputable def Hinv (n : ℕ) : Matrix (Fin n) (Fin n) ℝ := (H n).transpose⁻¹

/-- `R(h, j)`, `/repo/examples/whitney.ipynb` cell 12: `lambda x: sum(L(x-i)*Hinv[i, j] for i in range(len(h)))`, with `len(h) = n` (only the length of `h` matters);
`L` applies `p` to each entry. -/
noncomputable def R (n : ℕ) (j : Fin n) (x : ℝ) : ℝ := ∑ i : Fin n, p (x - i) * Hinv n i j

end Dec.Notebooks
