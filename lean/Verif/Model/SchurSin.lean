import Verif.Model.Spectral
import Verif.Model.Schur

/-!
# Model of `/repo/examples/schur.ipynb`: the sine operator inverted with Schur's complement

The cells are numbered from 0, counting text cells.  `N ≥ 4` throughout: for smaller `N` the assignments `f[0] = …; f[1] = …` of `B` raise `IndexError`.
Complex numbers are exact.  `fourier_sin(N, a, b)` of the notebook (cell 3) has the same `K` as `fourier_K` of the library.
-/

namespace Dec.SchurSin

open Schur Sp

/-- `I = sp.I_diag(N+2, a, b) / 2j`, `/repo/examples/schur.ipynb` cells 6, 11 and 12. -/
noncomputable def weights (N : ℕ) (a b : ℝ) : List ℂ := (I_diag (N + 2) a b).map fun w => w / (2 * Complex.I)

/-- `I[k]`; negative indices are resolved by the caller (the length is `N + 2`). -/
noncomputable def weight (N : ℕ) (a b : ℝ) (k : ℕ) : ℂ := (weights N a b).getD k 0

/-- `I[2:-2]`. -/
noncomputable def innerWeights (N : ℕ) (a b : ℝ) : List ℂ := ((weights N a b).drop 2).take (N - 2)

/-- `A_bidiagonal(x)`, `/repo/examples/schur.ipynb` cell 5: `hstack([[-x[1]], x[:-2]-x[2:], [x[-2]]])`. -/
def bidiagonal (x : List ℂ) : List ℂ := [-x.getD 1 0] ++ vsub (x.take (x.length - 2)) (x.drop 2) ++ [x.getD (x.length - 2) 0]

/-- `A_lower_triangular(x)`, `/repo/examples/schur.ipynb` cell 7. -/
def lowerTri (x : List ℂ) : List ℂ :=
  if x.length < 3 then x else [x.getD 0 0, x.getD 1 0] ++ vsub (x.drop 2) (x.take (x.length - 2))

/-- `A_lower_triangular_inv(x)`, `/repo/examples/schur.ipynb` cell 9. -/
def lowerTriInv (x : List ℂ) : List ℂ :=
  if x.length < 3 then x else weave (cumsum (stride2 x)) (cumsum (stride2' x))

section
variable (N : ℕ) (a b : ℝ)

/-- `A(x)` of `fourier_sin_schur`, `/repo/examples/schur.ipynb` cell 11. -/
noncomputable def A (x : List ℂ) : List ℂ := vmul (lowerTri (x.map (- ·))) (innerWeights N a b)

/-- `Ainv(f)` of `fourier_sin_schur`, cell 11 (and of `fourier_sin_schur_simple`, cell 12). -/
noncomputable def Ainv (f : List ℂ) : List ℂ := lowerTriInv (vdiv (f.map (- ·)) (innerWeights N a b))

/-- `B(λ)` of `fourier_sin_schur`, cell 11. -/
noncomputable def B (l : List ℂ) : List ℂ :=
  ((List.replicate (N - 2) (0 : ℂ)).set 0 (weight N a b 2 * l.getD 0 0)).set 1 (weight N a b 3 * l.getD 1 0)

/-- `C(x)` of `fourier_sin_schur`, cell 11: `I[-1]*x[-1]` and `I[-2]*x[-2]`. -/
noncomputable def C (x : List ℂ) : List ℂ := [weight N a b (N + 1) * x.getD (x.length - 1) 0, weight N a b N * x.getD (x.length - 2) 0]

/-- `D(λ)` of `fourier_sin_schur`, cell 11. -/
noncomputable def D (l : List ℂ) : List ℂ := [-weight N a b 1 * l.getD 1 0, -weight N a b 0 * l.getD 0 0]

/-- `K(x)` of `fourier_sin_schur`, cell 11. -/
noncomputable def K (x : List ℂ) : List ℂ :=
  let l := x.take 2
  let x := x.drop 2
  let f := vadd (A N a b x) (B N a b l)
  let g := vadd (C N a b x) (D N a b l)
  [g.getD 0 0] ++ f ++ [g.getD 1 0]

/-- `K(x)` of `fourier_sin_schur_old`, cell 6, with its own blocks: the unknowns at the two ends are split off. -/
noncomputable def K_old (x : List ℂ) : List ℂ :=
  let l := [x.getD 0 0, x.getD (x.length - 1) 0]
  let x := x.tail.dropLast
  let f := vadd (vmul (bidiagonal x) (innerWeights N a b))
    (((List.replicate (N - 2) (0 : ℂ)).set 0 (weight N a b 2 * l.getD 0 0)).set (N - 3) (-weight N a b (N - 1) * l.getD 1 0))
  let g := vadd [-weight N a b 1 * x.getD 0 0, weight N a b N * x.getD (x.length - 1) 0]
    [weight N a b (N + 1) * l.getD 1 0, -weight N a b 0 * l.getD 0 0]
  [g.getD 0 0] ++ f ++ [g.getD 1 0]

/-- The first `n` numbers of an array as a vector, for `schurλ`. -/
def vec (n : ℕ) (x : List ℂ) : Fin n → ℂ := fun i => x.getD i 0

/-- A function of arrays as a function of vectors. -/
def onVec (n m : ℕ) (f : List ℂ → List ℂ) : (Fin n → ℂ) → (Fin m → ℂ) := fun v => vec m (f (List.ofFn v))

/-- `Kinv(f)` of `fourier_sin_schur`, cell 11: `Minv = schurλ(Ainv, B, C, D, n, m)` is computed once and raises when Schur's complement is singular. -/
noncomputable def Kinv : Except Err (List ℂ → List ℂ) := do
  let Minv ← schurFun (n := N - 2) (m := 2) (onVec _ _ (Ainv N a b)) (onVec _ _ (B N a b)) (onVec _ _ (C N a b)) (onVec _ _ (D N a b))
  return fun f =>
    let g := [f.getD 0 0, f.getD (f.length - 1) 0]
    let f := f.tail.dropLast
    let r := Minv (vec _ f) (vec _ g)
    List.ofFn r.2 ++ List.ofFn r.1

/-- `Kb(x, λ)` of `fourier_sin_schur_simple`, cell 12: `f, g = y[1:-1], y[[0, -1]]` for `y = K(hstack([λ, x]))`. -/
noncomputable def Kb (x l : List ℂ) : List ℂ × List ℂ :=
  let y := fourier_K (l ++ x) a b
  (y.tail.dropLast, [y.getD 0 0, y.getD (y.length - 1) 0])

/-- `Kinv(f)` of `fourier_sin_schur_simple`, cell 12: the blocks are read off `K` itself. -/
noncomputable def Kinv_simple : Except Err (List ℂ → List ℂ) := do
  let zn := List.replicate (N - 2) (0 : ℂ)
  let zm := List.replicate 2 (0 : ℂ)
  let Minv ← schurFun (n := N - 2) (m := 2) (onVec _ _ (Ainv N a b)) (onVec _ _ fun l => (Kb a b zn l).1)
    (onVec _ _ fun x => (Kb a b x zm).2) (onVec _ _ fun l => (Kb a b zn l).2)
  return fun f =>
    let g := [f.getD 0 0, f.getD (f.length - 1) 0]
    let f := f.tail.dropLast
    let r := Minv (vec _ f) (vec _ g)
    List.ofFn r.2 ++ List.ofFn r.1

end

end Dec.SchurSin
