import Verif.Model.Helper
import Mathlib.LinearAlgebra.Matrix.NonsingularInverse
import Mathlib.Data.Real.Basic

/-!
# Model of `/repo/dec/schur.py`

Matrices of compatible shapes are `Matrix` (the assertion of line 18 is the typing); numbers are exact elements of a field.
-/

namespace Dec.Schur

open Matrix

variable {K : Type*} [Field K] [DecidableEq K] {n m : ℕ}

/-- `np.linalg.inv(S)`, used in `/repo/dec/schur.py:24,47`: raises `LinAlgError` (`Err.singular`) on a singular matrix. -/
noncomputable def linalgInv (S : Matrix (Fin m) (Fin m) K) : Except Err (Matrix (Fin m) (Fin m) K) :=
  if S.det = 0 then .error .singular else .ok S⁻¹

/-- `schur(Ainv, B, C, D)`, `/repo/dec/schur.py:6-31`.  `np.array([C.dot(Ainv(b)) for b in B.T]).T` has the vector
`C.dot(Ainv(b))` for the `j`-th column `b` of `B` as its `j`-th column. -/
noncomputable def schur (Ainv : (Fin n → K) → (Fin n → K)) (B : Matrix (Fin n) (Fin m) K) (C : Matrix (Fin m) (Fin n) K) (D : Matrix (Fin m) (Fin m) K) :
    Except Err ((Fin n → K) → (Fin m → K) → (Fin n → K) × (Fin m → K)) := do
  let CAinvB : Matrix (Fin m) (Fin m) K := (Matrix.of fun j => C *ᵥ Ainv (Bᵀ j))ᵀ
  let Sinv ← linalgInv (CAinvB - D)
  return fun f g =>
    let l := Sinv *ᵥ (C *ᵥ Ainv f - g)
    let x := Ainv (f - B *ᵥ l)
    (x, l)

/-- `schurλ(Ainv, B, C, D, n, m)`, `/repo/dec/schur.py:33-54`. -/
noncomputable def schurFun (Ainv : (Fin n → K) → (Fin n → K)) (B : (Fin m → K) → (Fin n → K)) (C : (Fin n → K) → (Fin m → K))
    (D : (Fin m → K) → (Fin m → K)) : Except Err ((Fin n → K) → (Fin m → K) → (Fin n → K) × (Fin m → K)) := do
  let eye : Matrix (Fin m) (Fin m) K := 1
  let CAinvB : Matrix (Fin m) (Fin m) K := (Matrix.of fun j => C (Ainv (B (eye j))))ᵀ
  let D : Matrix (Fin m) (Fin m) K := (Matrix.of fun j => D (eye j))ᵀ
  let Sinv ← linalgInv (CAinvB - D)
  return fun f g =>
    let l := Sinv *ᵥ (C (Ainv f) - g)
    let x := Ainv (f - B l)
    (x, l)

end Dec.Schur
