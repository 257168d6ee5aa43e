import Verif.Model.Common

/-!
# Model of the Fourier-space transforms of `/repo/dec/spectral.py` that no grid uses, and of `/repo/dec/deprecated/spectral.py`
-/

namespace Dec.Sp

open Real

/-- `S_space(a)`, `/repo/dec/spectral.py:1058-1059`. -/
noncomputable def S_space (a : ℝ) (f : List ℂ) : List ℂ := Finv (vmul (F f) (S_diag f.length a))

/-- `S_space_inv(a)`, `/repo/dec/spectral.py:1061-1062`. -/
noncomputable def S_space_inv (a : ℝ) (f : List ℂ) : List ℂ := Finv (vdiv (F f) (S_diag f.length a))

/-- `E_space(n)`, `/repo/dec/spectral.py:1082-1083`. -/
noncomputable def E_space (n : ℕ) (f : List ℂ) : List ℂ := Finv (extend (F f) n)

/-- `E_space_inv(n)`, `/repo/dec/spectral.py:1085-1086`. -/
noncomputable def E_space_inv (n : ℕ) (f : List ℂ) : Except Err (List ℂ) := (unextend (F f) n).map Finv

/-- `method_in_fourier_space(g)`, `/repo/dec/spectral.py:409-413`. -/
noncomputable def method_in_fourier_space (g : List ℂ → List ℂ) (x : List ℂ) : List ℂ := Finv (g (F x))

/-- `matA(a)`, `/repo/dec/spectral.py:1088-1089`: `[a[0]]`, then `a[1:-1:2] + a[2:-1:2]`, then `[a[-1]]`.  The sum raises `ValueError` unless the operands have the same length or one
of them has length one. -/
def matA {R : Type*} [Zero R] [Add R] (a : List R) : Except Err (List R) := do
  let s ← bop (· + ·) (stride2 a.tail.dropLast) (stride2 (a.drop 2).dropLast)
  return [a.getD 0 0] ++ s ++ [a.getD (a.length - 1) 0]

/-- `numpy.testing.assert_almost_equal(a, b)` for 1-D arrays, used by `split_args` (`/repo/dec/spectral.py:645`): the shapes must agree and no two entries may differ by `1.5e-7` or more. -/
def almostEqual (a b : List ℝ) : Prop := a.length = b.length ∧ ∀ i < a.length, |a.getD i 0 - b.getD i 0| < 15 / 10 ^ 8

/-- `split_args(I)`, `/repo/dec/spectral.py:640-648`: the integrator `I(x, f)` as a function of the starts and the ends of the cells. -/
noncomputable def split_args {R : Type*} (I : List ℝ → (ℝ → ℝ) → List R) (x0 x1 : List ℝ) (f : ℝ → ℝ) : Except Err (List R) :=
  open Classical in
  if almostEqual x0.tail x1.dropLast then
    match x1.getLast? with
    | some e => .ok (I (x0 ++ [e]) f)
    | none => .error .indexError
  else .error .assertion

end Dec.Sp

namespace Dec.Deprecated

open Real

/-- `H_exp(a)`, `/repo/dec/deprecated/spectral.py:7-20`. -/
noncomputable def H_exp (a : List ℂ) : List ℂ :=
  let N := a.length
  let h := 2 * π / N
  let c := Sp.I_diag (N + 2) (-h / 2) (h / 2)
  Sp.Finv (roll (vmul (c.drop 2) (Sp.F a)) 1)

/-- `H_sin(a)`, `/repo/dec/deprecated/spectral.py:22-40`. -/
noncomputable def H_sin (a : List ℂ) : List ℂ :=
  let N := a.length
  let h := 2 * π / N
  let b := Sp.F a
  let c := Sp.I_diag (N + 2) (-h / 2) (h / 2)
  Sp.Finv ((vsub (roll (vmul (c.drop 2) b) 1) (roll (vmul c.dropLast.dropLast b) (-1))).map (· / (2 * Complex.I)))

/-- `H_sin_dual(a)`, `/repo/dec/deprecated/spectral.py:42-61`. -/
noncomputable def H_sin_dual (a : List ℂ) : List ℂ :=
  let N := a.length
  let h := 2 * π / N
  let b := Sp.F a
  let c := Sp.I_diag (N + 2) (-h / 2) (h / 2)
  let s := Complex.exp (Complex.I * h / 2)
  Sp.Finv ((vsub ((roll (vmul (c.drop 2) b) 1).map (· * s)) ((roll (vmul c.dropLast.dropLast b) (-1)).map (· / s))).map (· / (2 * Complex.I)))

/-- `I_sin(a, b, v)`, `/repo/dec/deprecated/spectral.py:63-69`. -/
noncomputable def I_sin (a b : ℝ) (v : List ℂ) : List ℂ :=
  let v := Sp.F v
  let c := Sp.I_diag v.length a b
  Sp.Finv ((vsub (roll (vmul c v) 1) (roll (vmul c v) (-1))).map (· / (2 * Complex.I)))

/-- `H0d_cheb(f)`, `/repo/dec/deprecated/spectral.py:73-89`. -/
noncomputable def H0d_cheb (f : List ℝ) : List ℝ :=
  let f := Sp.mirror1 f 1
  let N := f.length
  let h := 2 * π / N
  let f := vmul f (Sp.Omega_d N)
  let f := Sp.I_space (-h / 2) (h / 2) (toC f)
  let f := Sp.unmirror1 f
  re f

/-- `H1_cheb(f)`, `/repo/dec/deprecated/spectral.py:91-109`. -/
noncomputable def H1_cheb (f : List ℝ) : List ℝ :=
  let f := Sp.mirror1 f (-1)
  let N := f.length
  let h := 2 * π / N
  let f := Sp.I_space_inv (-h / 2) (h / 2) (toC f)
  let f := vdiv f (toC (Sp.Omega_d N))
  let f := Sp.unmirror1 f
  re f

/-- `H0_cheb_alternate(f)`, `/repo/dec/deprecated/spectral.py:111-133`; `l[0]` and `r[N-1]` are set to zero. -/
noncomputable def H0_cheb_alternate (f : List ℝ) : Except Err (List ℝ) := do
  let N := f.length
  let f := toC (Sp.mirror0 f 1)
  let h := 2 * π / f.length
  let f := Sp.E_space 1 f
  let f := vmul f (toC (Sp.Omega f.length))
  let l := Sp.I_space (-h / 2) 0 f
  let r := Sp.I_space 0 (h / 2) f
  let l ← Sp.E_space_inv 1 l
  let r ← Sp.E_space_inv 1 r
  let l := l.set 0 0
  let r := r.set (N - 1) 0
  let f := vadd l r
  let f := Sp.unmirror0 f
  return re f

/-- `H0_cheb(f)`, `/repo/dec/deprecated/spectral.py:135-155`. -/
noncomputable def H0_cheb (f : List ℝ) : Except Err (List ℝ) := do
  let N := f.length
  let h := π / ((N : ℝ) - 1)
  let f := toC (Sp.mirror0 f 1)
  let f := Sp.E_space (N - 1) f
  let f := vmul f (toC (Sp.Omega f.length))
  let f := Sp.I_space 0 (h / 2) f
  let f := Sp.unmirror1 f
  let f ← Sp.matA f
  return re f

/-- `endpoints(f)` inside `H1d_cheb`, `/repo/dec/deprecated/spectral.py:170-174`. -/
noncomputable def endpoints (h : ℝ) (f : List ℝ) : List ℂ :=
  let f0 := toC (Sp.mirror0 (Sp.matC f) (-1))
  let aa := vsub (toC f) (Sp.unmirror0 (Sp.I_space 0 (h / 2) (Sp.I_space_inv (-h / 2) (h / 2) f0)))
  let bb := vsub (toC f) (Sp.unmirror0 (Sp.I_space (-h / 2) 0 (Sp.I_space_inv (-h / 2) (h / 2) f0)))
  vadd (Sp.matB aa) (Sp.matB1 bb)

/-- `midpoints(f)` inside `H1d_cheb`, `/repo/dec/deprecated/spectral.py:175-184`. -/
noncomputable def midpoints (h : ℝ) (f : List ℝ) : List ℂ :=
  let f := toC (Sp.mirror0 (Sp.matC f) (-1))
  let f := Sp.I_space_inv (-h / 2) (h / 2) f
  let f := Sp.T_space (h / 2) f
  let f := vdiv f (toC (Sp.Omega_d f.length))
  let f := Sp.T_space (-h / 2) f
  Sp.unmirror0 f

/-- `H1d_cheb(f)`, `/repo/dec/deprecated/spectral.py:157-185`.  Unlike the current version it does not take the real part. -/
noncomputable def H1d_cheb (f : List ℝ) : List ℂ :=
  let h := π / ((f.length : ℝ) - 1)
  vadd (midpoints h f) (endpoints h f)

end Dec.Deprecated
