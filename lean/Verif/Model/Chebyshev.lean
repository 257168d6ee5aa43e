import Verif.Model.Common

/-!
# Model of `/repo/dec/chebyshev.py`
-/

namespace Dec.Chebyshev

open Real

/-- `H0d_cheb(f)`, `/repo/dec/chebyshev.py:103-111`. -/
noncomputable def H0d (f : List ℝ) : List ℝ :=
  let f := Sp.mirror1 f 1
  let h := 2 * π / f.length
  let f := Sp.F (toC f)
  let f := Sp.fourier_S f (-h / 2)
  let f := Sp.fourier_K f 0 h
  let f := Sp.Finv f
  let f := Sp.unmirror1 f
  re f

/-- `H1_cheb(f)`, `/repo/dec/chebyshev.py:113-121`; raises when `fourier_K_inv` does. -/
noncomputable def H1 (f : List ℝ) : Except Err (List ℝ) :=
  let f := Sp.mirror1 f (-1)
  let h := 2 * π / f.length
  let f := Sp.F (toC f)
  match Sp.fourier_K_inv f 0 h with
  | .error e => .error e
  | .ok f =>
    let f := Sp.fourier_S f (h / 2)
    let f := Sp.Finv f
    let f := Sp.unmirror1 f
    .ok (re f)

/-- `H0_cheb(f)`, `/repo/dec/chebyshev.py:123-135`. -/
noncomputable def H0 (f : List ℝ) : List ℝ :=
  let f := Sp.mirror0 f 1
  let h := 2 * π / f.length
  let f := Sp.F (toC f)
  let f := Sp.fourier_K f 0 (h / 2)
  let f := Sp.Finv f
  let f := Sp.fold0 f (-1)
  re f

/-- `endpoints(f)` inside `H1d_cheb`, `/repo/dec/chebyshev.py:145-149`, with `h = pi/(N-1)`. -/
noncomputable def endpoints (h : ℝ) (f : List ℝ) : List ℂ :=
  let f0 := toC (Sp.mirror0 (Sp.matC f) (-1))
  let aa := vsub (toC f) (Sp.unmirror0 (Sp.I_space 0 (h / 2) (Sp.I_space_inv (-h / 2) (h / 2) f0)))
  let bb := vsub (toC f) (Sp.unmirror0 (Sp.I_space (-h / 2) 0 (Sp.I_space_inv (-h / 2) (h / 2) f0)))
  vadd (Sp.matB aa) (Sp.matB1 bb)

/-- `midpoints(f)` inside `H1d_cheb`, `/repo/dec/chebyshev.py:150-158`. -/
noncomputable def midpoints (h : ℝ) (f : List ℝ) : List ℂ :=
  let f := toC (Sp.mirror0 (Sp.matC f) (-1))
  let f := Sp.I_space_inv (-h / 2) (h / 2) f
  let f := Sp.T_space (h / 2) f
  let f := vdiv f (toC (Sp.Omega_d f.length))
  let f := Sp.T_space (-h / 2) f
  Sp.unmirror0 f

/-- `H1d_cheb(f)`, `/repo/dec/chebyshev.py:137-160`. -/
noncomputable def H1d (f : List ℝ) : List ℝ :=
  let h := π / ((f.length : ℝ) - 1)
  re (vadd (midpoints h f) (endpoints h f))

/-- `S_cheb(f)`, `/repo/dec/chebyshev.py:162-177`. -/
noncomputable def S_cheb (f : List ℝ) : List ℝ :=
  let f := Sp.mirror0 f 1
  let N := f.length
  let h := 2 * π / N
  let f := Sp.Finv (vmul (Sp.F (toC f)) (Sp.S_diag N (h / 2)))
  let f := Sp.unmirror1 f
  re f

/-- `S_cheb_pinv(f)`, `/repo/dec/chebyshev.py:179-200`. -/
noncomputable def S_cheb_pinv (f : List ℝ) : List ℝ :=
  let f := Sp.mirror1 f 1
  let N := f.length
  let h := 2 * π / N
  let f := Sp.Finv (vmul (Sp.F (toC f)) (Sp.S_diag N (-h / 2)))
  let f := Sp.unmirror0 f
  re f

/-- `to_refine().T0`, `/repo/dec/chebyshev.py:76-77`. -/
noncomputable def T0 (f : List ℝ) : Except Err (List ℝ) := interweave f (S_cheb f)
/-- `to_refine().T0d`, `/repo/dec/chebyshev.py:78-79`. -/
noncomputable def T0d (f : List ℝ) : Except Err (List ℝ) := interweave (S_cheb_pinv f) f
/-- `to_refine().T1`, `/repo/dec/chebyshev.py:80-81`. -/
noncomputable def T1 (f : List ℝ) : Except Err (List ℝ) := do T0d (← H1 f)
/-- `to_refine().T1d`, `/repo/dec/chebyshev.py:82-83`. -/
noncomputable def T1d (f : List ℝ) : Except Err (List ℝ) := T0 (H1d f)

/-- `from_refine().U0`, `/repo/dec/chebyshev.py:87-88`. -/
def U0 (f : List ℝ) : Except Err (List ℝ) := .ok (stride2 f)
/-- `from_refine().U0d`, `/repo/dec/chebyshev.py:89-90`. -/
def U0d (f : List ℝ) : Except Err (List ℝ) := .ok (stride2' f)
/-- `from_refine().U1`, `/repo/dec/chebyshev.py:91-93`. -/
noncomputable def U1 (f : List ℝ) : Except Err (List ℝ) :=
  let f := H0d (S_cheb f)
  bop (· + ·) (stride2 f) (stride2' f)
/-- `from_refine().U1d`, `/repo/dec/chebyshev.py:94-97`. -/
noncomputable def U1d (f : List ℝ) : Except Err (List ℝ) := do
  let f := H0d (S_cheb f)
  let m := f.tail.dropLast
  let s ← bop (· + ·) (stride2 m) (stride2' m)
  return [f.getD 0 0] ++ s ++ [f.getD (f.length - 1) 0]

/-- The refinement table, `/repo/dec/chebyshev.py:49,65-84`. -/
noncomputable def T : Table := wrapTable T0 T1 T0d T1d
/-- The unrefinement table, `/repo/dec/chebyshev.py:49,86-98`. -/
noncomputable def U : Table := wrapTable U0 U1 U0d U1d

/-- `pnts`, `/repo/dec/chebyshev.py:9-10`. -/
noncomputable def pnts (n : ℕ) (xmin xmax : ℝ) : List ℝ :=
  ((linspace (-(π / 2)) (π / 2) (2 * n - 1)).map sin).map fun x => 1 / 2 * (xmin * (1 - x) + xmax * (1 + x))
/-- `verts`, `/repo/dec/chebyshev.py:12`. -/
noncomputable def verts (n : ℕ) (xmin xmax : ℝ) : List ℝ := stride2 (pnts n xmin xmax)
/-- `verts_dual`, `/repo/dec/chebyshev.py:16`. -/
noncomputable def verts_dual (n : ℕ) (xmin xmax : ℝ) : List ℝ := stride2' (pnts n xmin xmax)
/-- `tmp`, `/repo/dec/chebyshev.py:17`. -/
noncomputable def tmp (n : ℕ) (xmin xmax : ℝ) : List ℝ :=
  [(pnts n xmin xmax).getD 0 0] ++ verts_dual n xmin xmax ++ [(pnts n xmin xmax).getD (2 * n - 1 - 1) 0]

/-- The cells, `/repo/dec/chebyshev.py:12-19,30-33`. -/
noncomputable def cells (n : ℕ) (xmin xmax : ℝ) : Cells where
  v := fun t => if t then verts n xmin xmax else verts_dual n xmin xmax
  e := fun t =>
    if t then ((verts n xmin xmax).dropLast, (verts n xmin xmax).tail)
    else ((tmp n xmin xmax).dropLast, (tmp n xmin xmax).tail)

/-- `Grid_1D.chebyshev(n, xmin, xmax)`, `/repo/dec/chebyshev.py:6-63`. -/
noncomputable def make (n : ℕ) (xmin : ℝ := -1) (xmax : ℝ := 1) : Grid1 where
  n := n
  xmin := xmin
  xmax := xmax
  delta := fun t => if t then diff (verts n xmin xmax) else diff (tmp n xmin xmax)
  N := fun d t => match d, t with
    | 0, true => n
    | 1, true => n - 1
    | 0, false => n - 1
    | 1, false => n
  cells := cells n xmin xmax
  B := fun d t i => match d, t with
    | 0, true => Sp.psi0 n i
    | 1, true => Sp.psi1 n i
    | 0, false => Sp.psid0 n i
    | 1, false => Sp.psid1 n i
  D := fun d t f => match d, t with
    | 0, true => some (diff f)
    | 0, false => some (diff ([0] ++ f ++ [0]))
    | 1, _ => none
  H := wrapTable (fun f => .ok (H0 f)) H1 (fun f => .ok (H0d f)) (fun f => .ok (H1d f))
  T := T
  U := U
  W := some (wedge1 T U)
  C := some (contraction1 T U)

end Dec.Chebyshev
