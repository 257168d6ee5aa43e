import Verif.Model.Common

/-!
# Model of `/repo/dec/regular.py`
-/

namespace Dec.Regular

open Real

/-- `H1d_regular(f)`, `/repo/dec/regular.py:90-105`. -/
noncomputable def H1d (f : List ℂ) : List ℂ :=
  let f := vdiv f (Sp.A_diag f.length)
  let f := Sp.mirror0 f 1
  let h := 2 * π / f.length
  let f := Sp.I_space_inv (-h / 2) (h / 2) f
  Sp.unmirror0 f

/-- `H0_regular(f)`, `/repo/dec/regular.py:107-122`. -/
noncomputable def H0 (f : List ℂ) : List ℂ :=
  let f := Sp.mirror0 f 1
  let h := 2 * π / f.length
  let f := Sp.I_space (-h / 2) (h / 2) f
  let f := Sp.unmirror0 f
  vmul f (Sp.A_diag f.length)

/-- `H1_regular(f)`, `/repo/dec/regular.py:124-137`. -/
noncomputable def H1 (f : List ℂ) : List ℂ :=
  let f := Sp.mirror1 f 1
  let h := 2 * π / f.length
  let f := Sp.I_space_inv (-h / 2) (h / 2) f
  Sp.unmirror1 f

/-- `H0d_regular(f)`, `/repo/dec/regular.py:139-152`. -/
noncomputable def H0d (f : List ℂ) : List ℂ :=
  let f := Sp.mirror1 f 1
  let h := 2 * π / f.length
  let f := Sp.I_space (-h / 2) (h / 2) f
  Sp.unmirror1 f

/-- `verts`, `/repo/dec/regular.py:11,15`. -/
noncomputable def verts (n : ℕ) (xmin xmax : ℝ) : List ℝ := linspace xmin xmax n
/-- `delta`, `/repo/dec/regular.py:13`. -/
noncomputable def delta (n : ℕ) (xmin xmax : ℝ) : List ℝ := diff (verts n xmin xmax)
/-- `verts_dual`, `/repo/dec/regular.py:16`. -/
noncomputable def verts_dual (n : ℕ) (xmin xmax : ℝ) : List ℝ :=
  vadd (verts n xmin xmax).dropLast (smul (1 / 2) (delta n xmin xmax))
/-- `tmp`, `/repo/dec/regular.py:19`. -/
noncomputable def tmp (n : ℕ) (xmin xmax : ℝ) : List ℝ := [xmin] ++ verts_dual n xmin xmax ++ [xmax]

/-- The cells, `/repo/dec/regular.py:15-21,31-34`. -/
noncomputable def cells (n : ℕ) (xmin xmax : ℝ) : Cells where
  v := fun t => if t then verts n xmin xmax else verts_dual n xmin xmax
  e := fun t =>
    if t then ((verts n xmin xmax).dropLast, (verts n xmin xmax).tail)
    else ((tmp n xmin xmax).dropLast, (tmp n xmin xmax).tail)

/-- `Grid_1D.regular(n, xmin, xmax)` after the assertion `xmax > xmin`, `/repo/dec/regular.py:6-65`.
The four Hodge stars return complex arrays; the theorem `C03_real` shows that their imaginary parts vanish
on real input, so the table records their real parts.  Refinement raises `NotImplementedError`, `/repo/dec/regular.py:67-88`. -/
noncomputable def make (n : ℕ) (xmin : ℝ := 0) (xmax : ℝ := π) : Grid1 where
  n := n
  xmin := xmin
  xmax := xmax
  delta := fun t => if t then delta n xmin xmax else diff (tmp n xmin xmax)
  N := fun d t => match d, t with
    | 0, true => n
    | 1, true => n - 1
    | 0, false => n - 1
    | 1, false => n
  cells := cells n xmin xmax
  B := fun d t i => match d, t with
    | 0, true => Sp.kappa0 n i
    | 1, true => fun x => some (Sp.kappa1_symm n i x)
    | 0, false => Sp.kappad0 n i
    | 1, false => fun x => some (Sp.kappad1_symm n i x)
  D := fun d t f => match d, t with
    | 0, true => some (diff f)
    | 0, false => some (diff ([0] ++ f ++ [0]))
    | 1, _ => none
  H := wrapTable (fun f => .ok (re (H0 (toC f)))) (fun f => .ok (re (H1 (toC f))))
    (fun f => .ok (re (H0d (toC f)))) (fun f => .ok (re (H1d (toC f))))
  T := fun _ _ _ => .error .notImplemented
  U := fun _ _ _ => .error .notImplemented
  W := none
  C := none

end Dec.Regular
