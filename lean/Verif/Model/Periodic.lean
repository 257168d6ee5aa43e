import Verif.Model.Common

/-!
# Model of `/repo/dec/periodic.py`
-/

namespace Dec.Periodic

open Real

/-- `to_refine().T0`, `/repo/dec/periodic.py:75-76`. -/
noncomputable def T0 (f : List ℝ) : Except Err (List ℝ) := interweave f (Sp.S f)
/-- `to_refine().T0d`, `/repo/dec/periodic.py:77-78`. -/
noncomputable def T0d (f : List ℝ) : Except Err (List ℝ) := interweave (Sp.Sinv f) f
/-- `to_refine().T1`, `/repo/dec/periodic.py:79-80`. -/
noncomputable def T1 (f : List ℝ) : Except Err (List ℝ) := T0d (Sp.Hinv f)
/-- `to_refine().T1d`, `/repo/dec/periodic.py:81-82`. -/
noncomputable def T1d (f : List ℝ) : Except Err (List ℝ) := T0 (Sp.Hinv f)

/-- `from_refine().U0`, `/repo/dec/periodic.py:86-87`. -/
def U0 (f : List ℝ) : Except Err (List ℝ) := .ok (stride2 f)
/-- `from_refine().U0d`, `/repo/dec/periodic.py:88-89`. -/
def U0d (f : List ℝ) : Except Err (List ℝ) := .ok (stride2' f)
/-- `from_refine().U1`, `/repo/dec/periodic.py:90-92`. -/
noncomputable def U1 (f : List ℝ) : Except Err (List ℝ) :=
  let f := Sp.Hs (Sp.S f)
  bop (· + ·) (stride2 f) (stride2' f)
/-- `from_refine().U1d`, `/repo/dec/periodic.py:93-95`. -/
noncomputable def U1d (f : List ℝ) : Except Err (List ℝ) :=
  let f := Sp.Hs (Sp.Sinv f)
  bop (· + ·) (stride2 f) (stride2' f)

/-- The refinement table, `/repo/dec/periodic.py:48,64-83`. -/
noncomputable def T : Table := wrapTable T0 T1 T0d T1d
/-- The unrefinement table, `/repo/dec/periodic.py:48,85-96`. -/
noncomputable def U : Table := wrapTable U0 U1 U0d U1d

/-- `D[0, True]`, `/repo/dec/periodic.py:38`. -/
def D0 (f : List ℝ) : List ℝ := vsub (roll f (-1)) f
/-- `D[0, False]`, `/repo/dec/periodic.py:40`. -/
def D0d (f : List ℝ) : List ℝ := roll (D0 f) 1

/-- `pnts`, `/repo/dec/periodic.py:8`. -/
noncomputable def pnts (n : ℕ) (xmin xmax : ℝ) : List ℝ := linspace xmin xmax (n + 1)
/-- `delta`, `/repo/dec/periodic.py:10`. -/
noncomputable def delta (n : ℕ) (xmin xmax : ℝ) : List ℝ := diff (pnts n xmin xmax)
/-- `verts`, `/repo/dec/periodic.py:12`. -/
noncomputable def verts (n : ℕ) (xmin xmax : ℝ) : List ℝ := (pnts n xmin xmax).dropLast
/-- `verts_dual`, `/repo/dec/periodic.py:15`. -/
noncomputable def verts_dual (n : ℕ) (xmin xmax : ℝ) : List ℝ :=
  vadd (verts n xmin xmax) (smul (1 / 2) (delta n xmin xmax))

/-- The cells, `/repo/dec/periodic.py:12-17,29-32`: the start point of the first dual edge is moved left by the
length of the interval. -/
noncomputable def cells (n : ℕ) (xmin xmax : ℝ) : Cells where
  v := fun t => if t then verts n xmin xmax else verts_dual n xmin xmax
  e := fun t =>
    if t then ((pnts n xmin xmax).dropLast, (pnts n xmin xmax).tail)
    else ((roll (verts_dual n xmin xmax) 1).modify 0 (· - |xmax - xmin|), verts_dual n xmin xmax)

/-- `Grid_1D.periodic(n, xmin, xmax)`, `/repo/dec/periodic.py:6-62`.  `real(sp.H(x))` is `sp.H(x)`. -/
noncomputable def make (n : ℕ) (xmin : ℝ := 0) (xmax : ℝ := 2 * π) : Grid1 where
  n := n
  xmin := xmin
  xmax := xmax
  delta := fun _ => delta n xmin xmax
  N := fun _ _ => n
  cells := cells n xmin xmax
  B := fun d t i => match d, t with
    | 0, true => Sp.phi0 n i
    | 1, true => Sp.phi1 n i
    | 0, false => Sp.phid0 n i
    | 1, false => Sp.phid1 n i
  D := fun d t f => match d, t with
    | 0, true => some (D0 f)
    | 0, false => some (D0d f)
    | 1, _ => none
  H := wrapTable (fun f => .ok (Sp.Hs f)) (fun f => .ok (Sp.Hinv f))
    (fun f => .ok (Sp.Hs f)) (fun f => .ok (Sp.Hinv f))
  T := T
  U := U
  W := some (wedge1 T U)
  C := some (contraction1 T U)

/-- `derivative_matrix(n)`, `/repo/dec/periodic.py:124-139`: entries `+1` at `(i, i+1 mod n)` and `-1` at `(i, i)`
(added up if they coincide). -/
def derivative_matrix_primal (n : ℕ) : List (List ℝ) :=
  let rng := List.range n
  sparseMatrix (List.zipWith (fun i j => (i, j, (1 : ℝ))) rng (roll rng (-1)) ++ rng.map fun i => (i, i, (-1 : ℝ))) n n

/-- The second matrix, `-D.T`, `/repo/dec/periodic.py:138`. -/
def derivative_matrix_dual (n : ℕ) : List (List ℝ) :=
  tab n fun i => tab n fun j => -((derivative_matrix_primal n).getD j []).getD i 0

/-- `wedge_explicit().w00`, `/repo/dec/periodic.py:109-110`. -/
def w00 (a b : List ℝ) : List ℝ := vmul a b

/-- `wedge_explicit()._w01` (the associative variant), `/repo/dec/periodic.py:111-113`. -/
noncomputable def w01_assoc (a b : List ℝ) : List ℝ := Sp.S (Sp.Hs (vmul a (Sp.Hinv (Sp.Sinv b))))

/-- `wedge_explicit().w01` (the non-associative variant), `/repo/dec/periodic.py:114-122`. -/
noncomputable def w01 (a b : List ℝ) : Except Err (List ℝ) := do
  let a ← Sp.refine a
  let b ← Sp.refine (Sp.Hinv (Sp.Sinv b))
  let c := Sp.S (Sp.Hs (vmul a b))
  bop (· + ·) (stride2 c) (stride2' c)

end Dec.Periodic
