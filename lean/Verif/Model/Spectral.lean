import Verif.Model.Helper
import Mathlib.Analysis.SpecialFunctions.Trigonometric.Inverse
import Mathlib.MeasureTheory.Integral.IntervalIntegral.Basic

/-!
# Model of `/repo/dec/spectral.py`
-/

namespace Dec.Sp

open Finset Real

/-! ## Fourier space -/

/-- `freq(N) = fftshift(fftfreq(N)*N)`, `/repo/dec/spectral.py:397-404`. -/
def freq (N : ℕ) : List ℤ := fftshift (fftfreqN N)

/-- `F = lambda x: fftshift(fft(x))`, `/repo/dec/spectral.py:406`. -/
noncomputable def F (x : List ℂ) : List ℂ := fftshift (fft x)

/-- `Finv = lambda x: ifft(ifftshift(x))`, `/repo/dec/spectral.py:407`. -/
noncomputable def Finv (x : List ℂ) : List ℂ := ifft (ifftshift x)

/-- `I_diag(N, a, b)`, `/repo/dec/spectral.py:455-471`: `(exp(i n b) - exp(i n a))/(i n)`, and `b - a` where `n == 0`. -/
noncomputable def I_diag (N : ℕ) (a b : ℝ) : List ℂ :=
  (freq N).map fun n : ℤ =>
    if n = 0 then ((b - a : ℝ) : ℂ)
    else (Complex.exp (Complex.I * n * b) - Complex.exp (Complex.I * n * a)) / (Complex.I * n)

/-- `S_diag(N, a)`, `/repo/dec/spectral.py:473-482`: `exp(i n a)`. -/
noncomputable def S_diag (N : ℕ) (a : ℝ) : List ℂ :=
  (freq N).map fun n : ℤ => Complex.exp (Complex.I * n * a)

/-- `H(a)`, `/repo/dec/spectral.py:415-424` (called `H` in Python). -/
noncomputable def Hs (a : List ℝ) : List ℝ :=
  let N := a.length
  let h := 2 * π / N
  re (Finv (vmul (F (toC a)) (I_diag N (-h / 2) (h / 2))))

/-- `Hinv(a)`, `/repo/dec/spectral.py:426-435`. -/
noncomputable def Hinv (a : List ℝ) : List ℝ :=
  let N := a.length
  let h := 2 * π / N
  re (Finv (vdiv (F (toC a)) (I_diag N (-h / 2) (h / 2))))

/-- `I(a, x0, x1)`, `/repo/dec/spectral.py:437-439`. -/
noncomputable def Iop (a : List ℂ) (x0 x1 : ℝ) : List ℂ :=
  Finv (vmul (I_diag a.length x0 x1) (F a))

/-- `Iinv(a, x0, x1)`, `/repo/dec/spectral.py:441-443`. -/
noncomputable def Iinv (a : List ℂ) (x0 x1 : ℝ) : List ℂ :=
  Finv (vdiv (F a) (I_diag a.length x0 x1))

/-- `S(a)`, `/repo/dec/spectral.py:445-448`. -/
noncomputable def S (a : List ℝ) : List ℝ :=
  let N := a.length
  let h := 2 * π / N
  re (Finv (vmul (F (toC a)) (S_diag N (h / 2))))

/-- `Sinv(a)`, `/repo/dec/spectral.py:450-453`. -/
noncomputable def Sinv (a : List ℝ) : List ℝ :=
  let N := a.length
  let h := 2 * π / N
  re (Finv (vmul (F (toC a)) (S_diag N (-h / 2))))

/-- `fourier_I(x, a, b)`, `/repo/dec/spectral.py:484-492`. -/
noncomputable def fourier_I (x : List ℂ) (a b : ℝ) : List ℂ := vmul x (I_diag x.length a b)

/-- `fourier_I_inv(x, a, b)`, `/repo/dec/spectral.py:494-499`. -/
noncomputable def fourier_I_inv (x : List ℂ) (a b : ℝ) : List ℂ := vdiv x (I_diag x.length a b)

/-- `fourier_S(x, a)`, `/repo/dec/spectral.py:501-503`. -/
noncomputable def fourier_S (x : List ℂ) (a : ℝ) : List ℂ :=
  vmul x ((freq x.length).map fun n : ℤ => Complex.exp (Complex.I * n * a))

/-- `fourier_S_inv(x, a)`, `/repo/dec/spectral.py:505-507`. -/
noncomputable def fourier_S_inv (x : List ℂ) (a : ℝ) : List ℂ :=
  vmul x ((freq x.length).map fun n : ℤ => Complex.exp (-Complex.I * n * a))

/-- `fourier_T(x, h)`, `/repo/dec/spectral.py:509-515`. -/
noncomputable def fourier_T (x : List ℂ) (h : ℝ) : List ℂ :=
  vmul x ((freq x.length).map fun n : ℤ => Complex.exp (Complex.I * n * h))

/-- `fourier_K(x, a, b)`, `/repo/dec/spectral.py:517-531`.
`rslt` is a view of `x` in Python, but `x[0]` and `x[-1]` lie outside it. -/
noncomputable def fourier_K (x : List ℂ) (a b : ℝ) : List ℂ :=
  let N := x.length
  let x := [0] ++ x ++ [0]
  let x := vsub (roll x 1) (roll x (-1))
  let x := vmul x ((I_diag (N + 2) a b).map fun w => w / (2 * Complex.I))
  let rslt := x.tail.dropLast
  let rslt := rslt.modify 0 (· + x.getD (N + 1) 0)
  let rslt := rslt.modify (N - 1) (· + x.getD 0 0)
  rslt

/-- `numpy.isclose(a, b)` with its default tolerances; used in `/repo/dec/spectral.py:542-545`. -/
def isclose (a b : ℂ) : Prop := ‖a - b‖ ≤ 1e-8 + 1e-5 * ‖b‖

open Classical in
/-- `fourier_K_inv(x, a, b)`, `/repo/dec/spectral.py:533-564`.  `y` is written at its ends first
(`y[0]`, `y[-1]`, the same cell if `N = 1`) and then completely overwritten; `x[-1] -= -y[0]*...` is
the update of the last cell.  The cumulative sums are over `x` with `-y[0]` in front and `y[-1]` behind. -/
noncomputable def fourier_K_inv (x : List ℂ) (a b : ℝ) : Except Err (List ℂ) :=
  let N := x.length
  let I : ℕ → ℂ := fun k => (I_diag (N + 2) a b).getD k 0
  let x := vdiv x ((I_diag (N + 2) a b).tail.dropLast)
  if isclose (I 0) (I N) ∨ isclose (I 1) (I (N + 1)) ∨ isclose (I 0 * I 1) (I N * I (N + 1)) then
    .error .valueError
  else
    let E := (stride2 x).sum
    let O := (stride2' x).sum
    let y := List.replicate N (0 : ℂ)
    let y := if N % 2 = 0 then
        (y.set 0 (O / (1 - I 0 / I N))).set (N - 1) (E / (I (N + 1) / I 1 - 1))
      else
        (y.set 0 ((I 1 / I (N + 1) * E + O) / (1 - I 1 * I 0 / I N / I (N + 1)))).set (N - 1)
          ((I N / I 0 * E + O) / (I N * I (N + 1) / I 0 / I 1 - 1))
    let y0 := y.getD 0 0
    let yl := y.getD (N - 1) 0
    let x := x.modify 0 (· - yl * I (N + 1) / I 1)
    let x := x.modify (N - 1) (· - (-y0 * I 0 / I N))
    let x := [-y0] ++ x ++ [yl]
    let ye := ((cumsum (stride2 x)).map (- ·)).dropLast
    let yo := ((cumsum (stride2' x).reverse).dropLast).reverse
    let y := weave ye yo
    .ok (y.map (· * (2 * Complex.I)))

/-- `S_space(a)` and `T_space(a)`, `/repo/dec/spectral.py:1076-1077,1055-1056`. -/
noncomputable def T_space (a : ℝ) (f : List ℂ) : List ℂ := Finv (vmul (F f) (S_diag f.length a))

/-- `S_space_inv(a)` and `T_space_inv(a)`, `/repo/dec/spectral.py:1079-1080,1058-1059`. -/
noncomputable def T_space_inv (a : ℝ) (f : List ℂ) : List ℂ := Finv (vdiv (F f) (S_diag f.length a))

/-- `I_space(a, b)`, `/repo/dec/spectral.py:1064-1065`. -/
noncomputable def I_space (a b : ℝ) (f : List ℂ) : List ℂ := Finv (vmul (F f) (I_diag f.length a b))

/-- `I_space_inv(a, b)`, `/repo/dec/spectral.py:1067-1068`. -/
noncomputable def I_space_inv (a b : ℝ) (f : List ℂ) : List ℂ := Finv (vdiv (F f) (I_diag f.length a b))

/-- `K_space(a, b)`, `/repo/dec/spectral.py:1070-1071`. -/
noncomputable def K_space (a b : ℝ) (f : List ℂ) : List ℂ := Finv (fourier_K (F f) a b)

/-- `K_space_inv(a, b)`, `/repo/dec/spectral.py:1073-1074`. -/
noncomputable def K_space_inv (a b : ℝ) (f : List ℂ) : Except Err (List ℂ) :=
  (fourier_K_inv (F f) a b).map Finv

/-! ## Array manipulation -/

section arrays
variable {R : Type*}

/-- `A_diag(N)`, `/repo/dec/spectral.py:675-689`, for any field containing one half; asserts `N > 1`. -/
def A_diag [Field R] (N : ℕ) : List R := [1 / 2] ++ List.replicate (N - 2) 1 ++ [1 / 2]

/-- `_extend(f, n)`, `/repo/dec/spectral.py:769-776`. -/
def extend_ [Zero R] (f : List R) (n : ℕ) : List R := List.replicate n 0 ++ f ++ List.replicate n 0

/-- `extend(f, n)`, `/repo/dec/spectral.py:691-724`. -/
def extend [Field R] (f : List R) (n : ℕ) : List R :=
  smul ((f.length + 2 * n) / f.length : R) (extend_ f n)

/-- The slice `f[a:b]` of Python for possibly negative bounds. For /repo/dec/spectral.py:691-791. -/
def pySlice (f : List R) (a b : ℤ) : List R :=
  let N : ℤ := f.length
  let lo := (if a < 0 then max (a + N) 0 else min a N).toNat
  let hi := (if b < 0 then max (b + N) 0 else min b N).toNat
  (f.take hi).drop lo

/-- `_unextend(f, n)`, `/repo/dec/spectral.py:778-791`: asserts `2n <= len(f)`, takes `x = f[n:-n]`, then
`x[:n] += f[-n:]` and `x[-n:] += f[:n]`.  The two in-place additions need operands of equal length
(length-one operands broadcast), otherwise numpy raises `ValueError`. -/
def unextend_ [Add R] (f : List R) (n : ℕ) : Except Err (List R) :=
  if f.length < 2 * n then .error .assertion
  else
    let x := pySlice f n (-n)
    let bc (u v : List R) : Except Err (List R) :=
      if v.length = u.length then .ok (vadd u v)
      else match v with
        | [c] => .ok (u.map (· + c))
        | _ => .error .valueError
    match bc (pySlice x 0 n) (if n = 0 then f else pySlice f (-n) f.length) with
    | .error e => .error e
    | .ok hd =>
      let x := hd ++ x.drop hd.length
      -- `x[-n:]` is the whole array when `n = 0` or `n >= len(x)`
      let k := if n = 0 then 0 else x.length - n
      match bc (x.drop k) (pySlice f 0 n) with
      | .error e => .error e
      | .ok tl => .ok (x.take k ++ tl)

/-- `unextend(f, n)`, `/repo/dec/spectral.py:726-767`. -/
def unextend [Field R] (f : List R) (n : ℕ) : Except Err (List R) :=
  (unextend_ f n).map (smul ((f.length - 2 * n) / f.length : R))

/-- `mirror0(f, sign)`, `/repo/dec/spectral.py:793-828`: `f` followed by `sign*f[::-1][1:-1]`. -/
def mirror0 [Mul R] (f : List R) (sign : R) : List R := f ++ smul sign f.reverse.tail.dropLast

/-- `mirror1(f, sign)`, `/repo/dec/spectral.py:830-868`: `f` followed by `sign*f[::-1]`. -/
def mirror1 [Mul R] (f : List R) (sign : R) : List R := f ++ smul sign f.reverse

/-- `unmirror0(f) = f[:len(f)/2+1]`, `/repo/dec/spectral.py:870-892` (the bound read as an integer). -/
def unmirror0 (f : List R) : List R := f.take (f.length / 2 + 1)

/-- `unmirror1(f) = f[:len(f)/2]`, `/repo/dec/spectral.py:894-914` (the bound read as an integer). -/
def unmirror1 (f : List R) : List R := f.take (f.length / 2)

/-- `fold1(f, sgn)`, `/repo/dec/spectral.py:1102-1111` (the bound read as an integer). -/
def fold1 [Mul R] [Add R] (f : List R) (sgn : R) : List R :=
  vadd (f.take (f.length / 2)) (smul sgn (f.reverse.take (f.length / 2)))

/-- `fold0(f, sgn)`, `/repo/dec/spectral.py:1114-1124` (the bound read as an integer). -/
def fold0 [MulZeroClass R] [Add R] (f : List R) (sgn : R) : List R :=
  vadd (f.take (f.length / 2) ++ [0]) (smul sgn ([0] ++ f.reverse.take (f.length / 2)))

/-- `unfold0(f)`, `/repo/dec/spectral.py:1126-1132`, for `len(f) >= 2`. -/
def unfold0 [Field R] (f : List R) : List R :=
  [f.getD 0 0] ++ smul (1 / 2) f.tail.dropLast ++ [-f.getD (f.length - 1) 0]
    ++ (smul (-1 / 2) f.tail.dropLast).reverse

/-- `matC(f)`, `/repo/dec/spectral.py:1099-1100`: the ends replaced by zero. -/
def matC [Zero R] (f : List R) : List R := [0] ++ f.tail.dropLast ++ [0]

/-- `half_edge_base(N)`, `/repo/dec/spectral.py:948-972`. -/
def half_edge_base [Field R] (N : ℕ) : List R :=
  (tab N fun i => if i % 2 = 1 then (1 / 2 : R) + -1 else 1 / 2).modify 0 (· + ((N : R) - 1) ^ 2)

/-- `matB(f)`, `/repo/dec/spectral.py:1091-1093`. -/
def matB [Field R] (f : List R) : List R := (half_edge_base f.length).map (· * f.getD 0 0)

/-- `matB1(f)`, `/repo/dec/spectral.py:1095-1097`. -/
def matB1 [Field R] (f : List R) : List R :=
  (half_edge_base f.length).reverse.map (· * f.getD (f.length - 1) 0)

/-- `pick(f, n)`, `/repo/dec/spectral.py:987-1024` ff.: the constant array `f[n]`. -/
def pick [Zero R] (f : List R) (n : ℕ) : List R := List.replicate f.length (f.getD n 0)

end arrays

/-- `Omega(N)`, `/repo/dec/spectral.py:916-926`. -/
noncomputable def Omega (N : ℕ) : List ℝ := tab N fun i => sin (i * (2 * π / N))

/-- `Omega_d(N)`, `/repo/dec/spectral.py:928-946`. -/
noncomputable def Omega_d (N : ℕ) : List ℝ := tab N fun i => sin ((i + 1 / 2) * (2 * π / N))

/-- `refine(x)`, `/repo/dec/spectral.py:566-576`. -/
noncomputable def refine (x : List ℝ) : Except Err (List ℝ) := interweave x (S x)

/-! ## Basis functions -/

/-- `alpha0(N, x)` at a number `x`, `/repo/dec/spectral.py:35-61`.  `none` is NaN: away from `x = 0` the quotient is `0/0`
where `sin(x/2) = 0`.  `1/tan(x/2)` is `cos(x/2)/sin(x/2)` (zero where `tan` is infinite). -/
noncomputable def alpha0 (N : ℕ) (x : ℝ) : Option ℝ :=
  if x = 0 then some 1
  else if sin (x / 2) = 0 then none
  else if N % 2 = 0 then some (sin (N * x / 2) / (sin (x / 2) / cos (x / 2)) / N)
  else some (sin (N * x / 2) / sin (x / 2) / N)

/-- `alpha0_alt(N, x)` at a number `x`, `/repo/dec/spectral.py:19-33`. -/
noncomputable def alpha0_alt (N : ℕ) (x : ℝ) : Option ℝ :=
  if x = 0 then some 1
  else if sin (x / 2) = 0 then none
  else some (sin (N * x / 2) * (cos (x / 2) * (1 - (-1) ^ N) + (1 + (-1) ^ N)) / sin (x / 2) / N / 2)

/-- `beta0(N, x)`, `/repo/dec/spectral.py:63-85`. -/
noncomputable def beta0 (N : ℕ) (x : ℝ) : ℝ :=
  if N % 2 = 0 then
    1 / (2 * π) - cos (N * x / 2) / 4
      + ∑ n ∈ Ico 1 (N / 2 + 1), n * cos (n * x) / sin (n * π / N) / N
  else
    1 / (2 * π) + ∑ n ∈ Ico 1 ((N - 1) / 2 + 1), n * cos (n * x) / sin (n * π / N) / N

/-- `alpha(N, n, x)`, `/repo/dec/spectral.py:87-93`; `n` may be a half integer. -/
noncomputable def alpha (N : ℕ) (n : ℝ) (x : ℝ) : Option ℝ := alpha0 N (x - 2 * π / N * n)

/-- `beta(N, n, x)`, `/repo/dec/spectral.py:95-101`. -/
noncomputable def beta (N : ℕ) (n : ℝ) (x : ℝ) : ℝ := beta0 N (x - 2 * π / N * n)

/-- `gamma(N, k)`, `/repo/dec/spectral.py:103-128`. -/
noncomputable def gamma (N k : ℕ) : ℝ :=
  if N % 2 = 0 then
    1 / (2 * N) - (-1) ^ k / (2 * N)
      + ∑ n ∈ Ico 1 (N / 2 + 1),
          (sin (2 * n * k * π / N) - sin ((2 * k - 1) * n * π / N)) / sin (n * π / N) / N
  else
    1 / (2 * N)
      + ∑ n ∈ Ico 1 ((N - 1) / 2 + 1),
          (sin (2 * n * k * π / N) - sin ((2 * k - 1) * n * π / N)) / sin (n * π / N) / N

/-- `phi0(N, n, x)`, `/repo/dec/spectral.py:134-141`. -/
noncomputable def phi0 (N n : ℕ) (x : ℝ) : Option ℝ := alpha N n x
/-- `phi1(N, n, x)`, `/repo/dec/spectral.py:143-150`. -/
noncomputable def phi1 (N n : ℕ) (x : ℝ) : Option ℝ := some (beta N (n + 1 / 2) x)
/-- `phid0(N, n, x)`, `/repo/dec/spectral.py:152-159`. -/
noncomputable def phid0 (N n : ℕ) (x : ℝ) : Option ℝ := alpha N (n + 1 / 2) x
/-- `phid1(N, n, x)`, `/repo/dec/spectral.py:161-168`. -/
noncomputable def phid1 (N n : ℕ) (x : ℝ) : Option ℝ := some (beta N n x)

/-- `varphi(x) = arccos(-x)`, `/repo/dec/spectral.py:174-185`. -/
noncomputable def varphi (x : ℝ) : ℝ := arccos (-x)
/-- `varphi_inv(x) = -cos(x)`, `/repo/dec/spectral.py:187-198`. -/
noncomputable def varphi_inv (x : ℝ) : ℝ := -cos x

/-- Sum of two possibly-NaN numbers. For /repo/dec/spectral.py:222-305. -/
noncomputable def oadd (a b : Option ℝ) : Option ℝ := a.bind fun u => b.map fun v => u + v
/-- Difference of two possibly-NaN numbers. For /repo/dec/spectral.py:222-305. -/
noncomputable def osub (a b : Option ℝ) : Option ℝ := a.bind fun u => b.map fun v => u - v

/-- `delta(N, x)`, `/repo/dec/spectral.py:204-212`. -/
noncomputable def delta (N : ℕ) (x : ℝ) : Option ℝ :=
  (alpha (2 * N - 2) 0 x).map fun al => (((N : ℝ) - 1) ^ 2 * al + 1 / 2 * cos ((N - 1) * x)) * sin x

/-- `rho(N, n, x)`, `/repo/dec/spectral.py:214-220`. -/
noncomputable def rho (N n : ℕ) (x : ℝ) : Option ℝ :=
  oadd ((delta N x).map fun d => 2 * gamma (2 * N - 2) n * d)
    ((delta N (π - x)).map fun d => 2 * gamma (2 * N - 2) (N - n - 1) * d)

/-- `kappa0(N, n, x)`, `/repo/dec/spectral.py:222-237`. -/
noncomputable def kappa0 (N n : ℕ) (x : ℝ) : Option ℝ :=
  if n = 0 ∨ n = N - 1 then alpha (2 * N - 2) n x
  else oadd (alpha (2 * N - 2) n x) (alpha (2 * N - 2) n (2 * π - x))

/-- `kappad0(N, n, x)`, `/repo/dec/spectral.py:239-248`. -/
noncomputable def kappad0 (N n : ℕ) (x : ℝ) : Option ℝ :=
  oadd (alpha (2 * N - 2) (n + 1 / 2) x) (alpha (2 * N - 2) (n + 1 / 2) (2 * π - x))

/-- `kappa1(N, n, x)`, `/repo/dec/spectral.py:250-260`. -/
noncomputable def kappa1 (N n : ℕ) (x : ℝ) : ℝ :=
  beta (2 * N - 2) (n + 1 / 2) x - beta (2 * N - 2) (n + 1 / 2) (2 * π - x)

/-- `kappa1_symm(N, n, x)`, `/repo/dec/spectral.py:262-272`. -/
noncomputable def kappa1_symm (N n : ℕ) (x : ℝ) : ℝ :=
  beta (2 * N - 2) (n + 1 / 2) x + beta (2 * N - 2) (n + 1 / 2) (2 * π - x)

/-- `kappad1(N, n, x)`, `/repo/dec/spectral.py:274-294`. -/
noncomputable def kappad1 (N n : ℕ) (x : ℝ) : Option ℝ :=
  if n = 0 then delta N x
  else if n = N - 1 then delta N (π - x)
  else osub (some (beta (2 * N - 2) n x - beta (2 * N - 2) n (2 * π - x))) (rho N n x)

/-- `kappad1_symm(N, n, x)`, `/repo/dec/spectral.py:296-305`. -/
noncomputable def kappad1_symm (N n : ℕ) (x : ℝ) : ℝ :=
  beta (2 * N - 2) n x + beta (2 * N - 2) n (2 * π - x)

/-- `__fix_singularity_at_boundary(x)` at a number, `/repo/dec/spectral.py:317-325`. -/
noncomputable def fixSingularity (x : ℝ) : ℝ :=
  if x = -1 then x + 1e-16 else if x = 1 then x - 1e-16 else x

/-- `u / v` of numpy floats with `0` divisor giving NaN or infinity (`none`). For /repo/dec/spectral.py:336-364. -/
noncomputable def odiv (u : Option ℝ) (v : ℝ) : Option ℝ := if v = 0 then none else u.map (· / v)

/-- `psi0(N, n, x)`, `/repo/dec/spectral.py:327-334`. -/
noncomputable def psi0 (N n : ℕ) (x : ℝ) : Option ℝ := kappa0 N n (arccos (-x))
/-- `psi1(N, n, x)`, `/repo/dec/spectral.py:336-345`. -/
noncomputable def psi1 (N n : ℕ) (x : ℝ) : Option ℝ :=
  odiv (some (kappa1 N n (arccos (-x)))) (Real.sqrt (1 - x ^ 2))
/-- `psid0(N, n, x)`, `/repo/dec/spectral.py:347-354`. -/
noncomputable def psid0 (N n : ℕ) (x : ℝ) : Option ℝ := kappad0 N n (arccos (-x))
/-- `psid1(N, n, x)`, `/repo/dec/spectral.py:356-364`. -/
noncomputable def psid1 (N n : ℕ) (x : ℝ) : Option ℝ :=
  let x := fixSingularity x
  odiv (kappad1 N n (arccos (-x))) (Real.sqrt (1 - x ^ 2))

/-- `lagrange_polynomials(x)[i](y)`, `/repo/dec/spectral.py:370-395`: `functools.reduce` without an initial value raises
`TypeError` on an empty sequence, that is, for a single point.  Division by zero gives NaN or infinity (`Err.nan`). -/
noncomputable def lagrange (x : List ℝ) (i : ℕ) (y : ℝ) : Except Err ℝ :=
  let js := (List.range x.length).filter (· ≠ i)
  if js.any (fun j => decide (x.getD i 0 - x.getD j 0 = 0)) then .error .nan
  else match js.map (fun j => (y - x.getD j 0) / (x.getD i 0 - x.getD j 0)) with
    | [] => .error .typeError
    | q :: qs => .ok (qs.foldl (· * ·) q)

/-! ## Spectral quadrature -/

/-- `subdivide(x)`, `/repo/dec/spectral.py:578-587`; asserts that the points are equidistant
(`is_equidistant`, `/repo/dec/helper.py:228-236`; the functions with their assertions are `subdivideC` and so on in `Model/Rounding.lean`). -/
noncomputable def subdivide (x : List ℝ) : List ℝ :=
  if x.length < 2 then x
  else weave x.dropLast (vadd x.dropLast (smul (1 / 2) (diff x))) ++ [x.getD (x.length - 1) 0]

/-- `integrate_spectral_coarse(x, f)`, `/repo/dec/spectral.py:589-598`. -/
noncomputable def integrate_spectral_coarse (x : List ℝ) (f : ℝ → ℝ) : List ℝ :=
  Hs ((vadd x.dropLast (smul (1 / 2) (diff x))).map f)

/-- `integrate_spectral(x, f)`, `/repo/dec/spectral.py:600-611`:
`f1[0::8] + f1[1::8] + ... + f1[7::8]` after subdividing three times. -/
noncomputable def integrate_spectral (x : List ℝ) (f : ℝ → ℝ) : List ℝ :=
  let f1 := integrate_spectral_coarse (subdivide (subdivide (subdivide x))) f
  let s8 (k : ℕ) : List ℝ := stride2 (stride2 (stride2 (f1.drop k)))
  vadd (vadd (vadd (vadd (vadd (vadd (vadd (s8 0) (s8 1)) (s8 2)) (s8 3)) (s8 4)) (s8 5)) (s8 6)) (s8 7)

/-- `integrate_chebyshev(xi, f)`, `/repo/dec/spectral.py:613-627`. -/
noncomputable def integrate_chebyshev (xi : List ℝ) (f : ℝ → ℝ) : List ℝ :=
  let G : ℝ → ℝ := fun θ => f (-cos θ) * sin θ
  let x := xi.map varphi
  let x := x ++ x.tail.map (· + π)
  (integrate_spectral x G).take (xi.length - 1)

/-- `integrate_chebyshev_dual(xi, f)`, `/repo/dec/spectral.py:629-638`:
`concatenate(([0], integrals, [0])).reshape(-1, 2)` summed over its rows. -/
noncomputable def integrate_chebyshev_dual (xi : List ℝ) (f : ℝ → ℝ) : List ℝ :=
  let x := xi.map varphi
  let z := ([x.getD 0 0] ++ subdivide x.tail.dropLast ++ [x.getD (x.length - 1) 0]).map varphi_inv
  let w := [0] ++ integrate_chebyshev z f ++ [0]
  vadd (stride2 w) (stride2' w)

/-- `half_edge_integrals(f)`, `/repo/dec/spectral.py:974-985`. -/
noncomputable def half_edge_integrals (f : List ℝ) : ℂ :=
  (Iop (toC (Hinv f)) 0 (2 * π / f.length / 2)).getD 0 0

end Dec.Sp
