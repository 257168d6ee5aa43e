import Mathlib.Analysis.SpecialFunctions.Trigonometric.Basic
import Mathlib.Algebra.BigOperators.Intervals

/-!
# The numpy primitives used by `dec`

One-dimensional arrays are lists.  Numbers are exact (`ℝ`, `ℂ`); rounding is not modelled.
These are models of numpy functions (external to the repository), so the citation
on each of them is a place in `/repo` where it is used.
-/

namespace Dec

open Finset

/-- The array `[f 0, ..., f (n-1)]`. For /repo/dec/spectral.py:397-564. -/
def tab {α : Type*} (n : ℕ) (f : ℕ → α) : List α := (List.range n).map f

/-- `numpy.roll(x, s)`: element `k` of the result is `x[(k - s) mod len(x)]`.
Used in `/repo/dec/periodic.py:38-40` (derivative) and `/repo/dec/spectral.py:525`. -/
def roll {α : Type*} (x : List α) (s : ℤ) : List α := x.rotate ((-s) % (x.length : ℤ)).toNat

/-- `numpy.diff(x)`: `x[1:] - x[:-1]`.  Used in `/repo/dec/regular.py:41`. -/
def diff {α : Type*} [Sub α] (x : List α) : List α := List.zipWith (· - ·) x.tail x

/-- `x[0::2]`.  Used in `/repo/dec/periodic.py:87` (as `f[0::2]`). -/
def stride2 {α : Type*} : List α → List α
  | [] => []
  | [a] => [a]
  | a :: _ :: t => a :: stride2 t

/-- `x[1::2]`.  Used in `/repo/dec/periodic.py:89`. -/
def stride2' {α : Type*} (x : List α) : List α := stride2 x.tail

/-- `numpy.cumsum(x)`.  Used in `/repo/dec/spectral.py:559-560` and `/repo/dec/grid2.py:76`. -/
def cumsum {α : Type*} [Add α] : List α → List α
  | [] => []
  | a :: t => a :: (cumsum t).map (a + ·)

/-- Entrywise sum of two arrays of the same shape. For /repo/dec/spectral.py:397-564. -/
def vadd {α : Type*} [Add α] (x y : List α) : List α := List.zipWith (· + ·) x y
/-- Entrywise difference of two arrays of the same shape. For /repo/dec/spectral.py:397-564. -/
def vsub {α : Type*} [Sub α] (x y : List α) : List α := List.zipWith (· - ·) x y
/-- Entrywise product of two arrays of the same shape. For /repo/dec/spectral.py:397-564. -/
def vmul {α : Type*} [Mul α] (x y : List α) : List α := List.zipWith (· * ·) x y
/-- Entrywise quotient of two arrays of the same shape. For /repo/dec/spectral.py:397-564. -/
def vdiv {α : Type*} [Div α] (x y : List α) : List α := List.zipWith (· / ·) x y
/-- Array times scalar. For /repo/dec/spectral.py:397-564. -/
def smul {α : Type*} [Mul α] (c : α) (x : List α) : List α := x.map (c * ·)

/-- `numpy.fft.fft`: `X[k] = sum_j x[j] exp(-2 pi i j k / N)`.
Used in `/repo/dec/spectral.py:406`. -/
noncomputable def fft (x : List ℂ) : List ℂ :=
  tab x.length fun k => ∑ j ∈ range x.length,
    x.getD j 0 * Complex.exp (-(2 * Real.pi * Complex.I * j * k / x.length))

/-- `numpy.fft.ifft`: `x[j] = 1/N sum_k X[k] exp(2 pi i j k / N)`.
Used in `/repo/dec/spectral.py:407`. -/
noncomputable def ifft (x : List ℂ) : List ℂ :=
  tab x.length fun j => (∑ k ∈ range x.length,
    x.getD k 0 * Complex.exp (2 * Real.pi * Complex.I * j * k / x.length)) / x.length

/-- `numpy.fft.fftshift(x) = roll(x, len(x)//2)`.  Used in `/repo/dec/spectral.py:404,406`. -/
def fftshift {α : Type*} (x : List α) : List α := roll x ((x.length / 2 : ℕ) : ℤ)

/-- `numpy.fft.ifftshift(x) = roll(x, -(len(x)//2))`.  Used in `/repo/dec/spectral.py:407`. -/
def ifftshift {α : Type*} (x : List α) : List α := roll x (-((x.length / 2 : ℕ) : ℤ))

/-- `numpy.fft.fftfreq(N)*N`: `[0, 1, ..., (N-1)//2, -(N//2), ..., -1]` (as integers).
Used in `/repo/dec/spectral.py:404`. -/
def fftfreqN (N : ℕ) : List ℤ := tab N fun k => if k < (N - 1) / 2 + 1 then (k : ℤ) else (k : ℤ) - N

/-- `numpy.real` of a complex array. For /repo/dec/spectral.py:397-564. -/
def re (x : List ℂ) : List ℝ := x.map Complex.re

/-- A real array used where numpy promotes it to complex. For /repo/dec/spectral.py:397-564. -/
noncomputable def toC (x : List ℝ) : List ℂ := x.map (fun r : ℝ => (r : ℂ))

/-- `numpy.linspace(a, b, num)`: `a + i*(b-a)/(num-1)`; for `num = 1` it is `[a]`.
Used in `/repo/dec/periodic.py:8`, `/repo/dec/regular.py:11`, `/repo/dec/chebyshev.py:9`. -/
noncomputable def linspace (a b : ℝ) (num : ℕ) : List ℝ :=
  tab num fun i => a + i * ((b - a) / ((num - 1 : ℕ) : ℝ))

end Dec
