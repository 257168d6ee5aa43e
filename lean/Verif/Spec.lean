import Mathlib.Analysis.SpecialFunctions.Trigonometric.Basic
import Mathlib.Algebra.BigOperators.Intervals
import Mathlib.Analysis.Calculus.ContDiff.Defs
import Mathlib.Analysis.Calculus.Deriv.Basic
import Mathlib.Analysis.SpecialFunctions.Exp

/-!
# The vocabulary of the property statements

Nothing here refers to the model of the code.
-/

namespace Dec

open Real Finset

/-- `p` is a real trigonometric polynomial of degree at most `K`. -/
def IsTrig (K : ℕ) (p : ℝ → ℝ) : Prop :=
  ∃ a b : ℕ → ℝ, ∀ θ, p θ = ∑ k ∈ range (K + 1), (a k * cos (k * θ) + b k * sin (k * θ))

/-- `p` is a combination of the `N` trigonometric functions that `N` numbers on the circle determine: degree at most `(N-1)/2`, and for even `N` also the
cosine of frequency `N/2` centred at `x₀`. -/
def IsTrigAt (N : ℕ) (x₀ : ℝ) (p : ℝ → ℝ) : Prop :=
  ∃ q c, IsTrig ((N - 1) / 2) q ∧ (N % 2 = 1 → c = 0) ∧ ∀ θ, p θ = q θ + c * cos ((N / 2 : ℕ) * (θ - x₀))

/-- `p` is a cosine polynomial of degree at most `K`. -/
def IsCos (K : ℕ) (p : ℝ → ℝ) : Prop :=
  ∃ a : ℕ → ℝ, ∀ θ, p θ = ∑ k ∈ range (K + 1), a k * cos (k * θ)

/-- `p` is (the function of) a real polynomial of degree less than `m`. -/
def IsPoly (m : ℕ) (p : ℝ → ℝ) : Prop :=
  ∃ a : ℕ → ℝ, ∀ x, p x = ∑ k ∈ range m, a k * x ^ k

/-- `p` is a combination of the exponentials `exp(i m θ)` with `-N/2 ≤ m < N/2`, the frequencies of an array of length `N`. -/
def IsExp (N : ℕ) (p : ℝ → ℂ) : Prop :=
  ∃ c : ℤ → ℂ, ∀ θ : ℝ, p θ = ∑ m ∈ Finset.Ico (-((N / 2 : ℕ) : ℤ)) (N - (N / 2 : ℕ)), c m * Complex.exp (Complex.I * m * θ)

/-- The values of `p` at `N` equidistant points of the circle, the first one being `x₀`. -/
noncomputable def circle (N : ℕ) (x₀ : ℝ) (p : ℝ → ℂ) : List ℂ := (List.range N).map fun j : ℕ => p (x₀ + j * (2 * π / N))

/-- The intervals `[s i, e i]` follow each other without gap or overlap from `a` to `b`, and none is empty. -/
def IsPartition (a b : ℝ) (s e : List ℝ) : Prop :=
  s.length = e.length ∧ 0 < s.length ∧ s.getD 0 0 = a ∧ e.getD (e.length - 1) 0 = b ∧
  (∀ i < s.length, s.getD i 0 < e.getD i 0) ∧
  (∀ i, i + 1 < s.length → e.getD i 0 = s.getD (i + 1) 0)

/-- A continuously differentiable function of two variables. -/
def Smooth2 (f : ℝ → ℝ → ℝ) : Prop := ContDiff ℝ 1 fun p : ℝ × ℝ => f p.1 p.2

/-- The partial derivative in the first variable. -/
noncomputable def dX (f : ℝ → ℝ → ℝ) (x y : ℝ) : ℝ := deriv (fun s => f s y) x

/-- The partial derivative in the second variable. -/
noncomputable def dY (f : ℝ → ℝ → ℝ) (x y : ℝ) : ℝ := deriv (fun s => f x s) y

/-- A finite sum of products `a(x) b(y)` of a function `a` from the class `V` and a function `b` from the class `W`. -/
def Tensor (V W : (ℝ → ℝ) → Prop) (f : ℝ → ℝ → ℝ) : Prop :=
  ∃ (m : ℕ) (a b : ℕ → ℝ → ℝ), (∀ k < m, V (a k) ∧ W (b k)) ∧ ∀ x y, f x y = ∑ k ∈ range m, a k x * b k y

/-- A form of degree `d` in the plane whose components are sums of products: component `dx` uses `V 1` in `x` (the direction in which it is integrated)
and `W 0` in `y`, and so on. -/
def TensorForm (V W : Fin 2 → (ℝ → ℝ) → Prop) : Fin 3 → List (ℝ → ℝ → ℝ) → Prop
  | 0, [f] => Tensor (V 0) (W 0) f
  | 1, [f, g] => Tensor (V 1) (W 0) f ∧ Tensor (V 0) (W 1) g
  | 2, [f] => Tensor (V 1) (W 1) f
  | _, _ => False

/-- The exterior product of forms in the plane. A form is its list of components: `[f]` is the function `f` in degree 0 and `f dx∧dy` in degree 2,
`[f, g]` is `f dx + g dy`. -/
def wedgeForm : ℕ → ℕ → List (ℝ → ℝ → ℝ) → List (ℝ → ℝ → ℝ) → List (ℝ → ℝ → ℝ)
  | 0, 1, [f], [u, v] => [fun x y => f x y * u x y, fun x y => f x y * v x y]
  | 1, 0, [u, v], [f] => [fun x y => u x y * f x y, fun x y => v x y * f x y]
  | 1, 1, [u, v], [u', v'] => [fun x y => u x y * v' x y - v x y * u' x y]
  | _, _, [f], [g] => [fun x y => f x y * g x y]
  | _, _, _, _ => []

/-- The exterior derivative of a form of degree 0 or 1 in the plane: `df = ∂x f dx + ∂y f dy` and `d(f dx + g dy) = (∂x g - ∂y f) dx∧dy`. -/
noncomputable def dForm : ℕ → List (ℝ → ℝ → ℝ) → List (ℝ → ℝ → ℝ)
  | 0, [f] => [dX f, dY f]
  | 1, [f, g] => [fun x y => dX g x y - dY f x y]
  | _, _ => []

/-- The contraction of the vector field with components `[X, Y]` and a form of degree 1 or 2: `X f + Y g`, or `-Y f dx + X f dy`. -/
def contractForm : ℕ → List (ℝ → ℝ → ℝ) → List (ℝ → ℝ → ℝ) → List (ℝ → ℝ → ℝ)
  | 1, [X, Y], [f, g] => [fun x y => X x y * f x y + Y x y * g x y]
  | 2, [X, Y], [f] => [fun x y => -(Y x y * f x y), fun x y => X x y * f x y]
  | _, _, _ => []

end Dec
