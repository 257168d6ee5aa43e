import Verif.Model.Np
import Mathlib.Analysis.SpecialFunctions.Trigonometric.Deriv
import Mathlib.Analysis.SpecialFunctions.Pow.Real
import Mathlib.LinearAlgebra.Matrix.Trace
import Mathlib.LinearAlgebra.Matrix.Notation
import Mathlib.LinearAlgebra.Matrix.Determinant.Basic

/-!
# Model of `/repo/examples/diffeomorphism.ipynb`

The cells are numbered from 0, counting text cells.  The symbolic expressions in `s` and `t` are modelled by the functions they denote; `diff` is the
derivative.  Figures are modelled up to the arrays and limits that are passed to the plotting library.
-/

namespace Dec.Diffeo

open Real

/-- A pair of expressions `x, y` in `s, t`. `/repo/examples/diffeomorphism.ipynb` cell 1. -/
structure Map where
  /-- first coordinate -/
  x : ℝ → ℝ → ℝ
  /-- second coordinate -/
  y : ℝ → ℝ → ℝ

/-- The map of points, `lambdify((s,t), diffeomorphism, 'numpy')`, `/repo/examples/diffeomorphism.ipynb` cell 10. -/
def Map.at (φ : Map) (p : ℝ × ℝ) : ℝ × ℝ := (φ.x p.1 p.2, φ.y p.1 p.2)

/-- The first commented map, with `c = Rational(2, 10)`, `/repo/examples/diffeomorphism.ipynb` cell 1. -/
noncomputable def wave (c : ℝ) : Map := ⟨fun s t => s + c * sin (π * s) * sin (π * t), fun s t => t + c * sin (π * s) * sin (π * t)⟩
/-- `# Flat`, `/repo/examples/diffeomorphism.ipynb` cell 1. -/
def flat : Map := ⟨fun s _ => s, fun _ t => t⟩
/-- `#Chebyshev`, `/repo/examples/diffeomorphism.ipynb` cell 1. -/
noncomputable def chebyshev : Map := ⟨fun s _ => -cos (π * (s + 1) / 2), fun _ t => -cos (π * (t + 1) / 2)⟩
/-- `# Polar`, `/repo/examples/diffeomorphism.ipynb` cell 1. -/
noncomputable def polar : Map := ⟨fun s t => (s + 2) * cos t, fun s t => (s + 2) * sin t⟩
/-- `# Squeeze`, `/repo/examples/diffeomorphism.ipynb` cell 1. -/
def squeeze : Map := ⟨fun s t => s + t, fun _ t => t⟩
/-- `#Square to circle`, with `c = Rational(10, 10)`, `/repo/examples/diffeomorphism.ipynb` cell 1. -/
noncomputable def circle (c : ℝ) : Map :=
  ⟨fun s t => s * (1 - c) + c * s * √(1 - t ^ 2 / 2), fun s t => t * (1 - c) + c * t * √(1 - s ^ 2 / 2)⟩
/-- `x = u**2 + v**3; y = u**2 - v**3`, `/repo/examples/diffeomorphism.ipynb` cell 1. -/
def powers : Map := ⟨fun s t => (s + 2) ^ 2 + (t + 2) ^ 3, fun s t => (s + 2) ^ 2 - (t + 2) ^ 3⟩
/-- `x = (s+2)**3; y = (t+2)**3`, `/repo/examples/diffeomorphism.ipynb` cell 1. -/
def cubes : Map := ⟨fun s _ => (s + 2) ^ 3, fun _ t => (t + 2) ^ 3⟩
/-- `x = u**2 - v**2; y = 2*u*v`, `/repo/examples/diffeomorphism.ipynb` cell 1. -/
def square : Map := ⟨fun s t => (s + 2) ^ 2 - t ^ 2, fun s t => 2 * (s + 2) * t⟩
/-- `# Sine Transform`, the map in use, `/repo/examples/diffeomorphism.ipynb` cell 1. -/
noncomputable def sine : Map := ⟨fun s _ => s, fun s t => t - sin (π * s)⟩

/-- `J`, `/repo/examples/diffeomorphism.ipynb` cell 4, at the point `(s, t)`. -/
noncomputable def J (φ : Map) (s t : ℝ) : Matrix (Fin 2) (Fin 2) ℝ :=
  !![deriv (fun s => φ.x s t) s, deriv (fun t => φ.x s t) t;
     deriv (fun s => φ.y s t) s, deriv (fun t => φ.y s t) t]

/-- `g = J.T*J`, `/repo/examples/diffeomorphism.ipynb` cell 6. -/
noncomputable def g (φ : Map) (s t : ℝ) : Matrix (Fin 2) (Fin 2) ℝ := (J φ s t).transpose * J φ s t

/-- `I`, `/repo/examples/diffeomorphism.ipynb` cell 7. -/
noncomputable def I (φ : Map) (s t : ℝ) : ℝ := (g φ s t).trace
/-- `II`, `/repo/examples/diffeomorphism.ipynb` cell 7. -/
noncomputable def II (φ : Map) (s t : ℝ) : ℝ := ((g φ s t).trace ^ 2 - (g φ s t * g φ s t).trace) / 2
/-- `III`, `/repo/examples/diffeomorphism.ipynb` cell 7. -/
noncomputable def III (φ : Map) (s t : ℝ) : ℝ := (g φ s t).det

/-- `numpy.repeat(a, k)`: every element `k` times. `/repo/examples/diffeomorphism.ipynb` cells 9 and 10. -/
def rep {α : Type} (a : List α) (k : ℕ) : List α := a.flatMap (List.replicate k)

/-- `numpy.tile(a, k)`: the array `k` times. `/repo/examples/diffeomorphism.ipynb` cells 9 and 10. -/
def tile {α : Type} (a : List α) (k : ℕ) : List α := (List.replicate k a).flatten

/-- `cartesian_product(a, b)`, `/repo/examples/diffeomorphism.ipynb` cell 9: `vstack([u, v]).T` is the list of the pairs.  (numpy converts numbers to text
when the other array is text.) -/
def cartesian_product {α β : Type} (a : List α) (b : List β) : List (α × β) := (rep a b.length).zip (tile b a.length)

/-- `reshape(n, m, 2)` of a list of `n*m` pairs: `n` rows of `m` pairs. `/repo/examples/diffeomorphism.ipynb` cell 10. -/
def rows {α : Type} (n m : ℕ) (l : List α) : List (List α) := (List.range n).map fun i => (l.drop (i * m)).take m

/-- `xyy` of `plot_grid(n, m, sub)`, `/repo/examples/diffeomorphism.ipynb` cell 10. -/
noncomputable def xyy (n m sub : ℕ) : List (List (ℝ × ℝ)) :=
  rows n (sub * m) ((rep (linspace (-1) 1 n) (sub * m)).zip (tile (linspace (-1) 1 (sub * m)) n))

/-- `xxy` of `plot_grid(n, m, sub)`, `/repo/examples/diffeomorphism.ipynb` cell 10. -/
noncomputable def xxy (n m sub : ℕ) : List (List (ℝ × ℝ)) :=
  rows m (sub * n) ((tile (linspace (-1) 1 (sub * n)) m).zip (rep (linspace (-1) 1 m) (sub * n)))

/-- The lines that `plot_grid(n, m, sub, diffeomorphism)` draws (`add_collection` maps every point of both arrays), first collection,
`/repo/examples/diffeomorphism.ipynb` cell 10. -/
noncomputable def lines1 (n m sub : ℕ) (φ : Map) : List (List (ℝ × ℝ)) := (xyy n m sub).map (·.map φ.at)
/-- ... and second collection, `/repo/examples/diffeomorphism.ipynb` cell 10. -/
noncomputable def lines2 (n m sub : ℕ) (φ : Map) : List (List (ℝ × ℝ)) := (xxy n m sub).map (·.map φ.at)

/-- `.min()` of an array that is not empty. For `/repo/examples/diffeomorphism.ipynb` cells 10 and 13. -/
noncomputable def amin : List ℝ → ℝ
  | [] => 0
  | a :: l => l.foldl min a
/-- `.max()` of an array that is not empty. For `/repo/examples/diffeomorphism.ipynb` cells 10 and 13. -/
noncomputable def amax : List ℝ → ℝ
  | [] => 0
  | a :: l => l.foldl max a

/-- The limits of the axes, `((xmin-.1, xmax+.1), (ymin-.1, ymax+.1))`, `/repo/examples/diffeomorphism.ipynb` cell 10 (numpy raises an exception for empty
arrays). -/
noncomputable def limits (n m sub : ℕ) (φ : Map) : (ℝ × ℝ) × (ℝ × ℝ) :=
  let a := (lines1 n m sub φ).flatten
  let b := (lines2 n m sub φ).flatten
  ((min (amin (b.map (·.1))) (amin (a.map (·.1))) - 0.1, max (amax (b.map (·.1))) (amax (a.map (·.1))) + 0.1),
   (min (amin (b.map (·.2))) (amin (a.map (·.2))) - 0.1, max (amax (b.map (·.2))) (amax (a.map (·.2))) + 0.1))

/-- `(vmin, vmax)` of `plot_st(expr, center=center)` with values `Z`, `/repo/examples/diffeomorphism.ipynb` cell 13. -/
noncomputable def colours (Z : List ℝ) (center : ℝ) : ℝ × ℝ :=
  let d := max (center - amin Z) (amax Z - center)
  (center - d, center + d)

end Dec.Diffeo
