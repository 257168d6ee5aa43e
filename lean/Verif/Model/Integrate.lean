import Verif.Model.Np
import Verif.Model.Helper
import Mathlib.MeasureTheory.Integral.IntervalIntegral.Basic

/-!
# Model of `/repo/dec/integrate.py`

`quad(f, a, b)[0]` and sympy's `Integral` are modelled by the exact integral (the error estimate of `quad` is not modelled);
`dblquad(f, a, b, g, h)[0]` is `∫_{v=a}^{b} ∫_{u=g v}^{h v} f(u, v) du dv`. A point is a pair of reals.
-/

namespace Dec.Integrate

open Real MeasureTheory

/-- `scipy.integrate.dblquad(f, a, b, g, h)[0]`: the *first* argument of `f` is the inner variable. For /repo/dec/integrate.py:239-245, 270-277. -/
noncomputable def dblquad (f : ℝ → ℝ → ℝ) (a b : ℝ) (g h : ℝ → ℝ) : ℝ := ∫ v in a..b, ∫ u in (g v)..(h v), f u v

/-! ## Averages, `/repo/dec/integrate.py:19-79` -/

/-- `averages_1d(x, x0, x1)`: `A1`, `/repo/dec/integrate.py:36-40`. -/
noncomputable def avg1 (f : ℝ → ℝ) (x0 x1 : ℝ) : ℝ := ∫ s in (0 : ℝ)..1, f (x0 * (1 - s) + x1 * s)

/-- `averages_2d(...)`: `A1`, `/repo/dec/integrate.py:64-70`. -/
noncomputable def avg2_1 (f : ℝ → ℝ → ℝ) (x0 y0 x1 y1 : ℝ) : ℝ := ∫ s in (0 : ℝ)..1, f (x0 * (1 - s) + x1 * s) (y0 * (1 - s) + y1 * s)

/-- `averages_2d(...)`: `A2`, `/repo/dec/integrate.py:72-78`: inner variable `t` from `0` to `1 - s`, outer variable `s`. -/
noncomputable def avg2_2 (f : ℝ → ℝ → ℝ) (x0 y0 x1 y1 x2 y2 : ℝ) : ℝ :=
  ∫ s in (0 : ℝ)..1, ∫ t in (0 : ℝ)..(1 - s), 2 * f (x0 * (1 - s - t) + x1 * s + x2 * t) (y0 * (1 - s - t) + y1 * s + y2 * t)

/-! ## Integrals over points, segments and triangles -/

/-- `integration_1d(x, x0, x1)`: `P1`, `/repo/dec/integrate.py:93-96`, and `n_integration_1d()`: `P1` before `np.vectorize`, `/repo/dec/integrate.py:213-214`. -/
noncomputable def int1 (f : ℝ → ℝ) (x0 x1 : ℝ) : ℝ := ∫ x in x0..x1, f x

/-- `n_integration_1d()`: `V(P1)` on two lists of the same length, `/repo/dec/integrate.py:213-217`. -/
noncomputable def nInt1 (f : ℝ → ℝ) (x0 x1 : List ℝ) : List ℝ := List.zipWith (int1 f) x0 x1

/-- `integration_2d(...)`: `P1`, `/repo/dec/integrate.py:118-127`, and `n_integration_2d()`: `P1`, `/repo/dec/integrate.py:231-237`. -/
noncomputable def P1 (f : ℝ → ℝ → ℝ × ℝ) (x0 y0 x1 y1 : ℝ) : ℝ :=
  ∫ s in (0 : ℝ)..1, (f (x0 * (1 - s) + x1 * s) (y0 * (1 - s) + y1 * s)).1 * (x1 - x0) + (f (x0 * (1 - s) + x1 * s) (y0 * (1 - s) + y1 * s)).2 * (y1 - y0)

/-- `integration_2d(...)`: `P2`, `/repo/dec/integrate.py:129-148`: inner variable `t` from `0` to `1 - s`, outer variable `s`. -/
noncomputable def P2 (w : ℝ → ℝ → ℝ) (x0 y0 x1 y1 x2 y2 : ℝ) : ℝ :=
  ∫ s in (0 : ℝ)..1, ∫ t in (0 : ℝ)..(1 - s),
    w (x0 * (1 - s - t) + x1 * s + x2 * t) (y0 * (1 - s - t) + y1 * s + y2 * t) * ((x1 - x0) * (y2 - y0) - (x2 - x0) * (y1 - y0))

/-- `n_integration_2d()`: `P2`, `/repo/dec/integrate.py:239-245`: here the inner variable of `dblquad` is `s`. -/
noncomputable def nP2 (w : ℝ → ℝ → ℝ) (x0 y0 x1 y1 x2 y2 : ℝ) : ℝ :=
  dblquad (fun s t => w (x0 * (1 - s - t) + x1 * s + x2 * t) (y0 * (1 - s - t) + y1 * s + y2 * t) * ((x1 - x0) * (y2 - y0) - (x2 - x0) * (y1 - y0)))
    0 1 (fun _ => 0) (fun s => 1 - s)

/-! ## Integrals over axis-parallel edges and rectangles -/

/-- `integration_2d_regular(...)`: `P1`, first component, `/repo/dec/integrate.py:171-182`; `n_integration_2d_regular()`: `P1x`, `/repo/dec/integrate.py:255-259`. -/
noncomputable def P1x (f : ℝ → ℝ → ℝ) (x0 x1 y : ℝ) : ℝ := ∫ x in x0..x1, f x y

/-- Second component of the same `P1`; `n_integration_2d_regular()`: `P1y`, `/repo/dec/integrate.py:261-268`. -/
noncomputable def P1y (f : ℝ → ℝ → ℝ) (x y0 y1 : ℝ) : ℝ := ∫ y in y0..y1, f x y

/-- `integration_2d_regular(...)`: `P2 = Ix(Iy(f))`, `/repo/dec/integrate.py:182-190`: the inner integral is over `y`. -/
noncomputable def P2r (f : ℝ → ℝ → ℝ) (x0 y0 x1 y1 : ℝ) : ℝ := ∫ x in x0..x1, ∫ y in y0..y1, f x y

/-- `n_integration_2d_regular()`: `P2`, `/repo/dec/integrate.py:270-277`: `dblquad(f, y0, y1, x0, x1)`, the inner integral is over `x`. -/
noncomputable def nP2r (f : ℝ → ℝ → ℝ) (x0 y0 x1 y1 : ℝ) : ℝ := dblquad f y0 y1 (fun _ => x0) (fun _ => x1)

/-! ## Quadrature rules -/

/-- `integrate_simpson(a, b, f)`, `/repo/dec/integrate.py:287-298`. -/
noncomputable def simpson (a b : ℝ) (f : ℝ → ℝ) : ℝ := (b - a) / 6 * (f a + 4 * f ((a + b) / 2) + f b)

/-- `integrate_boole(x1, x5, f)`, `/repo/dec/integrate.py:300-316`. -/
noncomputable def boole (x1 x5 : ℝ) (f : ℝ → ℝ) : ℝ :=
  let h := (x5 - x1) / 4
  2 * h / 45 * (7 * f x1 + 32 * f (x1 + h) + 12 * f (x1 + 2 * h) + 32 * f (x1 + 3 * h) + 7 * f x5)

/-- `integrate_boole1(x, f)`, `/repo/dec/integrate.py:318-324`. -/
noncomputable def boole1 (x : List ℝ) (f : ℝ → ℝ) : List ℝ := List.zipWith (fun a b => boole a b f) x.dropLast x.tail

/-- `integrate_boole2(x1, x5, f)`, `/repo/dec/integrate.py:326-336`. -/
noncomputable def boole2 (p1 p5 : ℝ × ℝ) (f : ℝ → ℝ → ℝ) : ℝ :=
  let hx := (p5.1 - p1.1) / 4
  let hy := (p5.2 - p1.2) / 4
  2 * √(hx ^ 2 + hy ^ 2) / 45 * (7 * f p1.1 p1.2 + 32 * f (p1.1 + hx) (p1.2 + hy) + 12 * f (p1.1 + 2 * hx) (p1.2 + 2 * hy)
    + 32 * f (p1.1 + 3 * hx) (p1.2 + 3 * hy) + 7 * f p5.1 p5.2)

/-! ## Integrals of forms on edges and polygons -/

/-- `integrate_1form(edge, f)[0]` on one edge, `/repo/dec/integrate.py:341-361`. -/
noncomputable def integrate_1form (p q : ℝ × ℝ) (f : ℝ → ℝ → ℝ × ℝ) : ℝ :=
  ∫ t in (0 : ℝ)..1, (f (p.1 + t * (q.1 - p.1)) (p.2 + t * (q.2 - p.2))).1 * (q.1 - p.1) + (f (p.1 + t * (q.1 - p.1)) (p.2 + t * (q.2 - p.2))).2 * (q.2 - p.2)

/-- `_integrate_2form(face, f)[0]` on one triangle, `/repo/dec/integrate.py:363-377`. -/
noncomputable def triangle (a b c : ℝ × ℝ) (f : ℝ → ℝ → ℝ) : ℝ :=
  dblquad (fun u v => f (a.1 + u * (b.1 - a.1) + v * (c.1 - a.1)) (a.2 + u * (b.2 - a.2) + v * (c.2 - a.2))
      * ((b.1 - a.1) * (c.2 - a.2) - (b.2 - a.2) * (c.1 - a.1)))
    0 1 (fun _ => 0) (fun x => 1 - x)

/-- The loop of `integrate_2form`, `/repo/dec/integrate.py:391-395`: a fan of triangles from the first vertex `a`. -/
noncomputable def fan (a : ℝ × ℝ) (rest : List (ℝ × ℝ)) (f : ℝ → ℝ → ℝ) : ℝ :=
  (List.zipWith (fun b c => triangle a b c f) rest.dropLast rest.tail).foldl (· + ·) 0

/-- `integrate_2form(face, f)[0]`, `/repo/dec/integrate.py:379-397`. `face[0]` of an empty face raises `IndexError`. -/
noncomputable def integrate_2form (face : List (ℝ × ℝ)) (f : ℝ → ℝ → ℝ) : Except Err ℝ :=
  match face with
  | [] => .error .indexError
  | a :: rest => .ok (fan a rest f)

end Dec.Integrate
