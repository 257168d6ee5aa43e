import Verif.Props.PoissonConverge
import Verif.Props.AccuracyProducts
import Verif.Lib.ChebStab
import Mathlib.Analysis.Convex.Deriv

set_option linter.unusedSimpArgs false
set_option linter.unusedVariables false

/-! # C109: the Chebyshev Poisson example is stable and accurate (`/repo/doc/plot/cheb/poisson1d_cheb.py`) -/

namespace Dec.Props

open Finset Real Sp G2

/-! ## Calculus -/

/-- Every polynomial is the derivative of a polynomial. -/
theorem isPoly_antideriv {m : ℕ} {q : ℝ → ℝ} (hq : IsPoly m q) : ∃ p, IsPoly (m + 1) p ∧ ∀ x, HasDerivAt p (q x) x := by
  obtain ⟨a, ha⟩ := hq
  refine ⟨fun x => ∑ k ∈ range m, a k / (k + 1) * x ^ (k + 1), ⟨fun k => if k = 0 then 0 else a (k - 1) / k, fun x => ?_⟩, fun x => ?_⟩
  · rw [sum_range_succ']
    simp
  · rw [ha]
    refine HasDerivAt.congr_deriv (HasDerivAt.fun_sum fun k _ => (hasDerivAt_pow (k + 1) x).const_mul (a k / (k + 1))) (sum_congr rfl fun k _ => ?_)
    have : (k : ℝ) + 1 ≠ 0 := by positivity
    push_cast
    field_simp

/-- The Dirichlet problem for a polynomial source is solved by a polynomial. -/
theorem isPoly_dirichlet {m : ℕ} {q : ℝ → ℝ} (hq : IsPoly m q) (α β : ℝ) :
    ∃ u u', IsPoly (m + 2) u ∧ (∀ x, HasDerivAt u (u' x) x) ∧ (∀ x, HasDerivAt u' (q x) x) ∧ u (-1) = α ∧ u 1 = β := by
  obtain ⟨p, hp, h1⟩ := isPoly_antideriv hq
  obtain ⟨v, hv, h2⟩ := isPoly_antideriv hp
  set s := (β - v 1 - (α - v (-1))) / 2 with hs
  set c := (β - v 1 + (α - v (-1))) / 2 with hc
  refine ⟨fun x => v x + (c + s * x), fun x => p x + s, isPoly_add hv ⟨fun k => if k = 0 then c else if k = 1 then s else 0, fun x => ?_⟩, fun x => ?_, fun x => ?_, ?_, ?_⟩
  · rw [sum_range_succ', sum_range_succ']
    simp
    ring
  · exact ((h2 x).add (((hasDerivAt_id' x).const_mul s).const_add c)).congr_deriv (by ring)
  · exact ((h1 x).add_const s)
  · simp only [hc, hs]; ring
  · simp only [hc, hs]; ring

/-- Maximum principle: a function whose second derivative is nowhere negative lies below the chord of its end values. -/
theorem below_chord {w w' w'' : ℝ → ℝ} (h1 : ∀ x, HasDerivAt w (w' x) x) (h2 : ∀ x, HasDerivAt w' (w'' x) x) (h0 : ∀ x ∈ Set.Icc (-1 : ℝ) 1, 0 ≤ w'' x) {x : ℝ}
    (hx : x ∈ Set.Icc (-1 : ℝ) 1) : w x ≤ (w (-1) * (1 - x) + w 1 * (1 + x)) / 2 := by
  have hconv : ConvexOn ℝ (Set.Icc (-1) 1) w := by
    refine convexOn_of_deriv2_nonneg (convex_Icc _ _) (fun y _ => (h1 y).continuousAt.continuousWithinAt) (fun y _ => (h1 y).differentiableAt.differentiableWithinAt) ?_ ?_
    · rw [show deriv w = w' from funext fun y => (h1 y).deriv]
      exact fun y _ => (h2 y).differentiableAt.differentiableWithinAt
    · intro y hy
      rw [interior_Icc] at hy
      show 0 ≤ deriv (deriv w) y
      rw [show deriv w = w' from funext fun y => (h1 y).deriv, (h2 y).deriv]
      exact h0 y ⟨hy.1.le, hy.2.le⟩
  have h := (And.right hconv) (by norm_num : (-1 : ℝ) ∈ Set.Icc (-1 : ℝ) 1) (by norm_num : (1 : ℝ) ∈ Set.Icc (-1 : ℝ) 1) (a := (1 - x) / 2) (b := (1 + x) / 2) (by linarith [hx.2]) (by linarith [hx.1]) (by ring)
  rw [show ((1 - x) / 2) • (-1 : ℝ) + ((1 + x) / 2) • (1 : ℝ) = x by simp only [smul_eq_mul]; ring] at h
  simp only [smul_eq_mul] at h
  linarith

/-- Two functions with the same end values, whose second derivatives differ by at most `δ`, differ by at most `δ (1 - x²) / 2`. -/
theorem dirichlet_compare {u u' u'' v v' v'' : ℝ → ℝ} (hu1 : ∀ x, HasDerivAt u (u' x) x) (hu2 : ∀ x, HasDerivAt u' (u'' x) x) (hv1 : ∀ x, HasDerivAt v (v' x) x)
    (hv2 : ∀ x, HasDerivAt v' (v'' x) x) (hl : u (-1) = v (-1)) (hr : u 1 = v 1) {δ : ℝ} (h : ∀ x ∈ Set.Icc (-1 : ℝ) 1, |u'' x - v'' x| ≤ δ) {x : ℝ} (hx : x ∈ Set.Icc (-1 : ℝ) 1) :
    |u x - v x| ≤ δ * (1 - x ^ 2) / 2 := by
  have hsq1 : ∀ x : ℝ, HasDerivAt (fun x : ℝ => δ * (x ^ 2 / 2)) (δ * x) x := fun x => by
    have := ((hasDerivAt_pow 2 x).div_const 2).const_mul δ
    refine this.congr_deriv ?_
    push_cast; ring
  have hsq2 : ∀ x : ℝ, HasDerivAt (fun x : ℝ => δ * x) δ x := fun x => ((hasDerivAt_id' x).const_mul δ).congr_deriv (by ring)
  have a := below_chord (w := fun x => u x - v x + δ * (x ^ 2 / 2)) (fun x => ((hu1 x).sub (hv1 x)).add (hsq1 x)) (fun x => ((hu2 x).sub (hv2 x)).add (hsq2 x))
    (fun y hy => by have := (abs_le.1 (h y hy)).1; linarith) hx
  have b := below_chord (w := fun x => v x - u x + δ * (x ^ 2 / 2)) (fun x => ((hv1 x).sub (hu1 x)).add (hsq1 x)) (fun x => ((hv2 x).sub (hu2 x)).add (hsq2 x))
    (fun y hy => by have := (abs_le.1 (h y hy)).2; linarith) hx
  simp only [hl, hr] at a b
  rw [abs_le]
  constructor <;> nlinarith

/-! ## The Dirichlet problem -/

/-- The right-hand side that the example subtracts: `H1(D0(H1d(bc)))`, `bc` the array with the prescribed boundary values of `f` (poisson1d_cheb.py:30-33). -/
noncomputable def dirichletData (g : Grid1) (f : ℝ → ℝ) : Except Err (List ℝ) := do
  let b ← g.H 1 false (g.boundary_condition f)
  let c ← g.d0 true b
  g.H 1 true c

theorem cheb_vx_in (n : ℕ) (hn : 2 ≤ n) (t : Bool) {i : ℕ} (hi : i < (grid₀ .chebyshev n).N 0 t) : ((Chebyshev.make n).cells.v t).getD i 0 ∈ Set.Icc (-1 : ℝ) 1 :=
  cells_in .chebyshev n hn 0 t i hi

theorem cheb_P0_getD (n : ℕ) (hn : 2 ≤ n) (t : Bool) (f : ℝ → ℝ) {i : ℕ} (hi : i < (grid₀ .chebyshev n).N 0 t) :
    ((Chebyshev.make n).P 0 t f).getD i 0 = f (((Chebyshev.make n).cells.v t).getD i 0) := by
  have hl : ((Chebyshev.make n).P 0 t f).length = (grid₀ .chebyshev n).N 0 t := C11_projection .chebyshev n hn (-1) 1 0 t f
  have e' : (Chebyshev.make n).P 0 t f = ((Chebyshev.make n).cells.v t).map f := rfl
  rw [e'] at hl ⊢
  rw [List.length_map] at hl
  rw [List.getD_eq_getElem?_getD, List.getD_eq_getElem?_getD, List.getElem?_map, List.getElem?_eq_getElem (by omega)]
  rfl

theorem bc_congr (n : ℕ) {u f : ℝ → ℝ} (h1 : u (-1) = f (-1)) (h2 : u 1 = f 1) : (Chebyshev.make n).boundary_condition u = (Chebyshev.make n).boundary_condition f := by
  have e1 : (Chebyshev.make n).xmin = -1 := rfl
  have e2 : (Chebyshev.make n).xmax = 1 := rfl
  unfold Grid1.boundary_condition
  rw [e1, e2, h1, h2]

theorem dirichletData_of {g : Grid1} {f : ℝ → ℝ} {b c d : List ℝ} (h1 : g.H 1 false (g.boundary_condition f) = .ok b)
    (h2 : g.d0 true b = .ok c) (h3 : g.H 1 true c = .ok d) : dirichletData g f = .ok d := by
  simp only [dirichletData, h1, h2, h3, Bind.bind, Except.bind]

/-- **C109** (what the Dirichlet system computes): for every array `r` of right-hand sides and all boundary values, the system of the example has exactly one solution: the samples of the function
`u` that takes the boundary values and whose second derivative is the reconstruction of `r`. It is a polynomial of degree at most `n`. -/
theorem C109_dirichlet_function (n : ℕ) (hn : 2 ≤ n) (h927 : n ≤ 927) (f : ℝ → ℝ) (r : List ℝ) (hr : r.length = n - 1) :
    ∃ u u' u'' : ℝ → ℝ, IsPoly (n + 1) u ∧ (∀ x, HasDerivAt u (u' x) x) ∧ (∀ x, HasDerivAt u' (u'' x) x) ∧ u (-1) = f (-1) ∧ u 1 = f 1 ∧
      (∀ x ∈ Set.Icc (-1 : ℝ) 1, (Chebyshev.make n).R 0 false r x = some (u'' x)) ∧
      ∃ d, dirichletData (Chebyshev.make n) f = .ok d ∧ ∀ z : List ℝ, z.length = n - 1 → ((Chebyshev.make n).laplacian false z = .ok (vsub r d) ↔ z = (Chebyshev.make n).P 0 false u) := by
  have hv : validSize .chebyshev n := hn
  obtain ⟨q, h1, h2, h3⟩ := C70_reconstruction_determined .chebyshev n hv 0 false r hr
  have hq : IsPoly (n - 1) q := by simpa [Determined] using h1
  obtain ⟨u, u', g1, g2, g3, g4, g5⟩ := isPoly_dirichlet hq (f (-1)) (f 1)
  rw [show n - 1 + 2 = n + 1 by omega] at g1
  obtain ⟨b, c, d, e1, e2, e3, e4⟩ := C67_dirichlet_solution n hn h927 u u' q g1 g2 g3
  refine ⟨u, u', q, g1, g2, g3, g4, g5, fun x hx => h3 x hx, d, ?_, fun z hz => ?_⟩
  · rw [bc_congr n g4 g5] at e1
    exact dirichletData_of e1 e2 e3
  · have e5 := e4 z hz
    have h2' : (Chebyshev.make n).P 0 false q = r := h2
    rw [h2'] at e5
    exact e5

/-- **C109** (accuracy, Dirichlet): if the exact solution `f` has the second derivative `f''`, and the reconstruction of the samples of `f''` is nowhere further than `δ` from `f''`, then the solution
of the system of the example differs from `f`, at the dual vertex `x`, by at most `δ (1 - x²) / 2`. -/
theorem C109_dirichlet_error (n : ℕ) (hn : 2 ≤ n) (h927 : n ≤ 927) (f f' f'' : ℝ → ℝ) (h1 : ∀ x, HasDerivAt f (f' x) x) (h2 : ∀ x, HasDerivAt f' (f'' x) x)
    (δ : ℝ) (hδ : Recovers .chebyshev n 0 false δ f'') :
    ∃ d z, dirichletData (Chebyshev.make n) f = .ok d ∧ z.length = n - 1 ∧ (∀ w : List ℝ, w.length = n - 1 → ((Chebyshev.make n).laplacian false w = .ok (vsub ((Chebyshev.make n).P 0 false f'') d) ↔ w = z)) ∧
      ∀ i < n - 1, |z.getD i 0 - ((Chebyshev.make n).P 0 false f).getD i 0| ≤ δ * (1 - ((Chebyshev.make n).cells.v false).getD i 0 ^ 2) / 2 := by
  have hv : validSize .chebyshev n := hn
  have hN : (grid₀ .chebyshev n).N 0 false = n - 1 := (Chebyshev.isInterval hn (-1) 1).N00
  have hl : ∀ q, ((Chebyshev.make n).P 0 false q).length = n - 1 := fun q => C11_projection .chebyshev n hv (-1) 1 0 false q
  obtain ⟨u, u', q, g1, g2, g3, g4, g5, g6, d, g7, g8⟩ := C109_dirichlet_function n hn h927 f _ (hl f'')
  refine ⟨d, _, g7, hl u, g8, fun i hi => ?_⟩
  rw [← hN] at hi
  rw [cheb_P0_getD n hn false u hi, cheb_P0_getD n hn false f hi]
  refine dirichlet_compare g2 g3 h1 h2 g4 g5 (fun x hx => ?_) (cheb_vx_in n hn false hi)
  obtain ⟨y, e1, e2⟩ := hδ x hx
  have e3 : some y = some (q x) := e1.symm.trans (g6 x hx)
  rw [Option.some.inj e3] at e2
  exact e2

/-- **C109** (maximum principle, Dirichlet): if the reconstruction of the right-hand side is nowhere negative, the solution lies below the straight line through the boundary values. -/
theorem C109_dirichlet_sign (n : ℕ) (hn : 2 ≤ n) (h927 : n ≤ 927) (f : ℝ → ℝ) (r z d : List ℝ) (hz : z.length = n - 1) (hr : r.length = n - 1)
    (hR : ∀ x ∈ Set.Icc (-1 : ℝ) 1, ∃ y, (Chebyshev.make n).R 0 false r x = some y ∧ 0 ≤ y) (hd : dirichletData (Chebyshev.make n) f = .ok d)
    (h : (Chebyshev.make n).laplacian false z = .ok (vsub r d)) (i : ℕ) (hi : i < n - 1) :
    z.getD i 0 ≤ (f (-1) * (1 - ((Chebyshev.make n).cells.v false).getD i 0) + f 1 * (1 + ((Chebyshev.make n).cells.v false).getD i 0)) / 2 := by
  have hN : (grid₀ .chebyshev n).N 0 false = n - 1 := (Chebyshev.isInterval hn (-1) 1).N00
  obtain ⟨u, u', q, g1, g2, g3, g4, g5, g6, d', g7, g8⟩ := C109_dirichlet_function n hn h927 f r hr
  rw [hd] at g7
  obtain rfl := Except.ok.inj g7
  obtain rfl := (g8 z hz).1 h
  rw [← hN] at hi
  rw [cheb_P0_getD n hn false u hi, ← g4, ← g5]
  refine below_chord g2 g3 (fun x hx => ?_) (cheb_vx_in n hn false hi)
  obtain ⟨y, e1, e2⟩ := hR x hx
  rw [g6 x hx] at e1
  rw [Option.some.inj e1]
  exact e2

/-- **C109** (spectral accuracy, Dirichlet): if the source `f''` is the sum of a power series that converges absolutely at 1, the error at the dual vertex `x` is at most `1 - x²` times the rest
`Σ |a_k|` over `k ≥ n - 1`. -/
theorem C109_dirichlet_power_series (n : ℕ) (hn : 2 ≤ n) (h927 : n ≤ 927) (f f' f'' : ℝ → ℝ) (h1 : ∀ x, HasDerivAt f (f' x) x) (h2 : ∀ x, HasDerivAt f' (f'' x) x)
    (a : ℕ → ℝ) (ha : Summable fun k => |a k|) (hf : ∀ x ∈ Set.Icc (-1 : ℝ) 1, HasSum (fun k => a k * x ^ k) (f'' x)) :
    ∃ d z, dirichletData (Chebyshev.make n) f = .ok d ∧ z.length = n - 1 ∧
      (∀ w : List ℝ, w.length = n - 1 → ((Chebyshev.make n).laplacian false w = .ok (vsub ((Chebyshev.make n).P 0 false f'') d) ↔ w = z)) ∧
      ∀ i < n - 1, |z.getD i 0 - ((Chebyshev.make n).P 0 false f).getD i 0| ≤ (1 - ((Chebyshev.make n).cells.v false).getD i 0 ^ 2) * ∑' k, |a (k + (n - 1))| := by
  have h := (C92_power_series_grid a f'' ha hf n hn false).2
  have hN : (Chebyshev.make n).N 0 false = n - 1 := (Chebyshev.isInterval hn (-1) 1).N00
  rw [hN] at h
  obtain ⟨d, z, e1, e2, e3, e4⟩ := C109_dirichlet_error n hn h927 f f' f'' h1 h2 (2 * ∑' k, |a (k + (n - 1))|) (fun x hx => h x hx)
  exact ⟨d, z, e1, e2, e3, fun i hi => (e4 i hi).trans (le_of_eq (by ring))⟩

/-- **C109** (the example itself, Dirichlet: `f = f'' = exp`): the error at every dual vertex is at most the sum of `1/k!` over `k ≥ n - 1`. -/
theorem C109_dirichlet_example (n : ℕ) (hn : 2 ≤ n) (h927 : n ≤ 927) :
    ∃ d z, dirichletData (Chebyshev.make n) exp = .ok d ∧ z.length = n - 1 ∧
      (∀ w : List ℝ, w.length = n - 1 → ((Chebyshev.make n).laplacian false w = .ok (vsub ((Chebyshev.make n).P 0 false exp) d) ↔ w = z)) ∧
      ∀ i < n - 1, |z.getD i 0 - ((Chebyshev.make n).P 0 false exp).getD i 0| ≤ ∑' k : ℕ, 1 / ((k + (n - 1)).factorial : ℝ) := by
  obtain ⟨d, z, e1, e2, e3, e4⟩ := C109_dirichlet_power_series n hn h927 exp exp exp hasDerivAt_exp hasDerivAt_exp _ exp_power_series.1 exp_power_series.2
  refine ⟨d, z, e1, e2, e3, fun i hi => (e4 i hi).trans ?_⟩
  have e : ∀ k : ℕ, |(1 : ℝ) / ((k + (n - 1)).factorial : ℝ)| = 1 / ((k + (n - 1)).factorial : ℝ) := fun k => abs_of_nonneg (by positivity)
  rw [tsum_congr e]
  have h0 : 0 ≤ ∑' k : ℕ, 1 / ((k + (n - 1)).factorial : ℝ) := tsum_nonneg fun k => by positivity
  nlinarith [sq_nonneg (((Chebyshev.make n).cells.v false).getD i 0)]

/-! ## Stability -/

/-- The bound of the solution of the Dirichlet problem whose source is the Chebyshev polynomial of degree `k`. -/
noncomputable def greenBound (k : ℕ) : ℝ := if k < 3 then 1 / 2 else (1 / (((k - 3 : ℕ) : ℝ) + 1) - 1 / (((k - 3 : ℕ) : ℝ) + 5)) / 2

open Polynomial.Chebyshev in
theorem T_green_all (k : ℕ) : ∃ I I' : ℝ → ℝ, (∀ x, HasDerivAt I (I' x) x) ∧ (∀ x, HasDerivAt I' ((T ℝ (k : ℤ)).eval x) x) ∧ I (-1) = 0 ∧ I 1 = 0 ∧
    ∀ x ∈ Set.Icc (-1 : ℝ) 1, |I x| ≤ greenBound k := by
  unfold greenBound
  by_cases h : k < 3
  · rw [if_pos h]
    have hp : IsPoly ((T ℝ (k : ℤ)).natDegree + 1) fun x => (T ℝ (k : ℤ)).eval x := isPoly_eval (Nat.lt_succ_self _)
    obtain ⟨u, u', -, h1, h2, h3, h4⟩ := isPoly_dirichlet hp 0 0
    refine ⟨u, u', h1, h2, h3, h4, fun x hx => ?_⟩
    have := dirichlet_compare (v := fun _ => 0) (v' := fun _ => 0) (v'' := fun _ => 0) h1 h2 (fun x => hasDerivAt_const x 0) (fun x => hasDerivAt_const x 0) h3 h4 (δ := 1)
      (fun x hx => by rw [sub_zero]; exact T_abs_le k hx) hx
    rw [sub_zero] at this
    nlinarith [sq_nonneg x]
  · rw [if_neg h]
    obtain ⟨I, I', h1, h2, h3, h4, h5⟩ := T_green (k - 3)
    rw [show k - 3 + 3 = k by omega] at h2
    exact ⟨I, I', h1, h2, h3, h4, h5⟩

theorem greenBound_nonneg (k : ℕ) : 0 ≤ greenBound k := by
  obtain ⟨I, I', h1, h2, h3, h4, h5⟩ := T_green_all k
  exact (abs_nonneg _).trans (h5 0 (by norm_num))

theorem greenBound_sum (N : ℕ) : ∑ k ∈ range N, (if k = 0 then 1 else 2) * greenBound k ≤ 55 / 12 := by
  have h : ∀ M, ∑ k ∈ range (M + 3), (if k = 0 then 1 else 2) * greenBound k ≤ 55 / 12 := fun M => by
    rw [sum_range_succ', sum_range_succ', sum_range_succ']
    have e : ∀ k : ℕ, (if k + 1 + 1 + 1 = 0 then (1 : ℝ) else 2) * greenBound (k + 1 + 1 + 1) = 2 * ((1 / ((k : ℝ) + 1) - 1 / (k + 5)) / 2) := fun k => by
      rw [if_neg (by omega)]
      unfold greenBound
      rw [if_neg (by omega), show k + 1 + 1 + 1 - 3 = k by omega]
    rw [sum_congr rfl fun k _ => e k, ← mul_sum]
    have := green_sum M
    have g0 : greenBound (0 + 1 + 1) = 1 / 2 := by norm_num [greenBound]
    have g1 : greenBound (0 + 1) = 1 / 2 := by norm_num [greenBound]
    have g2 : greenBound 0 = 1 / 2 := by norm_num [greenBound]
    rw [g0, g1, g2, if_neg (by omega), if_neg (by omega), if_pos rfl]
    linarith
  refine (sum_le_sum_of_subset_of_nonneg (range_mono (show N ≤ N + 3 by omega)) fun k _ _ => ?_).trans (h N)
  exact mul_nonneg (by split_ifs <;> norm_num) (greenBound_nonneg k)

/-- A polynomial of degree less than `N` with zero end values is bounded by the mean absolute value of the samples of its second derivative at the `N` midpoint angles. -/
theorem dirichlet_mean {N : ℕ} (hN : 0 < N) {u u' q : ℝ → ℝ} (h1 : ∀ x, HasDerivAt u (u' x) x) (h2 : ∀ x, HasDerivAt u' (q x) x) (hl : u (-1) = 0) (hr : u 1 = 0) (hq : IsPoly N q) {x : ℝ}
    (hx : x ∈ Set.Icc (-1 : ℝ) 1) : |u x| ≤ 55 / 12 * ((∑ j ∈ range N, |q (-cos (((j : ℝ) + 1 / 2) * (π / N)))|) / N) := by
  obtain ⟨a, ha⟩ := hq.isCos (K := N - 1) (by omega)
  rw [show N - 1 + 1 = N by omega] at ha
  choose I I' i1 i2 i3 i4 i5 using T_green_all
  set M := (∑ j ∈ range N, |q (-cos (((j : ℝ) + 1 / 2) * (π / N)))|) / (N : ℝ) with hM
  have hM0 : 0 ≤ M := by positivity
  have hqT : ∀ y ∈ Set.Icc (-1 : ℝ) 1, q y = ∑ k ∈ range N, a k * (Polynomial.Chebyshev.T ℝ (k : ℤ)).eval (-y) := fun y hy => by
    obtain ⟨θ, e⟩ : ∃ θ, cos θ = -y := ⟨arccos (-y), cos_arccos (by linarith [hy.2]) (by linarith [hy.1])⟩
    have : q (-cos θ) = ∑ k ∈ range N, a k * cos (k * θ) := ha θ
    rw [e, neg_neg] at this
    rw [this]
    refine sum_congr rfl fun k _ => ?_
    rw [← e, Polynomial.Chebyshev.T_real_cos]
    simp
  have hu : ∀ y ∈ Set.Icc (-1 : ℝ) 1, |u y - ∑ k ∈ range N, a k * I k (-y)| ≤ 0 * (1 - y ^ 2) / 2 := fun y hy => by
    refine dirichlet_compare (v := fun y => ∑ k ∈ range N, a k * I k (-y)) (v' := fun y => ∑ k ∈ range N, a k * -(I' k (-y)))
      (v'' := fun y => ∑ k ∈ range N, a k * (Polynomial.Chebyshev.T ℝ (k : ℤ)).eval (-y)) h1 h2 (fun y => ?_) (fun y => ?_) ?_ ?_ (fun y hy => by rw [hqT y hy, sub_self, abs_zero]) hy
    · refine HasDerivAt.fun_sum fun k _ => HasDerivAt.const_mul (a k) ?_
      exact ((i1 k (-y)).scomp y (hasDerivAt_neg y)).congr_deriv (by simp)
    · refine HasDerivAt.fun_sum fun k _ => HasDerivAt.const_mul (a k) ?_
      exact (((i2 k (-y)).scomp y (hasDerivAt_neg y)).neg).congr_deriv (by simp)
    · rw [hl]; simp [i4]
    · rw [hr]; simp [i3]
  have hux : u x = ∑ k ∈ range N, a k * I k (-x) := by
    have := hu x hx
    simp only [zero_mul, zero_div] at this
    exact sub_eq_zero.1 (abs_nonpos_iff.1 this)
  have hak : ∀ k ∈ range N, |a k| ≤ (if k = 0 then 1 else 2) * M := fun k hk => by
    have := coef_mid_bound a (mem_range.1 hk)
    simp only [← ha] at this
    exact this
  rw [hux]
  calc _ ≤ ∑ k ∈ range N, M * ((if k = 0 then 1 else 2) * greenBound k) := (abs_sum_le_sum_abs _ _).trans (sum_le_sum fun k hk => by
        rw [abs_mul, ← mul_assoc, mul_comm M]
        exact mul_le_mul (hak k hk) (i5 k _ ⟨by linarith [hx.2], by linarith [hx.1]⟩) (abs_nonneg _) ((abs_nonneg _).trans (hak k hk)))
    _ = M * ∑ k ∈ range N, (if k = 0 then 1 else 2) * greenBound k := by rw [mul_sum]
    _ ≤ M * (55 / 12) := mul_le_mul_of_nonneg_left (greenBound_sum N) hM0
    _ = _ := mul_comm _ _

theorem lap_dual_data_zero (n : ℕ) (hn : 2 ≤ n) (h927 : n ≤ 927) {d : List ℝ} (h : dirichletData (Chebyshev.make n) (fun _ => 0) = .ok d) : d = List.replicate (n - 1) 0 := by
  have hv : validSize .chebyshev n := hn
  have hF : Factor (Chebyshev.make n) := grid_factor .chebyshev n hv (-1) 1
  have hS : Stars (Chebyshev.make n) := grid_stars .chebyshev n hv (fun _ => h927) (-1) 1
  obtain ⟨δ, η, δ', η', g1, g2, g3, g4, e1, e2, e3, e4, e⟩ := lap_maps hF hS false
  simp only [Bool.not_false] at g1 g2 g3 g4 e1 e2 e3 e4 e
  have N10 : (Chebyshev.make n).N 1 false = n := (Chebyshev.isInterval hn (-1) 1).N10
  have N11 : (Chebyshev.make n).N 1 true = n - 1 := (Chebyshev.isInterval hn (-1) 1).N11
  have hb : (Chebyshev.make n).boundary_condition (fun _ => 0) = List.replicate ((Chebyshev.make n).N 1 false) 0 := by
    rw [N10]
    have e0 : (Chebyshev.make n).n = n := rfl
    unfold Grid1.boundary_condition
    rw [e0, neg_zero]
    refine List.ext_getElem (by simp) fun i h1 h2 => ?_
    simp [List.getElem_set]
  have h1 := e2 _ (List.length_replicate (n := (Chebyshev.make n).N 1 false) (a := (0 : ℝ)))
  rw [← hb] at h1
  have h2 := e3 _ (g2.len _ (List.length_replicate (n := (Chebyshev.make n).N 1 false) (a := (0 : ℝ))))
  have h3 := e4 _ (g3.len _ (g2.len _ (List.length_replicate (n := (Chebyshev.make n).N 1 false) (a := (0 : ℝ)))))
  rw [← hb] at h2 h3
  have := dirichletData_of h1 h2 h3
  rw [h] at this
  rw [Except.ok.inj this, hb, G2.lin_zero g2, G2.lin_zero g3, G2.lin_zero g4]
  congr 1

/-- **C109** (stability, Dirichlet): every array on the dual vertices is bounded by `55/12` times the mean absolute value of its Laplacian, whatever the size of the grid. -/
theorem C109_dirichlet_stability (n : ℕ) (hn : 2 ≤ n) (h927 : n ≤ 927) (z r : List ℝ) (hz : z.length = n - 1) (h : (Chebyshev.make n).laplacian false z = .ok r) (i : ℕ) (hi : i < n - 1) :
    |z.getD i 0| ≤ 55 / 12 * ((r.map (|·|)).sum / (n - 1 : ℕ)) := by
  have hv : validSize .chebyshev n := hn
  have hN : (grid₀ .chebyshev n).N 0 false = n - 1 := (Chebyshev.isInterval hn (-1) 1).N00
  have hr : r.length = n - 1 := by
    obtain ⟨L, hL, eL⟩ := lap_elin (grid_factor .chebyshev n hv (-1) 1) (grid_stars .chebyshev n hv (fun _ => h927) (-1) 1) false
    have e := eL z hz
    rw [show (grid .chebyshev n (-1) 1).laplacian false z = .ok r from h] at e
    rw [Except.ok.inj e]
    exact hL.len _ hz
  obtain ⟨u, u', q, g1, g2, g3, g4, g5, g6, d, g7, g8⟩ := C109_dirichlet_function n hn h927 (fun _ => 0) r hr
  have hd := lap_dual_data_zero n hn h927 g7
  have hz2 : z = (Chebyshev.make n).P 0 false u := by
    refine (g8 z hz).1 ?_
    rw [h, hd]
    congr 1
    rw [eq_tab' hr 0, replicate_tab, vsub_tab]
    exact tab_congr fun i _ => (sub_zero _).symm
  have hq : IsPoly (n - 1) q := isPoly_deriv (isPoly_deriv g1 g2) g3
  have hq2 : (Chebyshev.make n).P 0 false q = r := by
    obtain ⟨q', h1, h2, h3⟩ := C70_reconstruction_determined .chebyshev n hv 0 false r hr
    rw [← h2]
    have hl : ∀ q, ((Chebyshev.make n).P 0 false q).length = n - 1 := fun q => C11_projection .chebyshev n hv (-1) 1 0 false q
    have e : (Chebyshev.make n).P 0 false q = (Chebyshev.make n).P 0 false q' := by
      rw [eq_tab' (hl q) 0, eq_tab' (hl q') 0]
      refine tab_congr fun j hj => ?_
      rw [← hN] at hj
      rw [cheb_P0_getD n hn false q hj, cheb_P0_getD n hn false q' hj]
      have hx := cheb_vx_in n hn false hj
      exact Option.some.inj ((g6 _ hx).symm.trans (h3 _ hx))
    exact e
  have hmean := dirichlet_mean (N := n - 1) (by omega) g2 g3 g4 g5 hq (x := ((Chebyshev.make n).cells.v false).getD i 0) (cheb_vx_in n hn false (by rw [hN]; exact hi))
  rw [hz2, cheb_P0_getD n hn false u (by rw [hN]; exact hi)]
  refine hmean.trans (le_of_eq ?_)
  congr 2
  have hI := Chebyshev.isInterval hn (-1) 1
  have hP : (Chebyshev.make n).P 0 false q = tab (n - 1) fun j => q (Chebyshev.pt (-1) 1 (((j : ℝ) + 1 / 2) * (π / ((n - 1 : ℕ) : ℝ)))) := hI.P0d q
  rw [← hq2, hP, map_tab, sum_tab]
  refine sum_congr rfl fun j _ => ?_
  congr 2
  unfold Chebyshev.pt
  ring

/-- The theorem is not vacuous: the matrix is regular, so every right-hand side has a solution. -/
example : ∃ z : List ℝ, z.length = 4 ∧ (Chebyshev.make 5).laplacian false z = .ok [1, -2, 3, 4] := by
  obtain ⟨x, ⟨h1, h2⟩, -⟩ := C67_dirichlet_bijective .chebyshev 5 (show 2 ≤ 5 by norm_num) (fun _ => by norm_num) (-1) 1 (by norm_num) [1, -2, 3, 4] rfl
  exact ⟨x, h1, h2⟩

end Dec.Props
