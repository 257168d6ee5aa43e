import Verif.Lib.Proj2
import Verif.Lib.Triangle
import Verif.Spec
import Mathlib.Analysis.Calculus.ContDiff.Basic

set_option linter.unusedSimpArgs false
set_option linter.unusedVariables false

/-! # C27: on product grids projection turns the exterior derivative into the discrete derivative -/

namespace Dec.Props

open Finset Real Dec.G2 Integrate

section calculus
variable {f g : ℝ → ℝ → ℝ}

theorem _root_.Dec.Smooth2.hasDerivAt_x (hf : Smooth2 f) (x y : ℝ) : HasDerivAt (fun s => f s y) (fderiv ℝ (fun p : ℝ × ℝ => f p.1 p.2) (x, y) (1, 0)) x := by
  have h2 := (hasDerivAt_id x).prodMk (hasDerivAt_const x y)
  exact ((hf.differentiable one_ne_zero) (x, y)).hasFDerivAt.comp_hasDerivAt x h2

theorem _root_.Dec.Smooth2.hasDerivAt_y (hf : Smooth2 f) (x y : ℝ) : HasDerivAt (fun s => f x s) (fderiv ℝ (fun p : ℝ × ℝ => f p.1 p.2) (x, y) (0, 1)) y := by
  have h2 := (hasDerivAt_const y x).prodMk (hasDerivAt_id y)
  exact ((hf.differentiable one_ne_zero) (x, y)).hasFDerivAt.comp_hasDerivAt y h2

theorem _root_.Dec.Smooth2.dX_eq (hf : Smooth2 f) (x y : ℝ) : dX f x y = fderiv ℝ (fun p : ℝ × ℝ => f p.1 p.2) (x, y) (1, 0) := (hf.hasDerivAt_x x y).deriv
theorem _root_.Dec.Smooth2.dY_eq (hf : Smooth2 f) (x y : ℝ) : dY f x y = fderiv ℝ (fun p : ℝ × ℝ => f p.1 p.2) (x, y) (0, 1) := (hf.hasDerivAt_y x y).deriv

theorem _root_.Dec.Smooth2.dX (hf : Smooth2 f) (x y : ℝ) : HasDerivAt (fun s => f s y) (Dec.dX f x y) x := (hf.hasDerivAt_x x y).congr_deriv (hf.dX_eq x y).symm
theorem _root_.Dec.Smooth2.dY (hf : Smooth2 f) (x y : ℝ) : HasDerivAt (fun s => f x s) (Dec.dY f x y) y := (hf.hasDerivAt_y x y).congr_deriv (hf.dY_eq x y).symm

theorem _root_.Dec.Smooth2.cont_dX (hf : Smooth2 f) : Continuous fun p : ℝ × ℝ => Dec.dX f p.1 p.2 := by
  have : (fun p : ℝ × ℝ => Dec.dX f p.1 p.2) = fun p => fderiv ℝ (fun p : ℝ × ℝ => f p.1 p.2) p (1, 0) := by funext p; exact hf.dX_eq p.1 p.2
  rw [this]; exact (hf.continuous_fderiv one_ne_zero).clm_apply continuous_const
theorem _root_.Dec.Smooth2.cont_dY (hf : Smooth2 f) : Continuous fun p : ℝ × ℝ => Dec.dY f p.1 p.2 := by
  have : (fun p : ℝ × ℝ => Dec.dY f p.1 p.2) = fun p => fderiv ℝ (fun p : ℝ × ℝ => f p.1 p.2) p (0, 1) := by funext p; exact hf.dY_eq p.1 p.2
  rw [this]; exact (hf.continuous_fderiv one_ne_zero).clm_apply continuous_const

theorem cont_x {h : ℝ → ℝ → ℝ} (hh : Continuous fun p : ℝ × ℝ => h p.1 p.2) (y : ℝ) : Continuous fun x => h x y :=
  hh.comp (continuous_id.prodMk continuous_const)
theorem cont_y {h : ℝ → ℝ → ℝ} (hh : Continuous fun p : ℝ × ℝ => h p.1 p.2) (x : ℝ) : Continuous fun y => h x y :=
  hh.comp (continuous_const.prodMk continuous_id)

/-- Integral of the `x`-derivative along a horizontal edge. -/
theorem ftc_x (hf : Smooth2 f) (a b y : ℝ) : P1x (Dec.dX f) a b y = f b y - f a y :=
  intervalIntegral.integral_eq_sub_of_hasDerivAt (fun x _ => hf.dX x y) ((cont_x hf.cont_dX y).intervalIntegrable _ _)

theorem ftc_y (hf : Smooth2 f) (x a b : ℝ) : P1y (Dec.dY f) x a b = f x b - f x a :=
  intervalIntegral.integral_eq_sub_of_hasDerivAt (fun y _ => hf.dY x y) ((cont_y hf.cont_dY x).intervalIntegrable _ _)

/-- Green's theorem on a rectangle. -/
theorem green (hf : Smooth2 f) (hg : Smooth2 g) (a b c d : ℝ) :
    P2r (fun x y => Dec.dX g x y - Dec.dY f x y) a c b d = -(P1x f a b d - P1x f a b c) + (P1y g b c d - P1y g a c d) := by
  have hcf : Continuous fun p : ℝ × ℝ => f p.1 p.2 := hf.continuous
  have hcg : Continuous fun p : ℝ × ℝ => g p.1 p.2 := hg.continuous
  have hpar : ∀ h : ℝ → ℝ → ℝ, (Continuous fun p : ℝ × ℝ => h p.1 p.2) → Continuous fun x => ∫ y in c..d, h x y := fun h hh =>
    intervalIntegral.continuous_parametric_intervalIntegral_of_continuous' (by simpa [Function.uncurry_def] using hh) c d
  unfold P2r
  have e1 : ∀ x, (∫ y in c..d, Dec.dX g x y - Dec.dY f x y) = (∫ y in c..d, Dec.dX g x y) - ∫ y in c..d, Dec.dY f x y := fun x =>
    intervalIntegral.integral_sub ((cont_y hg.cont_dX x).intervalIntegrable _ _) ((cont_y hf.cont_dY x).intervalIntegrable _ _)
  simp only [e1]
  rw [intervalIntegral.integral_sub ((hpar _ hg.cont_dX).intervalIntegrable _ _) ((hpar _ hf.cont_dY).intervalIntegrable _ _),
    Triangle.rect_swap _ _ _ _ _ hg.cont_dX]
  have e2 : ∀ x, (∫ y in c..d, Dec.dY f x y) = f x d - f x c := fun x => ftc_y hf x c d
  have e3 : ∀ y, (∫ x in a..b, Dec.dX g x y) = g b y - g a y := fun y => ftc_x hg a b y
  simp only [e2, e3]
  rw [intervalIntegral.integral_sub ((cont_y hcg b).intervalIntegrable _ _) ((cont_y hcg a).intervalIntegrable _ _),
    intervalIntegral.integral_sub ((cont_x hcf d).intervalIntegrable _ _) ((cont_x hcf c).intervalIntegrable _ _)]
  unfold P1x P1y
  ring
end calculus

/-- On a periodic axis the functions are periodic along this axis. -/
def PeriodicX (k : Kind) (a b : ℝ) (f : ℝ → ℝ → ℝ) : Prop := k = .periodic → ∀ y, Function.Periodic (fun x => f x y) (b - a)
/-- The same for the second axis. -/
def PeriodicY (k : Kind) (a b : ℝ) (f : ℝ → ℝ → ℝ) : Prop := k = .periodic → ∀ x, Function.Periodic (fun y => f x y) (b - a)

theorem periodic_ends {F : ℝ → ℝ} {a b : ℝ} (h : Function.Periodic F (b - a)) : F a = F b := by
  have := h a; rw [add_sub_cancel] at this; exact this.symm

section
variable (k k' : Kind) (n n' : ℕ) (hn : validSize k n) (hn' : validSize k' n') (a b a' b' : ℝ) (hab : a < b) (hab' : a' < b')
include hn hn' hab hab'

/-- **C27**, primal 0-forms: `D (P f) = P (df)`. -/
theorem C27_primal_0 (f : ℝ → ℝ → ℝ) (hf : Smooth2 f) (hp : PeriodicX k a b f) (hp' : PeriodicY k' a' b' f) :
    ((product (grid k n a b) (grid k' n' a' b')).P 0 true [f] >>= (product (grid k n a b) (grid k' n' a' b')).D 0 true)
      = (product (grid k n a b) (grid k' n' a' b')).P 1 true [dX f, dY f] := by
  have hx := grid_factor k n hn a b
  have hy := grid_factor k' n' hn' a' b'
  rw [P0_mtab hx hy, P1_mtab hx hy]
  simp only [Bind.bind, Except.bind]
  rw [D0_mtab hx hy true (fun j _ => grid_primal k n hn hab (fun x => f x (vx (grid k' n' a' b') true j)) fun h => periodic_ends (hp h _))
    (fun i _ => grid_primal k' n' hn' hab' (fun y => f (vx (grid k n a b) true i) y) fun h => periodic_ends (hp' h _))]
  simp only [ftc_x hf, ftc_y hf]

/-- **C27**, dual 0-forms: `D (P f) + BC f = P (df)`. -/
theorem C27_dual_0 (f : ℝ → ℝ → ℝ) (hf : Smooth2 f) (hp : PeriodicX k a b f) (hp' : PeriodicY k' a' b' f) :
    ∃ u v, ((product (grid k n a b) (grid k' n' a' b')).P 0 false [f] >>= (product (grid k n a b) (grid k' n' a' b')).D 0 false) = .ok u ∧
      (product (grid k n a b) (grid k' n' a' b')).BC 1 [f] = .ok v ∧
      (product (grid k n a b) (grid k' n' a' b')).P 1 false [dX f, dY f] = .ok (vadd u v) ∧ u.length = v.length := by
  have hx := grid_factor k n hn a b
  have hy := grid_factor k' n' hn' a' b'
  have hD := D0_mtab hx hy false (fun j _ => grid_dual k n hn hab (fun x => f x (vx (grid k' n' a' b') false j)) fun h => hp h _)
      (fun i _ => grid_dual k' n' hn' hab' (fun y => f (vx (grid k n a b) false i) y) fun h => hp' h _)
  refine ⟨_, _, (congrArg (· >>= _) (P0_mtab hx hy false f)).trans hD, BC1_mtab hx hy f, ?_, by simp only [List.length_append, length_data]⟩
  · rw [P1_mtab hx hy]
    unfold vadd
    rw [List.zipWith_append (by rw [length_data, length_data])]
    simp only [mtab, zipWith_tab, sub_add_cancel, ftc_x hf, ftc_y hf]

/-- **C27**, primal 1-forms `f dx + g dy`: `D (P (f, g)) = P (∂x g - ∂y f)`. -/
theorem C27_primal_1 (f g : ℝ → ℝ → ℝ) (hf : Smooth2 f) (hg : Smooth2 g) (hp : PeriodicX k a b g) (hp' : PeriodicY k' a' b' f) :
    ((product (grid k n a b) (grid k' n' a' b')).P 1 true [f, g] >>= (product (grid k n a b) (grid k' n' a' b')).D 1 true)
      = (product (grid k n a b) (grid k' n' a' b')).P 2 true [fun x y => dX g x y - dY f x y] := by
  have hx := grid_factor k n hn a b
  have hy := grid_factor k' n' hn' a' b'
  rw [P1_mtab hx hy, P2_mtab hx hy]
  simp only [Bind.bind, Except.bind]
  rw [D1_mtab hx hy true
    (fun i _ => grid_primal k' n' hn' hab' (fun y => P1x f (lo (grid k n a b) true i) (hi (grid k n a b) true i) y) fun h => by
      unfold P1x; simp only [periodic_ends (hp' h _)])
    (fun j _ => grid_primal k n hn hab (fun x => P1y g x (lo (grid k' n' a' b') true j) (hi (grid k' n' a' b') true j)) fun h => by
      unfold P1y; exact intervalIntegral.integral_congr fun y _ => periodic_ends (hp h y))]
  simp only [green hf hg]

/-- **C27**, dual 1-forms: `D (P (f, g)) + BC (f, g) = P (∂x g - ∂y f)`. -/
theorem C27_dual_1 (f g : ℝ → ℝ → ℝ) (hf : Smooth2 f) (hg : Smooth2 g) (hp : PeriodicX k a b g) (hp' : PeriodicY k' a' b' f) :
    ∃ u v, ((product (grid k n a b) (grid k' n' a' b')).P 1 false [f, g] >>= (product (grid k n a b) (grid k' n' a' b')).D 1 false) = .ok u ∧
      (product (grid k n a b) (grid k' n' a' b')).BC 2 [f, g] = .ok v ∧
      (product (grid k n a b) (grid k' n' a' b')).P 2 false [fun x y => dX g x y - dY f x y] = .ok (vadd u v) ∧ u.length = v.length := by
  have hx := grid_factor k n hn a b
  have hy := grid_factor k' n' hn' a' b'
  have hD := D1_mtab hx hy false
      (fun i _ => grid_dual k' n' hn' hab' (fun y => P1x f (lo (grid k n a b) false i) (hi (grid k n a b) false i) y) fun h y => by
        unfold P1x; exact intervalIntegral.integral_congr fun x _ => hp' h x y)
      (fun j _ => grid_dual k n hn hab (fun x => P1y g x (lo (grid k' n' a' b') false j) (hi (grid k' n' a' b') false j)) fun h x => by
        unfold P1y; exact intervalIntegral.integral_congr fun y _ => hp h y x)
  refine ⟨_, _, (congrArg (· >>= _) (P1_mtab hx hy false f g)).trans hD, BC2_mtab hx hy f g, ?_, by simp only [length_data]⟩
  · rw [P2_mtab hx hy]
    unfold vadd
    simp only [mtab, zipWith_tab, green hf hg]
    refine congrArg _ (tab_congr fun p _ => ?_)
    ring
end

/-- On a periodic grid with its default length the boundary term is zero when both axes are periodic. -/
theorem C27_periodic_no_boundary (n n' : ℕ) (hn : 1 ≤ n) (hn' : 1 ≤ n') (a b a' b' : ℝ) (hab : a < b) (hab' : a' < b') (f g : ℝ → ℝ → ℝ) :
    ∃ v w, (product (grid .periodic n a b) (grid .periodic n' a' b')).BC 1 [f] = .ok v ∧ (∀ z ∈ v, z = 0) ∧
      (product (grid .periodic n a b) (grid .periodic n' a' b')).BC 2 [f, g] = .ok w ∧ (∀ z ∈ w, z = 0) := by
  have hx := grid_factor .periodic n hn a b
  have hy := grid_factor .periodic n' hn' a' b'
  have hz : ∀ (r c : ℕ) (K : ℕ → ℕ → ℝ), (∀ j < r, ∀ i < c, K j i = 0) → ∀ z ∈ (mtab r c K).data, z = 0 := fun r c K h z hz => by
    rw [mtab_congr (g := fun _ _ => 0) h] at hz
    simp only [mtab, tab, List.mem_map] at hz
    obtain ⟨_, _, rfl⟩ := hz; rfl
  refine ⟨_, _, BC1_mtab hx hy f, fun z h => ?_, BC2_mtab hx hy f g, hz _ _ _ fun j hj i hi => ?_⟩
  · rcases List.mem_append.mp h with h | h
    · exact hz _ _ _ (fun j hj i hi => periodic_beta hn hab _ hi) z h
    · exact hz _ _ _ (fun j hj i hi => periodic_beta hn' hab' _ hj) z h
  · have e1 : ∀ F, beta (grid .periodic n a b) F i = 0 := fun F => periodic_beta hn hab F hi
    have e2 : ∀ F, beta (grid .periodic n' a' b') F j = 0 := fun F => periodic_beta hn' hab' F hj
    rw [e1, e2]; simp

/-- The hypotheses of C27 are met by `f x y = sin x * y` on a periodic grid times a Chebyshev grid. -/
example : Smooth2 (fun x y => sin x * y) ∧ PeriodicX .periodic 0 (2 * π) (fun x y => sin x * y) ∧ PeriodicY .chebyshev (-1) 1 (fun x y => sin x * y) := by
  refine ⟨?_, fun _ y x => ?_, fun h => by cases h⟩
  · unfold Smooth2; fun_prop
  · simp [Real.sin_add_two_pi]

end Dec.Props
