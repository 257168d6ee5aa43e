import Verif.Props.PullBack
import Verif.Lib.Accuracy2

/-!
# C124 on product grids: pull-backs by affine maps of both coordinates
-/

namespace Dec.Props

open Real Dec.Sp Dec.G2 MeasureTheory

/-- The pull-back of a function of two variables along `(φ, ψ)`, with the factor `φ'` if `e = 1` and the factor `ψ'` if `e' = 1`. -/
noncomputable def pullback2 (a b c d a' b' c' d' : ℝ) (e e' : Fin 2) (F : ℝ → ℝ → ℝ) (x y : ℝ) : ℝ :=
  F (affine a b c d x) (affine a' b' c' d' y) * (if e = 0 then 1 else (d - c) / (b - a)) * (if e' = 0 then 1 else (d' - c') / (b' - a'))

/-- The pull-back of a form: `F`, `F dx + G dy`, `F dx ∧ dy`. -/
noncomputable def pullForm (a b c d a' b' c' d' : ℝ) (δ : Fin 3) (σ : List (ℝ → ℝ → ℝ)) : List (ℝ → ℝ → ℝ) :=
  match δ, σ with
  | 0, [F] => [pullback2 a b c d a' b' c' d' 0 0 F]
  | 1, [F, G] => [pullback2 a b c d a' b' c' d' 1 0 F, pullback2 a b c d a' b' c' d' 0 1 G]
  | 2, [F] => [pullback2 a b c d a' b' c' d' 1 1 F]
  | _, σ => σ

theorem minSize_of_valid {k : Kind} {n : ℕ} (h : validSize k n) : minSize k ≤ n := by cases k <;> exact h

theorem pe_pull (k : Kind) (n : ℕ) (hn : validSize k n) {a b c d : ℝ} (hab : a < b) (hcd : c < d) (e : Fin 2) (t : Bool) (f : ℝ → ℝ) {i : ℕ} (hi : i < (grid k n c d).N e t) :
    pe (grid k n a b) e t (pullback a b c d e f) i = pe (grid k n c d) e t f i := by
  have h := C124_projection k n (minSize_of_valid hn) hab hcd e t f
  rw [pe_tab (grid_factor k n hn a b), pe_tab (grid_factor k n hn c d)] at h
  have hN : (grid k n a b).N e t = (grid k n c d).N e t := by cases k <;> rfl
  have h1 := congrArg (fun l => l.getD i 0) h
  simp only [hN] at h1
  rwa [getD_tab hi, getD_tab hi] at h1

section
variable (k k' : Kind) (n n' : ℕ) (hn : validSize k n) (hn' : validSize k' n') {a b c d a' b' c' d' : ℝ} (hab : a < b) (hcd : c < d) (hab' : a' < b') (hcd' : c' < d')
include hn hn' hab hcd hab' hcd'

theorem pe2_pull (e e' : Fin 2) (t : Bool) (F : ℝ → ℝ → ℝ) {i j : ℕ} (hi : i < (grid k n c d).N e t) (hj : j < (grid k' n' c' d').N e' t) :
    pe2 (grid k n a b) (grid k' n' a' b') e e' t t (pullback2 a b c d a' b' c' d' e e' F) i j = pe2 (grid k n c d) (grid k' n' c' d') e e' t t F i j := by
  unfold pe2
  rw [← pe_pull k n hn hab hcd e t _ hi]
  congr 1
  funext x
  unfold pullback
  have key : ∀ u : ℝ, pe (grid k' n' a' b') e' t (fun y => F u (affine a' b' c' d' y) * (if e' = 0 then 1 else (d' - c') / (b' - a'))) j = pe (grid k' n' c' d') e' t (F u) j := by
    intro u
    rw [← pe_pull k' n' hn' hab' hcd' e' t _ hj]
    congr 1
    funext y
    unfold pullback
    split_ifs <;> simp
  have lin : ∀ (r : ℝ) (f : ℝ → ℝ), pe (grid k' n' a' b') e' t (fun y => f y * r) j = pe (grid k' n' a' b') e' t f j * r := by
    intro r f
    have hF := grid_factor k' n' hn' a' b'
    have hj' : j < (grid k' n' a' b').N e' t := by
      have : (grid k' n' a' b').N e' t = (grid k' n' c' d').N e' t := by cases k' <;> rfl
      rw [this]; exact hj
    obtain rfl | rfl : e' = 0 ∨ e' = 1 := by omega
    · rw [pe0 hF t _ hj', pe0 hF t _ hj']
    · rw [pe1 hF t _ hj', pe1 hF t _ hj', intervalIntegral.integral_mul_const]
  have e1 : pullback2 a b c d a' b' c' d' e e' F x
      = fun y => (F (affine a b c d x) (affine a' b' c' d' y) * (if e' = 0 then 1 else (d' - c') / (b' - a'))) * (if e = 0 then 1 else (d - c) / (b - a)) := by
    funext y; unfold pullback2; ring
  rw [e1, lin, key]
  split_ifs <;> simp

/-- **C124** (projections in two dimensions): the projection of the pull-back of a form is the projection of the form. -/
theorem C124_projection_2d (δ : Fin 3) (t : Bool) (σ : List (ℝ → ℝ → ℝ)) (hσ : σ.length = if δ = 1 then 2 else 1) :
    (product (grid k n a b) (grid k' n' a' b')).P δ t (pullForm a b c d a' b' c' d' δ σ) = (product (grid k n c d) (grid k' n' c' d')).P δ t σ := by
  have Fx := grid_factor k n hn a b
  have Fy := grid_factor k' n' hn' a' b'
  have Gx := grid_factor k n hn c d
  have Gy := grid_factor k' n' hn' c' d'
  have hNx : (grid k n a b).N = (grid k n c d).N := by cases k <;> rfl
  have hNy : (grid k' n' a' b').N = (grid k' n' c' d').N := by cases k' <;> rfl
  have key := fun (e e' : Fin 2) (F : ℝ → ℝ → ℝ) => mtab_congr (r := (grid k' n' c' d').N e' t) (c := (grid k n c d).N e t) fun j hj i hi =>
    pe2_pull k k' n n' hn hn' hab hcd hab' hcd' e e' t F hi hj
  obtain rfl | rfl | rfl : δ = 0 ∨ δ = 1 ∨ δ = 2 := by omega
  · match σ, hσ with
    | [F], _ =>
      show Grid2.P _ 0 t [_] = _
      rw [P0_pe2 Fx Fy, P0_pe2 Gx Gy, hNx, hNy, key]
  · match σ, hσ with
    | [F, G], _ =>
      show Grid2.P _ 1 t [_, _] = _
      rw [P1_pe2 Fx Fy, P1_pe2 Gx Gy, hNx, hNy, key, key]
  · match σ, hσ with
    | [F], _ =>
      show Grid2.P _ 2 t [_] = _
      rw [P2_pe2 Fx Fy, P2_pe2 Gx Gy, hNx, hNy, key]

omit hab hcd hab' hcd' in
/-- **C124** (operators in two dimensions): they are the same functions of arrays on all rectangles. -/
theorem C124_operators_2d (a b c d a' b' c' d' : ℝ) (δ : Fin 3) (t : Bool) :
    (product (grid k n a b) (grid k' n' a' b')).D δ t = (product (grid k n c d) (grid k' n' c' d')).D δ t ∧
    (product (grid k n a b) (grid k' n' a' b')).H δ t = (product (grid k n c d) (grid k' n' c' d')).H δ t ∧
    (product (grid k n a b) (grid k' n' a' b')).T δ t = (product (grid k n c d) (grid k' n' c' d')).T δ t ∧
    (product (grid k n a b) (grid k' n' a' b')).U δ t = (product (grid k n c d) (grid k' n' c' d')).U δ t := by
  have Fx := grid_factor k n hn a b
  have Fy := grid_factor k' n' hn' a' b'
  have Gx := grid_factor k n hn c d
  have Gy := grid_factor k' n' hn' c' d'
  have hs : (product (grid k n a b) (grid k' n' a' b')).shape δ t = (product (grid k n c d) (grid k' n' c' d')).shape δ t := by
    have hNx : (grid k n a b).N = (grid k n c d).N := by cases k <;> rfl
    have hNy : (grid k' n' a' b').N = (grid k' n' c' d').N := by cases k' <;> rfl
    obtain rfl | rfl | rfl : δ = 0 ∨ δ = 1 ∨ δ = 2 := by omega
    · rw [shape0 Fx Fy, shape0 Gx Gy, hNx, hNy]
    · rw [shape1 Fx Fy, shape1 Gx Gy, hNx, hNy]
    · rw [shape2 Fx Fy, shape2 Gx Gy, hNx, hNy]
  refine ⟨?_, ?_, ?_, ?_⟩
  · unfold Grid2.D Grid2.reshapeO
    funext f
    rw [hs]
    cases k <;> cases k' <;> rfl
  · unfold Grid2.H Grid2.reshapeO
    funext f
    rw [hs]
    cases k <;> cases k' <;> rfl
  · unfold Grid2.T
    funext f
    rw [hs]
    cases k <;> cases k' <;> rfl
  · unfold Grid2.U
    funext f
    cases k <;> cases k' <;> rfl

/-- **C124** (the pull-back is a homomorphism, in two dimensions): the wedge product of the pull-backs of two forms is the wedge product of the forms. -/
theorem C124_wedge_2d (p q : Fin 3) (s t u : Bool) (σ τ : List (ℝ → ℝ → ℝ)) (hσ : σ.length = if p = 1 then 2 else 1) (hτ : τ.length = if q = 1 then 2 else 1) (x y x' y' : List ℝ)
    (h1 : (product (grid k n a b) (grid k' n' a' b')).P p s (pullForm a b c d a' b' c' d' p σ) = .ok x)
    (h2 : (product (grid k n a b) (grid k' n' a' b')).P q t (pullForm a b c d a' b' c' d' q τ) = .ok y)
    (h3 : (product (grid k n c d) (grid k' n' c' d')).P p s σ = .ok x') (h4 : (product (grid k n c d) (grid k' n' c' d')).P q t τ = .ok y') :
    (product (grid k n a b) (grid k' n' a' b')).wedge p s q t u x y = (product (grid k n c d) (grid k' n' c' d')).wedge p s q t u x' y' := by
  rw [C124_projection_2d k k' n n' hn hn' hab hcd hab' hcd' p s σ hσ, h3] at h1
  rw [C124_projection_2d k k' n n' hn hn' hab hcd hab' hcd' q t τ hτ, h4] at h2
  obtain rfl := Except.ok.inj h1
  obtain rfl := Except.ok.inj h2
  have op := fun δ t => C124_operators_2d k k' n n' hn hn' a b c d a' b' c' d' δ t
  unfold Grid2.wedge
  rw [(op p s).2.2.1, (op q t).2.2.1]
  simp only [(op _ u).2.2.2]

end

/-- Rectangles that differ, and the pull-back of `x dy`. -/
example : pullForm 0 1 0 2 0 1 0 3 1 [fun _ _ => 0, fun x _ => x] = [fun _ _ => 0, fun x _ => 6 * x] ∧ (0 : ℝ) < 1 := by
  refine ⟨?_, one_pos⟩
  show [_, _] = [_, _]
  congr 2
  · funext x y; simp [pullback2]
  · funext x y
    simp [pullback2, affine]
    ring

end Dec.Props
