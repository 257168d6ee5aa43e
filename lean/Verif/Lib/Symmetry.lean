import Verif.Props.StarMatrix

set_option linter.unusedSimpArgs false
set_option linter.unusedVariables false

/-! Isometries of a one-dimensional grid act on arrays. -/

namespace Dec

open Finset Real G2 Sp

/-- The sign with which an array of `d`-form coefficients is multiplied. -/
def sgn (σ : ℝ) (d : Fin 2) : ℝ := if d = 0 then 1 else σ

/-- Move the entries of an array: entry `i` is taken from position `ι i`, times the sign. -/
def moveArr (N : ℕ) (s : ℝ) (ι : ℕ → ℕ) (a : List ℝ) : List ℝ := tab N fun i => s * a.getD (ι i) 0

@[simp] theorem length_moveArr (N : ℕ) (s : ℝ) (ι : ℕ → ℕ) (a : List ℝ) : (moveArr N s ι a).length = N := by simp [moveArr]

/-- The pull-back of `d`-forms along `x ↦ c + σ x`. -/
def pullBack (σ c : ℝ) (d : Fin 2) (f : ℝ → ℝ) : ℝ → ℝ := fun x => sgn σ d * f (c + σ * x)

/-- `x ↦ c + σ x` maps the cells of `g` to each other: cell `i` to cell `ι d t i`, as far as functions of the class `Q` can tell. -/
structure Isometry (g : Grid1) (V : Fin 2 → Bool → (ℝ → ℝ) → Prop) (Q : (ℝ → ℝ) → Prop) (σ c : ℝ) (ι : Fin 2 → Bool → ℕ → ℕ) : Prop where
  sign : σ = 1 ∨ σ = -1
  lt : ∀ d t i, i < g.N d t → ι d t i < g.N d t
  sub : ∀ d t f, V d t f → Q f
  pull : ∀ d t f, V d t f → V d t fun x => f (c + σ * x)
  v : ∀ f, Q f → ∀ t, ∀ i < g.N 0 t, f (c + σ * vx g t i) = f (vx g t (ι 0 t i))
  e : ∀ f, Q f → ∀ t, ∀ i < g.N 1 t, (∫ x in (lo g t i)..(hi g t i), f (c + σ * x)) = ∫ x in (lo g t (ι 1 t i))..(hi g t (ι 1 t i)), f x

namespace Isometry

variable {g : Grid1} {V : Fin 2 → Bool → (ℝ → ℝ) → Prop} {Q : (ℝ → ℝ) → Prop} {σ c : ℝ} {ι : Fin 2 → Bool → ℕ → ℕ} {dom : Fin 2 → Bool → Set ℝ}

/-- Projecting the pulled-back function is moving the coefficients. -/
theorem P (h : Isometry g V Q σ c ι) (hF : Factor g) (d : Fin 2) (t : Bool) (f : ℝ → ℝ) (hf : Q f) :
    g.P d t (pullBack σ c d f) = moveArr (g.N d t) (sgn σ d) (ι d t) (g.P d t f) := by
  unfold moveArr
  obtain rfl | rfl : d = 0 ∨ d = 1 := by omega
  · rw [P0_tab hF, P0_tab hF]
    refine tab_congr fun i hi => ?_
    rw [getD_tab (h.lt 0 t i hi)]
    unfold pullBack
    rw [h.v f hf t i hi]
  · rw [P1_tab hF, P1_tab hF]
    refine tab_congr fun i hi => ?_
    rw [getD_tab (h.lt 1 t i hi)]
    unfold pullBack
    rw [intervalIntegral.integral_const_mul, h.e f hf t i hi]

theorem pullV (h : Isometry g V Q σ c ι) (s : Spans g V dom) (d : Fin 2) (t : Bool) (f : ℝ → ℝ) (hf : V d t f) : V d t (pullBack σ c d f) :=
  (s.space d t).smul _ _ (h.pull d t f hf)

/-- Every array is the projection of a function that can be pulled back. -/
theorem rep (h : Isometry g V Q σ c ι) (s : Spans g V dom) (d : Fin 2) (t : Bool) (a : List ℝ) (ha : a.length = g.N d t) :
    ∃ f, V d t f ∧ V d t (pullBack σ c d f) ∧ g.P d t f = a ∧ g.P d t (pullBack σ c d f) = moveArr (g.N d t) (sgn σ d) (ι d t) a := by
  obtain ⟨b, _, _, hr⟩ := Props.spans_reps s d t
  obtain ⟨h1, h2⟩ := hr a ha
  exact ⟨_, h1, h.pullV s d t _ h1, h2, by rw [h.P s.factor d t _ (h.sub d t _ h1), h2]⟩

theorem moveArr_smul (N : ℕ) (r s : ℝ) (ι : ℕ → ℕ) (a : List ℝ) : moveArr N (r * s) ι a = (moveArr N s ι a).map (r * ·) := by
  unfold moveArr
  rw [map_tab]
  exact tab_congr fun i _ => by ring

theorem sgn_star (h : σ = 1 ∨ σ = -1) (d : Fin 2) : sgn σ d = σ * sgn σ (1 - d) := by
  obtain rfl | rfl : d = 0 ∨ d = 1 := by omega
  · rw [show (1 - 0 : Fin 2) = 1 from rfl]
    unfold sgn
    rcases h with rfl | rfl <;> simp
  · rw [show (1 - 1 : Fin 2) = 0 from rfl]
    unfold sgn; simp

/-- The star commutes with orientation-preserving isometries and anticommutes with the others. -/
theorem H (h : Isometry g V Q σ c ι) (s : Spans g V dom) (d : Fin 2) (t : Bool)
    (hH : ∀ f, V d t f → g.H d t (g.P d t f) = .ok (g.P (1 - d) (!t) f)) (a : List ℝ) (ha : a.length = g.N d t) :
    g.H d t (moveArr (g.N d t) (sgn σ d) (ι d t) a)
      = (g.H d t a).map fun b => moveArr (g.N (1 - d) (!t)) (σ * sgn σ (1 - d)) (ι (1 - d) (!t)) b := by
  obtain ⟨f, h1, h2, rfl, h4⟩ := h.rep s d t a ha
  rw [← h4, hH _ h2, hH _ h1]
  show Except.ok _ = Except.ok _
  congr 1
  have e : pullBack σ c d f = fun x => σ * pullBack σ c (1 - d) f x := by
    funext x
    unfold pullBack
    rw [sgn_star h.sign d]; ring
  have hq : Q f := h.sub d t f h1
  beta_reduce
  rw [moveArr_smul, ← h.P s.factor (1 - d) (!t) f hq, e]
  generalize pullBack σ c (1 - d) f = u
  obtain rfl | rfl : d = 0 ∨ d = 1 := by omega
  · rw [show (1 - 0 : Fin 2) = 1 from rfl, P1_tab s.factor, P1_tab s.factor, map_tab]
    exact tab_congr fun i _ => intervalIntegral.integral_const_mul _ _
  · rw [show (1 - 1 : Fin 2) = 0 from rfl, P0_tab s.factor, P0_tab s.factor, map_tab]

/-- Reconstruction. -/
theorem R (h : Isometry g V Q σ c ι) (s : Spans g V dom) (d : Fin 2) (t : Bool) (a : List ℝ) (ha : a.length = g.N d t) (x : ℝ) (hx : x ∈ dom d t) (hx' : c + σ * x ∈ dom d t) :
    g.R d t (moveArr (g.N d t) (sgn σ d) (ι d t) a) x = (g.R d t a (c + σ * x)).map (sgn σ d * ·) := by
  obtain ⟨f, h1, h2, rfl, h4⟩ := h.rep s d t a ha
  rw [← h4, s.R_P d t h2 hx, s.R_P d t h1 hx']
  rfl

/-- Refinement. -/
theorem T (h : Isometry g V Q σ c ι) (s : Spans g V dom) {M : ℕ} {p : ℕ → ℝ} {κ : ℕ → ℕ} (hκ : ∀ i < M, κ i < M) (hp : ∀ f, Q f → ∀ i < M, f (c + σ * p i) = f (p (κ i)))
    (d : Fin 2) (t : Bool) (hT : ∀ f, V d t f → g.T d t (g.P d t f) = .ok (tab M fun i => f (p i))) (a : List ℝ) (ha : a.length = g.N d t) :
    ∃ b : List ℝ, b.length = M ∧ g.T d t a = .ok b ∧ g.T d t (moveArr (g.N d t) (sgn σ d) (ι d t) a) = .ok (moveArr M (sgn σ d) κ b) := by
  obtain ⟨f, h1, h2, rfl, h4⟩ := h.rep s d t a ha
  refine ⟨_, length_tab _ _, hT f h1, ?_⟩
  rw [← h4, hT _ h2]
  congr 1
  unfold moveArr
  refine tab_congr fun i hi => ?_
  rw [getD_tab (hκ i hi)]
  unfold pullBack
  rw [hp f (h.sub d t f h1) i hi]

end Isometry

theorem bop_mul_move {M : ℕ} {κ : ℕ → ℕ} (hκ : ∀ i < M, κ i < M) (r s : ℝ) (a b : List ℝ) (ha : a.length = M) (hb : b.length = M) :
    ∃ c : List ℝ, c.length = M ∧ bop (· * ·) a b = .ok c ∧ bop (· * ·) (moveArr M r κ a) (moveArr M s κ b) = .ok (moveArr M (r * s) κ c) := by
  refine ⟨tab M fun i => a.getD i 0 * b.getD i 0, length_tab _ _, ?_, ?_⟩
  · unfold bop
    rw [if_pos (by rw [ha, hb])]
    conv_lhs => rw [eq_tab' ha 0, eq_tab' hb 0]
    rw [zipWith_tab]
  · unfold bop
    rw [if_pos (by simp)]
    unfold moveArr
    rw [zipWith_tab]
    congr 1
    refine tab_congr fun i hi => ?_
    rw [getD_tab (hκ i hi)]; ring

end Dec
