import Verif.Lib.SymmetryWedge
import Verif.Lib.Laplace

set_option linter.unusedSimpArgs false
set_option linter.unusedVariables false

/-! # C81: the operators respect the symmetries of the grids -/

namespace Dec.Props

open Finset Real G2 Sp

/-! ## Specification -/

/-- The coefficients of the mirror image of a discrete `d`-form (`t`: primal). The cells are numbered backwards; on the circle, the cells around the end of the
interval (vertices, dual edges) keep number 0. A 1-form changes sign, because its edges are traversed backwards. -/
def mirror (k : Kind) (d : Fin 2) (t : Bool) (a : List ℝ) : List ℝ :=
  let b := if k = .periodic ∧ (d = 0 ↔ t = true) then (a.rotate 1).reverse else a.reverse
  if d = 0 then b else b.map (-·)

/-- The mirror image of the values of a `d`-form at `g.points`. -/
def mirrorPoints (k : Kind) (d : Fin 2) (a : List ℝ) : List ℝ :=
  let b := if k = .periodic then (a.rotate 1).reverse else a.reverse
  if d = 0 then b else b.map (-·)

/-- The pull-back of the `d`-form with coefficient `f` along the reflection of `[xmin, xmax]`. -/
def reflected (xmin xmax : ℝ) (d : Fin 2) (f : ℝ → ℝ) (x : ℝ) : ℝ := (if d = 0 then 1 else -1) * f (xmin + xmax - x)

/-! ## The list operations in terms of indices -/

theorem rotate_move (j : ℕ) (a : List ℝ) {n : ℕ} (h : a.length = n) : a.rotate j = moveArr n 1 (fun i => (i + j) % n) a := by
  subst h
  unfold moveArr
  apply List.ext_getElem
  · simp
  · intro i h1 h2
    have : (i + j) % a.length < a.length := Nat.mod_lt _ (by rw [List.length_rotate] at h1; omega)
    rw [List.getElem_rotate, getElem_tab, one_mul, List.getD_eq_getElem?_getD, List.getElem?_eq_getElem this]; rfl

theorem rotate_reverse_move (a : List ℝ) {n : ℕ} (h : a.length = n) : (a.rotate 1).reverse = moveArr n 1 (fun i => (n - i) % n) a := by
  rw [rotate_move 1 a h]
  unfold moveArr
  rw [reverse_tab]
  refine tab_congr fun i hi => ?_
  show 1 * a.getD ((n - 1 - i + 1) % n) 0 = 1 * a.getD ((n - i) % n) 0
  rw [show n - 1 - i + 1 = n - i by omega]

theorem neg_move (N : ℕ) (s : ℝ) (ι : ℕ → ℕ) (a : List ℝ) : (moveArr N s ι a).map (-·) = moveArr N (-s) ι a := by
  unfold moveArr
  rw [map_tab]
  exact tab_congr fun i _ => by ring

theorem mirror_move (k : Kind) (n : ℕ) (d : Fin 2) (t : Bool) (a : List ℝ) (ha : a.length = (grid₀ k n).N d t) :
    mirror k d t a = moveArr ((grid₀ k n).N d t) (sgn (-1) d) (mirrorIdx k n d t) a := by
  have key : ∀ (ι : ℕ → ℕ) (b : List ℝ), b = moveArr ((grid₀ k n).N d t) 1 ι a → (if d = 0 then b else b.map (-·)) = moveArr ((grid₀ k n).N d t) (sgn (-1) d) ι a := by
    rintro ι b rfl
    unfold sgn
    split_ifs
    · rfl
    · exact neg_move _ _ _ _
  unfold mirror
  refine key _ _ ?_
  have hr := (moveArr_reverse a ha).symm
  cases k
  · by_cases h : (d = 0 ↔ t = true)
    · rw [if_pos ⟨rfl, h⟩, rotate_reverse_move a ha]
      have : mirrorIdx .periodic n d t = fun i => (n - i) % n := by
        funext i; show Periodic.flip n d t i = _; unfold Periodic.flip; rw [if_pos (propext h)]
      rw [this]; rfl
    · rw [if_neg fun hh => h hh.2, hr]
      have : mirrorIdx .periodic n d t = fun i => n - 1 - i := by
        funext i; show Periodic.flip n d t i = _; unfold Periodic.flip; rw [if_neg fun hh => h (iff_of_eq hh)]
      rw [this]; rfl
  · rw [if_neg (fun hh => by cases hh.1), hr]; rfl
  · rw [if_neg (fun hh => by cases hh.1), hr]; rfl

/-! ## Projection -/

theorem grid_factor_any (k : Kind) (n : ℕ) (hn : validSize k n) {a b : ℝ} (hab : a < b) : Factor (grid k n a b) := G2.grid_factor k n hn a b

theorem P_length (k : Kind) (n : ℕ) (hn : validSize k n) (a b : ℝ) (d : Fin 2) (t : Bool) (f : ℝ → ℝ) : ((grid k n a b).P d t f).length = (grid₀ k n).N d t := by
  have hF := G2.grid_factor k n hn a b
  rw [← grid_N k n a b]
  obtain rfl | rfl : d = 0 ∨ d = 1 := by omega
  · rw [P0_tab hF, length_tab]
  · rw [P1_tab hF, length_tab]

/-- **C81**: on every interval, the coefficients of the reflected form are the mirror image of the coefficients. (On the circle: for functions with the period of the
interval.) -/
theorem C81_mirror_projection (k : Kind) (n : ℕ) (hn : validSize k n) (xmin xmax : ℝ) (hab : xmin < xmax) (d : Fin 2) (t : Bool) (f : ℝ → ℝ)
    (hf : k = .periodic → Function.Periodic f (xmax - xmin)) :
    (grid k n xmin xmax).P d t (reflected xmin xmax d f) = mirror k d t ((grid k n xmin xmax).P d t f) := by
  have h := (mirror_isometry' k hn hab (V := fun _ _ _ => False) (fun _ _ _ h => h.elim) fun _ _ _ h => h.elim).P (G2.grid_factor k n hn _ _) d t f hf
  rw [mirror_move k n d t _ (P_length k n hn _ _ d t f), ← grid_N k n xmin xmax, ← h]
  congr 1
  funext x
  unfold reflected pullBack sgn
  congr 2; ring

/-- **C81**: moving a periodic function by `j` cells rotates its coefficients. -/
theorem C81_rotate_projection (n : ℕ) (hn : 1 ≤ n) (xmin xmax : ℝ) (hab : xmin < xmax) (j : ℕ) (d : Fin 2) (t : Bool) (f : ℝ → ℝ)
    (hf : Function.Periodic f (xmax - xmin)) :
    (Periodic.make n xmin xmax).P d t (fun x => f (x + j * ((xmax - xmin) / n))) = ((Periodic.make n xmin xmax).P d t f).rotate j := by
  have h := (Periodic.isometry_shift (V := fun _ _ _ => False) hn hab j (fun _ _ _ h => h.elim) fun _ _ _ h => h.elim).P (G2.grid_factor .periodic n hn _ _) d t f hf
  have hl : ((Periodic.make n xmin xmax).P d t f).length = n := P_length .periodic n hn xmin xmax d t f
  rw [rotate_move j _ hl]
  have e : sgn 1 d = 1 := by unfold sgn; split_ifs <;> rfl
  rw [e] at h
  refine Eq.trans ?_ h
  congr 1
  funext x
  unfold pullBack
  rw [e, one_mul, one_mul, add_comm]

/-! ## Derivative -/

theorem grid_D (k : Kind) (n : ℕ) (a b : ℝ) : (grid k n a b).D = (grid₀ k n).D := by cases k <;> rfl
theorem grid_H (k : Kind) (n : ℕ) (a b : ℝ) : (grid k n a b).H = (grid₀ k n).H := by cases k <;> rfl
theorem grid_T (k : Kind) (n : ℕ) (a b : ℝ) : (grid k n a b).T = (grid₀ k n).T := by cases k <;> rfl
theorem grid_U (k : Kind) (n : ℕ) (a b : ℝ) : (grid k n a b).U = (grid₀ k n).U := by cases k <;> rfl
theorem grid_W (k : Kind) (n : ℕ) (a b : ℝ) : (grid k n a b).W = (grid₀ k n).W := by cases k <;> rfl
theorem grid_C (k : Kind) (n : ℕ) (a b : ℝ) : (grid k n a b).C = (grid₀ k n).C := by cases k <;> rfl

theorem D_move (k : Kind) (n : ℕ) (hn : validSize k n) (t : Bool) (a : List ℝ) (ha : a.length = (grid₀ k n).N 0 t) :
    (grid₀ k n).D 0 t (moveArr ((grid₀ k n).N 0 t) 1 (mirrorIdx k n 0 t) a) = ((grid₀ k n).D 0 t a).map (moveArr ((grid₀ k n).N 1 t) (-1) (mirrorIdx k n 1 t)) := by
  cases k
  · exact flip_D hn t a ha
  · exact interval_D (Regular.isInterval hn 0 π) t a ha
  · exact interval_D (Chebyshev.isInterval hn (-1) 1) t a ha

theorem D_some (k : Kind) (n : ℕ) (hn : validSize k n) (t : Bool) (a : List ℝ) (ha : a.length = (grid₀ k n).N 0 t) :
    ∃ b : List ℝ, b.length = (grid₀ k n).N 1 t ∧ (grid₀ k n).D 0 t a = some b := by
  have hF := G2.grid_factor k n hn (end₀ k).1 (end₀ k).2
  rw [grid_end₀] at hF
  obtain ⟨L, hL, hd⟩ := hF.d t
  have hb := hd a ha
  refine ⟨L a, hL.len a ha, ?_⟩
  unfold Grid1.d0 at hb
  cases h : (grid₀ k n).D 0 t a with
  | none => rw [h] at hb; cases hb
  | some c => rw [h] at hb; cases hb; rfl

/-- **C81**: the derivative of the mirror image of any 0-form is the mirror image of its derivative. -/
theorem C81_mirror_derivative (k : Kind) (n : ℕ) (hn : validSize k n) (xmin xmax : ℝ) (t : Bool) (a : List ℝ) (ha : a.length = (grid k n xmin xmax).N 0 t) :
    (grid k n xmin xmax).D 0 t (mirror k 0 t a) = ((grid k n xmin xmax).D 0 t a).map (mirror k 1 t) := by
  rw [grid_N] at ha
  rw [grid_D, mirror_move k n 0 t a ha]
  obtain ⟨b, hb, e⟩ := D_some k n hn t a ha
  have h := D_move k n hn t a ha
  rw [e] at h ⊢
  refine h.trans ?_
  show some _ = some _
  rw [mirror_move k n 1 t b hb]; rfl

/-- **C81**: ... and the derivative of a rotated 0-form is its derivative, rotated. -/
theorem C81_rotate_derivative (n : ℕ) (hn : 1 ≤ n) (xmin xmax : ℝ) (j : ℕ) (t : Bool) (a : List ℝ) (ha : a.length = n) :
    (Periodic.make n xmin xmax).D 0 t (a.rotate j) = ((Periodic.make n xmin xmax).D 0 t a).map (·.rotate j) := by
  have h := shift_D hn j t a ha
  show (grid .periodic n xmin xmax).D 0 t _ = ((grid .periodic n xmin xmax).D 0 t a).map _
  rw [grid_D]
  obtain ⟨b, hb, e⟩ := D_some .periodic n hn t a ha
  have h' : (grid₀ .periodic n).D 0 t (moveArr n 1 (fun i => (i + j) % n) a) = ((grid₀ .periodic n).D 0 t a).map (moveArr n 1 fun i => (i + j) % n) := h
  rw [e] at h' ⊢
  rw [rotate_move j a ha, h']
  show some _ = some (b.rotate j)
  rw [rotate_move j b hb]; rfl

/-! ## Hodge star and Laplacian -/

theorem H_some (k : Kind) (n : ℕ) (hn : validSize k n) (d : Fin 2) (t : Bool) (h927 : k = .chebyshev → d = 1 → t = true → n ≤ 927) (a : List ℝ) (ha : a.length = (grid₀ k n).N d t) :
    ∃ b : List ℝ, b.length = (grid₀ k n).N (1 - d) (!t) ∧ (grid₀ k n).H d t a = .ok b := by
  obtain ⟨_, _, _, hr⟩ := spans_reps (spans' k n hn) d t
  obtain ⟨h1, h2⟩ := hr a ha
  have h := determined_star k n hn d t h927 _ h1
  rw [h2] at h
  refine ⟨_, ?_, h⟩
  rw [← grid_end₀ k n]; rw [P_length k n hn, grid_N]

/-- **C81**: the star of the mirror image of any form is minus the mirror image of its star: a reflection reverses the orientation. -/
theorem C81_mirror_star (k : Kind) (n : ℕ) (hn : validSize k n) (xmin xmax : ℝ) (d : Fin 2) (t : Bool) (h927 : k = .chebyshev → d = 1 → t = true → n ≤ 927)
    (a : List ℝ) (ha : a.length = (grid k n xmin xmax).N d t) :
    (grid k n xmin xmax).H d t (mirror k d t a) = ((grid k n xmin xmax).H d t a).map fun b => (mirror k (1 - d) (!t) b).map (-·) := by
  rw [grid_N] at ha
  rw [grid_H, mirror_move k n d t a ha]
  obtain ⟨b, hb, e⟩ := H_some k n hn d t h927 a ha
  have h := (mirror_isometry k hn).H (spans' k n hn) d t (determined_star k n hn d t h927) a ha
  rw [e] at h ⊢
  refine h.trans ?_
  show Except.ok _ = Except.ok ((mirror k (1 - d) (!t) b).map (-·))
  rw [mirror_move k n _ _ b hb, neg_move, neg_one_mul]


theorem sgn_one (d : Fin 2) : sgn 1 d = 1 := by unfold sgn; split_ifs <;> rfl

/-- **C81**: the star of a rotated form is its star, rotated. -/
theorem C81_rotate_star (n : ℕ) (hn : 1 ≤ n) (xmin xmax : ℝ) (j : ℕ) (d : Fin 2) (t : Bool) (a : List ℝ) (ha : a.length = n) :
    (Periodic.make n xmin xmax).H d t (a.rotate j) = ((Periodic.make n xmin xmax).H d t a).map (·.rotate j) := by
  show (grid .periodic n xmin xmax).H d t _ = ((grid .periodic n xmin xmax).H d t a).map _
  rw [grid_H]
  have h9 : Kind.periodic = .chebyshev → d = 1 → t = true → n ≤ 927 := by intro h; cases h
  obtain ⟨b, hb, e⟩ := H_some .periodic n hn d t h9 a ha
  have h := (shift_isometry hn j).H (spans' .periodic n hn) d t (determined_star .periodic n hn d t h9) a ha
  rw [sgn_one, e] at h
  rw [e, rotate_move j a ha]
  refine h.trans ?_
  show Except.ok _ = Except.ok (b.rotate j)
  rw [rotate_move j b hb, sgn_one, one_mul]; rfl

theorem D_of_d0 {g : Grid1} {t : Bool} {a b : List ℝ} (h : g.d0 t a = .ok b) : g.D 0 t a = some b := by
  unfold Grid1.d0 at h
  cases h' : g.D 0 t a with
  | none => rw [h'] at h; cases h
  | some c => rw [h'] at h; cases h; rfl

theorem d0_eq {g : Grid1} {t : Bool} {a b : List ℝ} (h : g.D 0 t a = some b) : g.d0 t a = .ok b := by
  unfold Grid1.d0; rw [h]

theorem mirror_length (k : Kind) (d : Fin 2) (t : Bool) (a : List ℝ) : (mirror k d t a).length = a.length := by
  unfold mirror
  simp only
  split_ifs <;> simp

theorem map_neg_neg (a : List ℝ) : (a.map (-·)).map (-·) = a := by simp

/-- **C81**: the Laplacian commutes with reflection ... -/
theorem C81_mirror_laplacian (k : Kind) (n : ℕ) (hn : validSize k n) (h927 : k = .chebyshev → n ≤ 927) (xmin xmax : ℝ) (t : Bool)
    (a : List ℝ) (ha : a.length = (grid k n xmin xmax).N 0 t) :
    (grid k n xmin xmax).laplacian t (mirror k 0 t a) = ((grid k n xmin xmax).laplacian t a).map (mirror k 0 t) := by
  obtain ⟨δ, η, δ', η', h1, h2, h3, h4, e1, e2, e3, e4, e⟩ := lap_maps (G2.grid_factor k n hn xmin xmax) (grid_stars k n hn h927 xmin xmax) t
  have l1 := h1.len a ha
  have l2 := h2.len _ l1
  have l3 := h3.len _ l2
  have hm : (mirror k 0 t a).length = (grid k n xmin xmax).N 0 t := by rw [mirror_length, ha]
  rw [e a ha, e _ hm]
  show Except.ok _ = Except.ok (mirror k 0 t (η' (δ' (η (δ a)))))
  congr 1
  have k1 : δ (mirror k 0 t a) = mirror k 1 t (δ a) := by
    have := C81_mirror_derivative k n hn xmin xmax t a ha
    rw [D_of_d0 (e1 a ha), D_of_d0 (e1 _ hm)] at this
    exact Option.some.inj this
  have m1 : (mirror k 1 t (δ a)).length = (grid k n xmin xmax).N 1 t := by rw [mirror_length, l1]
  have k2 : η (mirror k 1 t (δ a)) = (mirror k 0 (!t) (η (δ a))).map (-·) := by
    have := C81_mirror_star k n hn xmin xmax 1 t (fun h _ _ => h927 h) (δ a) l1
    rw [e2 _ l1, e2 _ m1] at this
    exact Except.ok.inj this
  have m2 : (mirror k 0 (!t) (η (δ a))).length = (grid k n xmin xmax).N 0 (!t) := by rw [mirror_length, l2]
  have k3 : δ' ((mirror k 0 (!t) (η (δ a))).map (-·)) = (mirror k 1 (!t) (δ' (η (δ a)))).map (-·) := by
    have := C81_mirror_derivative k n hn xmin xmax (!t) _ l2
    rw [D_of_d0 (e3 _ l2), D_of_d0 (e3 _ m2)] at this
    have hs := h3.smul (-1) _ m2
    simp only [smul_eq_mul, neg_one_mul] at hs
    rw [hs, Option.some.inj this]
  have m3 : (mirror k 1 (!t) (δ' (η (δ a)))).length = (grid k n xmin xmax).N 1 (!t) := by rw [mirror_length, l3]
  have k4 : η' ((mirror k 1 (!t) (δ' (η (δ a)))).map (-·)) = mirror k 0 t (η' (δ' (η (δ a)))) := by
    have := C81_mirror_star k n hn xmin xmax 1 (!t) (fun h _ _ => h927 h) _ l3
    rw [e4 _ l3, e4 _ m3] at this
    have hs := h4.smul (-1) _ m3
    simp only [smul_eq_mul, neg_one_mul] at hs
    have h' : η' (mirror k 1 (!t) (δ' (η (δ a)))) = (mirror k 0 (!(!t)) (η' (δ' (η (δ a))))).map (-·) := Except.ok.inj this
    rw [hs, h', map_neg_neg, Bool.not_not]
  rw [k1, k2, k3, k4]

/-- **C81**: ... and with rotations. -/
theorem C81_rotate_laplacian (n : ℕ) (hn : 1 ≤ n) (xmin xmax : ℝ) (j : ℕ) (t : Bool) (a : List ℝ) (ha : a.length = n) :
    (Periodic.make n xmin xmax).laplacian t (a.rotate j) = ((Periodic.make n xmin xmax).laplacian t a).map (·.rotate j) := by
  obtain ⟨δ, η, δ', η', h1, h2, h3, h4, e1, e2, e3, e4, e⟩ := lap_maps (G2.grid_factor .periodic n hn xmin xmax)
    (grid_stars .periodic n hn (fun h => by cases h) xmin xmax) t
  have l1 : (δ a).length = n := h1.len a ha
  have l2 : (η (δ a)).length = n := h2.len _ l1
  have l3 : (δ' (η (δ a))).length = n := h3.len _ l2
  have hm : (a.rotate j).length = n := by simp [ha]
  have r1 : ((δ a).rotate j).length = n := by simp [l1]
  have r2 : ((η (δ a)).rotate j).length = n := by simp [l2]
  have r3 : ((δ' (η (δ a))).rotate j).length = n := by simp [l3]
  show (grid .periodic n xmin xmax).laplacian t _ = ((grid .periodic n xmin xmax).laplacian t a).map _
  rw [e a ha, e _ hm]
  show Except.ok _ = Except.ok ((η' (δ' (η (δ a)))).rotate j)
  congr 1
  have k1 : δ (a.rotate j) = (δ a).rotate j := by
    have : (grid .periodic n xmin xmax).D 0 t (a.rotate j) = ((grid .periodic n xmin xmax).D 0 t a).map (·.rotate j) := C81_rotate_derivative n hn xmin xmax j t a ha
    rw [D_of_d0 (e1 a ha), D_of_d0 (e1 _ hm)] at this
    exact Option.some.inj this
  have k2 : η ((δ a).rotate j) = (η (δ a)).rotate j := by
    have : (grid .periodic n xmin xmax).H 1 t ((δ a).rotate j) = ((grid .periodic n xmin xmax).H 1 t (δ a)).map (·.rotate j) := C81_rotate_star n hn xmin xmax j 1 t _ l1
    rw [e2 _ l1, e2 _ r1] at this
    exact Except.ok.inj this
  have k3 : δ' ((η (δ a)).rotate j) = (δ' (η (δ a))).rotate j := by
    have : (grid .periodic n xmin xmax).D 0 (!t) ((η (δ a)).rotate j) = ((grid .periodic n xmin xmax).D 0 (!t) (η (δ a))).map (·.rotate j) :=
      C81_rotate_derivative n hn xmin xmax j (!t) _ l2
    rw [D_of_d0 (e3 _ l2), D_of_d0 (e3 _ r2)] at this
    exact Option.some.inj this
  have k4 : η' ((δ' (η (δ a))).rotate j) = (η' (δ' (η (δ a)))).rotate j := by
    have : (grid .periodic n xmin xmax).H 1 (!t) ((δ' (η (δ a))).rotate j) = ((grid .periodic n xmin xmax).H 1 (!t) (δ' (η (δ a)))).map (·.rotate j) :=
      C81_rotate_star n hn xmin xmax j 1 (!t) _ l3
    rw [e4 _ l3, e4 _ r3] at this
    exact Except.ok.inj this
  rw [k1, k2, k3, k4]

/-! ## Refinement -/

/-- The number of points of the refined grid. -/
def refPts (k : Kind) (n : ℕ) : ℕ := if k = .periodic then 2 * n else 2 * n - 1

/-- Where the refined points go. -/
def refIdx (k : Kind) (n i : ℕ) : ℕ := if k = .periodic then (2 * n - i) % (2 * n) else 2 * n - 1 - 1 - i

theorem refIdx_lt (k : Kind) {n i : ℕ} (h : i < refPts k n) : refIdx k n i < refPts k n := by
  unfold refPts at *; unfold refIdx
  split_ifs at * with hk
  · exact Nat.mod_lt _ (by omega)
  · omega

theorem mirrorPoints_move (k : Kind) (n : ℕ) (d : Fin 2) (a : List ℝ) (ha : a.length = refPts k n) :
    mirrorPoints k d a = moveArr (refPts k n) (sgn (-1) d) (refIdx k n) a := by
  have key : ∀ (ι : ℕ → ℕ) (b : List ℝ), b = moveArr (refPts k n) 1 ι a → (if d = 0 then b else b.map (-·)) = moveArr (refPts k n) (sgn (-1) d) ι a := by
    rintro ι b rfl
    unfold sgn
    split_ifs
    · rfl
    · exact neg_move _ _ _ _
  unfold mirrorPoints
  refine key _ _ ?_
  by_cases h : k = .periodic
  · subst h
    rw [if_pos rfl, rotate_reverse_move a ha]; rfl
  · have h1 : refPts k n = 2 * n - 1 := if_neg h
    have h2 : refIdx k n = fun i => 2 * n - 1 - 1 - i := by funext i; exact if_neg h
    rw [if_neg h, h1, h2, moveArr_reverse a (ha.trans h1)]

theorem mirror_T (k : Kind) (hk : k ≠ .regular) (n : ℕ) (hn : validSize k n) (d : Fin 2) (t : Bool) (h927 : k = .chebyshev → d = 1 → t = true → n ≤ 927) :
    MovesT (grid₀ k n).T (grid₀ k n).N (-1) (mirrorIdx k n) (refPts k n) (refIdx k n) d t := by
  intro a ha
  cases k
  · exact (mirror_isometry .periodic hn).T (spans' .periodic n hn) (p := fun i => i * hh (2 * n)) (fun i hi => refIdx_lt .periodic hi)
      (fun f hf i hi => periodic_points_flip (hf rfl) hi) d t (periodic_T_det hn d t) a ha
  · exact absurd rfl hk
  · refine (mirror_isometry .chebyshev hn).T (spans' .chebyshev n hn) (p := fun i => -cos (i * (hh (2 * n - 2) / 2))) (fun i hi => refIdx_lt .chebyshev hi)
      (fun f hf i hi => ?_) d t (cheb_T_det hn d t (h927 rfl)) a ha
    have hn' : 2 ≤ n := hn
    have hi' : i < 2 * n - 1 := hi
    have e1 : refIdx .chebyshev n i = 2 * n - 1 - 1 - i := rfl
    have e2 : (end₀ .chebyshev).1 + (end₀ .chebyshev).2 = 0 := by show (-1 : ℝ) + 1 = 0; norm_num
    rw [e1, e2]
    congr 1
    rw [show 2 * n - 1 - 1 - i = 2 * n - 2 - i by omega, Nat.cast_sub (by omega), sub_mul]
    have e3 : ((2 * n - 2 : ℕ) : ℝ) * (hh (2 * n - 2) / 2) = π := by
      have : ((2 * n - 2 : ℕ) : ℝ) ≠ 0 := by
        have : 2 * n - 2 ≠ 0 := by omega
        exact_mod_cast this
      unfold hh; field_simp
    rw [e3, cos_pi_sub]; ring

theorem mirror_U (k : Kind) (hk : k ≠ .regular) (n : ℕ) (hn : validSize k n) (d : Fin 2) (t : Bool) :
    MovesU (grid₀ k n).U (grid₀ k n).N (-1) (mirrorIdx k n) (refPts k n) (refIdx k n) d t := by
  cases k
  · have h := mirror_isometry .periodic (n := n) hn
    have h' : Isometry (Periodic.make n) (Determined .periodic n) (fun f => Function.Periodic f (2 * π - 0)) (-1) (0 + 2 * π) (mirrorIdx .periodic n) :=
      h.mono (fun f hf _ => hf) (fun d t i hi => rfl) (fun d t f hf => h.sub d t f hf rfl) h.pull
    exact periodic_movesU hn h' (fun i hi => refIdx_lt .periodic hi) (fun f hf i hi => periodic_points_flip hf hi) d t
  · exact absurd rfl hk
  · exact cheb_movesU hn d t

theorem shift_pts_lt {n : ℕ} (hn : 1 ≤ n) (j : ℕ) : ∀ i < 2 * n, (i + 2 * j) % (2 * n) < 2 * n := fun i hi => Nat.mod_lt _ (by omega)

theorem rotate_T (n : ℕ) (hn : 1 ≤ n) (j : ℕ) (d : Fin 2) (t : Bool) :
    MovesT (grid₀ .periodic n).T (grid₀ .periodic n).N 1 (fun _ _ i => (i + j) % n) (2 * n) (fun i => (i + 2 * j) % (2 * n)) d t := by
  intro a ha
  exact (shift_isometry hn j).T (spans' .periodic n hn) (p := fun i => i * hh (2 * n)) (shift_pts_lt hn j)
    (fun f hf i hi => periodic_points_shift hn j hf hi) d t (periodic_T_det hn d t) a ha

theorem rotate_U (n : ℕ) (hn : 1 ≤ n) (j : ℕ) (d : Fin 2) (t : Bool) :
    MovesU (grid₀ .periodic n).U (grid₀ .periodic n).N 1 (fun _ _ i => (i + j) % n) (2 * n) (fun i => (i + 2 * j) % (2 * n)) d t :=
  periodic_movesU hn (shift_isometry hn j) (shift_pts_lt hn j) (fun f hf i hi => periodic_points_shift hn j hf hi) d t

/-- **C81**: refinement of the mirror image of any form (periodic and Chebyshev grids) is the mirror image of its values at the refined points ... -/
theorem C81_mirror_refine (k : Kind) (hk : k ≠ .regular) (n : ℕ) (hn : validSize k n) (xmin xmax : ℝ) (d : Fin 2) (t : Bool)
    (h927 : k = .chebyshev → d = 1 → t = true → n ≤ 927) (a : List ℝ) (ha : a.length = (grid k n xmin xmax).N d t) :
    (grid k n xmin xmax).T d t (mirror k d t a) = ((grid k n xmin xmax).T d t a).map (mirrorPoints k d) := by
  rw [grid_N] at ha
  rw [grid_T, mirror_move k n d t a ha]
  obtain ⟨b, hb, e1, e2⟩ := mirror_T k hk n hn d t h927 a ha
  rw [e1, e2]
  show Except.ok _ = Except.ok (mirrorPoints k d b)
  rw [mirrorPoints_move k n d b hb]

/-- **C81**: ... and back. -/
theorem C81_mirror_unrefine (k : Kind) (hk : k ≠ .regular) (n : ℕ) (hn : validSize k n) (xmin xmax : ℝ) (d : Fin 2) (t : Bool)
    (b : List ℝ) (hb : b.length = if k = .periodic then 2 * n else 2 * n - 1) :
    (grid k n xmin xmax).U d t (mirrorPoints k d b) = ((grid k n xmin xmax).U d t b).map (mirror k d t) := by
  rw [grid_U, mirrorPoints_move k n d b hb]
  obtain ⟨c, hc, e1, e2⟩ := mirror_U k hk n hn d t b hb
  rw [e1, e2]
  show Except.ok _ = Except.ok (mirror k d t c)
  rw [mirror_move k n d t c hc]

/-- **C81**: refinement of a form rotated by `j` cells is its values at the refined points, rotated by `2j` points ... -/
theorem C81_rotate_refine (n : ℕ) (hn : 1 ≤ n) (xmin xmax : ℝ) (j : ℕ) (d : Fin 2) (t : Bool) (a : List ℝ) (ha : a.length = n) :
    (Periodic.make n xmin xmax).T d t (a.rotate j) = ((Periodic.make n xmin xmax).T d t a).map (·.rotate (2 * j)) := by
  show (grid .periodic n xmin xmax).T d t _ = ((grid .periodic n xmin xmax).T d t a).map _
  rw [grid_T, rotate_move j a ha]
  obtain ⟨b, hb, e1, e2⟩ := rotate_T n hn j d t a ha
  rw [sgn_one] at e2
  rw [e1]
  refine e2.trans ?_
  show Except.ok _ = Except.ok (b.rotate (2 * j))
  rw [rotate_move (2 * j) b hb]

/-- **C81**: ... and back. -/
theorem C81_rotate_unrefine (n : ℕ) (hn : 1 ≤ n) (xmin xmax : ℝ) (j : ℕ) (d : Fin 2) (t : Bool) (b : List ℝ) (hb : b.length = 2 * n) :
    (Periodic.make n xmin xmax).U d t (b.rotate (2 * j)) = ((Periodic.make n xmin xmax).U d t b).map (·.rotate j) := by
  show (grid .periodic n xmin xmax).U d t _ = ((grid .periodic n xmin xmax).U d t b).map _
  rw [grid_U, rotate_move (2 * j) b hb]
  obtain ⟨c, hc, e1, e2⟩ := rotate_U n hn j d t b hb
  rw [sgn_one] at e2
  rw [e1]
  refine e2.trans ?_
  show Except.ok _ = Except.ok (c.rotate j)
  rw [rotate_move j c hc]; rfl

/-! ## Wedge product and contraction -/

theorem grid_W_eq (k : Kind) (hk : k ≠ .regular) (n : ℕ) (a b : ℝ) : (grid k n a b).W = some (wedge1 (grid₀ k n).T (grid₀ k n).U) := by
  cases k
  · rfl
  · exact absurd rfl hk
  · rfl

theorem grid_C_eq (k : Kind) (hk : k ≠ .regular) (n : ℕ) (a b : ℝ) : (grid k n a b).C = some (contraction1 (grid₀ k n).T (grid₀ k n).U) := by
  cases k
  · rfl
  · exact absurd rfl hk
  · rfl

theorem grid₀_N_lt (k : Kind) (n : ℕ) (hn : validSize k n) : ∀ d t, ∀ i < (grid₀ k n).N d t, mirrorIdx k n d t i < (grid₀ k n).N d t := (mirror_isometry k hn).lt

/-- **C81**: the wedge product of mirror images is the mirror image of the wedge product, for all forms. -/
theorem C81_mirror_wedge (k : Kind) (hk : k ≠ .regular) (n : ℕ) (hn : validSize k n) (h927 : k = .chebyshev → n ≤ 927) (xmin xmax : ℝ) (p q : Fin 2) (hpq : p.val + q.val ≤ 1) (s t u : Bool)
    (a b : List ℝ) (ha : a.length = (grid k n xmin xmax).N p s) (hb : b.length = (grid k n xmin xmax).N q t) :
    ∃ w c, (grid k n xmin xmax).W = some w ∧ w p s q t u a b = .ok c ∧ w p s q t u (mirror k p s a) (mirror k q t b) = .ok (mirror k (p + q) u c) := by
  rw [grid_N] at ha hb
  refine ⟨wedge1 (grid₀ k n).T (grid₀ k n).U, ?_⟩
  obtain ⟨c, hc, e1, e2⟩ := wedge_move (grid₀_N_lt k n hn) (fun i hi => refIdx_lt k hi) p q s t u hpq (mirror_T k hk n hn p s fun h _ _ => h927 h) (mirror_T k hk n hn q t fun h _ _ => h927 h)
    (mirror_U k hk n hn _ u) a b ha hb
  have ed : Fin.ofNat 2 (p.val + q.val) = p + q := (by decide : ∀ p q : Fin 2, Fin.ofNat 2 (p.val + q.val) = p + q) p q
  rw [ed] at e2 hc
  refine ⟨c, grid_W_eq k hk n xmin xmax, e1, ?_⟩
  rw [mirror_move k n p s a ha, mirror_move k n q t b hb, e2, mirror_move k n _ u c hc]

/-- **C81**: ... and of rotated forms the rotated wedge product. -/
theorem C81_rotate_wedge (n : ℕ) (hn : 1 ≤ n) (xmin xmax : ℝ) (j : ℕ) (p q : Fin 2) (hpq : p.val + q.val ≤ 1) (s t u : Bool)
    (a b : List ℝ) (ha : a.length = n) (hb : b.length = n) :
    ∃ w c, (Periodic.make n xmin xmax).W = some w ∧ w p s q t u a b = .ok c ∧ w p s q t u (a.rotate j) (b.rotate j) = .ok (c.rotate j) := by
  refine ⟨wedge1 (grid₀ .periodic n).T (grid₀ .periodic n).U, ?_⟩
  obtain ⟨c, hc, e1, e2⟩ := wedge_move (shift_isometry hn j).lt (shift_pts_lt hn j) p q s t u hpq (rotate_T n hn j p s) (rotate_T n hn j q t)
    (rotate_U n hn j _ u) a b ha hb
  refine ⟨c, rfl, e1, ?_⟩
  simp only [sgn_one] at e2
  rw [rotate_move j a ha, rotate_move j b hb, rotate_move j c hc]
  exact e2

/-- **C81**: the contraction with a mirrored vector field of a mirrored 1-form is the mirror image of the contraction ... -/
theorem C81_mirror_contraction (k : Kind) (hk : k ≠ .regular) (n : ℕ) (hn : validSize k n) (h927 : k = .chebyshev → n ≤ 927) (xmin xmax : ℝ) (s t u : Bool)
    (a b : List ℝ) (ha : a.length = (grid k n xmin xmax).N 1 s) (hb : b.length = (grid k n xmin xmax).N 1 t) :
    ∃ i c, (grid k n xmin xmax).C = some i ∧ i s 1 t u a b = .ok c ∧ i s 1 t u (mirror k 1 s a) (mirror k 1 t b) = .ok (mirror k 0 u c) := by
  rw [grid_N] at ha hb
  refine ⟨contraction1 (grid₀ k n).T (grid₀ k n).U, ?_⟩
  obtain ⟨c, hc, e1, e2⟩ := contraction_move (Or.inr rfl) (fun i hi => refIdx_lt k hi) s t u (mirror_T k hk n hn 1 s fun h _ _ => h927 h) (mirror_T k hk n hn 1 t fun h _ _ => h927 h)
    (mirror_U k hk n hn _ u) a b ha hb
  refine ⟨c, grid_C_eq k hk n xmin xmax, e1, ?_⟩
  rw [mirror_move k n 1 s a ha, mirror_move k n 1 t b hb, e2, mirror_move k n _ u c hc]

/-- **C81**: ... and of rotated forms the rotated contraction. -/
theorem C81_rotate_contraction (n : ℕ) (hn : 1 ≤ n) (xmin xmax : ℝ) (j : ℕ) (s t u : Bool) (a b : List ℝ) (ha : a.length = n) (hb : b.length = n) :
    ∃ i c, (Periodic.make n xmin xmax).C = some i ∧ i s 1 t u a b = .ok c ∧ i s 1 t u (a.rotate j) (b.rotate j) = .ok (c.rotate j) := by
  refine ⟨contraction1 (grid₀ .periodic n).T (grid₀ .periodic n).U, ?_⟩
  obtain ⟨c, hc, e1, e2⟩ := contraction_move (Or.inl rfl) (shift_pts_lt hn j) s t u (rotate_T n hn j 1 s) (rotate_T n hn j 1 t)
    (rotate_U n hn j _ u) a b ha hb
  refine ⟨c, rfl, e1, ?_⟩
  simp only [sgn_one] at e2
  rw [rotate_move j a ha, rotate_move j b hb, rotate_move j c hc]
  exact e2

/-! ## Reconstruction -/

/-- **C81**: reconstructing the mirror image of any coefficients gives the reflected form, at every point of the interval whose mirror image lies in it, too. -/
theorem C81_mirror_reconstruct (k : Kind) (n : ℕ) (hn : validSize k n) (d : Fin 2) (t : Bool) (a : List ℝ) (ha : a.length = (grid₀ k n).N d t)
    (x : ℝ) (hx : x ∈ Inside k d) (hx' : (grid₀ k n).xmin + (grid₀ k n).xmax - x ∈ Inside k d) :
    (grid₀ k n).R d t (mirror k d t a) x = ((grid₀ k n).R d t a ((grid₀ k n).xmin + (grid₀ k n).xmax - x)).map ((if d = 0 then 1 else -1) * ·) := by
  have e : (grid₀ k n).xmin + (grid₀ k n).xmax - x = (end₀ k).1 + (end₀ k).2 + -1 * x := by
    rw [neg_one_mul, ← sub_eq_add_neg]; cases k <;> rfl
  rw [mirror_move k n d t a ha, e]
  rw [e] at hx'
  exact (mirror_isometry k hn).R (spans' k n hn) d t a ha x (inside_dom k n hn d t hx) (inside_dom k n hn d t hx')

/-- **C81**: reconstructing rotated coefficients gives the moved form. -/
theorem C81_rotate_reconstruct (n : ℕ) (hn : 1 ≤ n) (j : ℕ) (d : Fin 2) (t : Bool) (a : List ℝ) (ha : a.length = n)
    (x : ℝ) (hx : 0 ≤ x) (hx' : x + j * (2 * π / n) < 2 * π) :
    (Periodic.make n).R d t (a.rotate j) x = (Periodic.make n).R d t a (x + j * (2 * π / n)) := by
  have hp : (0 : ℝ) ≤ j * (2 * π / n) := by positivity
  have h1 : x ∈ Inside .periodic d := ⟨hx, by linarith⟩
  have h2 : j * ((2 * π - 0) / n) + 1 * x ∈ Inside .periodic d := ⟨by rw [sub_zero]; linarith, by rw [sub_zero]; linarith⟩
  have h := (shift_isometry hn j).R (spans' .periodic n hn) d t a ha x (inside_dom .periodic n hn d t h1) (inside_dom .periodic n hn d t h2)
  rw [rotate_move j a ha]
  rw [sgn_one] at h
  refine h.trans ?_
  rw [show j * ((2 * π - 0) / n) + 1 * x = x + j * (2 * π / n) by rw [sub_zero]; ring]
  show ((Periodic.make n).R d t a (x + j * (2 * π / n))).map (1 * ·) = _
  cases (Periodic.make n).R d t a (x + j * (2 * π / n)) with
  | none => rfl
  | some y => show some (1 * y) = some y; rw [one_mul]

/-! ## Non-vacuity -/

/-- Which cells go where: the vertices of the circle keep vertex 0, the edges are numbered backwards and reversed. -/
example : mirror .periodic 0 true [10, 11, 12, 13] = [10, 13, 12, 11] ∧ mirror .periodic 1 true [10, 11, 12, 13] = [-13, -12, -11, -10] ∧
    mirror .chebyshev 1 false [10, 11, 12] = [-12, -11, -10] := by
  refine ⟨by simp [mirror], by simp [mirror], by simp [mirror]⟩

/-- The hypotheses are met: all sizes, a Chebyshev grid with 3 points, arrays of that length, points with their mirror images. -/
example : validSize .chebyshev 3 ∧ ([1, 2, 3] : List ℝ).length = (grid .chebyshev 3 0 5).N 0 true ∧ ([1, 2] : List ℝ).length = (grid .chebyshev 3 0 5).N 1 true ∧
    (1 / 2 : ℝ) ∈ Inside .chebyshev 1 ∧ ((grid₀ .chebyshev 3).xmin + (grid₀ .chebyshev 3).xmax - 1 / 2 : ℝ) ∈ Inside .chebyshev 1 := by
  refine ⟨by norm_num [validSize], rfl, rfl, ⟨by norm_num, by norm_num⟩, ?_, ?_⟩
  · show (-1 : ℝ) < -1 + 1 - 1 / 2; norm_num
  · show (-1 + 1 - 1 / 2 : ℝ) < 1; norm_num

/-- The mirror image is not the identity: the derivative theorem relates different arrays. -/
example : mirror .regular 0 true [1, 2, 4] ≠ [1, 2, 4] ∧ Periodic.D0 [1, 2, 4] = [1, 2, -3] ∧ Periodic.D0 (mirror .periodic 0 true [1, 2, 4]) = [3, -2, -1] ∧
    mirror .periodic 1 true [1, 2, -3] = [3, -2, -1] := by
  refine ⟨by simp [mirror], ?_, ?_, by simp [mirror]⟩
  · simp [Periodic.D0, roll, vsub]; norm_num
  · simp [mirror, Periodic.D0, roll, vsub]; norm_num

end Dec.Props
