import Verif.Lib.Cohomology
import Verif.Props.Reconstruction

set_option linter.unusedSimpArgs false
set_option linter.unusedVariables false

/-!
# C72: integration by parts, Stokes and potentials on product grids

A flat 1-form on a product grid is its x-edges (`gy.N 0 t` rows of `gx.N 1 t`) followed by its y-edges (`gy.N 1 t` rows of `gx.N 0 t`).
-/

namespace Dec.Props

open Finset Dec.G2

section
variable {gx gy : Grid1} {t : Bool} {ox oy fx fy : Prop} {A B : ℕ → ℕ → ℝ}

/-- Derivatives in the two directions. -/
def dx (gx : Grid1) (t : Bool) (A : ℕ → ℕ → ℝ) (F : ℕ → ℕ → ℝ) (j i : ℕ) : ℝ := ∑ k ∈ range (gx.N 0 t), A i k * F j k
def dy (gy : Grid1) (t : Bool) (B : ℕ → ℕ → ℝ) (F : ℕ → ℕ → ℝ) (j i : ℕ) : ℝ := ∑ k ∈ range (gy.N 0 t), B j k * F k i

theorem dxy (F : ℕ → ℕ → ℝ) (j i : ℕ) : dx gx t A (dy gy t B F) j i = dy gy t B (dx gx t A F) j i := by
  unfold dx dy
  simp only [mul_sum]
  rw [sum_comm]
  exact sum_congr rfl fun _ _ => sum_congr rfl fun _ _ => by ring

theorem D0_mat (hx : Factor gx) (hy : Factor gy) (cx : Coh gx t ox fx A) (cy : Coh gy t oy fy B) (F : ℕ → ℕ → ℝ) :
    (product gx gy).D 0 t (mtab (gy.N 0 t) (gx.N 0 t) F).data
      = .ok ((mtab (gy.N 0 t) (gx.N 1 t) (dx gx t A F)).data ++ (mtab (gy.N 1 t) (gx.N 0 t) (dy gy t B F)).data) :=
  D0_mtab hx hy t (fun j _ => cx.d (F j)) (fun i _ => cy.d fun j => F j i)

theorem D1_mat (hx : Factor gx) (hy : Factor gy) (cx : Coh gx t ox fx A) (cy : Coh gy t oy fy B) (F G : ℕ → ℕ → ℝ) :
    (product gx gy).D 1 t ((mtab (gy.N 0 t) (gx.N 1 t) F).data ++ (mtab (gy.N 1 t) (gx.N 0 t) G).data)
      = .ok (mtab (gy.N 1 t) (gx.N 1 t) fun j i => -dy gy t B F j i + dx gx t A G j i).data :=
  D1_mtab hx hy t (fun i _ => cy.d fun j => F j i) (fun j _ => cx.d (G j))

theorem data_inj {r c : ℕ} {F G : ℕ → ℕ → ℝ} : (mtab r c F).data = (mtab r c G).data ↔ ∀ j < r, ∀ i < c, F j i = G j i := by
  constructor
  · intro h j hj i hi
    have := tab_inj.1 h (j * c + i) (idx_lt hj hi)
    rwa [idx_div hi, idx_mod hi] at this
  · intro h; rw [mtab_congr h]

theorem data_inj2 {r c r' c' : ℕ} {F G F' G' : ℕ → ℕ → ℝ} :
    (mtab r c F).data ++ (mtab r' c' F').data = (mtab r c G).data ++ (mtab r' c' G').data ↔ (∀ j < r, ∀ i < c, F j i = G j i) ∧ ∀ j < r', ∀ i < c', F' j i = G' j i := by
  rw [← data_inj (r := r), ← data_inj (r := r')]
  exact ⟨fun h => List.append_inj h (by rw [length_data, length_data]), fun h => by rw [h.1, h.2]⟩

theorem data_zero {r c : ℕ} {F : ℕ → ℕ → ℝ} : (mtab r c F).data = List.replicate (r * c) 0 ↔ ∀ j < r, ∀ i < c, F j i = 0 := by
  have : List.replicate (r * c) (0 : ℝ) = (mtab r c fun _ _ => 0).data := by rw [replicate_tab]; rfl
  rw [this, data_inj]

theorem sum_data (r c : ℕ) (F : ℕ → ℕ → ℝ) : (mtab r c F).data.sum = ∑ j ∈ range r, ∑ i ∈ range c, F j i := by
  unfold mtab; rw [sum_tab, sum_blocks]

theorem getD_data {r c : ℕ} {F : ℕ → ℕ → ℝ} {j i : ℕ} (hj : j < r) (hi : i < c) : (mtab r c F).data.getD (j * c + i) 0 = F j i := by
  unfold mtab; rw [getD_tab (idx_lt hj hi), idx_div hi, idx_mod hi]

theorem getD_fst {r c : ℕ} {F : ℕ → ℕ → ℝ} {l : List ℝ} {j i : ℕ} (hj : j < r) (hi : i < c) : ((mtab r c F).data ++ l).getD (j * c + i) 0 = F j i := by
  rw [List.getD_eq_getElem?_getD, List.getElem?_append_left (by rw [length_data]; exact idx_lt hj hi), ← List.getD_eq_getElem?_getD, getD_data hj hi]

theorem getD_snd {r c r' c' : ℕ} {F G : ℕ → ℕ → ℝ} {j i : ℕ} (hj : j < r') (hi : i < c') :
    ((mtab r c F).data ++ (mtab r' c' G).data).getD (r * c + (j * c' + i)) 0 = G j i := by
  rw [List.getD_eq_getElem?_getD, List.getElem?_append_right (by rw [length_data]; omega), length_data, Nat.add_sub_cancel_left, ← List.getD_eq_getElem?_getD, getD_data hj hi]

/-! ## Closed and exact 1-forms -/

theorem exact_iff (hx : Factor gx) (hy : Factor gy) (cx : Coh gx t ox fx A) (cy : Coh gy t oy fy B) (X Y : ℕ → ℕ → ℝ) :
    (∃ F : ℕ → ℕ → ℝ, (∀ j < gy.N 0 t, ∀ i < gx.N 1 t, dx gx t A F j i = X j i) ∧ ∀ j < gy.N 1 t, ∀ i < gx.N 0 t, dy gy t B F j i = Y j i) ↔
      (∀ j < gy.N 1 t, ∀ i < gx.N 1 t, -dy gy t B X j i + dx gx t A Y j i = 0) ∧
      (¬ ox → ∀ j < gy.N 0 t, ∑ i ∈ range (gx.N 1 t), X j i = 0) ∧ (¬ oy → ∀ i < gx.N 0 t, ∑ j ∈ range (gy.N 1 t), Y j i = 0) := by
  classical
  constructor
  · rintro ⟨F, h1, h2⟩
    refine ⟨fun j hj i hi => ?_, fun o j hj => ?_, fun o i hi => ?_⟩
    · have e1 : dy gy t B X j i = dy gy t B (dx gx t A F) j i := sum_congr rfl fun k hk => by rw [h1 k (mem_range.1 hk) i hi]
      have e2 : dx gx t A Y j i = dx gx t A (dy gy t B F) j i := sum_congr rfl fun k hk => by rw [h2 j hj k (mem_range.1 hk)]
      rw [e1, e2, dxy]; ring
    · rw [← cx.sum_cl o (F j)]; exact sum_congr rfl fun i hi => (h1 j hj i (mem_range.1 hi)).symm
    · rw [← cy.sum_cl o fun j => F j i]; exact sum_congr rfl fun j hj => (h2 j (mem_range.1 hj) i hi).symm
  · rintro ⟨h, hX, hY⟩
    have ex : ∀ j, ∃ f : ℕ → ℝ, j < gy.N 0 t → ∀ i < gx.N 1 t, ∑ k ∈ range (gx.N 0 t), A i k * f k = X j i := fun j => by
      by_cases hj : j < gy.N 0 t
      · obtain ⟨f, hf⟩ := cx.im (X j) (by by_cases o : ox; exacts [.inl o, .inr (hX o j hj)])
        exact ⟨f, fun _ => hf⟩
      · exact ⟨fun _ => 0, fun h => absurd h hj⟩
    choose F hF using ex
    have hZ : ∀ j < gy.N 1 t, ∀ i < gx.N 1 t, ∑ k ∈ range (gx.N 0 t), A i k * (Y j k - dy gy t B F j k) = 0 := fun j hj i hi => by
      have e1 : dx gx t A (dy gy t B F) j i = dy gy t B X j i := by
        rw [dxy]; exact sum_congr rfl fun k hk => by rw [show dx gx t A F k i = X k i from hF k (mem_range.1 hk) i hi]
      have e2 := h j hj i hi
      rw [← e1] at e2
      unfold dx at e2
      simp only [mul_sub, sum_sub_distrib]
      linarith
    by_cases f : fx
    · have hc : ∀ j < gy.N 1 t, ∀ i < gx.N 0 t, Y j i - dy gy t B F j i = Y j 0 - dy gy t B F j 0 := fun j hj i hi => cx.ker_fr f _ (hZ j hj) i hi
      obtain ⟨b, hb⟩ := cy.im (fun j => Y j 0 - dy gy t B F j 0) (by
        by_cases o : oy
        · exact .inl o
        · right
          rw [sum_sub_distrib, hY o 0 (hx.pos 0 t)]
          have := cy.sum_cl o fun j => F j 0
          unfold dy; rw [this, sub_zero])
      refine ⟨fun j i => F j i + b j, fun j hj i hi => ?_, fun j hj i hi => ?_⟩
      · unfold dx
        simp only [mul_add, sum_add_distrib]
        rw [hF j hj i hi, cx.const f (b j) i hi, add_zero]
      · have e := hc j hj i hi
        have e2 := hb j hj
        beta_reduce at e2
        have e3 : dy gy t B (fun j i => F j i + b j) j i = dy gy t B F j i + ∑ k ∈ range (gy.N 0 t), B j k * b k := by
          unfold dy; simp only [mul_add, sum_add_distrib]
        rw [e3, e2]; linarith
    · refine ⟨F, hF, fun j hj i hi => ?_⟩
      have := cx.ker_cl f _ (hZ j hj) i hi
      linarith

theorem exact2_iff (hx : Factor gx) (hy : Factor gy) (cx : Coh gx t ox fx A) (cy : Coh gy t oy fy B) (S : ℕ → ℕ → ℝ) :
    (∃ X Y : ℕ → ℕ → ℝ, ∀ j < gy.N 1 t, ∀ i < gx.N 1 t, -dy gy t B X j i + dx gx t A Y j i = S j i) ↔
      ox ∨ oy ∨ ∑ j ∈ range (gy.N 1 t), ∑ i ∈ range (gx.N 1 t), S j i = 0 := by
  classical
  constructor
  · rintro ⟨X, Y, h⟩
    by_cases o : ox
    · exact .inl o
    by_cases o' : oy
    · exact .inr (.inl o')
    right; right
    rw [sum_congr rfl fun j hj => sum_congr rfl fun i hi => (h j (mem_range.1 hj) i (mem_range.1 hi)).symm]
    simp only [sum_add_distrib, sum_neg_distrib]
    have e1 : ∀ i, ∑ j ∈ range (gy.N 1 t), dy gy t B X j i = 0 := fun i => cy.sum_cl o' fun j => X j i
    have e2 : ∀ j, ∑ i ∈ range (gx.N 1 t), dx gx t A Y j i = 0 := fun j => cx.sum_cl o (Y j)
    rw [sum_comm]
    simp [e1, e2]
  · intro h
    -- rows can be solved for as soon as they add up to zero, or the ends are free
    have row : ∀ S' : ℕ → ℕ → ℝ, (ox ∨ ∀ j < gy.N 1 t, ∑ i ∈ range (gx.N 1 t), S' j i = 0) →
        ∃ Y : ℕ → ℕ → ℝ, ∀ j < gy.N 1 t, ∀ i < gx.N 1 t, dx gx t A Y j i = S' j i := fun S' hS => by
      have ex : ∀ j, ∃ f : ℕ → ℝ, j < gy.N 1 t → ∀ i < gx.N 1 t, ∑ k ∈ range (gx.N 0 t), A i k * f k = S' j i := fun j => by
        by_cases hj : j < gy.N 1 t
        · obtain ⟨f, hf⟩ := cx.im (S' j) (hS.imp id fun h => h j hj)
          exact ⟨f, fun _ => hf⟩
        · exact ⟨fun _ => 0, fun h => absurd h hj⟩
      choose Y hY using ex
      exact ⟨Y, fun j hj i hi => hY j hj i hi⟩
    by_cases o : ox
    · obtain ⟨Y, hY⟩ := row S (.inl o)
      exact ⟨fun _ _ => 0, Y, fun j hj i hi => by rw [hY j hj i hi]; simp [dy]⟩
    · have h' := h.resolve_left o
      obtain ⟨s, hs⟩ := cy.im (fun j => ∑ i ∈ range (gx.N 1 t), S j i) h'
      obtain ⟨Y, hY⟩ := row (fun j i => S j i - if i = 0 then ∑ i ∈ range (gx.N 1 t), S j i else 0) (.inr fun j hj => by
        rw [sum_sub_distrib, sum_ite_eq' (range _) 0, if_pos (mem_range.2 (hx.pos 1 t)), sub_self])
      refine ⟨fun j i => if i = 0 then -s j else 0, Y, fun j hj i hi => ?_⟩
      rw [hY j hj i hi]
      unfold dy
      by_cases hi0 : i = 0
      · have := hs j hj
        beta_reduce at this
        simp only [hi0, if_true, mul_neg, sum_neg_distrib, this]; ring
      · simp [hi0]

end

theorem mem_zero {l : List ℝ} {n : ℕ} (h : l.length = n) : (∀ z ∈ l, z = 0) ↔ l = List.replicate n 0 := by
  rw [List.eq_replicate_iff]; exact ⟨fun h' => ⟨h, h'⟩, fun h' => h'.2⟩

theorem data_all_zero {r c : ℕ} {F : ℕ → ℕ → ℝ} : (∀ z ∈ (mtab r c F).data, z = 0) ↔ ∀ j < r, ∀ i < c, F j i = 0 := by
  rw [mem_zero (length_data r c F), data_zero]

theorem vmul_data (r c : ℕ) (F F' : ℕ → ℕ → ℝ) : (vmul (mtab r c F).data (mtab r c F').data).sum = ∑ j ∈ range r, ∑ i ∈ range c, F j i * F' j i := by
  unfold mtab; rw [vmul_tab, sum_tab, sum_blocks r c fun j i => F j i * F' j i]

theorem grid_swap {k : Kind} {n : ℕ} (hn : validSize k n) (a b : ℝ) (t : Bool) :
    (grid k n a b).N 1 (!t) = (grid k n a b).N 0 t ∧ (grid k n a b).N 0 (!t) = (grid k n a b).N 1 t := by
  cases k <;> cases t <;> exact ⟨rfl, rfl⟩

theorem grid_adjoint {k : Kind} {n : ℕ} (hn : validSize k n) {a b : ℝ} (hab : a < b) (u v : List ℝ) (hu : u.length = (grid k n a b).N 0 true)
    (hv : v.length = (grid k n a b).N 0 false) :
    ∃ du dv, (grid k n a b).d0 true u = .ok du ∧ (grid k n a b).d0 false v = .ok dv ∧ (vmul du v).sum = -(vmul u dv).sum := by
  cases k
  · obtain ⟨du, dv, h1, h2, h3⟩ := C09_periodic n a b u v hu hv
    exact ⟨du, dv, d0_of_D h1, d0_of_D h2, h3⟩
  · obtain ⟨du, dv, h1, h2, h3⟩ := C09_interval .regular n hn a b hab u v hu hv
    exact ⟨du, dv, d0_of_D h1, d0_of_D h2, h3⟩
  · obtain ⟨du, dv, h1, h2, h3⟩ := C09_interval .chebyshev n hn a b hab u v hu hv
    exact ⟨du, dv, d0_of_D h1, d0_of_D h2, h3⟩

/-- One-dimensional integration by parts, by matrices. -/
theorem adjoint_mat {k : Kind} {n : ℕ} (hn : validSize k n) {a b : ℝ} (hab : a < b) {t : Bool} {o f o' f' : Prop} {A A' : ℕ → ℕ → ℝ}
    (c : Coh (grid k n a b) t o f A) (c' : Coh (grid k n a b) (!t) o' f' A') (u v : ℕ → ℝ) :
    ∑ i ∈ range ((grid k n a b).N 1 t), (∑ l ∈ range ((grid k n a b).N 0 t), A i l * u l) * v i
      = -∑ l ∈ range ((grid k n a b).N 0 t), u l * ∑ i ∈ range ((grid k n a b).N 1 t), A' l i * v i := by
  obtain ⟨e1, e2⟩ := grid_swap hn a b t
  have h := c.d u
  have h' := c'.d v
  rw [e1, e2] at h'
  cases t
  · obtain ⟨dv, du, h3, h4, h5⟩ := grid_adjoint hn hab (tab ((grid k n a b).N 1 false) v) (tab ((grid k n a b).N 0 false) u) (by rw [length_tab]; exact e2.symm) (length_tab _ _)
    rw [h] at h4
    rw [show (grid k n a b).d0 true = (grid k n a b).d0 (!false) from rfl, h'] at h3
    rw [← Except.ok.inj h3, ← Except.ok.inj h4, vmul_tab, vmul_tab, sum_tab, sum_tab] at h5
    rw [← neg_eq_iff_eq_neg] at h5
    rw [sum_congr rfl fun i _ => mul_comm _ (v i), ← h5]
    congr 1
    exact sum_congr rfl fun i _ => mul_comm _ _
  · obtain ⟨du, dv, h3, h4, h5⟩ := grid_adjoint hn hab (tab ((grid k n a b).N 0 true) u) (tab ((grid k n a b).N 1 true) v) (length_tab _ _) (by rw [length_tab]; exact e2.symm)
    rw [h] at h3
    rw [show (grid k n a b).d0 false = (grid k n a b).d0 (!true) from rfl, h'] at h4
    rw [← Except.ok.inj h3, ← Except.ok.inj h4, vmul_tab, vmul_tab, sum_tab, sum_tab] at h5
    exact h5

/-- C72 (potentials in one dimension): a 1-form is the derivative of a 0-form exactly when the ends are free or it adds up to zero. -/
theorem C72_line (k : Kind) (n : ℕ) (hn : validSize k n) (xmin xmax : ℝ) (t : Bool) (α : List ℝ) (hα : α.length = (grid k n xmin xmax).N 1 t) :
    (∃ a : List ℝ, a.length = (grid k n xmin xmax).N 0 t ∧ (grid k n xmin xmax).D 0 t a = some α) ↔ openEnds k t ∨ α.sum = 0 := by
  obtain ⟨A, cA⟩ := grid_coh k n hn xmin xmax t
  obtain ⟨X, rfl⟩ : ∃ f, α = tab ((grid k n xmin xmax).N 1 t) f := ⟨_, eq_tab' hα 0⟩
  rw [sum_tab]
  constructor
  · rintro ⟨a, ha, h⟩
    obtain ⟨f, rfl⟩ : ∃ f, a = tab ((grid k n xmin xmax).N 0 t) f := ⟨_, eq_tab' ha 0⟩
    by_cases o : openEnds k t
    · exact .inl o
    · right
      rw [← cA.sum_cl o f]
      exact sum_congr rfl fun i hi => (mat_eq cA.d (d0_of_D h) (mem_range.1 hi)).symm
  · intro h
    obtain ⟨f, hf⟩ := cA.im X h
    refine ⟨tab _ f, length_tab _ _, D_of_d0 ((cA.d f).trans ?_)⟩
    rw [Except.ok.injEq, tab_inj]; exact hf

section
variable (k k' : Kind) (n n' : ℕ) (hn : validSize k n) (hn' : validSize k' n') (xmin xmax ymin ymax : ℝ) (t : Bool)

local notation "gx" => grid k n xmin xmax
local notation "gy" => grid k' n' ymin ymax
local notation "𝔾" => product (grid k n xmin xmax) (grid k' n' ymin ymax)

/-- The number of x-edges of a product grid: the y-edges of a flat 1-form start here. -/
def xEdges (g g' : Grid1) (t : Bool) : ℕ := g'.N 0 t * g.N 1 t

include hn hn' in
/-- C72 (integration by parts): the pairing `∫ da ∧ β = -∫ a dβ` of a 0-form of one kind of cells with a 1-form on the other kind of cells. -/
theorem C72_adjoint (hx : xmin < xmax) (hy : ymin < ymax) (a β : List ℝ) (ha : (𝔾).N 0 t = .ok a.length) (hβ : (𝔾).N 1 (!t) = .ok β.length) :
    ∃ da dβ, (𝔾).D 0 t a = .ok da ∧ (𝔾).D 1 (!t) β = .ok dβ ∧
      (vmul (da.take (xEdges gx gy t)) (β.drop (xEdges gx gy (!t)))).sum - (vmul (da.drop (xEdges gx gy t)) (β.take (xEdges gx gy (!t)))).sum
        = -(vmul a dβ).sum := by
  have Fx := grid_factor k n hn xmin xmax
  have Fy := grid_factor k' n' hn' ymin ymax
  obtain ⟨A, cA⟩ := grid_coh k n hn xmin xmax t
  obtain ⟨B, cB⟩ := grid_coh k' n' hn' ymin ymax t
  obtain ⟨A', cA'⟩ := grid_coh k n hn xmin xmax (!t)
  obtain ⟨B', cB'⟩ := grid_coh k' n' hn' ymin ymax (!t)
  obtain ⟨ex1, ex2⟩ := grid_swap hn xmin xmax t
  obtain ⟨ey1, ey2⟩ := grid_swap hn' ymin ymax t
  rw [N_eq Fx Fy, Except.ok.injEq] at ha hβ
  obtain ⟨F, rfl⟩ := flat0 (show a.length = (gy).N 0 t * (gx).N 0 t from ha.symm)
  obtain ⟨X, Y, rfl⟩ := flat1 (show β.length = (gy).N 0 (!t) * (gx).N 1 (!t) + (gy).N 1 (!t) * (gx).N 0 (!t) from hβ.symm)
  refine ⟨_, _, D0_mat Fx Fy cA cB F, D1_mat Fx Fy cA' cB' X Y, ?_⟩
  unfold xEdges
  rw [List.take_left' (length_data _ _ _), List.drop_left' (length_data _ _ _), List.take_left' (length_data _ _ _), List.drop_left' (length_data _ _ _)]
  rw [ex1, ex2, ey1, ey2, vmul_data, vmul_data, vmul_data]
  have h1 : ∀ j, ∑ i ∈ range ((gx).N 1 t), dx (gx) t A F j i * Y j i = -∑ i ∈ range ((gx).N 0 t), F j i * dx (gx) (!t) A' Y j i := fun j => by
    have := adjoint_mat hn hx cA cA' (F j) (Y j)
    unfold dx; rw [ex2]; exact this
  have h2 : ∀ i, ∑ j ∈ range ((gy).N 1 t), dy (gy) t B F j i * X j i = -∑ j ∈ range ((gy).N 0 t), F j i * dy (gy) (!t) B' X j i := fun i => by
    have := adjoint_mat hn' hy cB cB' (fun j => F j i) (fun j => X j i)
    unfold dy; rw [ey2]; exact this
  rw [sum_congr rfl fun j _ => h1 j, sum_comm (s := range ((gy).N 1 t)), sum_congr rfl fun i _ => h2 i]
  simp only [mul_add, mul_neg, sum_add_distrib, sum_neg_distrib]
  rw [sum_comm (s := range ((gx).N 0 t))]
  ring

include hn hn' in
/-- C72 (kernel): the 0-forms with derivative zero are the constants where both directions are periodic or the cells are primal, otherwise only zero. -/
theorem C72_kernel (a : List ℝ) (ha : (𝔾).N 0 t = .ok a.length) :
    (∃ da, (𝔾).D 0 t a = .ok da ∧ ∀ z ∈ da, z = 0) ↔ ∃ c : ℝ, a = List.replicate a.length c ∧ (c = 0 ∨ (free k t ∧ free k' t)) := by
  have Fx := grid_factor k n hn xmin xmax
  have Fy := grid_factor k' n' hn' ymin ymax
  obtain ⟨A, cA⟩ := grid_coh k n hn xmin xmax t
  obtain ⟨B, cB⟩ := grid_coh k' n' hn' ymin ymax t
  rw [N_eq Fx Fy, Except.ok.injEq] at ha
  obtain ⟨F, rfl⟩ := flat0 (show a.length = (gy).N 0 t * (gx).N 0 t from ha.symm)
  have hz : (∃ da, (𝔾).D 0 t (mtab ((gy).N 0 t) ((gx).N 0 t) F).data = .ok da ∧ ∀ z ∈ da, z = 0) ↔
      (∀ j < (gy).N 0 t, ∀ i < (gx).N 1 t, dx (gx) t A F j i = 0) ∧ ∀ j < (gy).N 1 t, ∀ i < (gx).N 0 t, dy (gy) t B F j i = 0 := by
    rw [D0_mat Fx Fy cA cB F, ← data_all_zero, ← data_all_zero]
    constructor
    · rintro ⟨da, h, h'⟩
      rw [← Except.ok.inj h] at h'
      exact ⟨fun z hz => h' z (List.mem_append_left _ hz), fun z hz => h' z (List.mem_append_right _ hz)⟩
    · rintro ⟨h, h'⟩
      exact ⟨_, rfl, fun z hz => (List.mem_append.1 hz).elim (h z) (h' z)⟩
  rw [hz]
  have hc : ∀ c : ℝ, (mtab ((gy).N 0 t) ((gx).N 0 t) F).data = List.replicate (mtab ((gy).N 0 t) ((gx).N 0 t) F).data.length c ↔ ∀ j < (gy).N 0 t, ∀ i < (gx).N 0 t, F j i = c := fun c => by
    rw [length_data, ← data_inj (G := fun _ _ => c), replicate_tab]; rfl
  simp only [hc]
  constructor
  · rintro ⟨h1, h2⟩
    by_cases f : free k t
    · by_cases f' : free k' t
      · refine ⟨F 0 0, fun j hj i hi => ?_, .inr ⟨f, f'⟩⟩
        rw [cA.ker_fr f (F j) (h1 j hj) i hi, cB.ker_fr f' (fun j => F j 0) (fun j hj => h2 j hj 0 (Fx.pos 0 t)) j hj]
      · exact ⟨0, fun j hj i hi => cB.ker_cl f' (fun j => F j i) (fun j hj => h2 j hj i hi) j hj, .inl rfl⟩
    · exact ⟨0, fun j hj i hi => cA.ker_cl f (F j) (h1 j hj) i hi, .inl rfl⟩
  · rintro ⟨c, h, hc⟩
    have e1 : ∀ j < (gy).N 0 t, ∀ i, dx (gx) t A F j i = ∑ l ∈ range ((gx).N 0 t), A i l * c := fun j hj i => sum_congr rfl fun l hl => by rw [h j hj l (mem_range.1 hl)]
    have e2 : ∀ j, ∀ i < (gx).N 0 t, dy (gy) t B F j i = ∑ l ∈ range ((gy).N 0 t), B j l * c := fun j i hi => sum_congr rfl fun l hl => by rw [h l (mem_range.1 hl) i hi]
    refine ⟨fun j hj i hi => ?_, fun j hj i hi => ?_⟩
    · rw [e1 j hj i]
      rcases hc with rfl | ⟨f, -⟩
      · simp
      · exact cA.const f c i hi
    · rw [e2 j i hi]
      rcases hc with rfl | ⟨-, f⟩
      · simp
      · exact cB.const f c j hj

include hn hn' in
/-- C72 (Stokes): the sum of the derivative of a 1-form over all faces is its circulation around the boundary: the last minus the first column of y-edges where x runs over an
interval and the cells are primal, minus the last minus the first row of x-edges where y does. -/
theorem C72_stokes (α : List ℝ) (hα : (𝔾).N 1 t = .ok α.length) :
    ∃ w, (𝔾).D 1 t α = .ok w ∧ w.sum
      = (if openEnds k t then ∑ j ∈ range ((gy).N 1 t), (α.getD (xEdges gx gy t + (j * (gx).N 0 t + ((gx).N 0 t - 1))) 0 - α.getD (xEdges gx gy t + (j * (gx).N 0 t + 0)) 0) else 0)
      - (if openEnds k' t then ∑ i ∈ range ((gx).N 1 t), (α.getD (((gy).N 0 t - 1) * (gx).N 1 t + i) 0 - α.getD (0 * (gx).N 1 t + i) 0) else 0) := by
  have Fx := grid_factor k n hn xmin xmax
  have Fy := grid_factor k' n' hn' ymin ymax
  obtain ⟨A, cA⟩ := grid_coh k n hn xmin xmax t
  obtain ⟨B, cB⟩ := grid_coh k' n' hn' ymin ymax t
  rw [N_eq Fx Fy, Except.ok.injEq] at hα
  obtain ⟨X, Y, rfl⟩ := flat1 (show α.length = (gy).N 0 t * (gx).N 1 t + (gy).N 1 t * (gx).N 0 t from hα.symm)
  refine ⟨_, D1_mat Fx Fy cA cB X Y, ?_⟩
  have px := Fx.pos 0 t
  have py := Fy.pos 0 t
  unfold xEdges
  have s1 : ∑ j ∈ range ((gy).N 1 t), ∑ i ∈ range ((gx).N 1 t), dx (gx) t A Y j i = if openEnds k t then ∑ j ∈ range ((gy).N 1 t), (Y j ((gx).N 0 t - 1) - Y j 0) else 0 := by
    by_cases o : openEnds k t
    · rw [if_pos o]; exact sum_congr rfl fun j _ => cA.sum_op o (Y j)
    · rw [if_neg o]; exact sum_eq_zero fun j _ => cA.sum_cl o (Y j)
  have s2 : ∑ i ∈ range ((gx).N 1 t), ∑ j ∈ range ((gy).N 1 t), dy (gy) t B X j i = if openEnds k' t then ∑ i ∈ range ((gx).N 1 t), (X ((gy).N 0 t - 1) i - X 0 i) else 0 := by
    by_cases o : openEnds k' t
    · rw [if_pos o]; exact sum_congr rfl fun i _ => cB.sum_op o fun j => X j i
    · rw [if_neg o]; exact sum_eq_zero fun i _ => cB.sum_cl o fun j => X j i
  rw [sum_data]
  simp only [sum_add_distrib, sum_neg_distrib]
  rw [sum_comm (f := fun j i => dy (gy) t B X j i), s1, s2, neg_add_eq_sub]
  have g1 : ∀ j ∈ range ((gy).N 1 t), Y j ((gx).N 0 t - 1) - Y j 0 = ((mtab ((gy).N 0 t) ((gx).N 1 t) X).data ++ (mtab ((gy).N 1 t) ((gx).N 0 t) Y).data).getD
        ((gy).N 0 t * (gx).N 1 t + (j * (gx).N 0 t + ((gx).N 0 t - 1))) 0 - ((mtab ((gy).N 0 t) ((gx).N 1 t) X).data ++ (mtab ((gy).N 1 t) ((gx).N 0 t) Y).data).getD
        ((gy).N 0 t * (gx).N 1 t + (j * (gx).N 0 t + 0)) 0 := fun j hj => by
    rw [getD_snd (mem_range.1 hj) (by omega), getD_snd (mem_range.1 hj) px]
  have g2 : ∀ i ∈ range ((gx).N 1 t), X ((gy).N 0 t - 1) i - X 0 i = ((mtab ((gy).N 0 t) ((gx).N 1 t) X).data ++ (mtab ((gy).N 1 t) ((gx).N 0 t) Y).data).getD
        (((gy).N 0 t - 1) * (gx).N 1 t + i) 0 - ((mtab ((gy).N 0 t) ((gx).N 1 t) X).data ++ (mtab ((gy).N 1 t) ((gx).N 0 t) Y).data).getD (0 * (gx).N 1 t + i) 0 := fun i hi => by
    rw [getD_fst (by omega) (mem_range.1 hi), getD_fst py (mem_range.1 hi)]
  rw [sum_congr rfl g1, sum_congr rfl g2]

include hn hn' in
/-- C72 (potentials of 1-forms): a 1-form is the derivative of a 0-form exactly when its derivative is zero and it adds up to zero along every row of x-edges (unless these have free ends)
and every column of y-edges (unless these have free ends). -/
theorem C72_potential (α : List ℝ) (hα : (𝔾).N 1 t = .ok α.length) :
    (∃ a, (𝔾).N 0 t = .ok a.length ∧ (𝔾).D 0 t a = .ok α) ↔
      (∃ w, (𝔾).D 1 t α = .ok w ∧ ∀ z ∈ w, z = 0) ∧
      (¬ openEnds k t → ∀ j < (gy).N 0 t, ∑ i ∈ range ((gx).N 1 t), α.getD (j * (gx).N 1 t + i) 0 = 0) ∧
      (¬ openEnds k' t → ∀ i < (gx).N 0 t, ∑ j ∈ range ((gy).N 1 t), α.getD (xEdges gx gy t + (j * (gx).N 0 t + i)) 0 = 0) := by
  have Fx := grid_factor k n hn xmin xmax
  have Fy := grid_factor k' n' hn' ymin ymax
  obtain ⟨A, cA⟩ := grid_coh k n hn xmin xmax t
  obtain ⟨B, cB⟩ := grid_coh k' n' hn' ymin ymax t
  rw [N_eq Fx Fy, Except.ok.injEq] at hα
  obtain ⟨X, Y, rfl⟩ := flat1 (show α.length = (gy).N 0 t * (gx).N 1 t + (gy).N 1 t * (gx).N 0 t from hα.symm)
  have h0 : (∃ a, (𝔾).N 0 t = .ok a.length ∧ (𝔾).D 0 t a = .ok ((mtab ((gy).N 0 t) ((gx).N 1 t) X).data ++ (mtab ((gy).N 1 t) ((gx).N 0 t) Y).data)) ↔
      ∃ F : ℕ → ℕ → ℝ, (∀ j < (gy).N 0 t, ∀ i < (gx).N 1 t, dx (gx) t A F j i = X j i) ∧ ∀ j < (gy).N 1 t, ∀ i < (gx).N 0 t, dy (gy) t B F j i = Y j i := by
    constructor
    · rintro ⟨a, ha, h⟩
      rw [N_eq Fx Fy, Except.ok.injEq] at ha
      obtain ⟨F, rfl⟩ := flat0 (show a.length = (gy).N 0 t * (gx).N 0 t from ha.symm)
      rw [D0_mat Fx Fy cA cB F, Except.ok.injEq, data_inj2] at h
      exact ⟨F, h⟩
    · rintro ⟨F, h⟩
      refine ⟨(mtab ((gy).N 0 t) ((gx).N 0 t) F).data, ?_, ?_⟩
      · rw [N_eq Fx Fy, length_data]; rfl
      · rw [D0_mat Fx Fy cA cB F, Except.ok.injEq, data_inj2]; exact h
  have h1 : (∃ w, (𝔾).D 1 t ((mtab ((gy).N 0 t) ((gx).N 1 t) X).data ++ (mtab ((gy).N 1 t) ((gx).N 0 t) Y).data) = .ok w ∧ ∀ z ∈ w, z = 0) ↔
      ∀ j < (gy).N 1 t, ∀ i < (gx).N 1 t, -dy (gy) t B X j i + dx (gx) t A Y j i = 0 := by
    rw [D1_mat Fx Fy cA cB X Y, ← data_all_zero]
    constructor
    · rintro ⟨w, h, h'⟩; rw [← Except.ok.inj h] at h'; exact h'
    · intro h; exact ⟨_, rfl, h⟩
  rw [h0, h1, exact_iff Fx Fy cA cB X Y]
  have e1 : ∀ j < (gy).N 0 t, ∑ i ∈ range ((gx).N 1 t), ((mtab ((gy).N 0 t) ((gx).N 1 t) X).data ++ (mtab ((gy).N 1 t) ((gx).N 0 t) Y).data).getD (j * (gx).N 1 t + i) 0
      = ∑ i ∈ range ((gx).N 1 t), X j i := fun j hj => sum_congr rfl fun i hi => getD_fst hj (mem_range.1 hi)
  have e2 : ∀ i < (gx).N 0 t, ∑ j ∈ range ((gy).N 1 t), ((mtab ((gy).N 0 t) ((gx).N 1 t) X).data ++ (mtab ((gy).N 1 t) ((gx).N 0 t) Y).data).getD (xEdges gx gy t + (j * (gx).N 0 t + i)) 0
      = ∑ j ∈ range ((gy).N 1 t), Y j i := fun i hi => sum_congr rfl fun j hj => getD_snd (mem_range.1 hj) hi
  refine and_congr Iff.rfl (and_congr ?_ ?_)
  · exact imp_congr_right fun _ => forall₂_congr fun j hj => by rw [e1 j hj]
  · exact imp_congr_right fun _ => forall₂_congr fun i hi => by rw [e2 i hi]

include hn hn' in
/-- C72 (potentials of 2-forms): a 2-form is the derivative of a 1-form exactly when one direction has free ends or it adds up to zero. -/
theorem C72_potential_two (w : List ℝ) (hw : (𝔾).N 2 t = .ok w.length) :
    (∃ α, (𝔾).N 1 t = .ok α.length ∧ (𝔾).D 1 t α = .ok w) ↔ openEnds k t ∨ openEnds k' t ∨ w.sum = 0 := by
  have Fx := grid_factor k n hn xmin xmax
  have Fy := grid_factor k' n' hn' ymin ymax
  obtain ⟨A, cA⟩ := grid_coh k n hn xmin xmax t
  obtain ⟨B, cB⟩ := grid_coh k' n' hn' ymin ymax t
  rw [N_eq Fx Fy, Except.ok.injEq] at hw
  obtain ⟨S, rfl⟩ := flat0 (show w.length = (gy).N 1 t * (gx).N 1 t from hw.symm)
  rw [sum_data, ← exact2_iff Fx Fy cA cB S]
  constructor
  · rintro ⟨α, hα, h⟩
    rw [N_eq Fx Fy, Except.ok.injEq] at hα
    obtain ⟨X, Y, rfl⟩ := flat1 (show α.length = (gy).N 0 t * (gx).N 1 t + (gy).N 1 t * (gx).N 0 t from hα.symm)
    rw [D1_mat Fx Fy cA cB X Y, Except.ok.injEq, data_inj] at h
    exact ⟨X, Y, h⟩
  · rintro ⟨X, Y, h⟩
    refine ⟨(mtab ((gy).N 0 t) ((gx).N 1 t) X).data ++ (mtab ((gy).N 1 t) ((gx).N 0 t) Y).data, ?_, ?_⟩
    · rw [N_eq Fx Fy, List.length_append, length_data, length_data]; rfl
    · rw [D1_mat Fx Fy cA cB X Y, Except.ok.injEq, data_inj]; exact h

include hn' in
/-- C72 (a closed form without potential): where x is periodic, the 1-form that is one on every x-edge and zero on every y-edge has derivative zero (if constants do in y), and no potential. -/
theorem C72_closed_not_exact (hk : k = .periodic) (hn : 1 ≤ n) (hf : free k' t) :
    ∃ α : List ℝ, (𝔾).N 1 t = .ok α.length ∧ (∃ w, (𝔾).D 1 t α = .ok w ∧ ∀ z ∈ w, z = 0) ∧ ¬ ∃ a, (𝔾).N 0 t = .ok a.length ∧ (𝔾).D 0 t a = .ok α := by
  subst hk
  have Fx := grid_factor .periodic n hn xmin xmax
  have Fy := grid_factor k' n' hn' ymin ymax
  obtain ⟨A, cA⟩ := grid_coh .periodic n hn xmin xmax t
  obtain ⟨B, cB⟩ := grid_coh k' n' hn' ymin ymax t
  have hN : (product (grid .periodic n xmin xmax) (gy)).N 1 t
      = .ok ((mtab ((gy).N 0 t) ((grid .periodic n xmin xmax).N 1 t) fun _ _ => (1 : ℝ)).data ++ (mtab ((gy).N 1 t) ((grid .periodic n xmin xmax).N 0 t) fun _ _ => 0).data).length := by
    rw [N_eq Fx Fy, List.length_append, length_data, length_data]; rfl
  refine ⟨_, hN, ⟨_, D1_mat Fx Fy cA cB _ _, ?_⟩, ?_⟩
  · rw [data_all_zero]
    intro j hj i hi
    have : dy (gy) t B (fun _ _ => 1) j i = 0 := cB.const hf 1 j hj
    rw [this]; simp [dx]
  · rw [C72_potential .periodic k' n n' hn hn' xmin xmax ymin ymax t _ hN]
    rintro ⟨-, h, -⟩
    have h0 := h (by simp [openEnds]) 0 (Fy.pos 0 t)
    rw [sum_congr rfl fun i hi => getD_fst (F := fun _ _ => (1 : ℝ)) (Fy.pos 0 t) (mem_range.1 hi)] at h0
    have := Fx.pos 1 t
    simp at h0
    omega

end

/-- The hypotheses of C72 hold for a Chebyshev grid of 3 vertices times a periodic grid of 2: 6 vertices, 10 edges, 4 faces. -/
example : (product (grid .chebyshev 3 (-1) 1) (grid .periodic 2 0 1)).N 0 true = .ok ([1, 2, 3, 4, 5, 6] : List ℝ).length ∧
    (product (grid .chebyshev 3 (-1) 1) (grid .periodic 2 0 1)).N 1 true = .ok ([1, 2, 3, 4, 5, 6, 7, 8, 9, 10] : List ℝ).length ∧
    (product (grid .chebyshev 3 (-1) 1) (grid .periodic 2 0 1)).N 2 true = .ok ([1, 2, 3, 4] : List ℝ).length := by
  have Fx := grid_factor .chebyshev 3 (by show 2 ≤ 3; omega) (-1) 1
  have Fy := grid_factor .periodic 2 (by show 1 ≤ 2; omega) 0 1
  exact ⟨N_eq Fx Fy 0 true, N_eq Fx Fy 1 true, N_eq Fx Fy 2 true⟩

end Dec.Props
