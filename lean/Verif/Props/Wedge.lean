import Verif.Lib.Bil

set_option linter.unusedSimpArgs false
set_option linter.unusedVariables false

/-!
# C20 (graded commutativity and bilinearity of the discrete wedge product in one dimension), C24 (bilinearity of the contraction)

`WedgeGrid g`: `g` is a periodic grid or a Chebyshev grid with 2 to 927 vertices (with more vertices `C05_chebyshev_hodge_inverse_rejects` applies).
-/

namespace Dec.Props

open Real Finset Dec.Sp

/-- C20: `a ∧ b = (-1)^(k l) b ∧ a`: both products exist and agree up to the sign, for all degrees and dualities in the table. -/
theorem C20_graded_commutative (g : Grid1) (hg : WedgeGrid g) (k l : Fin 2) (hkl : k.val + l.val ≤ 1) (s t u : Bool) (a b : List ℝ)
    (ha : a.length = g.N k s) (hb : b.length = g.N l t) :
    ∃ c d, g.wedge k s l t u a b = .ok c ∧ g.wedge l t k s u b a = .ok d ∧ c = smul ((-1) ^ (k.val * l.val)) d := by
  obtain ⟨⟨M, h, _⟩, hW, _⟩ := hg.refining
  obtain ⟨B, hB, e1, e2⟩ := h.wedge k l hkl s t u
  refine ⟨B a b, B a b, ?_, ?_, ?_⟩
  · unfold Grid1.wedge; rw [hW]; exact e1 a b ha hb
  · unfold Grid1.wedge; rw [hW]; exact e2 a b ha hb
  · have : k.val * l.val = 0 := by
      rcases Nat.eq_zero_or_pos k.val with h | h
      · simp [h]
      · have : l.val = 0 := by omega
        simp [this]
    rw [this]; simp [smul]

/-- Both orders are missing from the table when the degrees add up to more than the dimension. -/
theorem C20_commutative_key_error (g : Grid1) (hg : WedgeGrid g) (k l : Fin 2) (hkl : 1 < k.val + l.val) (s t u : Bool) (a b : List ℝ) :
    g.wedge k s l t u a b = .error .keyError ∧ g.wedge l t k s u b a = .error .keyError := by
  obtain ⟨⟨M, h, _⟩, hW, _⟩ := hg.refining
  unfold Grid1.wedge; rw [hW]
  simp only [wedge1]
  rw [if_pos (by omega), if_pos (by omega)]
  exact ⟨rfl, rfl⟩

theorem smul_eq_map (r : ℝ) (a : List ℝ) : smul r a = a.map (r • ·) := rfl

/-- C20: the wedge product is linear in its first argument. -/
theorem C20_bilinear_left (g : Grid1) (hg : WedgeGrid g) (k l : Fin 2) (hkl : k.val + l.val ≤ 1) (s t u : Bool) (r : ℝ) (a a' b : List ℝ)
    (ha : a.length = g.N k s) (ha' : a'.length = g.N k s) (hb : b.length = g.N l t) :
    ∃ c c', g.wedge k s l t u a b = .ok c ∧ g.wedge k s l t u a' b = .ok c' ∧
      g.wedge k s l t u (vadd (smul r a) a') b = .ok (vadd (smul r c) c') := by
  obtain ⟨⟨M, h, _⟩, hW, _⟩ := hg.refining
  obtain ⟨B, hB, e1, _⟩ := h.wedge k l hkl s t u
  have e : ∀ x y : List ℝ, x.length = g.N k s → y.length = g.N l t → g.wedge k s l t u x y = .ok (B x y) := fun x y hx hy => by
    unfold Grid1.wedge; rw [hW]; exact e1 x y hx hy
  have hr : (smul r a).length = g.N k s := by simp [smul, ha]
  refine ⟨B a b, B a' b, e a b ha hb, e a' b ha' hb, ?_⟩
  rw [e _ _ (by simp [hr, ha']) hb, (hB.left b hb).add _ _ hr ha', smul_eq_map, (hB.left b hb).smul r a ha]
  rfl

/-- C20: the wedge product is linear in its second argument. -/
theorem C20_bilinear_right (g : Grid1) (hg : WedgeGrid g) (k l : Fin 2) (hkl : k.val + l.val ≤ 1) (s t u : Bool) (r : ℝ) (a b b' : List ℝ)
    (ha : a.length = g.N k s) (hb : b.length = g.N l t) (hb' : b'.length = g.N l t) :
    ∃ c c', g.wedge k s l t u a b = .ok c ∧ g.wedge k s l t u a b' = .ok c' ∧
      g.wedge k s l t u a (vadd (smul r b) b') = .ok (vadd (smul r c) c') := by
  obtain ⟨⟨M, h, _⟩, hW, _⟩ := hg.refining
  obtain ⟨B, hB, e1, _⟩ := h.wedge k l hkl s t u
  have e : ∀ x y : List ℝ, x.length = g.N k s → y.length = g.N l t → g.wedge k s l t u x y = .ok (B x y) := fun x y hx hy => by
    unfold Grid1.wedge; rw [hW]; exact e1 x y hx hy
  have hr : (smul r b).length = g.N l t := by simp [smul, hb]
  refine ⟨B a b, B a b', e a b ha hb, e a b' ha hb', ?_⟩
  rw [e _ _ ha (by simp [hr, hb']), (hB.right a ha).add _ _ hr hb', smul_eq_map, (hB.right a ha).smul r b hb]
  rfl

/-- C24: the contraction is linear in both arguments. -/
theorem C24_bilinear (g : Grid1) (hg : WedgeGrid g) (s t u : Bool) (r : ℝ) (X X' a a' : List ℝ)
    (hX : X.length = g.N 1 s) (hX' : X'.length = g.N 1 s) (ha : a.length = g.N 1 t) (ha' : a'.length = g.N 1 t) :
    ∃ c₁ c₂ c₃, g.contraction s 1 t u X a = .ok c₁ ∧ g.contraction s 1 t u X' a = .ok c₂ ∧ g.contraction s 1 t u X a' = .ok c₃ ∧
      g.contraction s 1 t u (vadd (smul r X) X') a = .ok (vadd (smul r c₁) c₂) ∧
      g.contraction s 1 t u X (vadd (smul r a) a') = .ok (vadd (smul r c₁) c₃) := by
  obtain ⟨⟨M, h, _⟩, _, hC⟩ := hg.refining
  obtain ⟨B, hB, e1⟩ := h.contraction s t u
  have e : ∀ x y : List ℝ, x.length = g.N 1 s → y.length = g.N 1 t → g.contraction s 1 t u x y = .ok (B x y) := fun x y hx hy => by
    unfold Grid1.contraction; rw [hC]; exact e1 x y hx hy
  have hr : (smul r X).length = g.N 1 s := by simp [smul, hX]
  have hr' : (smul r a).length = g.N 1 t := by simp [smul, ha]
  refine ⟨B X a, B X' a, B X a', e _ _ hX ha, e _ _ hX' ha, e _ _ hX ha', ?_, ?_⟩
  · rw [e _ _ (by simp [hr, hX']) ha, (hB.left a ha).add _ _ hr hX', smul_eq_map, (hB.left a ha).smul r X hX]; rfl
  · rw [e _ _ hX (by simp [hr', ha']), (hB.right X hX).add _ _ hr' ha', smul_eq_map, (hB.right X hX).smul r a ha]; rfl

/-- Non-vacuity: a primal 0-form and a dual 1-form on the Chebyshev grid with three vertices. -/
example : WedgeGrid (Chebyshev.make 3 0 7) ∧ ([1, 2, 5] : List ℝ).length = (Chebyshev.make 3 0 7).N 0 true ∧
    ([1, 2, 4] : List ℝ).length = (Chebyshev.make 3 0 7).N 1 false :=
  ⟨.inr ⟨3, 0, 7, by norm_num, by norm_num, rfl⟩, rfl, rfl⟩

end Dec.Props
