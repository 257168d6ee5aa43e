import Verif.Lib.Factors

set_option linter.unusedSimpArgs false
set_option linter.unusedVariables false

/-! The Laplacian of a one-dimensional grid as a linear map, its kernel and its range. -/

namespace Dec.G2

open Finset Real Dec.Props Dec.Sp

theorem lin_zero {n m : ℕ} {L : List ℝ → List ℝ} (h : Lin n m L) : L (List.replicate n 0) = List.replicate m 0 := by
  have h1 := h.smul 0 (List.replicate n 0) (by simp)
  have h2 : (List.replicate n (0 : ℝ)).map ((0 : ℝ) • ·) = List.replicate n 0 := by simp
  have h3 : (L (List.replicate n 0)).map ((0 : ℝ) • ·) = List.replicate m 0 := by
    generalize hz : L (List.replicate n 0) = z
    have hl : z.length = m := by rw [← hz]; exact h.len _ (by simp)
    rw [eq_tab' hl 0, map_tab, replicate_tab]
    exact tab_congr fun i _ => by simp
  rw [h2, h3] at h1; exact h1

theorem vsub_eq {x y : List ℝ} : vsub x y = vadd x (y.map ((-1 : ℝ) • ·)) := by
  unfold vsub vadd
  rw [List.zipWith_map_right]
  congr 1; funext a b; simp [sub_eq_add_neg]

theorem lin_sub {n m : ℕ} {L : List ℝ → List ℝ} (h : Lin n m L) {x y : List ℝ} (hx : x.length = n) (hy : y.length = n) :
    L (vsub x y) = vsub (L x) (L y) := by
  rw [vsub_eq, vsub_eq, h.add _ _ hx (by simp [hy]), h.smul _ _ hy]

theorem vsub_zero_iff {n : ℕ} {x y : List ℝ} (hx : x.length = n) (hy : y.length = n) : vsub x y = List.replicate n 0 ↔ x = y := by
  rw [eq_tab' hx 0, eq_tab' hy 0, vsub_tab, replicate_tab]
  simp only [tab_inj]
  exact ⟨fun h i hi => sub_eq_zero.1 (h i hi), fun h i hi => sub_eq_zero.2 (h i hi)⟩

theorem vsub_vadd_cancel {n : ℕ} {x y z : List ℝ} (hx : x.length = n) (hy : y.length = n) (hz : z.length = n) : vadd x y = z ↔ x = vsub z y := by
  rw [eq_tab' hx 0, eq_tab' hy 0, eq_tab' hz 0, vsub_tab, vadd_tab]
  simp only [tab_inj]
  exact ⟨fun h i hi => by rw [← h i hi]; ring, fun h i hi => by rw [h i hi]; ring⟩

variable {g : Grid1}

/-- The four maps of a grid that returns on every array of the right length. -/
theorem lap_maps (hF : Factor g) (hS : Stars g) (t : Bool) :
    ∃ δ η δ' η' : List ℝ → List ℝ, Lin (g.N 0 t) (g.N 1 t) δ ∧ Lin (g.N 1 t) (g.N 0 (!t)) η ∧ Lin (g.N 0 (!t)) (g.N 1 (!t)) δ' ∧ Lin (g.N 1 (!t)) (g.N 0 t) η' ∧
      (∀ a : List ℝ, a.length = g.N 0 t → g.d0 t a = .ok (δ a)) ∧ (∀ a : List ℝ, a.length = g.N 1 t → g.H 1 t a = .ok (η a)) ∧
      (∀ a : List ℝ, a.length = g.N 0 (!t) → g.d0 (!t) a = .ok (δ' a)) ∧ (∀ a : List ℝ, a.length = g.N 1 (!t) → g.H 1 (!t) a = .ok (η' a)) ∧
      (∀ a : List ℝ, a.length = g.N 0 t → g.laplacian t a = .ok (η' (δ' (η (δ a))))) := by
  obtain ⟨δ, h1, e1⟩ := hF.d t
  obtain ⟨η, h2, e2⟩ := hS.lin 1 t
  obtain ⟨δ', h3, e3⟩ := hF.d (!t)
  obtain ⟨η', h4, e4⟩ := hS.lin 1 (!t)
  rw [show (1 : Fin 2) - 1 = 0 from rfl] at h2 h4
  rw [Bool.not_not] at h4
  refine ⟨δ, η, δ', η', h1, h2, h3, h4, e1, e2, e3, e4, fun a ha => ?_⟩
  unfold Grid1.laplacian
  rw [e1 a ha]; simp only [bind, Except.bind]
  rw [e2 _ (h1.len a ha)]; simp only []
  rw [e3 _ (h2.len _ (h1.len a ha))]; simp only []
  rw [e4 _ (h3.len _ (h2.len _ (h1.len a ha)))]

theorem lap_elin (hF : Factor g) (hS : Stars g) (t : Bool) : ELin (g.N 0 t) (g.N 0 t) (g.laplacian t) := by
  obtain ⟨δ, η, δ', η', h1, h2, h3, h4, -, -, -, -, e⟩ := lap_maps hF hS t
  exact ⟨_, h4.comp (h3.comp (h2.comp h1)), e⟩

theorem star_injective (hS : Stars g) (d : Fin 2) (t : Bool) {a b : List ℝ} (ha : a.length = g.N d t) (hb : b.length = g.N d t) (h : g.H d t a = g.H d t b) : a = b := by
  have h1 := hS.inv d t a ha
  rw [h, hS.inv d t b hb] at h1
  exact (Except.ok.inj h1).symm

theorem star_surjective (hS : Stars g) (d : Fin 2) (t : Bool) {b : List ℝ} (hb : b.length = g.N (1 - d) (!t)) :
    ∃ a, a.length = g.N d t ∧ g.H d t a = .ok b := by
  obtain ⟨L, hL, e⟩ := hS.lin (1 - d) (!t)
  have h := hS.inv (1 - d) (!t) b hb
  have e1 : (1 : Fin 2) - (1 - d) = d := (by decide : ∀ d : Fin 2, (1 : Fin 2) - (1 - d) = d) d
  rw [e b hb, e1, Bool.not_not] at h
  refine ⟨L b, ?_, h⟩
  have := hL.len b hb
  rwa [e1, Bool.not_not] at this

/-- A Laplacian vanishes exactly when the star of the derivative is closed. -/
theorem lap_zero_iff (hF : Factor g) (hS : Stars g) (t : Bool) {a : List ℝ} (ha : a.length = g.N 0 t) :
    g.laplacian t a = .ok (List.replicate (g.N 0 t) 0) ↔
      ∃ y z, g.d0 t a = .ok y ∧ g.H 1 t y = .ok z ∧ z.length = g.N 0 (!t) ∧ y.length = g.N 1 t ∧ g.d0 (!t) z = .ok (List.replicate (g.N 1 (!t)) 0) := by
  obtain ⟨δ, η, δ', η', h1, h2, h3, h4, e1, e2, e3, e4, e⟩ := lap_maps hF hS t
  have l1 := h1.len a ha
  have l2 := h2.len _ l1
  have l3 := h3.len _ l2
  rw [e a ha]
  constructor
  · intro h
    refine ⟨_, _, e1 a ha, e2 _ l1, l2, l1, ?_⟩
    rw [e3 _ l2]
    congr 1
    refine star_injective hS 1 (!t) l3 (by simp) ?_
    rw [e4 _ l3, e4 _ (by simp), lin_zero h4]; exact h
  · rintro ⟨y, z, hy, hz, -, -, hd⟩
    rw [e1 a ha] at hy
    obtain rfl := Except.ok.inj hy
    rw [e2 _ l1] at hz
    obtain rfl := Except.ok.inj hz
    rw [e3 _ l2] at hd
    rw [Except.ok.inj hd, lin_zero h4]

end Dec.G2

namespace Dec

/-- An injective linear endomorphism of arrays of length `n` is onto. -/
theorem Lin.surjective {n : ℕ} {L : List ℝ → List ℝ} (hL : Lin n n L) (hi : ∀ a : List ℝ, a.length = n → L a = List.replicate n 0 → a = List.replicate n 0)
    (b : List ℝ) (hb : b.length = n) : ∃ a, a.length = n ∧ L a = b := by
  obtain ⟨f, hf⟩ := hL.exists_map
  have inj : Function.Injective f := by
    rw [← LinearMap.ker_eq_bot, LinearMap.ker_eq_bot']
    intro x hx
    have h0 : List.ofFn (0 : Fin n → ℝ) = List.replicate n 0 := by simp [Pi.zero_def, List.ofFn_const]
    have h1 := hf x
    rw [hx, h0] at h1
    have h2 := hi _ (by simp) h1.symm
    rw [← h0] at h2
    exact List.ofFn_injective h2
  obtain ⟨v, rfl⟩ := exists_ofFn hb
  obtain ⟨x, rfl⟩ := (LinearMap.injective_iff_surjective.1 inj) v
  exact ⟨List.ofFn x, by simp, by rw [hf]⟩

/-- A linear endomorphism with the constants as kernel, whose values are annihilated by a functional: every array annihilated by the functional has exactly one
preimage with a given first entry. -/
theorem Lin.range_of_const {n : ℕ} (hn : 0 < n) {L : List ℝ → List ℝ} (hL : Lin n n L) (hk : ∀ a : List ℝ, a.length = n → (L a = List.replicate n 0 ↔ ∃ c, a = List.replicate n c))
    {φ : List ℝ → ℝ} (hadd : ∀ x y : List ℝ, x.length = n → y.length = n → φ (vadd x y) = φ x + φ y) (hsmul : ∀ (c : ℝ) (x : List ℝ), x.length = n → φ (x.map (c • ·)) = c * φ x)
    (h0 : ∀ a : List ℝ, a.length = n → φ (L a) = 0) {e : List ℝ} (he : e.length = n) (he' : φ e ≠ 0) (b : List ℝ) (hb : b.length = n) :
    φ b = 0 ↔ ∃ a, a.length = n ∧ L a = b := by
  constructor
  · intro h
    have hM : Lin n n fun a => vadd (L a) (e.map ((a.getD 0 0) • ·)) := by
      refine hL.add_map ⟨fun _ _ => by simp [he], fun x y hx hy => ?_, fun c x hx => ?_⟩
      · beta_reduce
        rw [getD_vadd hx hy hn, eq_tab' he 0]
        simp only [map_tab, vadd_tab, add_smul]
      · beta_reduce
        have hc : (x.map (c • ·)).getD 0 0 = c * x.getD 0 0 := getD_smul c hx hn
        rw [hc, eq_tab' he 0]
        simp only [map_tab, smul_smul]
    have hinj : ∀ a : List ℝ, a.length = n → vadd (L a) (e.map ((a.getD 0 0) • ·)) = List.replicate n 0 → a = List.replicate n 0 := by
      intro a ha h
      have h1 := hadd (L a) (e.map ((a.getD 0 0) • ·)) (hL.len a ha) (by simp [he])
      have hz : φ (List.replicate n 0) = 0 := by
        have := hsmul 0 (List.replicate n 0) (by simp)
        simpa using this
      rw [h, h0 a ha, hsmul _ _ he, zero_add, hz] at h1
      have h2 : a.getD 0 0 = 0 := (mul_eq_zero.1 h1.symm).resolve_right he'
      have h3 : L a = List.replicate n 0 := by
        rw [h2] at h
        rw [← h]
        conv_rhs => rw [eq_tab' (hL.len a ha) 0, eq_tab' he 0, map_tab, vadd_tab]
        conv_lhs => rw [eq_tab' (hL.len a ha) 0]
        exact tab_congr fun i _ => by simp
      obtain ⟨c, rfl⟩ := (hk a ha).1 h3
      have : c = 0 := by simpa [hn] using h2
      rw [this]
    obtain ⟨a, ha, hab⟩ := hM.surjective hinj b hb
    · have h1 := hadd (L a) (e.map ((a.getD 0 0) • ·)) (hL.len a ha) (by simp [he])
      beta_reduce at hab
      rw [hab, h, h0 a ha, hsmul _ _ he, zero_add] at h1
      have h2 : a.getD 0 0 = 0 := (mul_eq_zero.1 h1.symm).resolve_right he'
      refine ⟨a, ha, ?_⟩
      rw [h2] at hab
      rw [← hab, eq_tab' (hL.len a ha) 0, eq_tab' he 0, map_tab, vadd_tab]
      exact tab_congr fun i _ => by simp
  · rintro ⟨a, ha, rfl⟩
    exact h0 a ha

end Dec
