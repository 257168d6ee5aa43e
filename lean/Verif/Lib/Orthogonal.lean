import Verif.Lib.Energy
import Mathlib.LinearAlgebra.BilinearForm.Orthogonal
import Mathlib.LinearAlgebra.FiniteDimensional.Lemmas

/-! # Orthogonal projections on arrays -/

namespace Dec

open Finset

/-- In a finite-dimensional space with a positive definite bilinear form every vector has a best approximation in the range of a linear map. -/
theorem exists_orthogonal {V W : Type*} [AddCommGroup V] [Module ℝ V] [FiniteDimensional ℝ V] [AddCommGroup W] [Module ℝ W] (T : W →ₗ[ℝ] V) (B : LinearMap.BilinForm ℝ V)
    (hs : ∀ x y, B x y = B y x) (hp : ∀ x, x ≠ 0 → 0 < B x x) (a : V) : ∃ f, ∀ f', B (T f') (a - T f) = 0 := by
  have h : IsCompl (LinearMap.range T) (B.orthogonal (LinearMap.range T)) := by
    rw [LinearMap.BilinForm.isCompl_orthogonal_iff_disjoint (fun x y h => by rw [hs, h])]
    rw [Submodule.disjoint_def]
    intro x hx hx'
    by_contra hne
    exact (hp x hne).ne' (hx' x hx)
  have ha : a ∈ LinearMap.range T ⊔ B.orthogonal (LinearMap.range T) := by rw [h.sup_eq_top]; trivial
  obtain ⟨u, hu, v, hv, rfl⟩ := Submodule.mem_sup.1 ha
  obtain ⟨f, rfl⟩ := hu
  refine ⟨f, fun f' => ?_⟩
  rw [add_sub_cancel_left]
  exact hv _ ⟨f', rfl⟩

theorem ofFn_add {n : ℕ} (x y : Fin n → ℝ) : List.ofFn (x + y) = vadd (List.ofFn x) (List.ofFn y) := by
  apply List.ext_getElem
  · simp [vadd]
  · intro i h1 h2
    simp [vadd]

theorem ofFn_smul {n : ℕ} (c : ℝ) (x : Fin n → ℝ) : List.ofFn (c • x) = (List.ofFn x).map (c • ·) := by
  apply List.ext_getElem
  · simp
  · intro i h1 h2
    simp

theorem ofFn_sub {n : ℕ} (x y : Fin n → ℝ) : List.ofFn (x - y) = vsub (List.ofFn x) (List.ofFn y) := by
  apply List.ext_getElem
  · simp [vsub]
  · intro i h1 h2
    simp [vsub]

/-- The same for arrays: `a` minus its best approximation `T f` is orthogonal to every `T f'`. -/
theorem Lin.exists_orthogonal {p m : ℕ} {T : List ℝ → List ℝ} (hT : Lin p m T) {B : List ℝ → List ℝ → ℝ}
    (hadd : ∀ x x' y : List ℝ, x.length = m → x'.length = m → y.length = m → B (vadd x x') y = B x y + B x' y)
    (hsmul : ∀ (c : ℝ) (x y : List ℝ), x.length = m → y.length = m → B (x.map (c • ·)) y = c * B x y)
    (hs : ∀ x y : List ℝ, x.length = m → y.length = m → B x y = B y x)
    (hp : ∀ x : List ℝ, x.length = m → (∃ z ∈ x, z ≠ 0) → 0 < B x x) (a : List ℝ) (ha : a.length = m) :
    ∃ f : List ℝ, f.length = p ∧ ∀ f' : List ℝ, f'.length = p → B (T f') (vsub a (T f)) = 0 := by
  have lT : ∀ x : Fin p → ℝ, (T (List.ofFn x)).length = m := fun x => hT.len _ (by simp)
  have hl : ∀ {n : ℕ} (x : Fin n → ℝ), (List.ofFn x).length = n := fun x => by simp
  choose τ hτ using fun x : Fin p → ℝ => exists_ofFn (lT x)
  let T' : (Fin p → ℝ) →ₗ[ℝ] (Fin m → ℝ) :=
    { toFun := τ
      map_add' := fun x y => List.ofFn_injective (by rw [hτ, ofFn_add, ofFn_add, hT.add _ _ (hl x) (hl y), hτ, hτ])
      map_smul' := fun c x => List.ofFn_injective (by rw [hτ, ofFn_smul, RingHom.id_apply, ofFn_smul, hT.smul _ _ (hl x), hτ]) }
  let B' : LinearMap.BilinForm ℝ (Fin m → ℝ) := LinearMap.mk₂ ℝ (fun x y => B (List.ofFn x) (List.ofFn y))
    (fun x x' y => by rw [ofFn_add, hadd _ _ _ (hl x) (hl x') (hl y)])
    (fun c x y => by rw [ofFn_smul, hsmul _ _ _ (hl x) (hl y)]; rfl)
    (fun x y y' => by rw [hs _ _ (hl x) (hl _), ofFn_add, hadd _ _ _ (hl y) (hl y') (hl x), hs _ _ (hl y) (hl x), hs _ _ (hl y') (hl x)])
    (fun c x y => by rw [hs _ _ (hl x) (hl _), ofFn_smul, hsmul _ _ _ (hl y) (hl x), hs _ _ (hl y) (hl x)]; rfl)
  obtain ⟨α, rfl⟩ := exists_ofFn ha
  obtain ⟨f, hf⟩ := Dec.exists_orthogonal T' B' (fun x y => hs _ _ (hl x) (hl y)) (fun x hx => hp _ (hl x) (by
    by_contra h
    push Not at h
    exact hx (funext fun i => h (x i) (by simp [List.mem_ofFn])))) α
  refine ⟨List.ofFn f, by simp, fun f' hf' => ?_⟩
  obtain ⟨φ, rfl⟩ := exists_ofFn hf'
  have := hf φ
  change B (List.ofFn (τ φ)) (List.ofFn (α - τ f)) = 0 at this
  rwa [hτ, ofFn_sub, hτ] at this

end Dec
