import Verif.Model.Schur
import Mathlib.LinearAlgebra.Matrix.SchurComplement
import Mathlib.LinearAlgebra.Matrix.ToLin
import Mathlib.Tactic

/-!
# The Schur complement solver: C37
-/

namespace Dec.Props

open Matrix Schur

set_option linter.unusedSectionVars false

variable {K : Type*} [Field K] [DecidableEq K] {n m : ℕ}

theorem eq_inv_mulVec {A : Matrix (Fin n) (Fin n) K} {Ainv : (Fin n → K) → (Fin n → K)} (h : ∀ v, A *ᵥ Ainv v = v) :
    IsUnit A.det ∧ ∀ v, Ainv v = A⁻¹ *ᵥ v := by
  have hu : IsUnit A := by
    rw [← Matrix.mulVec_surjective_iff_isUnit]
    exact fun v => ⟨Ainv v, h v⟩
  have hd := (Matrix.isUnit_iff_isUnit_det A).1 hu
  refine ⟨hd, fun v => ?_⟩
  calc Ainv v = A⁻¹ *ᵥ (A *ᵥ Ainv v) := by rw [Matrix.mulVec_mulVec, Matrix.nonsing_inv_mul A hd, Matrix.one_mulVec]
    _ = _ := by rw [h]

theorem schur_eq {A : Matrix (Fin n) (Fin n) K} {Ainv : (Fin n → K) → (Fin n → K)} (h : ∀ v, A *ᵥ Ainv v = v)
    (B : Matrix (Fin n) (Fin m) K) (C : Matrix (Fin m) (Fin n) K) :
    (Matrix.of fun j => C *ᵥ Ainv (Bᵀ j))ᵀ = C * A⁻¹ * B := by
  obtain ⟨-, h2⟩ := eq_inv_mulVec h
  ext i j
  simp only [Matrix.transpose_apply, Matrix.of_apply, h2]
  rw [Matrix.mul_assoc, Matrix.mul_apply]
  simp only [Matrix.mulVec, dotProduct, Matrix.mul_apply, Matrix.transpose_apply]

theorem schur_solves {A : Matrix (Fin n) (Fin n) K} {B : Matrix (Fin n) (Fin m) K} {C : Matrix (Fin m) (Fin n) K} {D : Matrix (Fin m) (Fin m) K}
    (hA : IsUnit A.det) (hS : (C * A⁻¹ * B - D).det ≠ 0) (f : Fin n → K) (g : Fin m → K) (x : Fin n → K) (l : Fin m → K) :
    (A *ᵥ x + B *ᵥ l = f ∧ C *ᵥ x + D *ᵥ l = g) ↔
      (l = (C * A⁻¹ * B - D)⁻¹ *ᵥ (C *ᵥ (A⁻¹ *ᵥ f) - g) ∧ x = A⁻¹ *ᵥ (f - B *ᵥ l)) := by
  have hS' : IsUnit (C * A⁻¹ * B - D).det := isUnit_iff_ne_zero.2 hS
  have e1 : ∀ v, A *ᵥ (A⁻¹ *ᵥ v) = v := fun v => by rw [Matrix.mulVec_mulVec, Matrix.mul_nonsing_inv A hA, Matrix.one_mulVec]
  have e2 : ∀ v, A⁻¹ *ᵥ (A *ᵥ v) = v := fun v => by rw [Matrix.mulVec_mulVec, Matrix.nonsing_inv_mul A hA, Matrix.one_mulVec]
  have e3 : ∀ v, (C * A⁻¹ * B - D) *ᵥ ((C * A⁻¹ * B - D)⁻¹ *ᵥ v) = v := fun v => by
    rw [Matrix.mulVec_mulVec, Matrix.mul_nonsing_inv _ hS', Matrix.one_mulVec]
  have e4 : ∀ v, (C * A⁻¹ * B - D)⁻¹ *ᵥ ((C * A⁻¹ * B - D) *ᵥ v) = v := fun v => by
    rw [Matrix.mulVec_mulVec, Matrix.nonsing_inv_mul _ hS', Matrix.one_mulVec]
  have e5 : ∀ v, (C * A⁻¹ * B - D) *ᵥ v = C *ᵥ (A⁻¹ *ᵥ (B *ᵥ v)) - D *ᵥ v := fun v => by
    rw [Matrix.sub_mulVec, Matrix.mulVec_mulVec, Matrix.mulVec_mulVec, Matrix.mul_assoc]
  constructor
  · rintro ⟨h1, h2⟩
    have hx : x = A⁻¹ *ᵥ (f - B *ᵥ l) := by rw [← h1, add_sub_cancel_right, e2]
    refine ⟨?_, hx⟩
    rw [← e4 l]; congr 1
    rw [e5, ← h2, hx, Matrix.mulVec_sub, Matrix.mulVec_sub]; abel
  · rintro ⟨h1, h2⟩
    refine ⟨by rw [h2, e1]; abel, ?_⟩
    have := e3 (C *ᵥ (A⁻¹ *ᵥ f) - g)
    rw [← h1, e5] at this
    rw [h2, Matrix.mulVec_sub, Matrix.mulVec_sub]
    rw [sub_add]; rw [this]; abel

/-- The block matrix `M = [[A, B], [C, D]]` is singular exactly when the Schur complement formed by the code is. -/
theorem det_blocks {A : Matrix (Fin n) (Fin n) K} {B : Matrix (Fin n) (Fin m) K} {C : Matrix (Fin m) (Fin n) K} {D : Matrix (Fin m) (Fin m) K}
    (hA : IsUnit A.det) : (fromBlocks A B C D).det = 0 ↔ (C * A⁻¹ * B - D).det = 0 := by
  haveI := invertibleOfIsUnitDet A hA
  rw [det_fromBlocks₁₁, invOf_eq_nonsing_inv, show D - C * A⁻¹ * B = -(C * A⁻¹ * B - D) by abel, det_neg]
  simp [hA.ne_zero]

/-- C37: given a right inverse `Ainv` of `A`, `schur` raises exactly when the block matrix is singular; otherwise the returned function yields,
for every right-hand side, the one and only solution of the block system. -/
theorem C37_schur (A : Matrix (Fin n) (Fin n) K) (Ainv : (Fin n → K) → (Fin n → K)) (hA : ∀ v, A *ᵥ Ainv v = v)
    (B : Matrix (Fin n) (Fin m) K) (C : Matrix (Fin m) (Fin n) K) (D : Matrix (Fin m) (Fin m) K) :
    ((fromBlocks A B C D).det = 0 → schur Ainv B C D = .error .singular) ∧
    ((fromBlocks A B C D).det ≠ 0 → ∃ Minv, schur Ainv B C D = .ok Minv ∧
      ∀ f g x l, (A *ᵥ x + B *ᵥ l = f ∧ C *ᵥ x + D *ᵥ l = g) ↔ Minv f g = (x, l)) := by
  obtain ⟨h1, h2⟩ := eq_inv_mulVec hA
  rw [ne_eq, det_blocks h1]
  unfold schur linalgInv
  simp only [schur_eq hA]
  constructor
  · intro h; rw [if_pos h]; rfl
  · intro h; rw [if_neg h]
    refine ⟨_, rfl, fun f g x l => ?_⟩
    rw [schur_solves h1 h]
    simp only [h2, Prod.mk.injEq]
    constructor
    · rintro ⟨rfl, rfl⟩; exact ⟨rfl, rfl⟩
    · rintro ⟨rfl, rfl⟩; exact ⟨rfl, rfl⟩

/-- C37: the same for the variant whose operators are given as (linear) functions. -/
theorem C37_schur_operators (A : (Fin n → K) →ₗ[K] (Fin n → K)) (Ainv : (Fin n → K) → (Fin n → K)) (hA : ∀ v, A (Ainv v) = v)
    (B : (Fin m → K) →ₗ[K] (Fin n → K)) (C : (Fin n → K) →ₗ[K] (Fin m → K)) (D : (Fin m → K) →ₗ[K] (Fin m → K)) :
    ((¬ ∀ x l, A x + B l = 0 → C x + D l = 0 → x = 0 ∧ l = 0) → schurFun Ainv B C D = .error .singular) ∧
    ((∀ x l, A x + B l = 0 → C x + D l = 0 → x = 0 ∧ l = 0) → ∃ Minv, schurFun Ainv B C D = .ok Minv ∧
      ∀ f g x l, (A x + B l = f ∧ C x + D l = g) ↔ Minv f g = (x, l)) := by
  set A' := LinearMap.toMatrix' A
  set B' := LinearMap.toMatrix' B
  set C' := LinearMap.toMatrix' C
  set D' := LinearMap.toMatrix' D
  have eA : ∀ v, A v = A' *ᵥ v := fun v => (LinearMap.toMatrix'_mulVec A v).symm
  have eB : ∀ v, B v = B' *ᵥ v := fun v => (LinearMap.toMatrix'_mulVec B v).symm
  have eC : ∀ v, C v = C' *ᵥ v := fun v => (LinearMap.toMatrix'_mulVec C v).symm
  have eD : ∀ v, D v = D' *ᵥ v := fun v => (LinearMap.toMatrix'_mulVec D v).symm
  have hA' : ∀ v, A' *ᵥ Ainv v = v := fun v => by rw [← eA, hA]
  have eye : ∀ (M : Matrix (Fin m) (Fin m) K) j, M *ᵥ ((1 : Matrix (Fin m) (Fin m) K) j) = Mᵀ j := by
    intro M j; ext i; simp [Matrix.mulVec, dotProduct, Matrix.one_apply]
  have eyeB : ∀ j, B' *ᵥ ((1 : Matrix (Fin m) (Fin m) K) j) = B'ᵀ j := by
    intro j; ext i; simp [Matrix.mulVec, dotProduct, Matrix.one_apply]
  have hs : schurFun Ainv B C D = schur Ainv B' C' D' := by
    unfold schurFun schur
    simp only [eB, eC, eD, eye, eyeB]
    rfl
  obtain ⟨h1, h2⟩ := C37_schur A' Ainv hA' B' C' D'
  have hk : (∀ x l, A x + B l = 0 → C x + D l = 0 → x = 0 ∧ l = 0) ↔ (fromBlocks A' B' C' D').det ≠ 0 := by
    constructor
    · intro hinj hdet
      obtain ⟨v, hv, hv0⟩ := Matrix.exists_mulVec_eq_zero_iff.2 hdet
      have hv' : v = Sum.elim (v ∘ Sum.inl) (v ∘ Sum.inr) := (Sum.elim_comp_inl_inr v).symm
      rw [hv', Matrix.fromBlocks_mulVec] at hv0
      have p1 := congrArg (fun w => w ∘ Sum.inl) hv0
      have p2 := congrArg (fun w => w ∘ Sum.inr) hv0
      simp only [Sum.elim_comp_inl, Sum.elim_comp_inr] at p1 p2
      obtain ⟨q1, q2⟩ := hinj (v ∘ Sum.inl) (v ∘ Sum.inr) (by rw [eA, eB]; exact p1) (by rw [eC, eD]; exact p2)
      apply hv
      rw [hv', q1, q2]
      ext i; cases i <;> rfl
    · intro hdet x l e1 e2
      obtain ⟨Minv, -, h3⟩ := h2 hdet
      have q1 := (h3 0 0 x l).1 ⟨by rw [← eA, ← eB]; exact e1, by rw [← eC, ← eD]; exact e2⟩
      have q2 := (h3 0 0 0 0).1 ⟨by simp, by simp⟩
      rw [q1] at q2
      exact ⟨(Prod.mk.inj q2).1, (Prod.mk.inj q2).2⟩
  rw [hk, hs]
  refine ⟨fun h => h1 (not_not.1 h), fun h => ?_⟩
  simp only [eA, eB, eC, eD]
  exact h2 h

/-- Non-vacuity: `A = 2`, `B = C = 1`, `D = 0` (the indefinite system of a constrained problem) is non-singular. -/
example : (∀ v : Fin 1 → ℚ, (!![2] : Matrix (Fin 1) (Fin 1) ℚ) *ᵥ (fun i => v i / 2) = v) ∧
    (fromBlocks (!![2] : Matrix (Fin 1) (Fin 1) ℚ) !![1] !![1] !![0]).det ≠ 0 := by
  constructor
  · intro v; ext i; rw [Subsingleton.elim i 0]; simp [Matrix.mulVec, dotProduct]; ring
  · rw [Ne, det_blocks (by simp)]
    simp

end Dec.Props
