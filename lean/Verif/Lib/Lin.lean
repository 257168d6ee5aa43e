import Verif.Lib.Fourier
import Mathlib.LinearAlgebra.FiniteDimensional.Basic

set_option linter.unusedSimpArgs false
set_option linter.unusedVariables false

/-! Linear maps between arrays of fixed length. -/

namespace Dec

open Finset

variable {V W X : Type*} [AddCommGroup V] [Module ℝ V] [AddCommGroup W] [Module ℝ W] [AddCommGroup X] [Module ℝ X]

/-- `L` maps arrays of length `n` to arrays of length `m`, additively and homogeneously. -/
structure Lin (n m : ℕ) (L : List V → List W) : Prop where
  len : ∀ x : List V, x.length = n → (L x).length = m
  add : ∀ x y : List V, x.length = n → y.length = n → L (vadd x y) = vadd (L x) (L y)
  smul : ∀ (c : ℝ) (x : List V), x.length = n → L (x.map (c • ·)) = (L x).map (c • ·)

theorem Lin.comp {n m k : ℕ} {L : List V → List W} {L' : List W → List X} (h' : Lin m k L') (h : Lin n m L) :
    Lin n k (fun x => L' (L x)) where
  len x hx := h'.len _ (h.len x hx)
  add x y hx hy := by rw [h.add x y hx hy, h'.add _ _ (h.len x hx) (h.len y hy)]
  smul c x hx := by rw [h.smul c x hx, h'.smul c _ (h.len x hx)]

theorem Lin.add_map {n m : ℕ} {L L' : List V → List W} (h : Lin n m L) (h' : Lin n m L') :
    Lin n m (fun x => vadd (L x) (L' x)) where
  len x hx := by simp [h.len x hx, h'.len x hx]
  add x y hx hy := by
    rw [h.add x y hx hy, h'.add x y hx hy]
    rw [eq_tab' (h.len x hx) 0, eq_tab' (h.len y hy) 0, eq_tab' (h'.len x hx) 0, eq_tab' (h'.len y hy) 0]
    simp only [vadd_tab]
    exact tab_congr fun i _ => by abel
  smul c x hx := by
    rw [h.smul c x hx, h'.smul c x hx]
    rw [eq_tab' (h.len x hx) 0, eq_tab' (h'.len x hx) 0]
    simp only [vadd_tab, map_tab, smul_add]

theorem Lin.sub_map {n m : ℕ} {L L' : List V → List W} (h : Lin n m L) (h' : Lin n m L') :
    Lin n m (fun x => vsub (L x) (L' x)) where
  len x hx := by simp [h.len x hx, h'.len x hx]
  add x y hx hy := by
    rw [h.add x y hx hy, h'.add x y hx hy]
    rw [eq_tab' (h.len x hx) 0, eq_tab' (h.len y hy) 0, eq_tab' (h'.len x hx) 0, eq_tab' (h'.len y hy) 0]
    simp only [vadd_tab, vsub_tab]
    exact tab_congr fun i _ => by abel
  smul c x hx := by
    rw [h.smul c x hx, h'.smul c x hx]
    rw [eq_tab' (h.len x hx) 0, eq_tab' (h'.len x hx) 0]
    simp only [vsub_tab, map_tab, smul_sub]

theorem Lin.id (n : ℕ) : Lin n n (fun x : List V => x) := ⟨fun _ h => h, fun _ _ _ _ => rfl, fun _ _ _ => rfl⟩

/-- A map given by coordinate functionals. -/
theorem Lin.of_tab {n m : ℕ} {L : List V → List W} (ℓ : (ℕ → V) → ℕ → W)
    (h : ∀ x, L (tab n x) = tab m (ℓ x))
    (hadd : ∀ x y i, i < m → ℓ (fun j => x j + y j) i = ℓ x i + ℓ y i)
    (hsmul : ∀ (c : ℝ) x i, i < m → ℓ (fun j => c • x j) i = c • ℓ x i) : Lin n m L where
  len x hx := by rw [eq_tab' hx 0, h]; simp
  add x y hx hy := by
    rw [eq_tab' hx 0, eq_tab' hy 0]
    simp only [vadd_tab, h]
    exact tab_congr fun i hi => hadd _ _ i hi
  smul c x hx := by
    rw [eq_tab' hx 0]
    simp only [map_tab, h]
    exact tab_congr fun i hi => hsmul _ _ i hi

theorem Lin.congr {n m : ℕ} {L L' : List V → List W} (h : Lin n m L) (e : ∀ x : List V, x.length = n → L' x = L x) : Lin n m L' where
  len x hx := by rw [e x hx, h.len x hx]
  add x y hx hy := by rw [e x hx, e y hy, e _ (by simp [hx, hy]), h.add x y hx hy]
  smul c x hx := by rw [e x hx, e _ (by simp [hx]), h.smul c x hx]

/-- A linear endomorphism of arrays of length `n` as a linear map. -/
theorem Lin.exists_map {n : ℕ} {B : List V → List V} (hB : Lin n n B) :
    ∃ f : (Fin n → V) →ₗ[ℝ] (Fin n → V), ∀ x, List.ofFn (f x) = B (List.ofFn x) := by
  let toL : (Fin n → V) → List V := fun x => List.ofFn x
  have htab : ∀ x : Fin n → V, toL x = tab n (fun i => if h : i < n then x ⟨i, h⟩ else 0) := by
    intro x
    apply List.ext_getElem
    · simp [toL]
    · intro i h1 h2
      simp only [length_tab] at h2
      simp [toL, h2]
  let f : (Fin n → V) →ₗ[ℝ] (Fin n → V) :=
    { toFun := fun x i => (B (toL x)).getD i 0
      map_add' := by
        intro x y; funext i
        have e : toL (x + y) = vadd (toL x) (toL y) := by
          rw [htab, htab, htab, vadd_tab]
          exact tab_congr fun i hi => by simp [hi]
        have l1 := hB.len (toL x) (by simp [toL])
        have l2 := hB.len (toL y) (by simp [toL])
        show (B (toL (x + y))).getD i 0 = (B (toL x)).getD i 0 + (B (toL y)).getD i 0
        rw [e, hB.add _ _ (by simp [toL]) (by simp [toL])]
        conv_lhs => rw [eq_tab' l1 0, eq_tab' l2 0, vadd_tab, getD_tab i.2]
      map_smul' := by
        intro c x; funext i
        have e : toL (c • x) = (toL x).map (c • ·) := by
          rw [htab, htab, map_tab]
          exact tab_congr fun i hi => by simp [hi]
        have l1 := hB.len (toL x) (by simp [toL])
        show (B (toL (c • x))).getD i 0 = c • (B (toL x)).getD i 0
        rw [e, hB.smul _ _ (by simp [toL])]
        conv_lhs => rw [eq_tab' l1 0, map_tab, getD_tab i.2] }
  have hf : ∀ x, toL (f x) = B (toL x) := by
    intro x
    have l1 := hB.len (toL x) (by simp [toL])
    rw [htab, eq_tab' l1 0]
    refine tab_congr fun i hi => ?_
    simp only [hi, dif_pos]
    show (B (toL x)).getD i 0 = _
    rfl
  exact ⟨f, hf⟩

theorem exists_ofFn {n : ℕ} {V : Type*} {y : List V} (hy : y.length = n) : ∃ v : Fin n → V, List.ofFn v = y := by
  subst hy
  exact ⟨fun i => y.get i, List.ofFn_get y⟩

/-- A linear endomorphism of arrays of length `n` with a left inverse has it as right inverse too. -/
theorem Lin.inverse [Module.Finite ℝ V] {n : ℕ} {A B : List V → List V} (hB : Lin n n B) (h : ∀ x, x.length = n → A (B x) = x)
    (y : List V) (hy : y.length = n) : B (A y) = y := by
  obtain ⟨f, hf⟩ := hB.exists_map
  have inj : Function.Injective f := by
    intro x y hxy
    have h1 : B (List.ofFn x) = B (List.ofFn y) := by rw [← hf, ← hf, hxy]
    have h2 := congrArg A h1
    rw [h _ (by simp), h _ (by simp)] at h2
    exact List.ofFn_injective h2
  obtain ⟨v, rfl⟩ := exists_ofFn hy
  obtain ⟨x, rfl⟩ := (LinearMap.injective_iff_surjective.1 inj) v
  rw [hf, h _ (by simp)]

/-- A linear endomorphism of arrays of length `n` with a right inverse has it as left inverse too. -/
theorem Lin.inverse' [Module.Finite ℝ V] {n : ℕ} {A B : List V → List V} (hA : Lin n n A) (hl : ∀ x, x.length = n → (B x).length = n)
    (h : ∀ x, x.length = n → A (B x) = x) (y : List V) (hy : y.length = n) : B (A y) = y := by
  obtain ⟨f, hf⟩ := hA.exists_map
  have surj : Function.Surjective f := by
    intro v
    obtain ⟨x, hx⟩ := exists_ofFn (hl (List.ofFn v) (by simp))
    refine ⟨x, List.ofFn_injective ?_⟩
    rw [hf, hx, h _ (by simp)]
  have inj := LinearMap.injective_iff_surjective.2 surj
  obtain ⟨v, rfl⟩ := exists_ofFn hy
  obtain ⟨x, hx⟩ := exists_ofFn (hl (A (List.ofFn v)) (hA.len _ (by simp)))
  rw [← hx]
  congr 1
  apply inj
  apply List.ofFn_injective
  rw [hf, hf, hx, h _ (hA.len _ (by simp))]

end Dec
