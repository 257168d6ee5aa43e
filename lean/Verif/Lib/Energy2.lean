import Verif.Lib.Energy
import Verif.Lib.Grid2
import Mathlib.Analysis.Matrix.Order

set_option linter.unusedSimpArgs false
set_option linter.unusedVariables false

/-! # Tensor products of symmetric positive definite matrices -/

namespace Dec.G2

open Finset Matrix

/-- A symmetric positive definite matrix of numbers. -/
structure MPos (n : ℕ) (S : ℕ → ℕ → ℝ) : Prop where
  symm : ∀ i < n, ∀ j < n, S i j = S j i
  pos : ∀ f : ℕ → ℝ, (∃ i < n, f i ≠ 0) → 0 < ∑ i ∈ range n, f i * ∑ j ∈ range n, S i j * f j

theorem mpos_of_spd {n : ℕ} {L : List ℝ → List ℝ} (h : SPD n L) {S : ℕ → ℕ → ℝ} (hS : ∀ f : ℕ → ℝ, L (tab n f) = tab n fun k => ∑ j ∈ range n, S k j * f j) :
    MPos n S where
  symm i hi j hj := by
    have := h.symm (tab n fun k => if k = i then 1 else 0) (tab n fun k => if k = j then 1 else 0) (length_tab _ _) (length_tab _ _)
    rw [hS, hS, dot_tab, dot_tab] at this
    simpa [hi, hj] using this
  pos f := by
    rintro ⟨i, hi, hf⟩
    have := h.pos (tab n f) (length_tab _ _) (fun e => hf (by rw [replicate_tab, tab_inj] at e; exact e i hi))
    rwa [hS, dot_tab] at this

/-- Both directions at once. -/
def kron (m n : ℕ) (R S : ℕ → ℕ → ℝ) (F : ℕ → ℕ → ℝ) (j i : ℕ) : ℝ := ∑ l ∈ range m, ∑ k ∈ range n, R j l * S i k * F l k

/-- The pairing of two arrays. -/
def dot2 (m n : ℕ) (F G : ℕ → ℕ → ℝ) : ℝ := ∑ j ∈ range m, ∑ i ∈ range n, F j i * G j i

theorem kron_symm {m n : ℕ} {R S : ℕ → ℕ → ℝ} (hR : MPos m R) (hS : MPos n S) (F G : ℕ → ℕ → ℝ) :
    dot2 m n F (kron m n R S G) = dot2 m n G (kron m n R S F) := by
  have e : ∀ F G : ℕ → ℕ → ℝ, dot2 m n F (kron m n R S G)
      = ∑ p ∈ range m ×ˢ range n, ∑ q ∈ range m ×ˢ range n, F p.1 p.2 * (R p.1 q.1 * S p.2 q.2 * G q.1 q.2) := fun F G => by
    unfold dot2 kron
    simp only [sum_product, mul_sum]
  rw [e, e, sum_comm]
  refine sum_congr rfl fun p hp => sum_congr rfl fun q hq => ?_
  rw [mem_product, mem_range, mem_range] at hp hq
  rw [hR.symm _ hp.1 _ hq.1, hS.symm _ hp.2 _ hq.2]; ring

theorem kron_pos {m n : ℕ} {R S : ℕ → ℕ → ℝ} (hR : MPos m R) (hS : MPos n S) (F : ℕ → ℕ → ℝ) (hF : ∃ j < m, ∃ i < n, F j i ≠ 0) :
    0 < dot2 m n F (kron m n R S F) := by
  have pd : ∀ {n : ℕ} {S : ℕ → ℕ → ℝ}, MPos n S → (Matrix.of fun i j : Fin n => S i j).PosDef := fun {n S} h => by
    refine PosDef.of_dotProduct_mulVec_pos ?_ fun x hx => ?_
    · ext i j; simp [h.symm j j.2 i i.2]
    · obtain ⟨i, hi⟩ := Function.ne_iff.1 hx
      have := h.pos (fun k => if hk : k < n then x ⟨k, hk⟩ else 0) ⟨i, i.2, by simpa using hi⟩
      simp only [Finset.sum_range] at this
      simpa [dotProduct, mulVec] using this
  have h := (pd hR).kronecker (pd hS)
  obtain ⟨j, hj, i, hi, hne⟩ := hF
  have := h.dotProduct_mulVec_pos (x := fun p : Fin m × Fin n => F p.1 p.2) (Function.ne_iff.2 ⟨(⟨j, hj⟩, ⟨i, hi⟩), by simpa using hne⟩)
  simp only [dotProduct, mulVec, Fintype.sum_prod_type] at this
  unfold dot2 kron
  simp only [Finset.sum_range]
  simpa using this

theorem kron_nonneg {m n : ℕ} {R S : ℕ → ℕ → ℝ} (hR : MPos m R) (hS : MPos n S) (F : ℕ → ℕ → ℝ) :
    0 ≤ dot2 m n F (kron m n R S F) := by
  by_cases h : ∃ j < m, ∃ i < n, F j i ≠ 0
  · exact (kron_pos hR hS F h).le
  · push Not at h
    have : dot2 m n F (kron m n R S F) = 0 := sum_eq_zero fun j hj => sum_eq_zero fun i hi => by
      rw [h j (mem_range.1 hj) i (mem_range.1 hi), zero_mul]
    rw [this]

end Dec.G2
