import Verif.Lib.Energy2

set_option linter.unusedSimpArgs false
set_option linter.unusedVariables false

/-! # Bounds for the quadratic forms of the stars -/

namespace Dec

open Finset

/-! ## Matrices -/

namespace G2

/-- The bilinear form of a matrix. -/
def bil (n : ℕ) (S : ℕ → ℕ → ℝ) (f g : ℕ → ℝ) : ℝ := ∑ i ∈ range n, f i * ∑ j ∈ range n, S i j * g j

theorem bil_eq (n : ℕ) (S : ℕ → ℕ → ℝ) (f g : ℕ → ℝ) : bil n S f g = ∑ i ∈ range n, ∑ j ∈ range n, f i * S i j * g j := by
  unfold bil
  refine sum_congr rfl fun i _ => ?_
  rw [mul_sum]; exact sum_congr rfl fun j _ => by ring

theorem MPos.bil_symm {n : ℕ} {S : ℕ → ℕ → ℝ} (h : MPos n S) (f g : ℕ → ℝ) : bil n S f g = bil n S g f := by
  rw [bil_eq, bil_eq, sum_comm]
  refine sum_congr rfl fun j hj => sum_congr rfl fun i hi => ?_
  rw [h.symm i (mem_range.1 hi) j (mem_range.1 hj)]; ring

theorem MPos.bil_nonneg {n : ℕ} {S : ℕ → ℕ → ℝ} (h : MPos n S) (f : ℕ → ℝ) : 0 ≤ bil n S f f := by
  by_cases h0 : ∃ i < n, f i ≠ 0
  · exact (h.pos f h0).le
  · push Not at h0
    refine le_of_eq (sum_eq_zero fun i hi => ?_).symm
    rw [h0 i (mem_range.1 hi), zero_mul]

theorem MPos.cauchy {n : ℕ} {S : ℕ → ℕ → ℝ} (h : MPos n S) (f g : ℕ → ℝ) : bil n S f g ^ 2 ≤ bil n S f f * bil n S g g := by
  have key : ∀ s : ℝ, 0 ≤ bil n S f f * (s * s) + (2 * bil n S f g) * s + bil n S g g := fun s => by
    have h1 := h.bil_nonneg fun i => s * f i + g i
    have h2 := h.bil_symm f g
    have e : bil n S (fun i => s * f i + g i) (fun i => s * f i + g i) = bil n S f f * (s * s) + (bil n S f g + bil n S g f) * s + bil n S g g := by
      simp only [bil_eq, sum_mul, ← sum_add_distrib]
      exact sum_congr rfl fun i _ => sum_congr rfl fun j _ => by ring
    rw [e, ← h2] at h1
    linarith
  have := discrim_le_zero key
  unfold discrim at this
  nlinarith

/-- The quadratic form lies between `a` and `b` times the weighted sum of squares. -/
def Between (n : ℕ) (w : ℕ → ℝ) (a b : ℝ) (S : ℕ → ℕ → ℝ) : Prop :=
  ∀ f : ℕ → ℝ, a * ∑ i ∈ range n, w i * f i ^ 2 ≤ bil n S f f ∧ bil n S f f ≤ b * ∑ i ∈ range n, w i * f i ^ 2

/-- The inverse matrix. -/
theorem Between.inverse {n : ℕ} {w : ℕ → ℝ} {a b : ℝ} {S T : ℕ → ℕ → ℝ} (h : Between n w a b S) (hS : MPos n S) (hw : ∀ i < n, 0 < w i) (ha : 0 < a) (hb : 0 < b)
    (hST : ∀ (f : ℕ → ℝ), ∀ i < n, ∑ j ∈ range n, S i j * ∑ k ∈ range n, T j k * f k = f i) : Between n (fun i => (w i)⁻¹) b⁻¹ a⁻¹ T := by
  intro f
  set g : ℕ → ℝ := fun j => ∑ k ∈ range n, T j k * f k with hg
  set W := ∑ i ∈ range n, (w i)⁻¹ * f i ^ 2 with hW
  set q := bil n T f f with hq
  have q1 : q = bil n S g g := by
    rw [hq]
    unfold bil
    rw [show ∑ i ∈ range n, f i * ∑ j ∈ range n, T i j * f j = ∑ i ∈ range n, g i * f i from sum_congr rfl fun i _ => mul_comm _ _]
    exact sum_congr rfl fun i hi => by rw [hST f i (mem_range.1 hi)]
  have q2 : q = ∑ i ∈ range n, f i * g i := rfl
  have hq0 : 0 ≤ q := by rw [q1]; exact hS.bil_nonneg g
  have hW0 : 0 ≤ W := sum_nonneg fun i hi => mul_nonneg (inv_nonneg.2 (hw i (mem_range.1 hi)).le) (sq_nonneg _)
  constructor
  · -- test with the scaled vector
    have h1 := hS.cauchy (fun i => (w i)⁻¹ * f i) g
    have e1 : bil n S (fun i => (w i)⁻¹ * f i) g = W := by
      unfold bil
      refine sum_congr rfl fun i hi => ?_
      rw [hST f i (mem_range.1 hi)]; ring
    have h2 := (h fun i => (w i)⁻¹ * f i).2
    have e2 : ∑ i ∈ range n, w i * ((w i)⁻¹ * f i) ^ 2 = W := sum_congr rfl fun i hi => by
      have := (hw i (mem_range.1 hi)).ne'
      field_simp
    rw [e2] at h2
    rw [e1, ← q1] at h1
    have h3 : W ^ 2 ≤ b * W * q := h1.trans (mul_le_mul_of_nonneg_right h2 hq0)
    rw [inv_mul_le_iff₀ hb]
    rcases hW0.eq_or_lt with h0 | h0
    · rw [← h0]; positivity
    · nlinarith
  · have h1 := (h g).1
    rw [← q1] at h1
    have h2 := Finset.sum_sq_le_sum_mul_sum_of_sq_eq_mul (range n) (r := fun i => f i * g i) (f := fun i => (w i)⁻¹ * f i ^ 2) (g := fun i => w i * g i ^ 2)
      (fun i hi => mul_nonneg (inv_nonneg.2 (hw i (mem_range.1 hi)).le) (sq_nonneg _)) (fun i hi => mul_nonneg (hw i (mem_range.1 hi)).le (sq_nonneg _))
      (fun i hi => by have := (hw i (mem_range.1 hi)).ne'; field_simp)
    rw [← q2, ← hW] at h2
    rw [inv_mul_eq_div, le_div_iff₀ ha]
    rcases hq0.eq_or_lt with h0 | h0
    · rw [← h0]; simpa using hW0
    · have h3 : a * q ^ 2 ≤ W * q := by
        calc a * q ^ 2 ≤ a * (W * ∑ i ∈ range n, w i * g i ^ 2) := by gcongr
          _ = W * (a * ∑ i ∈ range n, w i * g i ^ 2) := by ring
          _ ≤ W * q := by gcongr
      nlinarith

/-- The image of a vector: the same constants, squared. -/
theorem Between.image {n : ℕ} {w : ℕ → ℝ} {a b : ℝ} {S T : ℕ → ℕ → ℝ} (h : Between n w a b S) (hS : MPos n S) (hw : ∀ i < n, 0 < w i) (ha : 0 < a) (hb : 0 < b)
    (hST : ∀ (f : ℕ → ℝ), ∀ i < n, ∑ j ∈ range n, S i j * ∑ k ∈ range n, T j k * f k = f i)
    (hTS : ∀ (f : ℕ → ℝ), ∀ i < n, ∑ j ∈ range n, T i j * ∑ k ∈ range n, S j k * f k = f i) (f : ℕ → ℝ) :
    a ^ 2 * ∑ i ∈ range n, w i * f i ^ 2 ≤ ∑ i ∈ range n, (w i)⁻¹ * (∑ j ∈ range n, S i j * f j) ^ 2 ∧
    ∑ i ∈ range n, (w i)⁻¹ * (∑ j ∈ range n, S i j * f j) ^ 2 ≤ b ^ 2 * ∑ i ∈ range n, w i * f i ^ 2 := by
  have h1 := h.inverse hS hw ha hb hST fun i => ∑ j ∈ range n, S i j * f j
  have e : bil n T (fun i => ∑ j ∈ range n, S i j * f j) (fun i => ∑ j ∈ range n, S i j * f j) = bil n S f f := by
    unfold bil
    refine sum_congr rfl fun i hi => ?_
    rw [hTS f i (mem_range.1 hi), mul_comm]
  rw [e] at h1
  obtain ⟨h2, h3⟩ := h f
  obtain ⟨h4, h5⟩ := h1
  rw [inv_mul_le_iff₀ hb] at h4
  rw [inv_mul_eq_div, le_div_iff₀ ha] at h5
  set U := ∑ i ∈ range n, (w i)⁻¹ * (∑ j ∈ range n, S i j * f j) ^ 2
  set V := ∑ i ∈ range n, w i * f i ^ 2
  constructor
  · calc a ^ 2 * V = a * (a * V) := by ring
      _ ≤ a * bil n S f f := by gcongr
      _ = bil n S f f * a := by ring
      _ ≤ U := h5
  · calc U ≤ b * bil n S f f := h4
      _ ≤ b * (b * V) := by gcongr
      _ = b ^ 2 * V := by ring

/-- A symmetric matrix without negative directions. -/
structure MNonneg (n : ℕ) (S : ℕ → ℕ → ℝ) : Prop where
  symm : ∀ i < n, ∀ j < n, S i j = S j i
  nonneg : ∀ f : ℕ → ℝ, 0 ≤ bil n S f f

theorem MPos.toNonneg {n : ℕ} {S : ℕ → ℕ → ℝ} (h : MPos n S) : MNonneg n S := ⟨h.symm, h.bil_nonneg⟩

theorem kron_semi {m n : ℕ} {R S : ℕ → ℕ → ℝ} (hR : MNonneg m R) (hS : MNonneg n S) (F : ℕ → ℕ → ℝ) : 0 ≤ dot2 m n F (kron m n R S F) := by
  have pd : ∀ {n : ℕ} {S : ℕ → ℕ → ℝ}, MNonneg n S → (Matrix.of fun i j : Fin n => S i j).PosSemidef := fun {n S} h => by
    refine Matrix.PosSemidef.of_dotProduct_mulVec_nonneg ?_ fun x => ?_
    · ext i j; simp [h.symm j j.2 i i.2]
    · have := h.nonneg (fun k => if hk : k < n then x ⟨k, hk⟩ else 0)
      unfold bil at this
      simp only [Finset.sum_range] at this
      simpa [dotProduct, Matrix.mulVec] using this
  have h := (pd hR).kronecker (pd hS)
  have := h.dotProduct_mulVec_nonneg (fun p : Fin m × Fin n => F p.1 p.2)
  simp only [dotProduct, Matrix.mulVec, Fintype.sum_prod_type] at this
  unfold dot2 kron
  simp only [Finset.sum_range]
  simpa using this

/-- A diagonal matrix. -/
def diagM (v : ℕ → ℝ) (j l : ℕ) : ℝ := if j = l then v j else 0

theorem bil_diag (m : ℕ) (v f : ℕ → ℝ) : bil m (diagM v) f f = ∑ j ∈ range m, v j * f j ^ 2 := by
  unfold bil diagM
  refine sum_congr rfl fun j hj => ?_
  simp only [ite_mul, zero_mul, sum_ite_eq, hj, if_true]; ring

theorem bil_sub (m : ℕ) (R R' : ℕ → ℕ → ℝ) (f : ℕ → ℝ) : bil m (fun j l => R j l - R' j l) f f = bil m R f f - bil m R' f f := by
  simp only [bil_eq, ← sum_sub_distrib]
  exact sum_congr rfl fun i _ => sum_congr rfl fun j _ => by ring

theorem kron_sub (m n : ℕ) (R R' S F : ℕ → ℕ → ℝ) :
    dot2 m n F (kron m n (fun j l => R j l - R' j l) S F) = dot2 m n F (kron m n R S F) - dot2 m n F (kron m n R' S F) := by
  unfold dot2 kron
  simp only [← sum_sub_distrib, ← mul_sub]
  exact sum_congr rfl fun j _ => sum_congr rfl fun i _ => by
    congr 1
    exact sum_congr rfl fun _ _ => sum_congr rfl fun _ _ => by ring

theorem kron_diag (m n : ℕ) (v : ℕ → ℝ) (S F : ℕ → ℕ → ℝ) : dot2 m n F (kron m n (diagM v) S F) = ∑ j ∈ range m, v j * bil n S (F j) (F j) := by
  unfold dot2 kron diagM bil
  refine sum_congr rfl fun j hj => ?_
  rw [mul_sum]
  refine sum_congr rfl fun i _ => ?_
  have : ∑ l ∈ range m, ∑ k ∈ range n, (if j = l then v j else 0) * S i k * F l k = ∑ k ∈ range n, v j * S i k * F j k := by
    rw [sum_eq_single_of_mem j hj fun l _ hl => sum_eq_zero fun k _ => by rw [if_neg (Ne.symm hl)]; ring]
    exact sum_congr rfl fun k _ => by rw [if_pos rfl]
  rw [this, mul_sum, mul_sum, mul_sum]
  exact sum_congr rfl fun k _ => by ring

/-- Tensor products. -/
theorem Between.kron {m n : ℕ} {v w : ℕ → ℝ} {a b c d : ℝ} {R S : ℕ → ℕ → ℝ} (hR : Between m v a b R) (hS : Between n w c d S) (pR : MPos m R) (pS : MPos n S)
    (hv : ∀ j < m, 0 < v j) (hw : ∀ i < n, 0 < w i) (ha : 0 < a) (hb : 0 < b) (F : ℕ → ℕ → ℝ) :
    a * c * ∑ j ∈ range m, ∑ i ∈ range n, v j * w i * F j i ^ 2 ≤ dot2 m n F (kron m n R S F) ∧
    dot2 m n F (kron m n R S F) ≤ b * d * ∑ j ∈ range m, ∑ i ∈ range n, v j * w i * F j i ^ 2 := by
  have e : ∀ z : ℝ, ∑ j ∈ range m, v j * (z * ∑ i ∈ range n, w i * F j i ^ 2) = z * ∑ j ∈ range m, ∑ i ∈ range n, v j * w i * F j i ^ 2 := fun z => by
    rw [mul_sum]
    refine sum_congr rfl fun j _ => ?_
    simp only [mul_sum]
    exact sum_congr rfl fun i _ => by ring
  have dg : ∀ z j l, diagM (fun j => z * v j) j l = diagM (fun j => z * v j) l j := fun z j l => by
    unfold diagM
    by_cases h : j = l
    · rw [h]
    · rw [if_neg h, if_neg (Ne.symm h)]
  have sc : ∀ (z : ℝ) (f : ℕ → ℝ), ∑ j ∈ range m, z * v j * f j ^ 2 = z * ∑ j ∈ range m, v j * f j ^ 2 := fun z f => by
    rw [mul_sum]; exact sum_congr rfl fun j _ => by ring
  constructor
  · have h1 : MNonneg m fun j l => R j l - diagM (fun j => a * v j) j l :=
      ⟨fun j hj l hl => by rw [pR.symm j hj l hl, dg], fun f => by rw [bil_sub, bil_diag, sc]; exact sub_nonneg.2 (hR f).1⟩
    have h2 := kron_semi h1 pS.toNonneg F
    rw [kron_sub, kron_diag, sub_nonneg] at h2
    refine le_trans ?_ h2
    rw [mul_assoc, ← e c, mul_sum]
    refine sum_le_sum fun j hj => ?_
    rw [← mul_assoc]
    exact mul_le_mul_of_nonneg_left (hS (F j)).1 (mul_nonneg ha.le (hv j (mem_range.1 hj)).le)
  · have h1 : MNonneg m fun j l => diagM (fun j => b * v j) j l - R j l :=
      ⟨fun j hj l hl => by rw [pR.symm j hj l hl, dg], fun f => by rw [bil_sub, bil_diag, sc]; exact sub_nonneg.2 (hR f).2⟩
    have h2 := kron_semi h1 pS.toNonneg F
    rw [kron_sub, kron_diag, sub_nonneg] at h2
    refine h2.trans ?_
    rw [mul_assoc, ← e d, mul_sum]
    refine sum_le_sum fun j hj => ?_
    rw [← mul_assoc]
    exact mul_le_mul_of_nonneg_left (hS (F j)).2 (mul_nonneg hb.le (hv j (mem_range.1 hj)).le)

/-- The image of an array under a tensor product. -/
theorem Between.kron_image {m n : ℕ} {v w : ℕ → ℝ} {a b c d : ℝ} {R S Q T : ℕ → ℕ → ℝ} (hR : Between m v a b R) (hS : Between n w c d S) (pR : MPos m R) (pS : MPos n S)
    (hv : ∀ j < m, 0 < v j) (hw : ∀ i < n, 0 < w i) (ha : 0 < a) (hb : 0 < b) (hc : 0 < c) (hd : 0 < d)
    (hRQ : ∀ (f : ℕ → ℝ), ∀ i < m, ∑ j ∈ range m, R i j * ∑ k ∈ range m, Q j k * f k = f i) (hQR : ∀ (f : ℕ → ℝ), ∀ i < m, ∑ j ∈ range m, Q i j * ∑ k ∈ range m, R j k * f k = f i)
    (hST : ∀ (f : ℕ → ℝ), ∀ i < n, ∑ j ∈ range n, S i j * ∑ k ∈ range n, T j k * f k = f i) (hTS : ∀ (f : ℕ → ℝ), ∀ i < n, ∑ j ∈ range n, T i j * ∑ k ∈ range n, S j k * f k = f i)
    (F : ℕ → ℕ → ℝ) :
    (a * c) ^ 2 * ∑ j ∈ range m, ∑ i ∈ range n, v j * w i * F j i ^ 2 ≤ ∑ j ∈ range m, ∑ i ∈ range n, (v j * w i)⁻¹ * G2.kron m n R S F j i ^ 2 ∧
    ∑ j ∈ range m, ∑ i ∈ range n, (v j * w i)⁻¹ * G2.kron m n R S F j i ^ 2 ≤ (b * d) ^ 2 * ∑ j ∈ range m, ∑ i ∈ range n, v j * w i * F j i ^ 2 := by
  set G : ℕ → ℕ → ℝ := fun j i => ∑ l ∈ range m, R j l * F l i with hG
  have eK : ∀ j i, G2.kron m n R S F j i = ∑ k ∈ range n, S i k * G j k := fun j i => by
    unfold G2.kron
    rw [sum_comm]
    refine sum_congr rfl fun k _ => ?_
    rw [hG, mul_sum]
    exact sum_congr rfl fun l _ => by ring
  have h1 := fun j => hS.image pS hw hc hd hST hTS (G j)
  have h2 := fun i => hR.image pR hv ha hb hRQ hQR fun j => F j i
  have e1 : ∑ j ∈ range m, ∑ i ∈ range n, (v j * w i)⁻¹ * G2.kron m n R S F j i ^ 2 = ∑ j ∈ range m, (v j)⁻¹ * ∑ i ∈ range n, (w i)⁻¹ * (∑ k ∈ range n, S i k * G j k) ^ 2 :=
    sum_congr rfl fun j _ => by rw [mul_sum]; exact sum_congr rfl fun i _ => by rw [eK, mul_inv]; ring
  have e2 : ∑ j ∈ range m, (v j)⁻¹ * ∑ i ∈ range n, w i * G j i ^ 2 = ∑ i ∈ range n, w i * ∑ j ∈ range m, (v j)⁻¹ * G j i ^ 2 := by
    simp only [mul_sum]; rw [sum_comm]; exact sum_congr rfl fun _ _ => sum_congr rfl fun _ _ => by ring
  have e3 : ∑ j ∈ range m, ∑ i ∈ range n, v j * w i * F j i ^ 2 = ∑ i ∈ range n, w i * ∑ j ∈ range m, v j * F j i ^ 2 := by
    simp only [mul_sum]; rw [sum_comm]; exact sum_congr rfl fun _ _ => sum_congr rfl fun _ _ => by ring
  have sc : ∀ (z : ℝ) (s : ℕ) (c q : ℕ → ℝ), ∑ j ∈ range s, c j * (z * q j) = z * ∑ j ∈ range s, c j * q j := fun z s c q => by
    rw [mul_sum]; exact sum_congr rfl fun j _ => by ring
  rw [e1, e3]
  constructor
  · calc (a * c) ^ 2 * ∑ i ∈ range n, w i * ∑ j ∈ range m, v j * F j i ^ 2 = c ^ 2 * (a ^ 2 * ∑ i ∈ range n, w i * ∑ j ∈ range m, v j * F j i ^ 2) := by ring
      _ = c ^ 2 * ∑ i ∈ range n, w i * (a ^ 2 * ∑ j ∈ range m, v j * F j i ^ 2) := by rw [sc]
      _ ≤ c ^ 2 * ∑ i ∈ range n, w i * ∑ j ∈ range m, (v j)⁻¹ * G j i ^ 2 :=
        mul_le_mul_of_nonneg_left (sum_le_sum fun i hi => mul_le_mul_of_nonneg_left (h2 i).1 (hw i (mem_range.1 hi)).le) (sq_nonneg _)
      _ = ∑ j ∈ range m, (v j)⁻¹ * (c ^ 2 * ∑ i ∈ range n, w i * G j i ^ 2) := by rw [sc, e2]
      _ ≤ _ := sum_le_sum fun j hj => mul_le_mul_of_nonneg_left (h1 j).1 (inv_nonneg.2 (hv j (mem_range.1 hj)).le)
  · calc ∑ j ∈ range m, (v j)⁻¹ * ∑ i ∈ range n, (w i)⁻¹ * (∑ k ∈ range n, S i k * G j k) ^ 2
        ≤ ∑ j ∈ range m, (v j)⁻¹ * (d ^ 2 * ∑ i ∈ range n, w i * G j i ^ 2) := sum_le_sum fun j hj => mul_le_mul_of_nonneg_left (h1 j).2 (inv_nonneg.2 (hv j (mem_range.1 hj)).le)
      _ = d ^ 2 * ∑ i ∈ range n, w i * ∑ j ∈ range m, (v j)⁻¹ * G j i ^ 2 := by rw [sc, e2]
      _ ≤ d ^ 2 * ∑ i ∈ range n, w i * (b ^ 2 * ∑ j ∈ range m, v j * F j i ^ 2) :=
        mul_le_mul_of_nonneg_left (sum_le_sum fun i hi => mul_le_mul_of_nonneg_left (h2 i).2 (hw i (mem_range.1 hi)).le) (sq_nonneg _)
      _ = _ := by rw [sc]; ring

end G2

/-! ## The periodic star -/

namespace Sp

open Real

theorem Id_bounds {N : ℕ} {k : ℕ} (hk : k < N) : ∃ r : ℝ, 2 / π * hh N ≤ r ∧ r ≤ hh N ∧ Id (fr N k) (-(hh N / 2)) (hh N / 2) = r := by
  have hN : 0 < N := by omega
  have hp := hh_pos hN
  have hpi := Real.pi_pos
  have h2pi : 2 / π ≤ 1 := by rw [div_le_one hpi]; exact Real.two_le_pi
  rw [Id_symm]
  by_cases h : fr N k = 0
  · rw [if_pos h]
    refine ⟨_, ?_, ?_, rfl⟩ <;> nlinarith
  · rw [if_neg h]
    refine ⟨_, ?_, ?_, rfl⟩
    all_goals
      have hb : |(fr N k : ℝ)| * (hh N / 2) ≤ π / 2 := by
        have h2 : 2 * |(fr N k : ℝ)| ≤ N := by exact_mod_cast fr_abs_le hk
        have h3 := mul_hh hN
        have : 2 * |(fr N k : ℝ)| * hh N ≤ N * hh N := by gcongr
        linarith
      have ha : 0 < |(fr N k : ℝ)| := abs_pos.2 (by exact_mod_cast h)
      have e : 2 * sin ((fr N k : ℝ) * (hh N / 2)) / (fr N k : ℝ) = 2 * sin (|(fr N k : ℝ)| * (hh N / 2)) / |(fr N k : ℝ)| := by
        rcases abs_choice (fr N k : ℝ) with h | h
        · rw [h]
        · rw [h, neg_mul, sin_neg]; field_simp
      have hpos : 0 ≤ |(fr N k : ℝ)| * (hh N / 2) := by positivity
      have s1 := Real.mul_le_sin hpos hb
      have s2 := Real.sin_le hpos
    · rw [e, le_div_iff₀ ha]; linarith
    · rw [e, div_le_iff₀ ha]; linarith

theorem sum_sq {N : ℕ} (hN : 0 < N) (x : ℕ → ℝ) : ∑ j ∈ range N, x j ^ 2 = (N : ℝ) * ∑ k ∈ range N, Complex.normSq (coef N (fun i => (x i : ℂ)) k) := by
  have h := parseval hN x x fun _ => 1
  simp only [mul_one] at h
  rw [show ∑ j ∈ range N, x j ^ 2 = ∑ j ∈ range N, x j * (synth N (fun k => coef N (fun i => (x i : ℂ)) k) (j * hh N)).re from
    sum_congr rfl fun j hj => by rw [synth_coef (fun i => (x i : ℂ)) (mem_range.1 hj), Complex.ofReal_re, sq], h]
  congr 1
  exact sum_congr rfl fun k _ => by rw [← Complex.normSq_eq_conj_mul_self, Complex.ofReal_re]

theorem Hs_between {N : ℕ} (hN : 0 < N) (x : ℕ → ℝ) :
    2 / π * ∑ i ∈ range N, hh N * x i ^ 2 ≤ dot (tab N x) (Hs (tab N x)) ∧ dot (tab N x) (Hs (tab N x)) ≤ ∑ i ∈ range N, hh N * x i ^ 2 := by
  have hN' : (0 : ℝ) < N := by exact_mod_cast hN
  rw [Hs_tab, dot_tab, parseval hN, ← mul_sum, sum_sq hN]
  have term : ∀ k ∈ range N, ∃ r : ℝ, 2 / π * hh N ≤ r ∧ r ≤ hh N ∧
      ((starRingEnd ℂ) (coef N (fun i => (x i : ℂ)) k) * coef N (fun i => (x i : ℂ)) k * Id (fr N k) (-(hh N / 2)) (hh N / 2)).re = Complex.normSq (coef N (fun i => (x i : ℂ)) k) * r := fun k hk => by
    obtain ⟨r, h1, h2, e⟩ := Id_bounds (mem_range.1 hk)
    exact ⟨r, h1, h2, by rw [e, Complex.re_mul_ofReal, ← Complex.normSq_eq_conj_mul_self, Complex.ofReal_re]⟩
  constructor
  · rw [show 2 / π * (hh N * ((N : ℝ) * ∑ k ∈ range N, Complex.normSq (coef N (fun i => (x i : ℂ)) k)))
      = N * ∑ k ∈ range N, Complex.normSq (coef N (fun i => (x i : ℂ)) k) * (2 / π * hh N) by rw [← sum_mul]; ring]
    refine mul_le_mul_of_nonneg_left (sum_le_sum fun k hk => ?_) hN'.le
    obtain ⟨r, h1, h2, e⟩ := term k hk
    rw [e]; exact mul_le_mul_of_nonneg_left h1 (Complex.normSq_nonneg _)
  · rw [show hh N * ((N : ℝ) * ∑ k ∈ range N, Complex.normSq (coef N (fun i => (x i : ℂ)) k))
      = N * ∑ k ∈ range N, Complex.normSq (coef N (fun i => (x i : ℂ)) k) * hh N by rw [← sum_mul]; ring]
    refine mul_le_mul_of_nonneg_left (sum_le_sum fun k hk => ?_) hN'.le
    obtain ⟨r, h1, h2, e⟩ := term k hk
    rw [e]; exact mul_le_mul_of_nonneg_left h2 (Complex.normSq_nonneg _)

end Sp

namespace Regular

open Sp Real

theorem rH0_between {n : ℕ} (hn : 2 ≤ n) (x : ℕ → ℝ) :
    2 / π * ∑ i ∈ range n, hh (2 * n - 2) * (if i = 0 ∨ i = n - 1 then 1 / 2 else 1) * x i ^ 2 ≤ dot (tab n x) (rH0 (tab n x)) ∧
    dot (tab n x) (rH0 (tab n x)) ≤ ∑ i ∈ range n, hh (2 * n - 2) * (if i = 0 ∨ i = n - 1 then 1 / 2 else 1) * x i ^ 2 := by
  rw [dot_rH0 hn _ _ (length_tab _ _) (length_tab _ _), mirror0_tab hn]
  obtain ⟨h1, h2⟩ := Hs_between (show 0 < 2 * n - 2 by omega) fun i => if i < n then x i else 1 * x (2 * n - 2 - i)
  have e : ∑ i ∈ range (2 * n - 2), hh (2 * n - 2) * (if i < n then x i else 1 * x (2 * n - 2 - i)) ^ 2
      = 2 * ∑ i ∈ range n, hh (2 * n - 2) * (if i = 0 ∨ i = n - 1 then 1 / 2 else 1) * x i ^ 2 := by
    obtain ⟨m, rfl⟩ : ∃ m, n = m + 1 := ⟨n - 1, by omega⟩
    have em : 2 * (m + 1) - 2 = 2 * m := by omega
    rw [em, Nat.add_sub_cancel, fold_sum (by omega) (fun i => hh (2 * m) * (if i < m + 1 then x i else 1 * x (2 * m - i)) ^ 2) fun i h0 h1 => by
      beta_reduce
      rw [if_neg (by omega), if_pos (by omega), one_mul, show 2 * m - (2 * m - i) = i by omega]]
    congr 1
    refine sum_congr rfl fun i hi => ?_
    rw [if_pos (mem_range.1 hi)]; ring
  rw [e] at h1 h2
  constructor <;> linarith

theorem rH0d_between {m : ℕ} (hm : 0 < m) (x : ℕ → ℝ) :
    2 / π * ∑ i ∈ range m, hh (2 * m) * x i ^ 2 ≤ dot (tab m x) (rH0d (tab m x)) ∧
    dot (tab m x) (rH0d (tab m x)) ≤ ∑ i ∈ range m, hh (2 * m) * x i ^ 2 := by
  rw [dot_rH0d hm _ _ (length_tab _ _) (length_tab _ _), mirror1_tab]
  obtain ⟨h1, h2⟩ := Hs_between (show 0 < 2 * m by omega) fun i => if i < m then x i else 1 * x (2 * m - 1 - i)
  have e : ∑ i ∈ range (2 * m), hh (2 * m) * (if i < m then x i else 1 * x (2 * m - 1 - i)) ^ 2 = 2 * ∑ i ∈ range m, hh (2 * m) * x i ^ 2 := by
    rw [fold_sum1 (fun i => hh (2 * m) * (if i < m then x i else 1 * x (2 * m - 1 - i)) ^ 2) fun i h1 => by
      beta_reduce
      rw [if_neg (by omega), if_pos (by omega), one_mul, show 2 * m - 1 - (2 * m - 1 - i) = i by omega]]
    congr 1
    refine sum_congr rfl fun i hi => ?_
    rw [if_pos (mem_range.1 hi)]
  rw [e] at h1 h2
  constructor <;> linarith

end Regular

end Dec
