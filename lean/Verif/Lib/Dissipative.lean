import Verif.Lib.Energy2

set_option linter.unusedSimpArgs false
set_option linter.unusedVariables false

/-! # Matrices that decrease an inner product, and sums of two of them acting on rows and columns -/

namespace Dec.G2

open Finset Matrix MatrixOrder

/-- A matrix applied to a vector. -/
def ap (n : ℕ) (A : ℕ → ℕ → ℝ) (x : ℕ → ℝ) (i : ℕ) : ℝ := ∑ k ∈ range n, A i k * x k

/-- The inner product with a weight. -/
def wq (n : ℕ) (W : ℕ → ℕ → ℝ) (x y : ℕ → ℝ) : ℝ := ∑ i ∈ range n, x i * ∑ k ∈ range n, W i k * y k

/-- `L` decreases some inner product, and only vectors that `D` annihilates keep it. -/
def Diss (n : ℕ) (L : ℕ → ℕ → ℝ) (d : ℕ) (D : ℕ → ℕ → ℝ) : Prop :=
  ∃ W, MPos n W ∧ ∀ x : ℕ → ℝ, wq n W x (ap n L x) ≤ 0 ∧ (wq n W x (ap n L x) = 0 → ∀ i < d, ap n D x i = 0)

/-- Every positive definite matrix is the product of the transpose of a matrix with that matrix. -/
theorem MPos.factor {n : ℕ} {W : ℕ → ℕ → ℝ} (h : MPos n W) :
    ∃ C : ℕ → ℕ → ℝ, (∀ i < n, ∀ k < n, W i k = ∑ a ∈ range n, C a i * C a k) ∧ ∀ f : ℕ → ℝ, (∀ a < n, ap n C f a = 0) → ∀ k < n, f k = 0 := by
  have pd : (Matrix.of fun i j : Fin n => W i j).PosSemidef := by
    refine PosSemidef.of_dotProduct_mulVec_nonneg ?_ fun x => ?_
    · ext i j; simp [h.symm j j.2 i i.2]
    · by_cases hx : x = 0
      · simp [hx]
      obtain ⟨i, hi⟩ := Function.ne_iff.1 hx
      have := h.pos (fun k => if hk : k < n then x ⟨k, hk⟩ else 0) ⟨i, i.2, by simpa using hi⟩
      simp only [Finset.sum_range] at this
      refine le_of_lt ?_
      simpa [dotProduct, mulVec] using this
  obtain ⟨B, hB⟩ := CStarAlgebra.nonneg_iff_eq_star_mul_self.1 (Matrix.nonneg_iff_posSemidef.2 pd)
  have hC : ∀ i < n, ∀ k < n, W i k = ∑ a ∈ range n, (if h : a < n ∧ i < n then B ⟨a, h.1⟩ ⟨i, h.2⟩ else 0) * (if h : a < n ∧ k < n then B ⟨a, h.1⟩ ⟨k, h.2⟩ else 0) := fun i hi k hk => by
    have := congrFun (congrFun hB ⟨i, hi⟩) ⟨k, hk⟩
    simp only [Matrix.of_apply] at this
    rw [this, Finset.sum_range, Matrix.mul_apply]
    refine sum_congr rfl fun a _ => ?_
    simp [hi, hk, star_eq_conjTranspose]
  refine ⟨_, hC, fun f hf k hk => ?_⟩
  by_contra hne
  have hp := h.pos f ⟨k, hk, hne⟩
  refine hp.ne' ?_
  calc ∑ i ∈ range n, f i * ∑ j ∈ range n, W i j * f j
      = ∑ i ∈ range n, ∑ j ∈ range n, ∑ a ∈ range n, f i * ((if h : a < n ∧ i < n then B ⟨a, h.1⟩ ⟨i, h.2⟩ else 0) * ((if h : a < n ∧ j < n then B ⟨a, h.1⟩ ⟨j, h.2⟩ else 0) * f j)) := by
        refine sum_congr rfl fun i hi => ?_
        rw [mul_sum]
        refine sum_congr rfl fun j hj => ?_
        rw [hC i (mem_range.1 hi) j (mem_range.1 hj), sum_mul, mul_sum]
        exact sum_congr rfl fun a _ => by ring
    _ = ∑ i ∈ range n, ∑ a ∈ range n, f i * ((if h : a < n ∧ i < n then B ⟨a, h.1⟩ ⟨i, h.2⟩ else 0) * ap n (fun a k => if h : a < n ∧ k < n then B ⟨a, h.1⟩ ⟨k, h.2⟩ else 0) f a) := by
        refine sum_congr rfl fun i hi => ?_
        rw [sum_comm]
        refine sum_congr rfl fun a _ => ?_
        unfold ap
        rw [mul_sum, mul_sum]
    _ = 0 := sum_eq_zero fun i _ => sum_eq_zero fun a ha => by rw [hf a (mem_range.1 ha)]; ring

/-- The product of two matrices. -/
def mm (p : ℕ) (A B : ℕ → ℕ → ℝ) (i k : ℕ) : ℝ := ∑ l ∈ range p, A i l * B l k

theorem ap_mm (n p : ℕ) (A B : ℕ → ℕ → ℝ) (x : ℕ → ℝ) : ap n (mm p A B) x = ap p A (ap n B x) := by
  funext i
  unfold ap mm
  simp only [sum_mul, mul_sum]
  rw [sum_comm]
  exact sum_congr rfl fun _ _ => sum_congr rfl fun _ _ => by ring

theorem ap_congr {n : ℕ} {A : ℕ → ℕ → ℝ} {x y : ℕ → ℝ} (h : ∀ k < n, x k = y k) : ap n A x = ap n A y :=
  funext fun i => sum_congr rfl fun k hk => by rw [h k (mem_range.1 hk)]

theorem wq_congr {n : ℕ} {W : ℕ → ℕ → ℝ} {x y x' y' : ℕ → ℝ} (h : ∀ k < n, x k = x' k) (h' : ∀ k < n, y k = y' k) : wq n W x y = wq n W x' y' :=
  sum_congr rfl fun i hi => by rw [h i (mem_range.1 hi)]; exact congrArg _ (sum_congr rfl fun k hk => by rw [h' k (mem_range.1 hk)])

/-- The rows of an array, mixed by the columns of a factor of the second weight. -/
theorem dot2_kron_row {m n : ℕ} {V C : ℕ → ℕ → ℝ} (hV : ∀ i < m, ∀ k < m, V i k = ∑ a ∈ range m, C a i * C a k) (W F H : ℕ → ℕ → ℝ) :
    dot2 m n F (kron m n V W H) = ∑ a ∈ range m, wq n W (fun i => ap m C (fun l => F l i) a) (fun i => ap m C (fun l => H l i) a) := by
  have e1 : dot2 m n F (kron m n V W H) = ∑ j ∈ range m, ∑ i ∈ range n, ∑ l ∈ range m, ∑ k ∈ range n, ∑ a ∈ range m, F j i * (C a j * C a l * W i k * H l k) := by
    unfold dot2 kron
    refine sum_congr rfl fun j hj => sum_congr rfl fun i _ => ?_
    rw [mul_sum]
    refine sum_congr rfl fun l hl => ?_
    rw [mul_sum]
    refine sum_congr rfl fun k _ => ?_
    rw [hV j (mem_range.1 hj) l (mem_range.1 hl), sum_mul, sum_mul, mul_sum]
  have e2 : ∀ a, wq n W (fun i => ap m C (fun l => F l i) a) (fun i => ap m C (fun l => H l i) a) = ∑ j ∈ range m, ∑ i ∈ range n, ∑ l ∈ range m, ∑ k ∈ range n, F j i * (C a j * C a l * W i k * H l k) := fun a => by
    unfold wq ap
    rw [sum_comm]
    refine sum_congr rfl fun i _ => ?_
    rw [sum_mul]
    refine sum_congr rfl fun j _ => ?_
    simp only [mul_sum]
    rw [sum_comm]
    exact sum_congr rfl fun _ _ => sum_congr rfl fun _ _ => by ring
  rw [e1, sum_congr rfl fun a _ => e2 a]
  have s : ∀ f : ℕ → ℕ → ℕ → ℕ → ℕ → ℝ, ∑ j ∈ range m, ∑ i ∈ range n, ∑ l ∈ range m, ∑ k ∈ range n, ∑ a ∈ range m, f j i l k a = ∑ a ∈ range m, ∑ j ∈ range m, ∑ i ∈ range n, ∑ l ∈ range m, ∑ k ∈ range n, f j i l k a := fun f => by
    rw [sum_comm (s := range m) (t := range m) (f := fun a j => ∑ i ∈ range n, ∑ l ∈ range m, ∑ k ∈ range n, f j i l k a)]
    refine sum_congr rfl fun j _ => ?_
    rw [sum_comm (s := range m) (t := range n)]
    refine sum_congr rfl fun i _ => ?_
    rw [sum_comm (s := range m) (t := range m)]
    refine sum_congr rfl fun l _ => ?_
    rw [sum_comm (s := range m) (t := range n)]
  exact s _

theorem dot2_swap (m n : ℕ) (F G : ℕ → ℕ → ℝ) : dot2 m n F G = dot2 n m (fun i j => F j i) (fun i j => G j i) := sum_comm

theorem kron_swap (m n : ℕ) (V W F : ℕ → ℕ → ℝ) : (fun i j => kron m n V W F j i) = kron n m W V (fun i j => F j i) := by
  funext i j
  unfold kron
  rw [sum_comm]
  exact sum_congr rfl fun _ _ => sum_congr rfl fun _ _ => by ring

theorem ap_ap_comm (n m : ℕ) (L C F : ℕ → ℕ → ℝ) (a i : ℕ) : ap m C (fun l => ap n L (F l) i) a = ap n L (fun k => ap m C (fun l => F l k) a) i := by
  unfold ap
  simp only [mul_sum]
  rw [sum_comm]
  exact sum_congr rfl fun _ _ => sum_congr rfl fun _ _ => by ring

/-- A matrix acting on the rows decreases the product weight, and keeps it only where `D` annihilates every row. -/
theorem row_diss {m n d : ℕ} {L D V W : ℕ → ℕ → ℝ} (hV : MPos m V) (h : ∀ x : ℕ → ℝ, wq n W x (ap n L x) ≤ 0 ∧ (wq n W x (ap n L x) = 0 → ∀ i < d, ap n D x i = 0)) (F : ℕ → ℕ → ℝ) :
    dot2 m n F (kron m n V W fun j => ap n L (F j)) ≤ 0 ∧ (dot2 m n F (kron m n V W fun j => ap n L (F j)) = 0 → ∀ j < m, ∀ i < d, ap n D (F j) i = 0) := by
  obtain ⟨C, hC, inj⟩ := hV.factor
  rw [dot2_kron_row hC]
  have e : ∀ a, wq n W (fun i => ap m C (fun l => F l i) a) (fun i => ap m C (fun l => ap n L (F l) i) a)
      = wq n W (fun i => ap m C (fun l => F l i) a) (ap n L fun i => ap m C (fun l => F l i) a) := fun a => congrArg _ (funext fun i => ap_ap_comm n m L C F a i)
  rw [sum_congr rfl fun a _ => e a]
  refine ⟨sum_nonpos fun a _ => (h _).1, fun h0 j hj i hi => ?_⟩
  have hz := (sum_eq_zero_iff_of_nonpos fun a _ => (h _).1).1 h0
  refine inj (fun j => ap n D (F j) i) (fun a ha => ?_) j hj
  rw [ap_ap_comm]
  exact (h _).2 (hz a (mem_range.2 ha)) i hi

/-- **Sylvester equation**: if one matrix acts on the rows and another on the columns, both decreasing an inner product, then an array they map to zero together is annihilated by both `D`s. -/
theorem sylvester {m n d e : ℕ} {L M D E : ℕ → ℕ → ℝ} (hL : Diss n L d D) (hM : Diss m M e E) (F : ℕ → ℕ → ℝ)
    (h : ∀ j < m, ∀ i < n, ap n L (F j) i + ap m M (fun l => F l i) j = 0) :
    (∀ j < m, ∀ i < d, ap n D (F j) i = 0) ∧ ∀ i < n, ∀ j < e, ap m E (fun l => F l i) j = 0 := by
  obtain ⟨W, hW, h1⟩ := hL
  obtain ⟨V, hV, h2⟩ := hM
  obtain ⟨p1, p2⟩ := row_diss hV h1 F
  obtain ⟨q1, q2⟩ := row_diss hW h2 (fun i j => F j i)
  have hs : dot2 m n F (kron m n V W fun j => ap n L (F j)) + dot2 n m (fun i j => F j i) (kron n m W V fun i => ap m M fun j => F j i) = 0 := by
    rw [dot2_swap n m]
    have : (fun i j => kron n m W V (fun i => ap m M fun j => F j i) j i) = kron m n V W (fun j i => ap m M (fun l => F l i) j) := kron_swap n m W V _
    rw [this]
    unfold dot2
    rw [← sum_add_distrib]
    refine sum_eq_zero fun j _ => ?_
    rw [← sum_add_distrib]
    refine sum_eq_zero fun i _ => ?_
    rw [← mul_add]
    unfold kron
    rw [← sum_add_distrib]
    refine mul_eq_zero_of_right _ (sum_eq_zero fun l hl => ?_)
    rw [← sum_add_distrib]
    refine sum_eq_zero fun k hk => ?_
    rw [← mul_add, h l (mem_range.1 hl) k (mem_range.1 hk), mul_zero]
  exact ⟨p2 (by linarith), q2 (by linarith)⟩

/-- Weights pulled back along a matrix, with one more square. -/
theorem Diss.conj {n p d : ℕ} {L L' D T : ℕ → ℕ → ℝ} {w : ℕ → ℝ} (h : Diss n L d D) (hw : ∀ x, ∑ i ∈ range p, w i * ap p L' x i = 0)
    (comm : ∀ x, ∀ i < n, ap p T (ap p L' x) i = ap n L (ap p T x) i) (inj : ∀ x, (∀ i < n, ap p T x i = 0) → ∑ i ∈ range p, w i * x i = 0 → ∀ k < p, x k = 0) :
    Diss p L' d (mm n D T) := by
  obtain ⟨W, hW, hd⟩ := h
  have key : ∀ x y, wq p (fun i k => mm n (fun i a => T a i) (mm n W T) i k + w i * w k) x y = wq n W (ap p T x) (ap p T y) + (∑ i ∈ range p, w i * x i) * ∑ i ∈ range p, w i * y i := fun x y => by
    have e1 : ∀ i, ∑ k ∈ range p, (mm n (fun i a => T a i) (mm n W T) i k + w i * w k) * y k = ∑ a ∈ range n, T a i * ap n W (ap p T y) a + w i * ∑ k ∈ range p, w k * y k := fun i => by
      have := congrFun (ap_mm p n (fun i a => T a i) (mm n W T) y) i
      simp only [ap_mm p n W T] at this
      simp only [add_mul, sum_add_distrib]
      refine congrArg₂ (· + ·) this ?_
      rw [mul_sum]
      exact sum_congr rfl fun k _ => by ring
    unfold wq
    simp only [e1, mul_add, sum_add_distrib]
    refine congrArg₂ (· + ·) ?_ ?_
    · simp only [mul_sum]
      rw [sum_comm]
      refine sum_congr rfl fun a _ => ?_
      have e2 : ∑ k ∈ range n, W a k * ap p T y k = ap n W (ap p T y) a := rfl
      rw [← mul_sum, e2]
      generalize ap n W (ap p T y) a = r
      unfold ap
      rw [sum_mul]
      exact sum_congr rfl fun i _ => by ring
    · rw [sum_mul]
      exact sum_congr rfl fun i _ => by ring
  have sW : ∀ x y, wq n W x y = wq n W y x := fun x y => by
    unfold wq
    simp only [mul_sum]
    rw [sum_comm]
    exact sum_congr rfl fun i hi => sum_congr rfl fun k hk => by rw [hW.symm k (mem_range.1 hk) i (mem_range.1 hi)]; ring
  refine ⟨fun i k => mm n (fun i a => T a i) (mm n W T) i k + w i * w k, ⟨fun i hi k hk => ?_, fun f hf => ?_⟩, fun x => ?_⟩
  · have := sW (fun a => T a i) (fun a => T a k)
    refine congrArg₂ (· + ·) ?_ (mul_comm _ _)
    exact this
  · have hp : 0 ≤ wq n W (ap p T f) (ap p T f) := by
      by_cases h0 : ∃ i < n, ap p T f i ≠ 0
      · exact (hW.pos _ h0).le
      · push Not at h0
        exact (sum_eq_zero fun i hi => by rw [h0 i (mem_range.1 hi), zero_mul]).ge
    have e := key f f
    unfold wq at e
    beta_reduce at e
    rw [e]
    rcases hp.lt_or_eq with hp | hp
    · have := mul_self_nonneg (∑ i ∈ range p, w i * f i)
      unfold wq at hp
      linarith
    · have hz : ∀ i < n, ap p T f i = 0 := by
        by_contra h0
        push Not at h0
        exact (hW.pos _ h0).ne hp
      have hne : ∑ i ∈ range p, w i * f i ≠ 0 := fun h0 => by
        obtain ⟨k, hk, hf⟩ := hf
        exact hf (inj f hz h0 k hk)
      have := mul_self_pos.2 hne
      unfold wq at hp
      linarith
  · rw [key, hw, mul_zero, add_zero, wq_congr (fun _ _ => rfl) (comm x)]
    refine ⟨(hd _).1, fun h0 i hi => ?_⟩
    rw [ap_mm]
    exact (hd _).2 h0 i hi

theorem Diss.mono {n d e : ℕ} {L D E : ℕ → ℕ → ℝ} (h : Diss n L d D) (hE : ∀ x, (∀ i < d, ap n D x i = 0) → ∀ i < e, ap n E x i = 0) : Diss n L e E := by
  obtain ⟨W, hW, hd⟩ := h
  exact ⟨W, hW, fun x => ⟨(hd x).1, fun h0 => hE x ((hd x).2 h0)⟩⟩

end Dec.G2
