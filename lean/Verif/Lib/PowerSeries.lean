import Verif.Props.Accuracy
import Mathlib.Tactic

set_option linter.unusedSimpArgs false
set_option linter.unusedVariables false

/-!
# A power series that converges absolutely on `[-1, 1]` is an absolutely convergent Chebyshev series with smaller tails
-/

namespace Dec.Props

open Real Finset Polynomial.Chebyshev

/-- `p` is a convex combination of the Chebyshev polynomials of degree at most `k`. -/
def ConvexT (k : ℕ) (p : ℝ → ℝ) : Prop :=
  ∃ b : ℕ → ℝ, (∀ j, 0 ≤ b j) ∧ (∀ j, k < j → b j = 0) ∧ ∑ j ∈ range (k + 1), b j = 1 ∧ ∀ x, p x = ∑ j ∈ range (k + 1), b j * (T ℝ j).eval x

theorem ConvexT.basis {j k : ℕ} (h : j ≤ k) : ConvexT k fun x => (T ℝ j).eval x := by
  refine ⟨fun i => if i = j then 1 else 0, fun i => by dsimp only; split_ifs <;> norm_num, fun i hi => if_neg (by omega), ?_, fun x => ?_⟩
  · rw [Finset.sum_ite_eq' (range (k + 1)) j, if_pos (by simp; omega)]
  · simp only [ite_mul, one_mul, zero_mul]
    rw [Finset.sum_ite_eq' (range (k + 1)) j, if_pos (by simp; omega)]

theorem ConvexT.combine {k n : ℕ} (w : ℕ → ℝ) (p : ℕ → ℝ → ℝ) (h0 : ∀ i, 0 ≤ w i) (h1 : ∑ i ∈ range n, w i = 1) (hp : ∀ i, ConvexT k (p i)) :
    ConvexT k fun x => ∑ i ∈ range n, w i * p i x := by
  choose b hb using hp
  refine ⟨fun j => ∑ i ∈ range n, w i * b i j, fun j => Finset.sum_nonneg fun i _ => mul_nonneg (h0 i) ((hb i).1 j),
    fun j hj => Finset.sum_eq_zero fun i _ => by rw [(hb i).2.1 j hj, mul_zero], ?_, fun x => ?_⟩
  · rw [Finset.sum_comm, ← h1]
    exact Finset.sum_congr rfl fun i _ => by rw [← Finset.mul_sum, (hb i).2.2.1, mul_one]
  · simp only [Finset.sum_mul]
    rw [Finset.sum_comm]
    refine Finset.sum_congr rfl fun i _ => ?_
    rw [(hb i).2.2.2 x, Finset.mul_sum]
    exact Finset.sum_congr rfl fun j _ => by ring

theorem ConvexT.half {k : ℕ} {p q : ℝ → ℝ} (hp : ConvexT k p) (hq : ConvexT k q) : ConvexT k fun x => (p x + q x) / 2 := by
  have h := ConvexT.combine (k := k) (n := 2) (fun _ => 1 / 2) (fun i => if i = 0 then p else q) (fun _ => by norm_num) (by norm_num [Finset.sum_range_succ])
    fun i => by split_ifs <;> assumption
  obtain ⟨b, h1, h2, h3, h4⟩ := h
  refine ⟨b, h1, h2, h3, fun x => ?_⟩
  rw [← h4 x]
  simp [Finset.sum_range_succ]; ring

theorem ConvexT.mul_T (j : ℕ) : ConvexT (j + 1) fun x => x * (T ℝ j).eval x := by
  cases j with
  | zero =>
    obtain ⟨b, h1, h2, h3, h4⟩ := ConvexT.basis (j := 1) (k := 1) le_rfl
    exact ⟨b, h1, h2, h3, fun x => by rw [← h4 x]; simp⟩
  | succ j =>
    obtain ⟨b, h1, h2, h3, h4⟩ := (ConvexT.basis (j := j + 2) (k := j + 2) le_rfl).half (ConvexT.basis (j := j) (k := j + 2) (by omega))
    refine ⟨b, h1, h2, h3, fun x => ?_⟩
    rw [← h4 x]
    have h := congrArg (Polynomial.eval x) (T_add_two ℝ (j : ℤ))
    simp only [Polynomial.eval_sub, Polynomial.eval_mul, Polynomial.eval_X, Polynomial.eval_ofNat] at h
    push_cast at h ⊢
    rw [h]; ring

theorem ConvexT.mono {k l : ℕ} (h : k ≤ l) {p : ℝ → ℝ} (hp : ConvexT k p) : ConvexT l p := by
  obtain ⟨b, h1, h2, h3, h4⟩ := hp
  have e : ∀ g : ℕ → ℝ, ∑ j ∈ range (l + 1), b j * g j = ∑ j ∈ range (k + 1), b j * g j := fun g =>
    (Finset.sum_subset (Finset.range_subset_range.2 (by omega)) fun j _ hj => by rw [h2 j (by simpa using hj), zero_mul]).symm
  refine ⟨b, h1, fun j hj => h2 j (by omega), ?_, fun x => by rw [h4 x]; exact (e _).symm⟩
  have := e fun _ => 1
  simpa [h3] using this

theorem ConvexT.pow (k : ℕ) : ConvexT k fun x => x ^ k := by
  induction k with
  | zero =>
    obtain ⟨b, h1, h2, h3, h4⟩ := ConvexT.basis (j := 0) (k := 0) le_rfl
    exact ⟨b, h1, h2, h3, fun x => by rw [← h4 x]; simp⟩
  | succ k ih =>
    obtain ⟨b, h1, h2, h3, h4⟩ := ih
    have h := ConvexT.combine (k := k + 1) (n := k + 1) b (fun j x => if j ≤ k then x * (T ℝ j).eval x else (T ℝ 0).eval x) h1 h3 fun j => by
      by_cases hj : j ≤ k
      · simp only [hj, if_true]; exact (ConvexT.mul_T j).mono (by omega)
      · simp only [hj, if_false]; exact ConvexT.basis (j := 0) (Nat.zero_le _)
    obtain ⟨b', g1, g2, g3, g4⟩ := h
    refine ⟨b', g1, g2, g3, fun x => ?_⟩
    rw [← g4 x]
    beta_reduce
    have h4' : x ^ k = _ := h4 x
    rw [pow_succ, h4', Finset.sum_mul]
    refine Finset.sum_congr rfl fun j hj => ?_
    rw [if_pos (by simp at hj; omega)]; ring

/-- The Chebyshev series of a power series. -/
theorem power_series_chebyshev (a : ℕ → ℝ) (f : ℝ → ℝ) (ha : Summable fun k => |a k|) (hf : ∀ x ∈ Set.Icc (-1 : ℝ) 1, HasSum (fun k => a k * x ^ k) (f x)) :
    ∃ c : ℕ → ℝ, Expansion .chebyshev c (fun _ => 0) f ∧ ∀ J, ∑' m, |c (m + J)| ≤ ∑' m, |a (m + J)| := by
  choose b b0 bz b1 bp using ConvexT.pow
  have bfin : ∀ (k : ℕ) (g : ℕ → ℝ), HasSum (fun j => b k j * g j) (∑ j ∈ range (k + 1), b k j * g j) := fun k g =>
    hasSum_sum_of_ne_finset_zero fun j hj => by rw [bz k j (by simpa using hj), zero_mul]
  have bsum : ∀ k, HasSum (b k) 1 := fun k => by
    have := bfin k fun _ => 1
    simpa [b1 k] using this
  have hS : Summable fun q : ℕ × ℕ => |a q.1| * b q.1 q.2 := by
    have h1 : ∀ k, Summable fun j => |a k| * b k j := fun k => Summable.mul_left |a k| (bsum k).summable
    have h2 : Summable fun k => ∑' j, |a k| * b k j := ha.congr fun k => by rw [tsum_mul_left, (bsum k).tsum_eq, mul_one]
    exact (summable_prod_of_nonneg (f := fun q : ℕ × ℕ => |a q.1| * b q.1 q.2) (fun q => mul_nonneg (abs_nonneg (a q.1)) (b0 q.1 q.2))).2 ⟨h1, h2⟩
  have hS' : Summable fun q : ℕ × ℕ => |a q.2| * b q.2 q.1 := (Equiv.prodComm ℕ ℕ).summable_iff.2 hS
  have hcol : ∀ j, Summable fun k => |a k| * b k j := fun j => hS'.prod_factor j
  have hcol' : ∀ j, Summable fun k => a k * b k j := fun j => Summable.of_norm (by
    refine (hcol j).congr fun k => ?_
    rw [Real.norm_eq_abs, abs_mul, abs_of_nonneg (b0 k j)])
  have habs : ∀ j, |∑' k, a k * b k j| ≤ ∑' k, |a k| * b k j := fun j => by
    have h := norm_tsum_le_tsum_norm (f := fun k => a k * b k j) (by
      refine (hcol j).congr fun k => ?_
      rw [Real.norm_eq_abs, abs_mul, abs_of_nonneg (b0 k j)])
    refine h.trans (le_of_eq (tsum_congr fun k => ?_))
    rw [Real.norm_eq_abs, abs_mul, abs_of_nonneg (b0 k j)]
  have hC : Summable fun j => ∑' k, |a k| * b k j := ((summable_prod_of_nonneg (f := fun q : ℕ × ℕ => |a q.2| * b q.2 q.1) (fun q => mul_nonneg (abs_nonneg (a q.2)) (b0 q.2 q.1))).1 hS').2
  have hc : Summable fun j => |∑' k, a k * b k j| := Summable.of_nonneg_of_le (fun _ => abs_nonneg _) habs hC
  refine ⟨fun j => ∑' k, a k * b k j, ⟨hc, fun x hx => ?_⟩, fun J => ?_⟩
  · have hx' : x ∈ Set.Icc (-1 : ℝ) 1 := hx
    have hP : Summable fun q : ℕ × ℕ => a q.2 * b q.2 q.1 * (T ℝ q.1).eval x := Summable.of_norm (by
      refine Summable.of_nonneg_of_le (fun _ => norm_nonneg _) (fun q => ?_) hS'
      rw [Real.norm_eq_abs, abs_mul, abs_mul, abs_of_nonneg (b0 _ _)]
      exact mul_le_of_le_one_right (mul_nonneg (abs_nonneg _) (b0 _ _)) (T_bound q.1 hx'))
    have h1 := hP.hasSum
    have h2 : ∀ j, HasSum (fun k => a k * b k j * (T ℝ j).eval x) ((∑' k, a k * b k j) * (T ℝ j).eval x) := fun j => (hcol' j).hasSum.mul_right _
    have h3 := h1.prod_fiberwise h2
    have h4 := (Equiv.prodComm ℕ ℕ).hasSum_iff.2 h1
    have h5 : ∀ k, HasSum (fun j => a k * b k j * (T ℝ j).eval x) (a k * x ^ k) := fun k => by
      have hk : x ^ k = _ := bp k x
      rw [hk]
      have := (bfin k fun j => (T ℝ j).eval x).mul_left (a k)
      simpa only [mul_assoc] using this
    have h6 := HasSum.prod_fiberwise (f := fun q : ℕ × ℕ => a q.1 * b q.1 q.2 * (T ℝ q.2).eval x) h4 h5
    have e := h6.unique (hf x hx')
    rw [e] at h3
    exact h3
  · have hrow : ∀ k, ∑' m, b k (m + J) ≤ 1 ∧ (k < J → ∑' m, b k (m + J) = 0) := fun k => by
      refine ⟨?_, fun hk => ?_⟩
      · have := ((bsum k).summable).sum_add_tsum_nat_add J
        rw [(bsum k).tsum_eq] at this
        have h0 : 0 ≤ ∑ i ∈ range J, b k i := Finset.sum_nonneg fun i _ => b0 k i
        linarith
      · rw [show (fun m => b k (m + J)) = fun _ => 0 from funext fun m => bz k _ (by omega), tsum_zero]
    have hsh : Summable fun q : ℕ × ℕ => |a q.2| * b q.2 (q.1 + J) :=
      hS'.comp_injective (i := fun q : ℕ × ℕ => (q.1 + J, q.2)) fun p q h => by
        simp only [Prod.mk.injEq] at h; exact Prod.ext (by omega) h.2
    have hle : ∑' m, |∑' k, a k * b k (m + J)| ≤ ∑' m, ∑' k, |a k| * b k (m + J) :=
      ((summable_nat_add_iff J).2 hc).tsum_le_tsum (fun m => habs (m + J)) ((summable_nat_add_iff J).2 hC)
    refine hle.trans ?_
    have hsw : ∑' m, ∑' k, |a k| * b k (m + J) = ∑' k, ∑' m, |a k| * b k (m + J) := (Summable.tsum_comm (f := fun m k => |a k| * b k (m + J)) hsh).symm
    rw [hsw]
    simp only [tsum_mul_left]
    have hq : Summable fun k => |a k| * ∑' m, b k (m + J) := Summable.of_nonneg_of_le
      (fun k => mul_nonneg (abs_nonneg _) (tsum_nonneg fun m => b0 _ _)) (fun k => mul_le_of_le_one_right (abs_nonneg _) (hrow k).1) ha
    rw [← hq.sum_add_tsum_nat_add J, Finset.sum_eq_zero fun k hk => by rw [(hrow k).2 (by simpa using hk), mul_zero], zero_add]
    exact ((summable_nat_add_iff J).2 hq).tsum_le_tsum (fun k => mul_le_of_le_one_right (abs_nonneg _) (hrow _).1) ((summable_nat_add_iff J).2 ha)

end Dec.Props
