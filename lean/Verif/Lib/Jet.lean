import Verif.Props.AccuracyCheb
import Verif.Lib.PowerSeries

set_option linter.unusedSimpArgs false
set_option linter.unusedVariables false

/-! Functionals of a function and its first two derivatives that depend on finitely many of their values, and their values on Chebyshev and power series. -/

namespace Dec.Props

open Finset Real Polynomial Polynomial.Chebyshev

/-- A polynomial and its first two derivatives. -/
noncomputable def jet (p : ℝ[X]) (d : Fin 3) (x : ℝ) : ℝ := (derivative^[(d : ℕ)] p).eval x

/-- A homogeneous functional that may be applied to a series term by term. -/
structure Functional (L : (Fin 3 → ℝ → ℝ) → ℝ) : Prop where
  smul : ∀ (c : ℝ) (F : Fin 3 → ℝ → ℝ), L (fun d x => c * F d x) = c * L F
  sum : ∀ (F : ℕ → Fin 3 → ℝ → ℝ) (G : Fin 3 → ℝ → ℝ), (∀ d, ∀ x ∈ Set.Icc (-1 : ℝ) 1, HasSum (fun k => F k d x) (G d x)) → HasSum (fun k => L (F k)) (L G)

theorem Functional.eval (d : Fin 3) {x : ℝ} (hx : x ∈ Set.Icc (-1 : ℝ) 1) : Functional fun F => F d x :=
  ⟨fun c F => rfl, fun F G h => h d x hx⟩

theorem Functional.add {L M : (Fin 3 → ℝ → ℝ) → ℝ} (hL : Functional L) (hM : Functional M) : Functional fun F => L F + M F :=
  ⟨fun c F => by rw [hL.smul, hM.smul]; ring, fun F G h => (hL.sum F G h).add (hM.sum F G h)⟩

theorem Functional.mul {L : (Fin 3 → ℝ → ℝ) → ℝ} (a : ℝ) (hL : Functional L) : Functional fun F => a * L F :=
  ⟨fun c F => by rw [hL.smul]; ring, fun F G h => (hL.sum F G h).mul_left a⟩

theorem Functional.neg {L : (Fin 3 → ℝ → ℝ) → ℝ} (hL : Functional L) : Functional fun F => -L F :=
  ⟨fun c F => by rw [hL.smul]; ring, fun F G h => (hL.sum F G h).neg⟩

theorem Functional.sub {L M : (Fin 3 → ℝ → ℝ) → ℝ} (hL : Functional L) (hM : Functional M) : Functional fun F => L F - M F :=
  ⟨fun c F => by rw [hL.smul, hM.smul]; ring, fun F G h => (hL.sum F G h).sub (hM.sum F G h)⟩

theorem Functional.zero : Functional fun _ => 0 := ⟨fun c F => by ring, fun F G h => hasSum_zero⟩

theorem Functional.finsum {n : ℕ} {L : ℕ → (Fin 3 → ℝ → ℝ) → ℝ} (h : ∀ k < n, Functional (L k)) : Functional fun F => ∑ k ∈ range n, L k F :=
  ⟨fun c F => by rw [mul_sum]; exact sum_congr rfl fun k hk => (h k (mem_range.1 hk)).smul c F, fun F G hF => hasSum_sum fun k hk => (h k (mem_range.1 hk)).sum F G hF⟩

/-- A Chebyshev series that may be differentiated twice term by term: the coefficients `c` with `Σ m⁴ |c m|` convergent; `G 0`, `G 1`, `G 2` are the sums of the series and of the derived series. -/
def TwiceExpansion (c : ℕ → ℝ) (G : Fin 3 → ℝ → ℝ) : Prop :=
  Summable (fun m : ℕ => (m : ℝ) ^ 4 * |c m|) ∧ ∀ d, ∀ x ∈ Set.Icc (-1 : ℝ) 1, HasSum (fun m : ℕ => c m * jet (T ℝ m) d x) (G d x)

/-- The same for a power series with the coefficients `a`. -/
def TwicePower (a : ℕ → ℝ) (G : Fin 3 → ℝ → ℝ) : Prop :=
  Summable (fun m : ℕ => (m : ℝ) ^ 4 * |a m|) ∧ ∀ d, ∀ x ∈ Set.Icc (-1 : ℝ) 1, HasSum (fun m : ℕ => a m * jet (X ^ m) d x) (G d x)

/-- A series of functions on which the functional is zero below `M`, and at most `C m⁴` in general. -/
theorem Functional.series {L : (Fin 3 → ℝ → ℝ) → ℝ} (hL : Functional L) {M : ℕ} {C : ℝ} (p : ℕ → ℝ[X]) (h0 : ∀ m < M, L (jet (p m)) = 0) (h1 : ∀ m, |L (jet (p m))| ≤ C * (m : ℝ) ^ 4)
    (c : ℕ → ℝ) (G : Fin 3 → ℝ → ℝ) (hc : Summable fun m : ℕ => (m : ℝ) ^ 4 * |c m|) (hG : ∀ d, ∀ x ∈ Set.Icc (-1 : ℝ) 1, HasSum (fun m : ℕ => c m * jet (p m) d x) (G d x)) :
    |L G| ≤ C * ∑' m : ℕ, ((m + M : ℕ) : ℝ) ^ 4 * |c (m + M)| := by
  have hS := hL.sum (fun m d x => c m * jet (p m) d x) G hG
  have e : ∀ m, L (fun d x => c m * jet (p m) d x) = c m * L (jet (p m)) := fun m => hL.smul _ _
  simp only [e] at hS
  have hS' : HasSum (fun m => c (m + M) * L (jet (p (m + M)))) (L G) := by
    have := (hasSum_nat_add_iff' M).2 hS
    rwa [sum_eq_zero fun m hm => by rw [h0 m (mem_range.1 hm), mul_zero], sub_zero] at this
  rw [← hS'.tsum_eq]
  have hc' := ((summable_nat_add_iff M).2 hc).mul_left C
  rw [← Real.norm_eq_abs, ← tsum_mul_left]
  refine tsum_of_norm_bounded (f := fun m => c (m + M) * L (jet (p (m + M)))) hc'.hasSum fun m => ?_
  rw [Real.norm_eq_abs, abs_mul]
  have := mul_le_mul_of_nonneg_left (h1 (m + M)) (abs_nonneg (c (m + M)))
  linarith

theorem jet_sum {n : ℕ} (b : ℕ → ℝ) (p : ℕ → ℝ[X]) (d : Fin 3) (x : ℝ) : jet (∑ j ∈ range n, Polynomial.C (b j) * p j) d x = ∑ j ∈ range n, b j * jet (p j) d x := by
  unfold jet
  rw [iterate_derivative_sum, eval_finsetSum]
  exact sum_congr rfl fun j _ => by rw [iterate_derivative_C_mul, eval_mul, eval_C]

/-- The value on a power is a convex combination of values on Chebyshev polynomials. -/
theorem Functional.power {L : (Fin 3 → ℝ → ℝ) → ℝ} (hL : Functional L) {M : ℕ} {C : ℝ} (h0 : ∀ m : ℕ, m < M → L (jet (T ℝ m)) = 0) (h1 : ∀ m : ℕ, |L (jet (T ℝ m))| ≤ C * (m : ℝ) ^ 4) (k : ℕ) :
    (k < M → L (jet (X ^ k)) = 0) ∧ |L (jet (X ^ k))| ≤ C * (k : ℝ) ^ 4 := by
  obtain ⟨b, g1, g2, g3, g4⟩ := ConvexT.pow k
  have hp : (X ^ k : ℝ[X]) = ∑ j ∈ range (k + 1), Polynomial.C (b j) * T ℝ j := by
    refine Polynomial.funext fun x => ?_
    rw [eval_pow, eval_X, eval_finsetSum]
    refine (g4 x).trans (sum_congr rfl fun j _ => by rw [eval_mul, eval_C])
  have hS := hL.sum (fun j d x => b j * jet (T ℝ j) d x) (jet (X ^ k)) fun d x _ => by
    rw [hp, jet_sum]
    exact hasSum_sum_of_ne_finset_zero fun j hj => by rw [g2 j (by simpa using hj), zero_mul]
  have e : ∀ m, L (fun d x => b m * jet (T ℝ m) d x) = b m * L (jet (T ℝ m)) := fun m => hL.smul _ _
  simp only [e] at hS
  have hE : L (jet (X ^ k)) = ∑ j ∈ range (k + 1), b j * L (jet (T ℝ j)) :=
    hS.unique (hasSum_sum_of_ne_finset_zero fun j hj => by rw [g2 j (by simpa using hj), zero_mul])
  have hC : 0 ≤ C := by
    have := (abs_nonneg _).trans (h1 1)
    simpa using this
  constructor
  · intro hk
    rw [hE]
    exact sum_eq_zero fun j hj => by rw [h0 j (by have := mem_range.1 hj; omega), mul_zero]
  · rw [hE]
    calc |∑ j ∈ range (k + 1), b j * L (jet (T ℝ j))| ≤ ∑ j ∈ range (k + 1), b j * (C * (k : ℝ) ^ 4) := by
          refine (abs_sum_le_sum_abs _ _).trans (sum_le_sum fun j hj => ?_)
          rw [abs_mul, abs_of_nonneg (g1 j)]
          refine mul_le_mul_of_nonneg_left ((h1 j).trans (mul_le_mul_of_nonneg_left (pow_le_pow_left₀ (by positivity) ?_ 4) hC)) (g1 j)
          exact_mod_cast (by have := mem_range.1 hj; omega : j ≤ k)
      _ = C * (k : ℝ) ^ 4 := by rw [← sum_mul, g3, one_mul]

theorem jet_exp : TwicePower (fun k => 1 / (k.factorial : ℝ)) fun _ => exp := by
  have hs : ∀ m : ℕ, ((m + 4 : ℕ) : ℝ) ^ 4 * |1 / ((m + 4).factorial : ℝ)| ≤ 256 * ((1 : ℝ) ^ m / (m.factorial : ℝ)) := fun m => by
    rw [abs_of_nonneg (by positivity), one_pow, show m + 4 = m + 3 + 1 from rfl, Nat.factorial_succ, show m + 3 = m + 2 + 1 from rfl, Nat.factorial_succ, show m + 2 = m + 1 + 1 from rfl, Nat.factorial_succ, Nat.factorial_succ]
    have h0 : (0 : ℝ) < m.factorial := by positivity
    have hm : (0 : ℝ) ≤ m := by positivity
    push_cast
    rw [mul_one_div, mul_one_div, div_le_div_iff₀ (by positivity) h0]
    have key : ((m : ℝ) + 4) ^ 4 ≤ 256 * ((m + 4) * ((m + 3) * ((m + 2) * (m + 1)))) := by nlinarith [pow_nonneg hm 2, pow_nonneg hm 3, pow_nonneg hm 4]
    have := mul_le_mul_of_nonneg_right key h0.le
    have e : (m : ℝ) + 1 + 1 + 1 + 1 = m + 4 := by ring
    have e3 : (m : ℝ) + 1 + 1 + 1 = m + 3 := by ring
    have e2 : (m : ℝ) + 1 + 1 = m + 2 := by ring
    rw [e, e3, e2]
    nlinarith
  refine ⟨(summable_nat_add_iff 4).1 (Summable.of_nonneg_of_le (fun m => by positivity) hs ((Real.summable_pow_div_factorial 1).mul_left 256)), fun d x _ => ?_⟩
  have h := NormedSpace.expSeries_div_hasSum_exp (𝔸 := ℝ) x
  rw [← Real.exp_eq_exp_ℝ] at h
  refine (hasSum_nat_add_iff' (d : ℕ)).1 ?_
  have h0 : ∑ i ∈ range (d : ℕ), 1 / (i.factorial : ℝ) * jet (X ^ i) d x = 0 := sum_eq_zero fun i hi => by
    unfold jet
    rw [iterate_derivative_X_pow_eq_smul, Nat.descFactorial_eq_zero_iff_lt.2 (mem_range.1 hi)]
    simp
  rw [h0, sub_zero]
  have e : (fun m => 1 / ((m + (d : ℕ)).factorial : ℝ) * jet (X ^ (m + (d : ℕ))) d x) = fun m => x ^ m / (m.factorial : ℝ) := funext fun m => by
    unfold jet
    rw [iterate_derivative_X_pow_eq_smul, eval_smul, eval_pow, eval_X, smul_eq_mul, Nat.add_sub_cancel]
    have h1 := Nat.factorial_mul_descFactorial (Nat.le_add_left (d : ℕ) m)
    rw [Nat.add_sub_cancel] at h1
    have h2 : (m.factorial : ℝ) * ((m + (d : ℕ)).descFactorial d : ℝ) = ((m + (d : ℕ)).factorial : ℝ) := by exact_mod_cast h1
    have h3 : ((m + (d : ℕ)).factorial : ℝ) ≠ 0 := by positivity
    have h4 : (m.factorial : ℝ) ≠ 0 := by positivity
    rw [← h2] at h3 ⊢
    field_simp
  rw [e]
  exact h

end Dec.Props
