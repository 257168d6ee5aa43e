import Verif.Props.Accuracy
import Mathlib.Analysis.SpecialFunctions.Trigonometric.Chebyshev.RootsExtrema

set_option linter.unusedSimpArgs false
set_option linter.unusedVariables false

/-! # C80, Chebyshev 1-forms -/

namespace Dec.Props

open Finset Real G2 Sp Polynomial Polynomial.Chebyshev

/-- `f` is the derivative of a Chebyshev series `∑ c m T_m`, with `∑ m² |c m|` convergent. -/
def DerivedExpansion (c : ℕ → ℝ) (f : ℝ → ℝ) : Prop :=
  Summable (fun m : ℕ => (m : ℝ) ^ 2 * |c m|) ∧ ∀ x ∈ Set.Icc (-1 : ℝ) 1, HasSum (fun m : ℕ => c m * (derivative (T ℝ m)).eval x) (f x)

theorem deriv_T_bound (m : ℕ) {x : ℝ} (hx : x ∈ Set.Icc (-1 : ℝ) 1) : |(derivative (T ℝ m)).eval x| ≤ (m : ℝ) ^ 2 := by
  have h1 := abs_iterate_derivative_T_real_le (m : ℤ) 1 (x := x) (abs_le.2 ⟨hx.1, hx.2⟩)
  have h2 := iterate_derivative_T_eval_one_recurrence (R := ℝ) (m : ℤ) 0
  simp only [Function.iterate_one, Function.iterate_zero, id_eq, zero_add, T_eval_one] at h1 h2
  norm_num at h2
  rw [h2] at h1
  exact h1

theorem deriv2_T_bound (m : ℕ) {x : ℝ} (hx : x ∈ Set.Icc (-1 : ℝ) 1) : |(derivative (derivative (T ℝ m))).eval x| ≤ (m : ℝ) ^ 4 / 3 := by
  have h1 := abs_iterate_derivative_T_real_le (m : ℤ) 2 (x := x) (abs_le.2 ⟨hx.1, hx.2⟩)
  have h2 := iterate_derivative_T_eval_one_recurrence (R := ℝ) (m : ℤ) 0
  have h3 := iterate_derivative_T_eval_one_recurrence (R := ℝ) (m : ℤ) 1
  simp only [Function.iterate_one, Function.iterate_zero, Function.iterate_succ, Function.comp, id_eq, zero_add, T_eval_one] at h1 h2 h3
  norm_num at h2 h3
  rw [h2] at h3
  nlinarith [sq_nonneg (m : ℝ)]

theorem T_neg_cos (k : ℕ) (θ : ℝ) : (T ℝ (k : ℤ)).eval (-cos θ) = cos (k * (π - θ)) := by
  rw [← cos_pi_sub, T_real_cos]
  norm_cast

/-- The end points of the cells of a Chebyshev grid. -/
def BdC (n : ℕ) (t : Bool) (x : ℝ) : Prop :=
  if t then ∃ j ≤ n - 1, x = cos (j * hh (2 * n - 2)) else (∃ j : ℕ, x = cos (hh (2 * n - 2) / 2 + j * hh (2 * n - 2))) ∨ x = 1 ∨ x = -1

theorem cheb_one_alias {n : ℕ} (hn : 2 ≤ n) (t : Bool) (m : ℕ) :
    ∃ Q : ℝ[X], Q.natDegree ≤ (if t then n - 1 else n) ∧ (∀ x, BdC n t x → Q.eval x = (T ℝ m).eval x) ∧
      (∀ x ∈ Set.Icc (-1 : ℝ) 1, |(derivative Q).eval x| ≤ 3 * (m : ℝ) ^ 2) ∧ (m ≤ (if t then n - 1 else n) → Q = T ℝ m) ∧
      ∀ x ∈ Set.Icc (-1 : ℝ) 1, |(derivative (derivative Q)).eval x| ≤ (m : ℝ) ^ 4 := by
  have hT : ∀ k : ℕ, (T ℝ (k : ℤ)).natDegree = k := fun k => by rw [natDegree_T]; simp
  have hsq : ∀ {x y : ℝ}, 0 ≤ x → x ≤ y → x ^ 2 ≤ y ^ 2 := fun h h' => pow_le_pow_left₀ h h' 2
  have hq4 : ∀ {x y : ℝ}, 0 ≤ x → x ≤ y → x ^ 4 ≤ y ^ 4 := fun h h' => pow_le_pow_left₀ h h' 4
  have hm4 : (0 : ℝ) ≤ (m : ℝ) ^ 4 := by positivity
  by_cases hlo : m ≤ (if t then n - 1 else n)
  · exact ⟨T ℝ m, by rw [hT]; exact hlo, fun _ _ => rfl, fun x hx => (deriv_T_bound m hx).trans (by nlinarith [sq_nonneg (m : ℝ)]), fun _ => rfl, fun x hx => (deriv2_T_bound m hx).trans (by linarith)⟩
  have hM : 0 < n - 1 := by omega
  obtain ⟨m', s, l, hs, hk, hmk, hmM, hlow⟩ := freq_fold hM m
  have hpi := mul_hh_double hn
  have hmk' : (m' : ℝ) ≤ m := by exact_mod_cast hmk
  have hm'4 := hq4 (by positivity) hmk'
  have hd' : ∀ x ∈ Set.Icc (-1 : ℝ) 1, |(derivative (derivative (T ℝ m'))).eval x| ≤ (m : ℝ) ^ 4 / 3 := fun x hx => (deriv2_T_bound m' hx).trans (by linarith)
  have hpar : (m : ℤ).negOnePow = (m' : ℤ).negOnePow := by
    rw [hk, Int.negOnePow_eq_iff]
    rcases hs with rfl | rfl
    · rw [show (1 * (m' : ℤ) + l * (2 * ((n - 1 : ℕ) : ℤ)) - m') = 2 * (l * ((n - 1 : ℕ) : ℤ)) by ring]; exact even_two_mul _
    · rw [show (-1 * (m' : ℤ) + l * (2 * ((n - 1 : ℕ) : ℤ)) - m') = 2 * (l * ((n - 1 : ℕ) : ℤ) - m') by ring]; exact even_two_mul _
  cases t
  · simp only [Bool.false_eq_true, if_false] at hlo ⊢
    rcases Int.even_or_odd l with hl | hl
    · have hl1 : ((-1 : ℝ)) ^ l = 1 := hl.neg_one_zpow
      refine ⟨T ℝ m', by rw [hT]; omega, fun x hx => ?_, fun x hx => ((deriv_T_bound m' hx).trans (hsq (by positivity) hmk')).trans (by nlinarith [sq_nonneg (m : ℝ)]), fun h => absurd h hlo,
      fun x hx => (hd' x hx).trans (by linarith)⟩
      simp only [BdC, Bool.false_eq_true, if_false] at hx
      rcases hx with ⟨j, rfl⟩ | rfl | rfl
      · rw [T_real_cos, T_real_cos]
        have := (cos_fold hs hk hpi j).2.1
        rw [hl1, one_mul] at this
        exact_mod_cast this.symm
      · rw [T_eval_one, T_eval_one]
      · rw [T_eval_neg_one, T_eval_neg_one, hpar]
    · have hl1 : ((-1 : ℝ)) ^ l = -1 := hl.neg_one_zpow
      -- the polynomial that vanishes at the half nodes
      have hz : ∀ j : ℕ, (T ℝ ((n - 1 : ℕ) : ℤ)).eval (cos (hh (2 * n - 2) / 2 + j * hh (2 * n - 2))) = 0 := fun j => by
        rw [T_real_cos]
        exact_mod_cast (fold_last hpi j).1
      have hval : ∀ j : ℕ, -(T ℝ (m' : ℤ)).eval (cos (hh (2 * n - 2) / 2 + j * hh (2 * n - 2))) = (T ℝ (m : ℤ)).eval (cos (hh (2 * n - 2) / 2 + j * hh (2 * n - 2))) := fun j => by
        rw [T_real_cos, T_real_cos]
        have := (cos_fold hs hk hpi j).2.1
        rw [hl1, neg_one_mul] at this
        exact_mod_cast this.symm
      have hmn : (n : ℝ) ≤ m := by exact_mod_cast (by omega : n ≤ m)
      have hn1 : ((n - 1 : ℕ) : ℝ) ≤ m := by exact_mod_cast (by omega : n - 1 ≤ m)
      have hn2 : ((n - 2 : ℕ) : ℝ) ≤ m := by exact_mod_cast (by omega : n - 2 ≤ m)
      by_cases hp : Even ((m : ℤ) + ((n - 1 : ℕ) : ℤ))
      · refine ⟨-T ℝ m' + 2 * T ℝ ((n - 1 : ℕ) : ℤ), ?_, fun x hx => ?_, fun x hx => ?_, fun h => absurd h hlo, fun x hx => ?_⟩
        · refine (natDegree_add_le _ _).trans (max_le ?_ ?_)
          · rw [natDegree_neg, hT]; omega
          · refine (natDegree_mul_le).trans ?_
            rw [hT, show ((2 : ℝ[X])) = C 2 from rfl, natDegree_C]; omega
        · simp only [BdC, Bool.false_eq_true, if_false] at hx
          simp only [eval_add, eval_neg, eval_mul, eval_ofNat]
          rcases hx with ⟨j, rfl⟩ | rfl | rfl
          · rw [hz, hval]; ring
          · rw [T_eval_one, T_eval_one, T_eval_one]; norm_num
          · rw [T_eval_neg_one, T_eval_neg_one, T_eval_neg_one, ← hpar]
            have : ((n - 1 : ℕ) : ℤ).negOnePow = (m : ℤ).negOnePow := by
              rw [Int.negOnePow_eq_iff]
              rw [show (((n - 1 : ℕ) : ℤ) - m) = (m + ((n - 1 : ℕ) : ℤ)) - 2 * m by ring]
              exact hp.sub (even_two_mul _)
            rw [this]; ring
        · simp only [derivative_add, derivative_neg, derivative_mul, derivative_ofNat, zero_mul, zero_add, eval_add, eval_neg, eval_mul, eval_ofNat]
          have h1 := deriv_T_bound m' hx
          have h2 := deriv_T_bound (n - 1) hx
          have h3 := hsq (by positivity) hmk'
          have h4 := hsq (by positivity) hn1
          rw [abs_le] at h1 h2 ⊢
          constructor <;> linarith [h1.1, h1.2, h2.1, h2.2]
        · simp only [derivative_add, derivative_neg, derivative_mul, derivative_ofNat, zero_mul, zero_add, eval_add, eval_neg, eval_mul, eval_ofNat]
          have h1 := hd' x hx
          have h2 := deriv2_T_bound (n - 1) hx
          have h4 := hq4 (by positivity) hn1
          rw [abs_le] at h1 h2 ⊢
          constructor <;> linarith [h1.1, h1.2, h2.1, h2.2]
      · have hn2' : ((n - 2 : ℕ) : ℤ) = ((n - 1 : ℕ) : ℤ) - 1 := by omega
        have hn' : (n : ℤ) = ((n - 1 : ℕ) : ℤ) + 1 := by omega
        have hrec : T ℝ (n : ℤ) + T ℝ ((n - 2 : ℕ) : ℤ) = 2 * X * T ℝ ((n - 1 : ℕ) : ℤ) := by
          rw [hn2', hn', T_add_one]; ring
        refine ⟨-T ℝ m' + (T ℝ (n : ℤ) + T ℝ ((n - 2 : ℕ) : ℤ)), ?_, fun x hx => ?_, fun x hx => ?_, fun h => absurd h hlo, fun x hx => ?_⟩
        · refine (natDegree_add_le _ _).trans (max_le ?_ ((natDegree_add_le _ _).trans (max_le ?_ ?_)))
          · rw [natDegree_neg, hT]; omega
          · rw [hT]
          · rw [hT]; omega
        · simp only [BdC, Bool.false_eq_true, if_false] at hx
          rw [hrec]
          simp only [eval_add, eval_neg, eval_mul, eval_ofNat, eval_X]
          rcases hx with ⟨j, rfl⟩ | rfl | rfl
          · rw [hz, hval]; ring
          · rw [T_eval_one, T_eval_one, T_eval_one]; norm_num
          · rw [T_eval_neg_one, T_eval_neg_one, T_eval_neg_one, ← hpar]
            have : ((n - 1 : ℕ) : ℤ).negOnePow = -(m : ℤ).negOnePow := by
              rw [← Int.negOnePow_succ, Int.negOnePow_eq_iff]
              rw [show (((n - 1 : ℕ) : ℤ) - (m + 1)) = (m + ((n - 1 : ℕ) : ℤ)) - 1 - 2 * m by ring]
              exact ((Int.not_even_iff_odd.1 hp).sub_odd odd_one).sub (even_two_mul _)
            rw [this]; push_cast; ring
        · simp only [derivative_add, derivative_neg, eval_add, eval_neg]
          have h1 := deriv_T_bound m' hx
          have h2 := deriv_T_bound n hx
          have h2' := deriv_T_bound (n - 2) hx
          have h3 := hsq (by positivity) hmk'
          have h4 := hsq (by positivity) hmn
          have h5 := hsq (by positivity) hn2
          rw [abs_le] at h1 h2 h2' ⊢
          constructor <;> linarith [h1.1, h1.2, h2.1, h2.2, h2'.1, h2'.2]
        · simp only [derivative_add, derivative_neg, eval_add, eval_neg]
          have h1 := hd' x hx
          have h2 := deriv2_T_bound n hx
          have h2' := deriv2_T_bound (n - 2) hx
          have h4 := hq4 (by positivity) hmn
          have h5 := hq4 (by positivity) hn2
          rw [abs_le] at h1 h2 h2' ⊢
          constructor <;> linarith [h1.1, h1.2, h2.1, h2.2, h2'.1, h2'.2]
  · simp only [if_true] at hlo ⊢
    refine ⟨T ℝ m', by rw [hT]; exact hmM, fun x hx => ?_, fun x hx => ((deriv_T_bound m' hx).trans (hsq (by positivity) hmk')).trans (by nlinarith [sq_nonneg (m : ℝ)]), fun h => absurd h hlo,
      fun x hx => (hd' x hx).trans (by linarith)⟩
    simp only [BdC, if_true] at hx
    obtain ⟨j, _, rfl⟩ := hx
    rw [T_real_cos, T_real_cos]
    exact_mod_cast (cos_fold hs hk hpi j).1.symm

/-- The integrals of a derivative over the cells depend on the values at the ends of the cells only. -/
theorem cheb_P1_congr {n : ℕ} (hn : 2 ≤ n) (t : Bool) (Q R : ℝ[X]) (c : ℝ) (h : ∀ x, BdC n t x → Q.eval x = R.eval x) :
    (grid₀ .chebyshev n).P 1 t (fun x => c * (derivative Q).eval x) = (grid₀ .chebyshev n).P 1 t fun x => c * (derivative R).eval x := by
  have hI := Chebyshev.isInterval hn (-1) 1
  have ftc : ∀ (S : ℝ[X]) (a b : ℝ), (∫ x in a..b, (derivative S).eval x) = S.eval b - S.eval a := fun S a b =>
    intervalIntegral.integral_eq_sub_of_hasDerivAt (fun x _ => S.hasDerivAt x) ((Polynomial.continuous _).intervalIntegrable _ _)
  have key : ∀ a b, BdC n t a → BdC n t b → (∫ x in a..b, c * (derivative Q).eval x) = ∫ x in a..b, c * (derivative R).eval x := fun a b ha hb =>
    int_smul_congr c (by rw [ftc, ftc, h a ha, h b hb])
  have hpi := mul_hh_double hn
  have hd : π / ((n - 1 : ℕ) : ℝ) = hh (2 * n - 2) := (hh_double hn).symm
  have nodes : ∀ i ≤ n - 1, BdC n true (Chebyshev.pt (-1) 1 (i * (π / ((n - 1 : ℕ) : ℝ)))) := fun i hi => by
    simp only [BdC, if_true]
    refine ⟨n - 1 - i, by omega, ?_⟩
    rw [Chebyshev.pt_default, hd, ← cos_pi_sub]
    congr 1
    rw [← hpi, Nat.cast_sub hi]; ring
  have halfs : ∀ i < n - 1, BdC n false (Chebyshev.pt (-1) 1 ((i + 1 / 2) * (π / ((n - 1 : ℕ) : ℝ)))) := fun i hi => by
    simp only [BdC, Bool.false_eq_true, if_false]
    refine Or.inl ⟨n - 1 - 1 - i, ?_⟩
    rw [Chebyshev.pt_default, hd, ← cos_pi_sub]
    congr 1
    rw [← hpi, show ((n - 1 : ℕ) : ℝ) = ((n - 1 - 1 - i : ℕ) : ℝ) + 1 + i by exact_mod_cast (by omega : n - 1 = n - 1 - 1 - i + 1 + i)]; ring
  show (Chebyshev.make n).P 1 t _ = (Chebyshev.make n).P 1 t _
  cases t
  · rw [hI.P1d, hI.P1d]
    refine tab_congr fun i hi => key _ _ ?_ ?_
    · by_cases h0 : i = 0
      · rw [if_pos h0]
        simp only [BdC, Bool.false_eq_true, if_false]; exact Or.inr (Or.inr rfl)
      · rw [if_neg h0]
        exact halfs (i - 1) (by have : i < n := hi; omega)
    · by_cases h0 : i < (Chebyshev.make n).n - 1
      · rw [if_pos h0]
        exact halfs i h0
      · rw [if_neg h0]
        simp only [BdC, Bool.false_eq_true, if_false]; exact Or.inr (Or.inl rfl)
  · rw [hI.P1, hI.P1]
    refine tab_congr fun i hi => key _ _ (nodes i ?_) (nodes (i + 1) ?_)
    · have : i < n - 1 := hi; omega
    · have : i < n - 1 := hi; omega

theorem cheb_aliased {n : ℕ} (hn : 2 ≤ n) (t : Bool) (c : ℕ → ℝ) (f : ℝ → ℝ) (hf : DerivedExpansion c f) :
    ∃ q, Aliased (grid₀ .chebyshev n) (Determined .chebyshev n 1 t) (Whole .chebyshev) 1 t ((grid₀ .chebyshev n).N 1 t + 1)
      (fun m x => c m * (derivative (T ℝ m)).eval x) q (fun m => 3 * ((m : ℝ) ^ 2 * |c m|)) f := by
  have h := cheb_one_alias hn t
  choose Q h1 h2 h3 h4 h4' using h
  have hI := Chebyshev.isInterval hn (-1) 1
  have hN : (grid₀ .chebyshev n).N 1 t = if t then n - 1 else n := by
    cases t
    · exact hI.N10
    · exact hI.N11
  refine ⟨fun m x => c m * (derivative (Q m)).eval x, fun m => (Polynomial.continuous _).const_mul _, hf.1.mul_left 3, fun m x hx => ?_, hf.2, fun m => ?_, fun m => cheb_P1_congr hn t _ _ _ (h2 m), fun m x hx => ?_, fun m hm => ?_⟩
  · rw [abs_mul]
    have := mul_le_mul_of_nonneg_left (deriv_T_bound m hx) (abs_nonneg (c m))
    nlinarith [sq_nonneg (m : ℝ), abs_nonneg (c m)]
  · show IsPoly (if ((1 : Fin 2) = 0) = (t = true) then n else n - 1) _
    have e : (if ((1 : Fin 2) = 0) = (t = true) then n else n - 1) = if t then n - 1 else n := by cases t <;> simp
    rw [e]
    refine isPoly_smul (c m) ⟨fun i => (derivative (Q m)).coeff i, fun x => ?_⟩
    beta_reduce
    rw [Polynomial.eval_eq_sum_range' (n := if t then n - 1 else n)]
    have h5 := natDegree_derivative_le (Q m)
    have h6 := h1 m
    have h7 : 0 < (if t then n - 1 else n) := by cases t <;> simp <;> omega
    omega
  · rw [abs_mul]
    have := mul_le_mul_of_nonneg_left (h3 m x hx) (abs_nonneg (c m))
    linarith
  · rw [hN] at hm
    rw [h4 m (by omega)]

/-- **C80**: the stars of Chebyshev 1-forms, for the differential of a function with the Chebyshev coefficients `c`: at every vertex of the other grid the error
is at most six times the sum of the `m² |c m|` of the terms that the grid does not resolve. -/
theorem C80_chebyshev_one_form_error (n : ℕ) (hn : 2 ≤ n) (t : Bool) (h927 : t = true → n ≤ 927) (c : ℕ → ℝ) (f : ℝ → ℝ) (hf : DerivedExpansion c f) :
    ∃ b, (Chebyshev.make n).H 1 t ((Chebyshev.make n).P 1 t f) = .ok b ∧ b.length = (Chebyshev.make n).N 0 (!t) ∧
      ∀ i < (Chebyshev.make n).N 0 (!t), |b.getD i 0 - ((Chebyshev.make n).P 0 (!t) f).getD i 0|
        ≤ 6 * ∑' m : ℕ, ((m + ((Chebyshev.make n).N 1 t + 1) : ℕ) : ℝ) ^ 2 * |c (m + ((Chebyshev.make n).N 1 t + 1))| := by
  obtain ⟨q, h⟩ := cheb_aliased hn t c f hf
  obtain ⟨b, h1, h2, h3⟩ := star_error (spans' .chebyshev n hn) (determined_star .chebyshev n hn 1 t (fun _ _ => h927))
    (cells_in .chebyshev n hn 1 t) (cells_in .chebyshev n hn (1 - 1) (!t)) h
  refine ⟨b, h1, h2, fun i hi => ?_⟩
  have h4 := h3 i hi
  have e : ((grid₀ .chebyshev n).P (1 - 1) (!t) fun _ => 1).getD i 0 = 1 := pe0 (spans' .chebyshev n hn).factor (!t) (fun _ => 1) hi
  rw [e, mul_one, tsum_mul_left, ← mul_assoc] at h4
  norm_num at h4 ⊢
  exact h4

/-- **C80**: the reconstruction of Chebyshev 1-forms. -/
theorem C80_chebyshev_one_form_reconstruction (n : ℕ) (hn : 2 ≤ n) (t : Bool) (c : ℕ → ℝ) (f : ℝ → ℝ) (hf : DerivedExpansion c f) (x : ℝ) (hx : x ∈ Set.Ioo (-1 : ℝ) 1) :
    ∃ y, (Chebyshev.make n).R 1 t ((Chebyshev.make n).P 1 t f) x = some y ∧
      |y - f x| ≤ 6 * ∑' m : ℕ, ((m + ((Chebyshev.make n).N 1 t + 1) : ℕ) : ℝ) ^ 2 * |c (m + ((Chebyshev.make n).N 1 t + 1))| := by
  obtain ⟨q, h⟩ := cheb_aliased hn t c f hf
  obtain ⟨y, h1, h2⟩ := reconstruct_error (spans' .chebyshev n hn) (cells_in .chebyshev n hn 1 t) h (inside_dom .chebyshev n hn 1 t hx) (Set.Ioo_subset_Icc_self hx)
  refine ⟨y, h1, ?_⟩
  rw [tsum_mul_left, ← mul_assoc] at h2
  norm_num at h2 ⊢
  exact h2

/-- The differential of a function with infinitely many coefficients. -/
example : ∃ f, DerivedExpansion (fun m => (1 / 2) ^ m) f := by
  have hs : Summable fun m : ℕ => (m : ℝ) ^ 2 * |(1 / 2 : ℝ) ^ m| := by
    have := summable_pow_mul_geometric_of_norm_lt_one 2 (r := (1 / 2 : ℝ)) (by norm_num)
    refine this.congr fun m => ?_
    rw [abs_of_pos (by positivity)]
  refine ⟨fun x => ∑' m : ℕ, (1 / 2 : ℝ) ^ m * (derivative (T ℝ m)).eval x, hs, fun x hx => ?_⟩
  refine (Summable.of_norm_bounded hs fun m => ?_).hasSum
  rw [Real.norm_eq_abs, abs_mul, mul_comm]
  exact mul_le_mul_of_nonneg_right (deriv_T_bound m hx) (abs_nonneg _)

end Dec.Props
