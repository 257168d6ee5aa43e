import Verif.Model.Notebooks
import Mathlib.Analysis.SpecialFunctions.Integrals.Basic
import Mathlib.Tactic

/-!
# C99: piecewise linear bases (`whitney.ipynb`)
-/

namespace Dec.Props

open Finset Dec.Notebooks

/-! ### The hat function -/

theorem p_eq (x : ℝ) : p x = max 0 (1 - |x|) := by
  unfold p
  rcases le_total 0 x with h | h
  · rw [abs_of_nonneg h]
    split_ifs <;> first | (exfalso; linarith) | (rw [max_eq_left (by linarith)]) | (rw [max_eq_right (by linarith)]; ring)
  · rw [abs_of_nonpos h]
    split_ifs with h1 h2 h3
    · rw [max_eq_left (by linarith)]
    · rw [max_eq_right (by linarith)]; ring
    · rw [show x = 0 by linarith]; norm_num
    · exfalso; linarith

/-- **C99.** The symbolic hat function and the one written with `if` are the same function. -/
theorem C99_hat (x : ℝ) : p x = Notebooks.F x ∧ p x = max 0 (1 - |x|) := by
  refine ⟨?_, p_eq x⟩
  unfold p Notebooks.F
  split_ifs with h1 h2 h3 h4 h5 h6 h7 h8 <;> first | rfl | (exfalso; simp only [not_and, not_lt, not_le] at *; grind) | grind

theorem p_continuous : Continuous p := by
  rw [show p = fun x => max 0 (1 - |x|) from funext p_eq]
  fun_prop

theorem p_int (u v : ℝ) : IntervalIntegrable p MeasureTheory.volume u v := p_continuous.intervalIntegrable _ _

/-- The integral of the hat function from 0. -/
noncomputable def hatInt (x : ℝ) : ℝ := ∫ t in 0..x, p t

theorem p_integral (u v : ℝ) : ∫ t in u..v, p t = hatInt v - hatInt u := by
  unfold hatInt
  rw [intervalIntegral.integral_interval_sub_left (p_int _ _) (p_int _ _)]

theorem hatInt_neg (x : ℝ) : hatInt (-x) = - hatInt x := by
  unfold hatInt
  have h : ∫ t in 0..x, p (-t) = ∫ t in (-x)..0, p t := by
    rw [intervalIntegral.integral_comp_neg p, neg_zero]
  have h2 : ∫ t in 0..x, p (-t) = ∫ t in 0..x, p t := by
    congr 1; funext t; rw [p_eq, p_eq, abs_neg]
  rw [intervalIntegral.integral_symm, ← h, h2]

theorem hatInt_le {x : ℝ} (h0 : 0 ≤ x) (h1 : x ≤ 1) : hatInt x = x - x ^ 2 / 2 := by
  unfold hatInt
  rw [intervalIntegral.integral_congr (g := fun t => 1 - t)]
  · rw [intervalIntegral.integral_sub (by simp) (by simp)]; simp
  · intro t ht
    rw [Set.uIcc_of_le h0] at ht
    show p t = 1 - t
    rw [p_eq, abs_of_nonneg ht.1, max_eq_right (by linarith [ht.2])]

theorem hatInt_ge {x : ℝ} (h1 : 1 ≤ x) : hatInt x = 1 / 2 := by
  have h : ∫ t in 1..x, p t = 0 := by
    rw [intervalIntegral.integral_congr (g := fun _ => 0)]
    · simp
    · intro t ht
      rw [Set.uIcc_of_le h1] at ht
      show p t = 0
      rw [p_eq, abs_of_nonneg (by linarith [ht.1]), max_eq_left (by linarith [ht.1])]
  rw [p_integral, hatInt_le zero_le_one le_rfl] at h
  linarith

/-- **C99.** The numbers of the notebook. -/
theorem C99_weights : Notebooks.a = 3 / 4 ∧ Notebooks.b = 3 / 8 ∧ Notebooks.c = 1 / 8 := by
  have h12 := hatInt_le (x := 1 / 2) (by norm_num) (by norm_num)
  have h32 := hatInt_ge (x := 3 / 2) (by norm_num)
  have h0 := hatInt_le (x := 0) (by norm_num) (by norm_num)
  refine ⟨?_, ?_, ?_⟩
  · rw [Notebooks.a, p_integral, neg_div, hatInt_neg, h12]; norm_num
  · rw [Notebooks.b, p_integral, h12, h0]; norm_num
  · rw [Notebooks.c, p_integral, h12, h32]; norm_num

/-! ### Specification: the cells of the grid `0, 1, …, n-1` -/

/-- Left end of the dual cell of vertex `k`. -/
noncomputable def cellLeft (k : ℕ) : ℝ := max 0 ((k : ℝ) - 1 / 2)

/-- Right end of the dual cell of vertex `k`. -/
noncomputable def cellRight (n k : ℕ) : ℝ := min ((n : ℝ) - 1) (k + 1 / 2)

/-- The piecewise linear function with the values `u` at the vertices. -/
noncomputable def linear {n : ℕ} (u : Fin n → ℝ) (x : ℝ) : ℝ := ∑ i, u i * max 0 (1 - |x - i|)

/-- The numbers 1, 3, 17, 99, 577, …: each is six times the previous one minus the one before. -/
def pell : ℕ → ℤ
  | 0 => 1
  | 1 => 3
  | k + 2 => 6 * pell (k + 1) - pell k

theorem cellLeft_zero : cellLeft 0 = 0 := by unfold cellLeft; rw [max_eq_left]; norm_num

theorem cellLeft_pos {k : ℕ} (h : 0 < k) : cellLeft k = k - 1 / 2 := by
  have : (1 : ℝ) ≤ k := by exact_mod_cast h
  unfold cellLeft; rw [max_eq_right]; linarith

theorem cellRight_last {n k : ℕ} (h : k + 1 = n) : cellRight n k = k := by
  have : (n : ℝ) = k + 1 := by exact_mod_cast h.symm
  unfold cellRight; rw [min_eq_left] <;> linarith

theorem cellRight_lt {n k : ℕ} (h : k + 1 < n) : cellRight n k = k + 1 / 2 := by
  have : (k : ℝ) + 2 ≤ n := by exact_mod_cast h
  unfold cellRight; rw [min_eq_right]; linarith

theorem mass_entry {n : ℕ} (hn : 2 ≤ n) (i j : Fin n) : ∫ x in (cellLeft i)..(cellRight n i), p (x - j) = H n i j := by
  have h12 := hatInt_le (x := 1 / 2) (by norm_num) (by norm_num)
  have h1 := hatInt_le (x := 1) (by norm_num) (by norm_num)
  have h32 := hatInt_ge (x := 3 / 2) (by norm_num)
  have h0 := hatInt_le (x := 0) (by norm_num) (by norm_num)
  obtain ⟨ea, eb, ec⟩ := C99_weights
  rw [intervalIntegral.integral_comp_sub_right p, p_integral]
  have hi := i.isLt
  have hj := j.isLt
  rw [H, ea, eb, ec]
  by_cases hij : i = j
  · subst hij
    rw [if_pos rfl]
    have hr : hatInt (cellRight n i - i) = if i.val + 1 = n then 0 else 3 / 8 := by
      split_ifs with h
      · rw [cellRight_last h, sub_self, h0]; norm_num
      · rw [cellRight_lt (by omega), show (i : ℝ) + 1 / 2 - i = 1 / 2 by ring, h12]; norm_num
    have hl : hatInt (cellLeft i - i) = if i.val = 0 then 0 else -(3 / 8) := by
      split_ifs with h
      · rw [h, cellLeft_zero, Nat.cast_zero, sub_self, h0]; norm_num
      · rw [cellLeft_pos (by omega), show (i : ℝ) - 1 / 2 - i = -(1 / 2) by ring, hatInt_neg, h12]; norm_num
    rw [hr, hl]
    split_ifs <;> first | omega | norm_num
  · rw [if_neg hij]
    have hne : i.val ≠ j.val := fun h => hij (Fin.ext h)
    rcases Nat.lt_or_gt_of_ne hne with h | h
    · -- the vertex is on the left
      obtain ⟨m, hm⟩ := Nat.exists_eq_add_of_lt h
      have hc : (j : ℝ) = i + m + 1 := by exact_mod_cast hm
      have hm0 : (0 : ℝ) ≤ m := Nat.cast_nonneg m
      have hl : hatInt (cellLeft i - j) = -(1 / 2) := by
        rcases Nat.eq_zero_or_pos i.val with h' | h'
        · rw [h', cellLeft_zero, show (0 : ℝ) - j = -j by ring, hatInt_neg, hatInt_ge]
          rw [hc, h']; push_cast; linarith
        · rw [cellLeft_pos h', hc, show (i : ℝ) - 1 / 2 - (i + m + 1) = -(m + 3 / 2) by ring, hatInt_neg, hatInt_ge (by linarith)]
      rw [hl, cellRight_lt (by omega), hc, show (i : ℝ) + 1 / 2 - (i + m + 1) = -(m + 1 / 2) by ring, hatInt_neg]
      rcases Nat.eq_zero_or_pos m with h' | h'
      · subst h'
        rw [if_pos (Or.inl (by omega)), Nat.cast_zero, zero_add, h12]; norm_num
      · have : (1 : ℝ) ≤ m := by exact_mod_cast h'
        rw [if_neg (by omega), hatInt_ge (by linarith)]; norm_num
    · obtain ⟨m, hm⟩ := Nat.exists_eq_add_of_lt h
      have hc : (i : ℝ) = j + m + 1 := by exact_mod_cast hm
      have hm0 : (0 : ℝ) ≤ m := Nat.cast_nonneg m
      have hr : hatInt (cellRight n i - j) = 1 / 2 := by
        by_cases h' : i.val + 1 = n
        · rw [cellRight_last h', hc, hatInt_ge]; linarith
        · rw [cellRight_lt (by omega), hc, hatInt_ge]; linarith
      rw [hr, cellLeft_pos (by omega), hc, show (j : ℝ) + m + 1 - 1 / 2 - j = m + 1 / 2 by ring]
      rcases Nat.eq_zero_or_pos m with h' | h'
      · subst h'
        rw [if_pos (Or.inr (by omega)), Nat.cast_zero, zero_add, h12]; norm_num
      · have : (1 : ℝ) ≤ m := by exact_mod_cast h'
        rw [if_neg (by omega), hatInt_ge (by linarith)]; norm_num

/-- **C99.** The entries of the matrix are the integrals of the hat functions over the dual cells, cut off at both ends of the grid. -/
theorem C99_matrix {n : ℕ} (hn : 2 ≤ n) (i j : Fin n) :
    H n i j = ∫ x in (cellLeft i)..(cellRight n i), max 0 (1 - |x - j|) := by
  rw [← mass_entry hn]
  congr 1; funext x; rw [p_eq]

/-! ### The inverse -/

theorem pell_pos (k : ℕ) : 0 < pell k ∧ 3 * pell k ≤ pell (k + 1) := by
  induction k with
  | zero => decide
  | succ k ih =>
    have e : pell (k + 2) = 6 * pell (k + 1) - pell k := rfl
    refine ⟨by omega, ?_⟩
    show 3 * pell (k + 1) ≤ pell (k + 2)
    omega

/-- `8` times the denominator. -/
def pellW (n : ℕ) : ℤ := 3 * pell (n - 1) - pell (n - 2)

theorem pellW_pos {n : ℕ} (hn : 2 ≤ n) : 0 < pellW n := by
  obtain ⟨m, rfl⟩ := Nat.exists_eq_add_of_le' hn
  have h := pell_pos m
  unfold pellW
  show 0 < 3 * pell (m + 1) - pell m
  omega

/-- The determinant like quantity does not depend on the row. -/
theorem pell_wronski (k m : ℕ) : pell (k + 1) * pell (m + 1) - pell k * pell m = 3 * pell (k + m + 1) - pell (k + m) := by
  induction k generalizing m with
  | zero => simp [pell]
  | succ k ih =>
    have e1 : pell (k + 2) = 6 * pell (k + 1) - pell k := rfl
    have e2 : pell (m + 2) = 6 * pell (m + 1) - pell m := rfl
    have h := ih (m + 1)
    rw [show k + 1 + m + 1 = k + (m + 1) + 1 by ring, show k + 1 + m = k + (m + 1) by ring, ← h]
    show pell (k + 2) * pell (m + 1) - pell (k + 1) * pell m = pell (k + 1) * pell (m + 2) - pell k * pell (m + 1)
    rw [e1, e2]; ring

theorem row_sum {n : ℕ} (i : Fin n) (g : ℕ → ℝ) :
    8 * ∑ j : Fin n, H n i j * g j = (if i.val + 1 = n then 0 else g (i + 1)) + (if i.val = 0 then 0 else g (i - 1)) +
      (if i.val = 0 ∨ i.val = n - 1 then 3 else 6) * g i := by
  obtain ⟨ea, eb, ec⟩ := C99_weights
  have e : ∀ j : Fin n, 8 * (H n i j * g j) = (fun j : ℕ => (if j = i.val + 1 then g j else 0) + (if j = i.val - 1 then (if i.val = 0 then 0 else g j) else 0) +
      (if j = i.val then (if i.val = 0 ∨ i.val = n - 1 then 3 else 6) * g j else 0)) j.val := by
    intro j
    rw [H, ea, eb, ec]
    by_cases hij : i = j
    · subst hij
      have h1 : ¬ i.val = i.val + 1 := by omega
      have h2 : i.val = i.val - 1 → i.val = 0 := by omega
      by_cases h0 : i.val = 0
      · simp [h0]; ring
      · have h3 : ¬ i.val = i.val - 1 := by omega
        simp only [if_true, h1, h3, h0, if_false, false_or, zero_add]
        split_ifs <;> ring
    · have hne : ¬ j.val = i.val := fun h => hij (Fin.ext h.symm)
      simp only [if_neg hij, if_neg hne, add_zero]
      by_cases h1 : j.val = i.val + 1
      · have h2 : ¬ j.val = i.val - 1 := by omega
        rw [if_pos (Or.inl h1.symm), if_pos h1, if_neg h2]; ring
      · by_cases h2 : j.val + 1 = i.val
        · have h3 : ¬ i.val = 0 := by omega
          rw [if_pos (Or.inr h2), if_neg h1, if_pos (by omega), if_neg h3]; ring
        · rw [if_neg (by omega), if_neg h1]
          by_cases h3 : j.val = i.val - 1
          · rw [if_pos h3, if_pos (by omega)]; ring
          · rw [if_neg h3]; ring
  rw [Finset.mul_sum, Finset.sum_congr rfl fun j _ => e j]
  refine (Fin.sum_univ_eq_sum_range (fun j : ℕ => (if j = i.val + 1 then g j else 0) + (if j = i.val - 1 then (if i.val = 0 then 0 else g j) else 0) +
      (if j = i.val then (if i.val = 0 ∨ i.val = n - 1 then 3 else 6) * g j else 0)) n).trans ?_
  rw [Finset.sum_add_distrib, Finset.sum_add_distrib,
    Finset.sum_ite_eq', Finset.sum_ite_eq', Finset.sum_ite_eq']
  have hi := i.isLt
  rw [if_pos (Finset.mem_range.2 (show i.val - 1 < n by omega)), if_pos (Finset.mem_range.2 hi)]
  by_cases h : i.val + 1 = n
  · rw [if_neg (by rw [Finset.mem_range]; omega), if_pos h]
  · rw [if_pos (by rw [Finset.mem_range]; omega), if_neg h]

/-- The inverse in closed form, as a function of natural numbers. -/
noncomputable def closed (n i j : ℕ) : ℝ := (-1) ^ (i + j) * (8 * pell (min i j) * pell (n - 1 - max i j) / pellW n)

theorem closed_le {n i j : ℕ} (h : i ≤ j) : closed n i j = (-1) ^ (i + j) * (8 * pell i * pell (n - 1 - j) / pellW n) := by
  unfold closed; rw [min_eq_left h, max_eq_right h]

theorem closed_ge {n i j : ℕ} (h : j ≤ i) : closed n i j = (-1) ^ (i + j) * (8 * pell j * pell (n - 1 - i) / pellW n) := by
  unfold closed; rw [min_eq_right h, max_eq_left h]

theorem closed_row {n : ℕ} (hn : 2 ≤ n) (i k : Fin n) : ∑ j : Fin n, H n i j * closed n j k = if i = k then 1 else 0 := by
  have hW : (pellW n : ℝ) ≠ 0 := by exact_mod_cast (pellW_pos hn).ne'
  have h8 := row_sum i (fun j => closed n j k)
  have hi := i.isLt
  have hk := k.isLt
  have goal8 : 8 * ∑ j : Fin n, H n i j * closed n j k = if i = k then 8 else 0 := by
    rw [h8]
    rcases lt_trichotomy i.val k.val with h | h | h
    · -- above the diagonal
      have hik : ¬ i = k := fun e => by rw [e] at h; exact lt_irrefl _ h
      rw [if_neg hik, if_neg (show ¬ i.val + 1 = n by omega), closed_le (show i.val + 1 ≤ k from h), closed_le (show i.val ≤ k from h.le)]
      rcases Nat.eq_zero_or_pos i.val with h0 | h0
      · simp only [h0, if_true, true_or]
        have : pell (0 + 1) = 3 ∧ pell 0 = 1 := ⟨rfl, rfl⟩
        rw [this.1, this.2]
        push_cast
        ring
      · obtain ⟨m, hm⟩ : ∃ m, i.val = m + 1 := ⟨i.val - 1, by omega⟩
        rw [if_neg (by omega), if_neg (by omega), closed_le (show i.val - 1 ≤ k by omega), hm, Nat.add_sub_cancel]
        have e : pell (m + 1 + 1) = 6 * pell (m + 1) - pell m := rfl
        rw [e]
        push_cast
        ring
    · -- on the diagonal
      have hik : i = k := Fin.ext h
      subst hik
      rw [if_pos rfl]
      have sq : ∀ m : ℕ, ((-1 : ℝ)) ^ (m + m) = 1 := fun m => by rw [← two_mul, pow_mul]; norm_num
      by_cases h0 : i.val = 0
      · have hlast : ¬ i.val + 1 = n := by omega
        rw [if_neg hlast, if_pos h0, if_pos (Or.inl h0), closed_ge (show i.val ≤ i.val + 1 by omega), closed_le le_rfl, h0]
        have e : (pellW n : ℝ) = 3 * pell (n - 1) - pell (n - 2) := by unfold pellW; push_cast; ring
        rw [Nat.sub_zero, show n - 1 - (0 + 1) = n - 2 by omega, show pell 0 = 1 from rfl]
        field_simp
        rw [e]; push_cast; ring
      · by_cases hl : i.val + 1 = n
        · rw [if_pos hl, if_neg h0, if_pos (Or.inr (by omega)), closed_le (show i.val - 1 ≤ i.val by omega), closed_le le_rfl]
          have e : (pellW n : ℝ) = 3 * pell (n - 1) - pell (n - 2) := by unfold pellW; push_cast; ring
          obtain ⟨m, hm⟩ : ∃ m, i.val = m + 1 := ⟨i.val - 1, by omega⟩
          rw [hm, Nat.add_sub_cancel, show n - 1 - (m + 1) = 0 by omega, show pell 0 = 1 from rfl, sq, show m + (m + 1) = m + m + 1 by ring, pow_succ, sq]
          have e1 : n - 1 = m + 1 := by omega
          have e2 : n - 2 = m := by omega
          rw [e1, e2] at e
          field_simp
          rw [e]; push_cast; ring
        · obtain ⟨m, hm⟩ : ∃ m, i.val = m + 1 := ⟨i.val - 1, by omega⟩
          obtain ⟨r, hr⟩ : ∃ r, n = m + r + 3 := ⟨n - m - 3, by omega⟩
          have hw := pell_wronski (m + 1) r
          have e : (pellW n : ℝ) = pell (m + 2) * pell (r + 1) - pell (m + 1) * pell r := by
            have : pellW n = pell (m + 2) * pell (r + 1) - pell (m + 1) * pell r := by
              unfold pellW
              rw [show n - 1 = m + 1 + r + 1 by omega, show n - 2 = m + 1 + r by omega, ← hw]
            exact_mod_cast this
          have e3 : (pell (m + 2) : ℝ) = 6 * pell (m + 1) - pell m := by exact_mod_cast (rfl : pell (m + 2) = 6 * pell (m + 1) - pell m)
          rw [if_neg hl, if_neg h0, if_neg (by omega), closed_ge (show i.val ≤ i.val + 1 by omega), closed_le (show i.val - 1 ≤ i.val by omega), closed_le le_rfl, hm,
            Nat.add_sub_cancel, show n - 1 - (m + 1 + 1) = r by omega, show n - 1 - (m + 1) = r + 1 by omega, sq, show m + 1 + 1 + (m + 1) = (m + 1) + (m + 1) + 1 by ring,
            show m + (m + 1) = m + m + 1 by ring, pow_succ, pow_succ, sq, sq]
          field_simp
          rw [e, e3]; ring
    · -- below the diagonal
      have hik : ¬ i = k := fun e => by rw [e] at h; exact lt_irrefl _ h
      rw [if_neg hik, if_neg (show ¬ i.val = 0 by omega), closed_ge (show k.val ≤ i.val - 1 by omega), closed_ge (show k.val ≤ i from h.le)]
      obtain ⟨m, hm⟩ : ∃ m, i.val = m + 1 := ⟨i.val - 1, by omega⟩
      rw [hm, Nat.add_sub_cancel]
      by_cases hl : i.val + 1 = n
      · rw [if_pos (by omega), if_pos (by omega), show n - 1 - m = 1 by omega, show n - 1 - (m + 1) = 0 by omega, show pell 1 = 3 from rfl, show pell 0 = 1 from rfl]
        push_cast
        ring
      · obtain ⟨r, hr⟩ : ∃ r, n = m + r + 3 := ⟨n - m - 3, by omega⟩
        have e : (pell (r + 2) : ℝ) = 6 * pell (r + 1) - pell r := by exact_mod_cast (rfl : pell (r + 2) = 6 * pell (r + 1) - pell r)
        rw [if_neg (by omega), if_neg (by omega), closed_ge (show k.val ≤ m + 1 + 1 by omega), show n - 1 - m = r + 2 by omega, show n - 1 - (m + 1) = r + 1 by omega,
          show n - 1 - (m + 1 + 1) = r by omega, e]
        ring
  split_ifs at goal8 ⊢ <;> linarith

theorem H_symm {n : ℕ} (i j : Fin n) : H n i j = H n j i := by
  unfold H
  by_cases h : i = j
  · rw [h]
  · rw [if_neg h, if_neg (Ne.symm h)]
    exact if_congr Or.comm rfl rfl

theorem H_mul_closed {n : ℕ} (hn : 2 ≤ n) : (H n).transpose * Matrix.of (fun i j : Fin n => closed n i j) = 1 := by
  ext i k
  rw [Matrix.mul_apply, Matrix.one_apply, ← closed_row hn i k]
  exact Finset.sum_congr rfl fun j _ => by rw [Matrix.transpose_apply, H_symm, Matrix.of_apply]

theorem Hinv_closed {n : ℕ} (hn : 2 ≤ n) (i j : Fin n) : Hinv n i j = closed n i j := by
  unfold Hinv
  rw [Matrix.inv_eq_right_inv (H_mul_closed hn), Matrix.of_apply]

/-- **C99.** The matrix is regular for every size, and its inverse is known: products of the numbers 1, 3, 17, 99, …, with alternating signs. -/
theorem C99_inverse {n : ℕ} (hn : 2 ≤ n) : IsUnit (H n).det ∧
    ∀ i j : Fin n, Hinv n i j = (-1) ^ (i.val + j.val) * (8 * pell (min i j : ℕ) * pell (n - 1 - max i.val j.val) / (3 * pell (n - 1) - pell (n - 2))) := by
  refine ⟨?_, fun i j => ?_⟩
  · have := H_mul_closed hn
    have h := congrArg Matrix.det this
    rw [Matrix.det_mul, Matrix.det_transpose, Matrix.det_one] at h
    exact IsUnit.of_mul_eq_one _ h
  · rw [Hinv_closed hn, closed, pellW]
    push_cast
    rfl

/-- **C99.** Hence the signs of its entries alternate, no entry is zero, and the entries of a column decrease at least by the factor 3 with each step away from the diagonal. -/
theorem C99_inverse_signs {n : ℕ} (hn : 2 ≤ n) (i j : Fin n) : 0 < (-1) ^ (i.val + j.val) * Hinv n i j ∧
    (∀ k : Fin n, (i ≤ k ∧ k.val + 1 = j.val) ∨ (k ≤ i ∧ k.val = j.val + 1) → 3 * |Hinv n i j| ≤ |Hinv n i k|) := by
  have hW : (0 : ℝ) < pellW n := by exact_mod_cast pellW_pos hn
  have pos : ∀ k, (0 : ℝ) < pell k := fun k => by exact_mod_cast (pell_pos k).1
  have grow : ∀ k, 3 * (pell k : ℝ) ≤ pell (k + 1) := fun k => by exact_mod_cast (pell_pos k).2
  have hQ : ∀ i j : Fin n, 0 < 8 * (pell (min i.val j.val) : ℝ) * pell (n - 1 - max i.val j.val) / pellW n := fun i j =>
    div_pos (mul_pos (mul_pos (by norm_num) (pos _)) (pos _)) hW
  have habs : ∀ i j : Fin n, |Hinv n i j| = 8 * (pell (min i.val j.val) : ℝ) * pell (n - 1 - max i.val j.val) / pellW n := by
    intro i j
    rw [Hinv_closed hn, closed, abs_mul, abs_pow, abs_neg, abs_one, one_pow, one_mul, abs_of_pos (hQ i j)]
  refine ⟨?_, fun k hk => ?_⟩
  · rw [Hinv_closed hn, closed, ← mul_assoc, ← pow_add, ← two_mul, pow_mul]
    norm_num
    exact hQ i j
  · rw [habs, habs, ← mul_div_assoc]
    refine div_le_div_of_nonneg_right ?_ hW.le
    rcases hk with ⟨h1, h2⟩ | ⟨h1, h2⟩
    · have h1' : i.val ≤ k.val := h1
      have hj := j.isLt
      rw [min_eq_left h1', max_eq_right h1', min_eq_left (by omega), max_eq_right (by omega), show n - 1 - k.val = (n - 1 - j.val) + 1 by omega]
      have := grow (n - 1 - j.val)
      nlinarith [pos i.val]
    · have h1' : k.val ≤ i.val := h1
      rw [min_eq_right h1', max_eq_left h1', min_eq_right (by omega), max_eq_left (by omega), h2]
      have := grow j.val
      nlinarith [pos (n - 1 - i.val)]

/-! ### The dual basis -/

theorem Hinv_mul {n : ℕ} (hn : 2 ≤ n) (i k : Fin n) : ∑ j, H n i j * Hinv n j k = if i = k then 1 else 0 := by
  rw [← closed_row hn]
  exact Finset.sum_congr rfl fun j _ => by rw [Hinv_closed hn]

theorem Hinv_mul' {n : ℕ} (hn : 2 ≤ n) (i k : Fin n) : ∑ j, Hinv n i j * H n j k = if i = k then 1 else 0 := by
  have h : Hinv n * (H n) = 1 := by
    have h1 : (H n) * Hinv n = 1 := by
      ext i k
      rw [Matrix.mul_apply, Matrix.one_apply, Hinv_mul hn]
    exact mul_eq_one_comm.1 h1
  have := congrFun (congrFun h i) k
  rwa [Matrix.mul_apply, Matrix.one_apply] at this

/-- **C99.** The functions `R(h, j)` are the piecewise linear functions dual to the cells: the integral of the `j`-th one is 1 over the `j`-th cell and 0 over the others. -/
theorem C99_dual_basis {n : ℕ} (hn : 2 ≤ n) (j k : Fin n) : ∫ x in (cellLeft k)..(cellRight n k), R n j x = if k = j then 1 else 0 := by
  unfold R
  rw [intervalIntegral.integral_finsetSum]
  · rw [← Hinv_mul hn]
    refine Finset.sum_congr rfl fun i _ => ?_
    rw [intervalIntegral.integral_mul_const, mass_entry hn]
  · intro i _
    have := p_continuous
    exact Continuous.intervalIntegrable (by fun_prop) _ _

/-- **C99.** Reconstruction from the integrals over the cells is exact for every piecewise linear function, in particular for constants. -/
theorem C99_reconstruct {n : ℕ} (hn : 2 ≤ n) (u : Fin n → ℝ) (x : ℝ) :
    ∑ j : Fin n, (∫ t in (cellLeft j)..(cellRight n j), linear u t) * R n j x = linear u x := by
  have hm : ∀ j : Fin n, ∫ t in (cellLeft j)..(cellRight n j), linear u t = ∑ i, H n j i * u i := by
    intro j
    unfold linear
    rw [intervalIntegral.integral_finsetSum]
    · refine Finset.sum_congr rfl fun i _ => ?_
      rw [intervalIntegral.integral_const_mul, C99_matrix hn, mul_comm]
    · intro i _
      exact Continuous.intervalIntegrable (by fun_prop) _ _
  calc ∑ j : Fin n, (∫ t in (cellLeft j)..(cellRight n j), linear u t) * R n j x
      = ∑ j, ∑ i : Fin n, ∑ k, H n j k * u k * (p (x - i) * Hinv n i j) := by
        refine Finset.sum_congr rfl fun j _ => ?_
        rw [hm, R, Finset.sum_mul_sum, Finset.sum_comm]
    _ = ∑ i : Fin n, ∑ k, ∑ j, H n j k * u k * (p (x - i) * Hinv n i j) := by
        rw [Finset.sum_comm]
        exact Finset.sum_congr rfl fun i _ => Finset.sum_comm
    _ = ∑ i : Fin n, ∑ k, u k * p (x - i) * (if i = k then 1 else 0) := by
        refine Finset.sum_congr rfl fun i _ => Finset.sum_congr rfl fun k _ => ?_
        rw [← Hinv_mul' hn, Finset.mul_sum]
        exact Finset.sum_congr rfl fun j _ => by ring
    _ = linear u x := by
        unfold linear
        refine Finset.sum_congr rfl fun i _ => ?_
        simp only [mul_ite, mul_one, mul_zero, Finset.sum_ite_eq, Finset.mem_univ, if_true, p_eq]

/-- **C99.** (Specification check.) The piecewise linear function takes the given values, and is linear between neighbours. -/
theorem C99_linear {n : ℕ} (u : Fin n → ℝ) (k : ℕ) (hk : k + 1 < n) (s : ℝ) (h0 : 0 ≤ s) (h1 : s ≤ 1) :
    linear u (k + s) = (1 - s) * u ⟨k, by omega⟩ + s * u ⟨k + 1, hk⟩ := by
  unfold linear
  rw [Finset.sum_eq_add (⟨k, by omega⟩ : Fin n) ⟨k + 1, hk⟩]
  · push_cast
    rw [show (k : ℝ) + s - k = s by ring, show (k : ℝ) + s - (k + 1) = -(1 - s) by ring, abs_neg, abs_of_nonneg h0, abs_of_nonneg (by linarith), max_eq_right (by linarith), max_eq_right (by linarith)]
    ring
  · simp
  · rintro i - ⟨hi, hi'⟩
    rw [max_eq_left, mul_zero]
    have h2 : i.val ≠ k := fun h => hi (Fin.ext h)
    have h3 : i.val ≠ k + 1 := fun h => hi' (Fin.ext h)
    rcases Nat.lt_or_gt_of_ne h2 with h | h
    · have : (i : ℝ) + 1 ≤ k := by exact_mod_cast h
      rw [abs_of_nonneg (by linarith)]; linarith
    · have : (k : ℝ) + 2 ≤ i := by exact_mod_cast (show k + 2 ≤ i.val by omega)
      rw [abs_of_nonpos (by linarith)]; linarith
  · intro h; exact absurd (Finset.mem_univ _) h
  · intro h; exact absurd (Finset.mem_univ _) h

/-- The matrix of the notebook. -/
example : H 5 = !![3/8, 1/8, 0, 0, 0; 1/8, 3/4, 1/8, 0, 0; 0, 1/8, 3/4, 1/8, 0; 0, 0, 1/8, 3/4, 1/8; 0, 0, 0, 1/8, 3/8] := by
  obtain ⟨ea, eb, ec⟩ := C99_weights
  ext i j
  unfold H
  rw [ea, eb, ec]
  fin_cases i <;> fin_cases j <;> norm_num

/-- The first entries of its inverse: `2.828…` and `-0.485…`, as printed there. -/
example : Hinv 5 0 0 = 577 / 204 ∧ Hinv 5 0 1 = -(99 / 204) ∧ Hinv 5 0 4 = 1 / 204 := by
  refine ⟨?_, ?_, ?_⟩ <;>
  · rw [(C99_inverse (by norm_num)).2]
    norm_num [pell]

/-- Constants are reconstructed from the lengths of the cells. -/
example (x : ℝ) : ∑ j : Fin 5, (∫ t in (cellLeft j)..(cellRight 5 j), linear (fun _ : Fin 5 => 1) t) * R 5 j x = linear (fun _ : Fin 5 => 1) x :=
  C99_reconstruct (by norm_num) _ x

end Dec.Props
