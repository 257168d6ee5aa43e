import Verif.Model.SchurSin
import Verif.Lib.KInv
import Verif.Props.Schur
import Verif.Props.Chebyshev

set_option linter.unusedSimpArgs false
set_option linter.unusedVariables false

/-! # C95: the sine operator and Schur's complement (`/repo/examples/schur.ipynb`) -/

namespace Dec.Props

open Finset Sp SchurSin Schur

theorem weight_eq {N : ℕ} (a b : ℝ) {k : ℕ} (hk : k < N + 2) : weight N a b k = Id (fr (N + 2) k) a b / (2 * Complex.I) := by
  unfold weight weights
  rw [I_diag_tab, map_tab, getD_tab hk]

theorem innerWeights_tab (n : ℕ) (a b : ℝ) : innerWeights (n + 2) a b = tab n fun i => weight (n + 2) a b (i + 2) := by
  unfold innerWeights
  have : weights (n + 2) a b = tab (n + 2 + 2) fun k => weight (n + 2) a b k := by
    have hl : (weights (n + 2) a b).length = n + 2 + 2 := by unfold weights; rw [I_diag_tab, map_tab, length_tab]
    exact eq_tab' hl 0
  rw [this, drop_tab, take_tab, show min (n + 2 - 2) (n + 2 + 2 - 2) = n by omega]
  exact tab_congr fun i _ => by rw [Nat.add_comm 2 i]

theorem lowerTri_tab {n : ℕ} (hn : 2 ≤ n) (X : ℕ → ℂ) : lowerTri (tab n X) = tab n fun i => X i - if 2 ≤ i then X (i - 2) else 0 := by
  unfold lowerTri
  rw [length_tab]
  split_ifs with h
  · exact tab_congr fun i hi => by rw [if_neg (by omega), sub_zero]
  · rw [getD_tab (by omega), getD_tab (by omega), drop_tab, take_tab, show min (n - 2) n = n - 2 by omega, vsub_tab]
    rw [show ([X 0, X 1] : List ℂ) = tab 2 X by simp [tab, List.range_succ], append_tab, show 2 + (n - 2) = n by omega]
    refine tab_congr fun i hi => ?_
    split_ifs with h1 h2 h2
    · omega
    · rw [sub_zero]
    · rw [show 2 + (i - 2) = i by omega]
    · omega

theorem lowerTriInv_tab {n : ℕ} (hn : 2 ≤ n) (X : ℕ → ℂ) : ∃ Y : ℕ → ℂ, lowerTriInv (tab n X) = tab n Y ∧ ∀ i < n, Y i = X i + if 2 ≤ i then Y (i - 2) else 0 := by
  unfold lowerTriInv
  rw [length_tab]
  split_ifs with h
  · exact ⟨X, rfl, fun i hi => by rw [if_neg (by omega), add_zero]⟩
  · rw [stride2_tab, stride2'_tab, cumsum_tab, cumsum_tab, weave_tab_any]
    refine ⟨_, rfl, fun i hi => ?_⟩
    by_cases h2 : 2 ≤ i
    · rw [if_pos h2, show (i - 2) % 2 = i % 2 by omega, show (i - 2) / 2 = i / 2 - 1 by omega, show i / 2 - 1 + 1 = i / 2 by omega]
      split_ifs with h3
      · rw [sum_range_succ, add_comm, show 2 * (i / 2) = i by omega]
      · rw [sum_range_succ, add_comm, show 2 * (i / 2) + 1 = i by omega]
    · rw [if_neg h2, add_zero]
      obtain rfl | rfl : i = 0 ∨ i = 1 := by omega
      · simp
      · simp

/-- **C95**: the triangular operator and its inverse (the notebook's cells 7, 9 and 10) undo each other, for arrays of every length. -/
theorem C95_triangular (x : List ℂ) : lowerTri (lowerTriInv x) = x ∧ lowerTriInv (lowerTri x) = x := by
  by_cases h : x.length < 3
  · have e1 : lowerTri x = x := by unfold lowerTri; rw [if_pos h]
    have e2 : lowerTriInv x = x := by unfold lowerTriInv; rw [if_pos h]
    rw [e2, e1, e2]; exact ⟨rfl, rfl⟩
  · set n := x.length with hn
    have h2 : 2 ≤ n := by omega
    rw [eq_tab' hn.symm 0]
    set X : ℕ → ℂ := fun i => x.getD i 0
    constructor
    · obtain ⟨Y, e, hY⟩ := lowerTriInv_tab h2 X
      rw [e, lowerTri_tab h2]
      exact tab_congr fun i hi => by rw [hY i hi]; ring
    · rw [lowerTri_tab h2]
      obtain ⟨Y, e, hY⟩ := lowerTriInv_tab h2 fun i => X i - if 2 ≤ i then X (i - 2) else 0
      rw [e]
      refine tab_congr fun i hi => ?_
      induction i using Nat.strong_induction_on with
      | _ i ih =>
        rw [hY i hi]
        split_ifs with h3
        · rw [ih (i - 2) (by omega) (by omega)]; ring
        · ring

/-- The entries of `fourier_K` for at least four numbers. -/
theorem fourier_K_entries {n : ℕ} (hn : 2 ≤ n) (X : ℕ → ℂ) (a b : ℝ) :
    fourier_K (tab (n + 2) X) a b = tab (n + 2) fun i =>
      if i = 0 then weight (n + 2) a b (n + 3) * X (n + 1) - weight (n + 2) a b 1 * X 1
      else if i = n + 1 then weight (n + 2) a b (n + 2) * X n - weight (n + 2) a b 0 * X 0
      else (X (i - 1) - X (i + 1)) * weight (n + 2) a b (i + 1) := by
  rw [fourier_K_tab (by omega)]
  refine tab_congr fun i hi => ?_
  rw [← weight_eq a b (by omega), ← weight_eq a b (by omega), ← weight_eq a b (by omega)]
  unfold dif pad
  by_cases h0 : i = 0
  · subst h0
    rw [if_pos rfl, if_pos rfl, if_neg (show (0 : ℕ) ≠ n + 2 - 1 by omega)]
    simp [show ¬ (n + 2 + 1 + 1 ≤ n + 2) by omega, show n + 1 + 1 ≤ n + 2 by omega]
    ring
  · rw [if_neg h0, if_neg h0]
    by_cases h1 : i = n + 1
    · subst h1
      rw [if_pos rfl, if_pos (show n + 1 = n + 2 - 1 by omega)]
      simp [show ¬ (n + 1 + 1 + 1 ≤ n + 2) by omega, show n + 1 + 1 - 1 = n + 1 by omega]
      ring
    · rw [if_neg h1, if_neg (show i ≠ n + 2 - 1 by omega)]
      simp [h0, show i ≤ n + 2 by omega, show i + 1 + 1 ≤ n + 2 by omega]

theorem B_tab {n : ℕ} (hn : 2 ≤ n) (a b : ℝ) (l : List ℂ) :
    B (n + 2) a b l = tab n fun i => if i = 0 then weight (n + 2) a b 2 * l.getD 0 0 else if i = 1 then weight (n + 2) a b 3 * l.getD 1 0 else 0 := by
  unfold B
  rw [show n + 2 - 2 = n by omega, replicate_tab]
  apply List.ext_getElem
  · simp
  · intro i h1 h2
    simp only [List.length_set, length_tab] at h1 h2
    simp only [List.getElem_set, getElem_tab]
    by_cases e0 : i = 0
    · subst e0; simp
    · by_cases e1 : i = 1
      · subst e1; simp
      · rw [if_neg (by omega), if_neg (by omega), if_neg e0, if_neg e1]

theorem ends_tab (n : ℕ) (p q : ℂ) (f : ℕ → ℂ) : [p] ++ tab n f ++ [q] = tab (n + 2) fun i => if i = 0 then p else if i = n + 1 then q else f (i - 1) := by
  rw [singleton_tab, singleton_tab, append_tab, append_tab, show 1 + n + 1 = n + 2 by ring]
  refine tab_congr fun i hi => ?_
  by_cases h0 : i = 0
  · subst h0; simp
  · by_cases h1 : i = n + 1
    · subst h1; rw [if_neg (by omega), if_neg (by omega), if_pos rfl]
    · rw [if_pos (by omega), if_neg (by omega), if_neg h0, if_neg h1]

theorem A_tab {n : ℕ} (hn : 2 ≤ n) (a b : ℝ) (X : ℕ → ℂ) :
    A (n + 2) a b (tab n X) = tab n fun i => ((if 2 ≤ i then X (i - 2) else 0) - X i) * weight (n + 2) a b (i + 2) := by
  unfold A
  rw [map_tab, lowerTri_tab hn, innerWeights_tab, vmul_tab]
  refine tab_congr fun i _ => ?_
  split_ifs <;> ring

/-- **C95**: the operator assembled from the four blocks (both arrangements of the notebook) is the library's `fourier_K`. -/
theorem C95_same_operator (N : ℕ) (hN : 4 ≤ N) (a b : ℝ) (x : List ℂ) (hx : x.length = N) : K N a b x = fourier_K x a b ∧ K_old N a b x = fourier_K x a b := by
  obtain ⟨n, rfl⟩ : ∃ n, N = n + 2 := ⟨N - 2, by omega⟩
  have hn : 2 ≤ n := by omega
  rw [eq_tab' hx 0]
  set X : ℕ → ℂ := fun i => x.getD i 0
  rw [fourier_K_entries hn]
  constructor
  · unfold K
    simp only []
    rw [drop_tab, take_tab, show n + 2 - 2 = n by omega, show min 2 (n + 2) = 2 by omega, A_tab hn, B_tab hn, vadd_tab, ends_tab]
    refine tab_congr fun i hi => ?_
    simp only [C, D, length_tab, vadd, List.zipWith_cons_cons, List.getD_cons_zero, List.getD_cons_succ]
    rw [getD_tab (show n - 1 < n by omega), getD_tab (show n - 2 < n by omega), getD_tab (show 1 < 2 by omega), getD_tab (show 0 < 2 by omega),
      show 2 + (n - 1) = n + 1 by omega, show 2 + (n - 2) = n by omega]
    by_cases h0 : i = 0
    · rw [if_pos h0, if_pos h0]; ring
    · by_cases h1 : i = n + 1
      · rw [if_neg h0, if_pos h1, if_neg h0, if_pos h1]; ring
      · rw [if_neg h0, if_neg h1, if_neg h0, if_neg h1]
        by_cases h2 : 2 ≤ i - 1
        · rw [if_pos h2, if_neg (by omega), if_neg (by omega), show 2 + (i - 1 - 2) = i - 1 by omega, show 2 + (i - 1) = i + 1 by omega, show i - 1 + 2 = i + 1 by omega]
          ring
        · rw [if_neg h2]
          obtain rfl | rfl : i = 1 ∨ i = 2 := by omega
          · simp; ring
          · simp; ring
  · unfold K_old
    simp only []
    rw [tail_tab, dropLast_tab, show n + 2 - 1 - 1 = n by omega, innerWeights_tab, length_tab, length_tab]
    have hb : bidiagonal (tab n fun i => X (i + 1)) = tab n fun i => (if i = 0 then 0 else X i) - if i = n - 1 then 0 else X (i + 2) := by
      unfold bidiagonal
      rw [length_tab, take_tab, drop_tab, show min (n - 2) n = n - 2 by omega, vsub_tab, ends_tab, show n - 2 + 2 = n by omega, getD_tab (show 1 < n by omega), getD_tab (show n - 2 < n by omega)]
      refine tab_congr fun i hi => ?_
      by_cases h0 : i = 0
      · subst h0; rw [if_pos rfl, if_pos rfl, if_neg (by omega)]; simp
      · by_cases h1 : i = n - 1
        · rw [if_neg h0, if_pos (by omega), if_neg h0, if_pos h1, show n - 2 + 1 = i by omega, sub_zero]
        · rw [if_neg h0, if_neg (by omega), if_neg h0, if_neg h1, show i - 1 + 1 = i by omega, show 2 + (i - 1) + 1 = i + 2 by omega]
    have hs : ∀ p q : ℂ, ((List.replicate n (0 : ℂ)).set 0 p).set (n - 1) q = tab n fun i => if i = 0 then p else if i = n - 1 then q else 0 := by
      intro p q
      rw [replicate_tab]
      apply List.ext_getElem
      · simp
      · intro i h1 h2
        simp only [List.length_set, length_tab] at h1 h2
        simp only [List.getElem_set, getElem_tab]
        by_cases e1 : i = n - 1
        · rw [if_pos e1.symm, if_neg (by omega), if_pos e1]
        · rw [if_neg (Ne.symm e1)]
          by_cases e0 : i = 0
          · rw [if_pos e0.symm, if_pos e0]
          · rw [if_neg (Ne.symm e0), if_neg e0, if_neg e1]
    rw [hb, vmul_tab, show n + 2 - 3 = n - 1 by omega, show n + 2 - 2 = n by omega, hs, vadd_tab, ends_tab]
    refine tab_congr fun i hi => ?_
    simp only [vadd, List.zipWith_cons_cons, List.getD_cons_zero, List.getD_cons_succ]
    rw [getD_tab (show 0 < n by omega), getD_tab (show n - 1 < n by omega), getD_tab (show 0 < n + 2 by omega), getD_tab (show n + 2 - 1 < n + 2 by omega),
      show n - 1 + 1 = n by omega, show n + 2 - 1 = n + 1 by omega]
    by_cases h0 : i = 0
    · rw [if_pos h0, if_pos h0]; ring
    · by_cases h1 : i = n + 1
      · rw [if_neg h0, if_pos h1, if_neg h0, if_pos h1]; ring
      · rw [if_neg h0, if_neg h1, if_neg h0, if_neg h1, show i - 1 + 2 = i + 1 by omega]
        by_cases h2 : i = 1
        · subst h2; rw [if_pos (by omega), if_neg (by omega), if_pos (by omega)]; simp; ring
        · by_cases h3 : i = n
          · rw [if_neg (by omega), if_pos (by omega), if_neg (by omega), if_pos (by omega), h3]; ring
          · rw [if_neg (by omega), if_neg (by omega), if_neg (by omega), if_neg (by omega)]; ring

/-! ## Vectors -/

def acc {n : ℕ} (v : Fin n → ℂ) (k : ℕ) : ℂ := if h : k < n then v ⟨k, h⟩ else 0

theorem acc_fin {n : ℕ} (v : Fin n → ℂ) (i : Fin n) : acc v i = v i := dif_pos i.2

theorem ofFn_tab {n : ℕ} (v : Fin n → ℂ) : List.ofFn v = tab n (acc v) := by
  apply List.ext_getElem
  · simp
  · intro i h1 h2
    simp only [List.length_ofFn] at h1
    rw [List.getElem_ofFn, getElem_tab]
    unfold acc; rw [dif_pos h1]

theorem acc_add {n : ℕ} (v w : Fin n → ℂ) (k : ℕ) : acc (v + w) k = acc v k + acc w k := by
  unfold acc; split_ifs <;> simp

theorem acc_smul {n : ℕ} (c : ℂ) (v : Fin n → ℂ) (k : ℕ) : acc (c • v) k = c * acc v k := by
  unfold acc; split_ifs <;> simp

theorem vec_tab {n : ℕ} (f : ℕ → ℂ) (i : Fin n) : vec n (tab n f) i = f i := getD_tab i.2 0

theorem ofFn_vec {n : ℕ} (x : List ℂ) (hx : x.length = n) : List.ofFn (vec n x) = x := by
  rw [ofFn_tab]
  conv_rhs => rw [eq_tab' hx 0]
  exact tab_congr fun i hi => dif_pos hi

theorem vec_ofFn {n : ℕ} (v : Fin n → ℂ) : vec n (List.ofFn v) = v := by
  funext i; rw [ofFn_tab, vec_tab, acc_fin]

section
variable {n : ℕ} (hn : 2 ≤ n) (a b : ℝ)

noncomputable def AL : (Fin n → ℂ) →ₗ[ℂ] (Fin n → ℂ) where
  toFun := onVec n n (A (n + 2) a b)
  map_add' v w := by
    funext i
    simp only [onVec, ofFn_tab, A_tab hn, vec_tab, Pi.add_apply, acc_add]
    split_ifs <;> ring
  map_smul' c v := by
    funext i
    simp only [onVec, ofFn_tab, A_tab hn, vec_tab, Pi.smul_apply, acc_smul, smul_eq_mul, RingHom.id_apply]
    split_ifs <;> ring

noncomputable def BL : (Fin 2 → ℂ) →ₗ[ℂ] (Fin n → ℂ) where
  toFun := onVec 2 n (B (n + 2) a b)
  map_add' v w := by
    funext i
    simp only [onVec, ofFn_tab, B_tab hn, vec_tab, Pi.add_apply, getD_tab (show 0 < 2 by norm_num), getD_tab (show 1 < 2 by norm_num), acc_add]
    split_ifs <;> ring
  map_smul' c v := by
    funext i
    simp only [onVec, ofFn_tab, B_tab hn, vec_tab, Pi.smul_apply, getD_tab (show 0 < 2 by norm_num), getD_tab (show 1 < 2 by norm_num), acc_smul, smul_eq_mul, RingHom.id_apply]
    split_ifs <;> ring

include hn in
theorem C_vec (v : Fin n → ℂ) : onVec n 2 (C (n + 2) a b) v = ![weight (n + 2) a b (n + 3) * acc v (n - 1), weight (n + 2) a b (n + 2) * acc v (n - 2)] := by
  unfold onVec C
  rw [ofFn_tab, length_tab, getD_tab (by omega), getD_tab (by omega)]
  funext i; fin_cases i <;> rfl

theorem D_vec (v : Fin 2 → ℂ) : onVec 2 2 (D (n + 2) a b) v = ![-weight (n + 2) a b 1 * acc v 1, -weight (n + 2) a b 0 * acc v 0] := by
  unfold onVec D
  rw [ofFn_tab, getD_tab (by omega), getD_tab (by omega)]
  funext i; fin_cases i <;> rfl

noncomputable def CL : (Fin n → ℂ) →ₗ[ℂ] (Fin 2 → ℂ) where
  toFun := onVec n 2 (C (n + 2) a b)
  map_add' v w := by
    rw [C_vec hn, C_vec hn, C_vec hn]
    simp only [acc_add, Matrix.cons_add_cons, Matrix.empty_add_empty, mul_add]
  map_smul' c v := by
    rw [C_vec hn, C_vec hn]
    simp only [acc_smul, Matrix.smul_cons, Matrix.smul_empty, smul_eq_mul, RingHom.id_apply, mul_left_comm]

noncomputable def DL : (Fin 2 → ℂ) →ₗ[ℂ] (Fin 2 → ℂ) where
  toFun := onVec 2 2 (D (n + 2) a b)
  map_add' v w := by
    rw [D_vec, D_vec, D_vec]
    simp only [acc_add, Matrix.cons_add_cons, Matrix.empty_add_empty, mul_add]
  map_smul' c v := by
    rw [D_vec, D_vec]
    simp only [acc_smul, Matrix.smul_cons, Matrix.smul_empty, smul_eq_mul, RingHom.id_apply, mul_left_comm]

theorem A_Ainv (hw : (0 : ℂ) ∉ ((I_diag (n + 2 + 2) a b).drop 2).take n) (v : Fin n → ℂ) : AL hn a b (onVec n n (Ainv (n + 2) a b) v) = v := by
  have hne : ∀ i < n, weight (n + 2) a b (i + 2) ≠ 0 := fun i hi h0 => by
    refine hw ?_
    rw [I_diag_tab, drop_tab, take_tab, show min n (n + 2 + 2 - 2) = n by omega]
    rw [weight_eq a b (by omega), div_eq_zero_iff] at h0
    simp only [tab, List.mem_map, List.mem_range]
    refine ⟨i, hi, ?_⟩
    rw [Nat.add_comm 2 i]
    rcases h0 with h0 | h0
    · exact h0
    · exact absurd h0 (mul_ne_zero two_ne_zero Complex.I_ne_zero)
  obtain ⟨Y, h1, h2⟩ := lowerTriInv_tab hn fun i => -acc v i / weight (n + 2) a b (i + 2)
  have e : Ainv (n + 2) a b (List.ofFn v) = tab n Y := by
    unfold Ainv
    rw [ofFn_tab, map_tab, innerWeights_tab, vdiv_tab, h1]
  funext i
  show onVec n n (A (n + 2) a b) (onVec n n (Ainv (n + 2) a b) v) i = v i
  have e2 : List.ofFn (onVec n n (Ainv (n + 2) a b) v) = tab n Y := by
    unfold onVec
    rw [e, ofFn_vec _ (length_tab _ _)]
  conv_lhs => unfold onVec
  have e3 : List.ofFn (onVec n n (Ainv (n + 2) a b) v) = tab n Y := e2
  unfold onVec at e3
  rw [e3, A_tab hn, vec_tab, ← acc_fin v i]
  have h3 := h2 i i.2
  rw [h3]
  have h4 := hne i i.2
  split_ifs <;> field_simp <;> ring

theorem block (x : Fin n → ℂ) (l : Fin 2 → ℂ) :
    fourier_K (List.ofFn l ++ List.ofFn x) a b = [(CL hn a b x + DL (n := n) a b l : Fin 2 → ℂ) 0] ++ List.ofFn (AL hn a b x + BL hn a b l) ++ [(CL hn a b x + DL (n := n) a b l : Fin 2 → ℂ) 1] := by
  have hl : (List.ofFn l ++ List.ofFn x).length = n + 2 := by rw [List.length_append, List.length_ofFn, List.length_ofFn, Nat.add_comm]
  rw [← (C95_same_operator (n + 2) (by omega) a b _ hl).1]
  unfold K
  simp only []
  rw [List.take_left' (by simp), List.drop_left' (by simp)]
  congr 1
  · congr 1
    rw [ofFn_tab (AL hn a b x + BL hn a b l)]
    have e1 : A (n + 2) a b (List.ofFn x) = tab n (acc (AL hn a b x)) := by
      rw [← ofFn_tab]
      exact (ofFn_vec _ (by rw [ofFn_tab, A_tab hn, length_tab])).symm
    have e2 : B (n + 2) a b (List.ofFn l) = tab n (acc (BL hn a b l)) := by
      rw [← ofFn_tab]
      exact (ofFn_vec _ (by rw [B_tab hn, length_tab])).symm
    rw [e1, e2, vadd_tab]
    exact tab_congr fun i _ => (acc_add _ _ _).symm

theorem ends_inj {p q p' q' : ℂ} {f f' : List ℂ} (hl : f.length = f'.length) (h : [p] ++ f ++ [q] = [p'] ++ f' ++ [q']) : p = p' ∧ f = f' ∧ q = q' := by
  simp only [List.singleton_append, List.cons_append, List.cons.injEq] at h
  obtain ⟨h1, h2⟩ := h
  obtain ⟨h3, h4⟩ := List.append_inj h2 hl
  exact ⟨h1, h3, by simpa using h4⟩

theorem splits {N : ℕ} {x : List ℂ} (hx : x.length = n + 2) : List.ofFn (vec 2 (x.take 2)) ++ List.ofFn (vec n (x.drop 2)) = x := by
  rw [ofFn_vec _ (by simp [hx]), ofFn_vec _ (by simp [hx]), List.take_append_drop]

theorem ends_of {y : List ℂ} (hy : y.length = n + 2) : y = [y.getD 0 0] ++ y.tail.dropLast ++ [y.getD (y.length - 1) 0] := by
  conv_lhs => rw [eq_tab' hy 0]
  conv_rhs => rw [hy, eq_tab' hy 0]
  rw [tail_tab, dropLast_tab, show n + 2 - 1 - 1 = n by omega, ends_tab]
  refine tab_congr fun i hi => ?_
  by_cases h0 : i = 0
  · subst h0; simp
  · by_cases h1 : i = n + 1
    · subst h1; simp
    · rw [if_neg h0, if_neg h1, show i - 1 + 1 = i by omega]

/-- Applying `fourier_K` is solving the block system. -/
theorem block_iff (x : Fin n → ℂ) (l : Fin 2 → ℂ) (y : List ℂ) (hy : y.length = n + 2) :
    fourier_K (List.ofFn l ++ List.ofFn x) a b = y ↔
      AL hn a b x + BL hn a b l = vec n y.tail.dropLast ∧ CL hn a b x + DL (n := n) a b l = vec 2 [y.getD 0 0, y.getD (y.length - 1) 0] := by
  have hy' : y.tail.dropLast.length = n := by simp [hy]
  rw [block hn]
  constructor
  · intro h
    rw [ends_of hy] at h
    obtain ⟨h1, h2, h3⟩ := ends_inj (by simp [hy]) h
    refine ⟨?_, ?_⟩
    · rw [← h2, vec_ofFn]
    · funext i; fin_cases i
      · exact h1
      · exact h3
  · rintro ⟨h1, h2⟩
    rw [h1, h2, ofFn_vec _ hy']
    exact (ends_of hy).symm

end

theorem inv_blocks {n : ℕ} (hn : 2 ≤ n) (a b : ℝ) : Kinv (n + 2) a b = (schurFun (n := n) (m := 2) (onVec n n (Ainv (n + 2) a b)) (BL hn a b) (CL hn a b) (DL (n := n) a b) >>= fun Minv =>
    .ok fun f =>
      let g := [f.getD 0 0, f.getD (f.length - 1) 0]
      let f := f.tail.dropLast
      let r := Minv (vec _ f) (vec _ g)
      List.ofFn r.2 ++ List.ofFn r.1) := rfl

/-- **C95**: for at least four numbers and non-zero inner weights, Schur's complement inverts `fourier_K` whenever it can be inverted and raises otherwise. -/
theorem C95_inverse (N : ℕ) (hN : 4 ≤ N) (a b : ℝ) (hw : (0 : ℂ) ∉ ((I_diag (N + 2) a b).drop 2).take (N - 2)) :
    ((∃ x : List ℂ, x.length = N ∧ x ≠ List.replicate N 0 ∧ fourier_K x a b = List.replicate N 0) → Kinv N a b = .error .singular) ∧
    ((∀ x : List ℂ, x.length = N → fourier_K x a b = List.replicate N 0 → x = List.replicate N 0) →
      ∃ G, Kinv N a b = .ok G ∧ ∀ x y : List ℂ, x.length = N → y.length = N → (fourier_K x a b = y ↔ G y = x)) := by
  obtain ⟨n, rfl⟩ : ∃ n, N = n + 2 := ⟨N - 2, by omega⟩
  have hn : 2 ≤ n := by omega
  have hA := A_Ainv hn a b (by simpa using hw)
  obtain ⟨h1, h2⟩ := C37_schur_operators (AL hn a b) (onVec n n (Ainv (n + 2) a b)) hA (BL hn a b) (CL hn a b) (DL (n := n) a b)
  have hz : ∀ m, List.ofFn (0 : Fin m → ℂ) = List.replicate m 0 := fun m => by
    rw [replicate_tab, ofFn_tab]; exact tab_congr fun i hi => by unfold acc; split_ifs <;> rfl
  have hzero : ∀ (x : Fin n → ℂ) (l : Fin 2 → ℂ), fourier_K (List.ofFn l ++ List.ofFn x) a b = List.replicate (n + 2) 0 ↔
      AL hn a b x + BL hn a b l = 0 ∧ CL hn a b x + DL (n := n) a b l = 0 := by
    intro x l
    rw [block_iff hn a b x l _ (by simp)]
    have e1 : vec n (List.replicate (n + 2) (0 : ℂ)).tail.dropLast = 0 := by
      rw [replicate_tab, tail_tab, dropLast_tab]
      funext i
      exact vec_tab _ i
    have e2 : vec 2 [(List.replicate (n + 2) (0 : ℂ)).getD 0 0, (List.replicate (n + 2) (0 : ℂ)).getD ((List.replicate (n + 2) (0 : ℂ)).length - 1) 0] = 0 := by
      rw [replicate_tab, length_tab, getD_tab (by omega), getD_tab (by omega)]
      funext i; fin_cases i <;> rfl
    rw [e1, e2]
  constructor
  · rintro ⟨x, hx, hx0, hK⟩
    rw [inv_blocks hn, h1 ?_]
    · rfl
    · intro hinj
      rw [← splits (N := 0) hx, hzero] at hK
      obtain ⟨e1, e2⟩ := hinj _ _ hK.1 hK.2
      apply hx0
      rw [← splits (N := 0) hx, e1, e2, hz, hz, List.replicate_append_replicate, Nat.add_comm 2 n]
  · intro hinj
    obtain ⟨M, hM, hsol⟩ := h2 (by
      intro x l e1 e2
      have := hinj _ (by rw [List.length_append, List.length_ofFn, List.length_ofFn, Nat.add_comm]) ((hzero x l).2 ⟨e1, e2⟩)
      rw [Nat.add_comm n 2, ← List.replicate_append_replicate, ← hz, ← hz] at this
      obtain ⟨e3, e4⟩ := List.append_inj this (by simp)
      exact ⟨List.ofFn_injective e4, List.ofFn_injective e3⟩)
    refine ⟨_, by rw [inv_blocks hn, hM]; rfl, fun x y hx hy => ?_⟩
    conv_lhs => rw [← splits (N := 0) hx]
    rw [block_iff hn a b _ _ y hy, hsol]
    constructor
    · intro h
      simp only []
      rw [h]
      exact splits (N := 0) hx
    · intro h
      simp only [] at h
      rw [← splits (N := 0) hx] at h
      obtain ⟨e3, e4⟩ := List.append_inj h (by simp)
      exact Prod.ext (List.ofFn_injective e4) (List.ofFn_injective e3)

/-- **C95**: reading the blocks off `fourier_K` itself gives the same inverse (or the same error). -/
theorem C95_simple (N : ℕ) (hN : 4 ≤ N) (a b : ℝ) : Kinv_simple N a b = Kinv N a b := by
  obtain ⟨n, rfl⟩ : ∃ n, N = n + 2 := ⟨N - 2, by omega⟩
  have hn : 2 ≤ n := by omega
  have hz : ∀ m, List.replicate m (0 : ℂ) = List.ofFn (0 : Fin m → ℂ) := fun m => by
    rw [replicate_tab, ofFn_tab]; exact tab_congr fun i hi => by unfold acc; split_ifs <;> rfl
  have hk : ∀ (x : Fin n → ℂ) (l : Fin 2 → ℂ), vec n (Kb a b (List.ofFn x) (List.ofFn l)).1 = AL hn a b x + BL hn a b l ∧
      vec 2 (Kb a b (List.ofFn x) (List.ofFn l)).2 = CL hn a b x + DL (n := n) a b l := by
    intro x l
    have := (block_iff hn a b x l _ (by rw [length_fourier_K, List.length_append, List.length_ofFn, List.length_ofFn, Nat.add_comm])).1 rfl
    exact ⟨this.1.symm, this.2.symm⟩
  have e1 : (onVec 2 n fun l => (Kb a b (List.replicate n 0) l).1) = onVec 2 n (B (n + 2) a b) := by
    funext v
    show vec n (Kb a b (List.replicate n 0) (List.ofFn v)).1 = BL hn a b v
    rw [hz, (hk 0 v).1, map_zero, zero_add]
  have e2 : (onVec n 2 fun x => (Kb a b x (List.replicate 2 0)).2) = onVec n 2 (C (n + 2) a b) := by
    funext v
    show vec 2 (Kb a b (List.ofFn v) (List.replicate 2 0)).2 = CL hn a b v
    rw [hz, (hk v 0).2, map_zero, add_zero]
  have e3 : (onVec 2 2 fun l => (Kb a b (List.replicate n 0) l).2) = onVec 2 2 (D (n + 2) a b) := by
    funext v
    show vec 2 (Kb a b (List.replicate n 0) (List.ofFn v)).2 = DL (n := n) a b v
    rw [hz, (hk 0 v).2, map_zero, zero_add]
  have e4 : Kinv_simple (n + 2) a b = (schurFun (n := n) (m := 2) (onVec n n (Ainv (n + 2) a b)) (onVec 2 n fun l => (Kb a b (List.replicate n 0) l).1)
      (onVec n 2 fun x => (Kb a b x (List.replicate 2 0)).2) (onVec 2 2 fun l => (Kb a b (List.replicate n 0) l).2) >>= fun Minv =>
    .ok fun f =>
      let g := [f.getD 0 0, f.getD (f.length - 1) 0]
      let f := f.tail.dropLast
      let r := Minv (vec _ f) (vec _ g)
      List.ofFn r.2 ++ List.ofFn r.1) := rfl
  rw [e4, e1, e2, e3, inv_blocks hn]
  rfl

theorem inner_ne_zero {N : ℕ} {a b : ℝ} (hw : NoZeroWeight N a b) : (0 : ℂ) ∉ ((I_diag (N + 2) a b).drop 2).take (N - 2) := by
  intro hm
  refine hw.1 ?_
  rw [I_diag_tab] at hm ⊢
  rw [drop_tab, take_tab] at hm
  rw [tail_tab, dropLast_tab]
  simp only [tab, List.mem_map, List.mem_range] at hm ⊢
  obtain ⟨i, hi, h0⟩ := hm
  exact ⟨i + 1, by omega, by rw [show i + 1 + 1 = 2 + i by omega]; exact h0⟩

/-- **C95**: whenever the library's own inverse succeeds, so does the one by Schur's complement, with the same result. -/
theorem C95_agrees (N : ℕ) (hN : 4 ≤ N) (a b : ℝ) (hw : NoZeroWeight N a b) (f y : List ℂ) (hf : f.length = N) (h : fourier_K_inv f a b = .ok y) :
    ∃ G, Kinv N a b = .ok G ∧ G f = y := by
  have hw' := inner_ne_zero hw
  have hacc : ¬ Rejects N a b := fun hr => by rw [fourier_K_inv_rejects hr f hf] at h; cases h
  obtain ⟨G, hG, hs⟩ := (C95_inverse N hN a b hw').2 (by
    intro x hx hK
    have e1 := fourier_K_inv_K (by omega) (weightsOk_of_noZero hw) hacc fun i => x.getD i 0
    have e2 := fourier_K_inv_K (by omega) (weightsOk_of_noZero hw) hacc fun _ => (0 : ℂ)
    rw [← eq_tab' hx 0, hK] at e1
    rw [← replicate_tab, show fourier_K (List.replicate N 0) a b = List.replicate N 0 from ?_, e1] at e2
    · exact Except.ok.inj e2
    · obtain ⟨n, rfl⟩ : ∃ n, N = n + 2 := ⟨N - 2, by omega⟩
      rw [replicate_tab, fourier_K_entries (by omega)]
      exact tab_congr fun i _ => by split_ifs <;> ring)
  obtain ⟨hy, hK⟩ := C38_right_inverse f y a b (by rw [hf]; exact hw) h
  exact ⟨G, hG, (hs y f (by rw [hy, hf]) hf).1 hK⟩

/-- **C95**: where the library's inverse wrongly raises (C38: every even length from 1854 on, one cell), the inverse by Schur's complement is right. -/
theorem C95_accepts (m : ℕ) (hm : 927 ≤ m) :
    (∀ z : List ℂ, z.length = 2 * m → fourier_K_inv z 0 (2 * Real.pi / (2 * m : ℕ)) = .error .valueError) ∧
    ∃ G, Kinv (2 * m) 0 (2 * Real.pi / (2 * m : ℕ)) = .ok G ∧
      ∀ x y : List ℂ, x.length = 2 * m → y.length = 2 * m → (fourier_K x 0 (2 * Real.pi / (2 * m : ℕ)) = y ↔ G y = x) := by
  obtain ⟨h1, h2, h3⟩ := C38_rejects_invertible m hm
  refine ⟨h3, (C95_inverse (2 * m) (by omega) _ _ (inner_ne_zero h1)).2 fun x hx hK => h2 x _ hx (by simp) ?_⟩
  rw [hK]
  obtain ⟨n, hn⟩ : ∃ n, 2 * m = n + 2 := ⟨2 * m - 2, by omega⟩
  rw [hn, replicate_tab, fourier_K_entries (by omega)]
  exact tab_congr fun i _ => by split_ifs <;> ring

/-- Non-vacuity of C95: length 4, one cell, where both inverses exist. -/
example : ∃ G y, Kinv 4 0 (2 * Real.pi / (4 : ℕ)) = .ok G ∧ fourier_K_inv [1, 2, 3, 4] 0 (2 * Real.pi / (4 : ℕ)) = .ok y ∧ G [1, 2, 3, 4] = y ∧ fourier_K y 0 (2 * Real.pi / (4 : ℕ)) = [1, 2, 3, 4] := by
  have hw' := Chebyshev.weightsOk (m := 2) (by omega)
  have hw : NoZeroWeight 4 0 (2 * Real.pi / (4 : ℕ)) := by
    refine ⟨?_, fun h => by omega⟩
    rw [I_diag_tab, tail_tab, dropLast_tab]
    simp only [tab, List.mem_map, List.mem_range, not_exists, not_and]
    intro k hk h0
    exact hw'.1 (k + 1) (by omega) (by omega) h0
  obtain ⟨y, hy, _⟩ := fourier_K_K_inv (by omega) hw' (Chebyshev.accepts (m := 2) (by omega) (by omega)) [1, 2, 3, 4] rfl
  obtain ⟨G, h1, h2⟩ := C95_agrees 4 le_rfl _ _ hw _ y rfl hy
  exact ⟨G, y, h1, hy, h2, (C38_right_inverse [1, 2, 3, 4] y _ _ hw hy).2⟩

/-- **C95**: on an interval symmetric about the origin the operator of even length is singular, and Schur's complement raises. -/
theorem C95_symmetric_singular (m : ℕ) (hm : 2 ≤ m) (b : ℝ) (hw : (0 : ℂ) ∉ ((I_diag (2 * m + 2) (-b) b).drop 2).take (2 * m - 2)) :
    Kinv (2 * m) (-b) b = .error .singular := by
  refine (C95_inverse (2 * m) (by omega) _ _ hw).1 ⟨tab (2 * m) fun i => if i % 2 = 1 then 1 else 0, length_tab _ _, fun h => ?_, ?_⟩
  · rw [replicate_tab] at h
    have := congrArg (fun z => z.getD 1 0) h
    beta_reduce at this
    rw [getD_tab (by omega), getD_tab (by omega)] at this
    simp at this
  · obtain ⟨n, hn⟩ : ∃ n, 2 * m = n + 2 := ⟨2 * m - 2, by omega⟩
    have e : weight (n + 2) (-b) b (n + 3) = weight (n + 2) (-b) b 1 := by
      rw [weight_eq _ _ (by omega), weight_eq _ _ (by omega)]
      have : fr (n + 2 + 2) (n + 3) = -fr (n + 2 + 2) 1 := by unfold fr; omega
      rw [this, Id_symm_neg]
    rw [hn, replicate_tab, fourier_K_entries (by omega), e]
    refine tab_congr fun i hi => ?_
    have p1 : (n + 1) % 2 = 1 := by omega
    have p2 : ¬ n % 2 = 1 := by omega
    by_cases h0 : i = 0
    · rw [if_pos h0, if_pos p1, if_pos (by norm_num)]; ring
    · rw [if_neg h0]
      by_cases h1 : i = n + 1
      · rw [if_pos h1, if_neg p2, if_neg (by norm_num)]; ring
      · rw [if_neg h1]
        by_cases h2 : i % 2 = 1
        · rw [if_neg (by omega), if_neg (by omega)]; ring
        · rw [if_pos (by omega), if_pos (by omega)]; ring

/-- Non-vacuity: such intervals, for every even length. -/
example (m : ℕ) (hm : 2 ≤ m) : Kinv (2 * m) (-(2 * Real.pi / (2 * m + 2 : ℕ) / 2)) (2 * Real.pi / (2 * m + 2 : ℕ) / 2) = .error .singular := by
  refine C95_symmetric_singular m hm _ fun h => ?_
  rw [I_diag_tab, drop_tab, take_tab] at h
  simp only [tab, List.mem_map, List.mem_range] at h
  obtain ⟨i, hi, h0⟩ := h
  exact Id_ne_zero (N := 2 * m + 2) (k := 2 + i) (by omega) h0

end Dec.Props
