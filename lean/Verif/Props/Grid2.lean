import Verif.Lib.Factors

set_option linter.unusedSimpArgs false
set_option linter.unusedVariables false

/-! # C25, C26, C29: derivative and Hodge star of product grids -/

namespace Dec.Props

open Finset Real Dec.G2

/-! ## Linear algebra of the factors -/

theorem ok_inj {a b : ℕ} (h : (Except.ok a : Except Err ℕ) = .ok b) : a = b := by injection h

/-- The two orders of applying a matrix to the rows and one to the columns agree. -/
theorem mat_comm {n m : ℕ} (A B : ℕ → ℕ → ℝ) (F : ℕ → ℕ → ℝ) (j i : ℕ) :
    ∑ q ∈ range m, B j q * ∑ p ∈ range n, A i p * F q p = ∑ p ∈ range n, A i p * ∑ q ∈ range m, B j q * F q p := by
  simp only [Finset.mul_sum]
  rw [Finset.sum_comm]
  exact Finset.sum_congr rfl fun _ _ => Finset.sum_congr rfl fun _ _ => by ring

theorem hasMat_inv {n m : ℕ} {h h' : List ℝ → Except Err (List ℝ)} {A A' : ℕ → ℕ → ℝ} (hA : HasMat n m h A) (hA' : HasMat m n h' A')
    (hi : ∀ a : List ℝ, a.length = n → (h a >>= h') = .ok a) (f : ℕ → ℝ) {k : ℕ} (hk : k < n) :
    ∑ p ∈ range m, A' k p * ∑ j ∈ range n, A p j * f j = f k := by
  have h1 := hi (tab n f) (length_tab _ _)
  rw [hA f] at h1
  simp only [Bind.bind, Except.bind] at h1
  rw [hA'] at h1
  exact tab_inj.mp (Except.ok.inj h1) k hk

/-! ## C25 -/

theorem DD_zero {gx gy : Grid1} (hx : Factor gx) (hy : Factor gy) (t : Bool) (f : List ℝ) (hf : (product gx gy).N 0 t = .ok f.length) :
    ∃ u, (product gx gy).D 0 t f = .ok u ∧ ∃ w, (product gx gy).D 1 t u = .ok w ∧ (product gx gy).N 2 t = .ok w.length ∧ ∀ z ∈ w, z = 0 := by
  rw [N_eq hx hy] at hf
  obtain ⟨F, rfl⟩ := flat0 (f := f) (r := gy.N 0 t) (c := gx.N 0 t) (ok_inj hf).symm
  obtain ⟨A, hA⟩ := (hx.d t).exists_mat
  obtain ⟨B, hB⟩ := (hy.d t).exists_mat
  refine ⟨_, D0_mtab hx hy t (fun j _ => hA (F j)) (fun i _ => hB fun j => F j i), ?_⟩
  refine ⟨_, D1_mtab hx hy t (F' := fun j i => ∑ q ∈ range (gy.N 0 t), B j q * ∑ p ∈ range (gx.N 0 t), A i p * F q p)
    (G' := fun j i => ∑ p ∈ range (gx.N 0 t), A i p * ∑ q ∈ range (gy.N 0 t), B j q * F q p) (fun i _ => hB _) (fun j _ => hA _), ?_, ?_⟩
  · rw [N_eq hx hy, length_data]; rfl
  · intro z hz
    simp only [mtab, tab, List.mem_map, List.mem_range] at hz
    obtain ⟨p, hp, rfl⟩ := hz
    rw [mat_comm, neg_add_cancel]

/-- **C25.** -/
theorem C25_derivative_squared (k k' : Kind) (n n' : ℕ) (hn : validSize k n) (hn' : validSize k' n') (a b a' b' : ℝ) (t : Bool) (f : List ℝ)
    (hf : (product (grid k n a b) (grid k' n' a' b')).N 0 t = .ok f.length) :
    ∃ u, (product (grid k n a b) (grid k' n' a' b')).D 0 t f = .ok u ∧
      ∃ w, (product (grid k n a b) (grid k' n' a' b')).D 1 t u = .ok w ∧ (product (grid k n a b) (grid k' n' a' b')).N 2 t = .ok w.length ∧
        ∀ z ∈ w, z = 0 :=
  DD_zero (grid_factor k n hn a b) (grid_factor k' n' hn' a' b') t f hf

/-- The three kinds of grids satisfy the hypotheses, e.g. a periodic grid times a Chebyshev grid; the derivative of a 0-form need not be zero. -/
example : ∃ u, (product (grid .periodic 3 0 1) (grid .chebyshev 4 (-1) 1)).D 0 true (List.replicate 12 5) = .ok u ∧
    ∃ w, (product (grid .periodic 3 0 1) (grid .chebyshev 4 (-1) 1)).D 1 true u = .ok w ∧
      (product (grid .periodic 3 0 1) (grid .chebyshev 4 (-1) 1)).N 2 true = .ok w.length ∧ ∀ z ∈ w, z = 0 := by
  refine C25_derivative_squared .periodic .chebyshev 3 4 (by norm_num [validSize]) (by norm_num [validSize]) 0 1 (-1) 1 true _ ?_
  rw [N_eq (grid_factor .periodic 3 (by norm_num [validSize]) 0 1) (grid_factor .chebyshev 4 (by norm_num [validSize]) (-1) 1)]
  rfl

/-! ## C26 -/

section
variable {n m n' m' : ℕ} {hx hx' hy hy' : List ℝ → Except Err (List ℝ)} {A A' B B' : ℕ → ℕ → ℝ}

theorem rows_cols_inv (hA : HasMat n m hx A) (hA' : HasMat m n hx' A') (hB : HasMat n' m' hy B) (hB' : HasMat m' n' hy' B')
    (iA : ∀ a : List ℝ, a.length = n → (hx a >>= hx') = .ok a) (iB : ∀ a : List ℝ, a.length = n' → (hy a >>= hy') = .ok a)
    (F : ℕ → ℕ → ℝ) {j i : ℕ} (hj : j < n') (hi : i < n) :
    ∑ p ∈ range m, A' i p * ∑ q ∈ range m', B' j q * ∑ r ∈ range n, A p r * ∑ s ∈ range n', B q s * F s r = F j i := by
  have e : ∀ p, ∑ q ∈ range m', B' j q * ∑ r ∈ range n, A p r * ∑ s ∈ range n', B q s * F s r = ∑ r ∈ range n, A p r * F j r := fun p => by
    rw [mat_comm A B' (fun q r => ∑ s ∈ range n', B q s * F s r)]
    exact Finset.sum_congr rfl fun r _ => by rw [hasMat_inv hB hB' iB (fun s => F s r) hj]
  simp only [e]
  exact hasMat_inv hA hA' iA (F j) hi

theorem rows_cols_inv' (hA : HasMat n m hx A) (hA' : HasMat m n hx' A') (hB : HasMat n' m' hy B) (hB' : HasMat m' n' hy' B')
    (iA : ∀ a : List ℝ, a.length = n → (hx a >>= hx') = .ok a) (iB : ∀ a : List ℝ, a.length = n' → (hy a >>= hy') = .ok a)
    (F : ℕ → ℕ → ℝ) {j i : ℕ} (hj : j < n') (hi : i < n) :
    ∑ p ∈ range m, A' i p * ∑ q ∈ range m', B' j q * ∑ s ∈ range n', B q s * ∑ r ∈ range n, A p r * F s r = F j i := by
  rw [← rows_cols_inv hA hA' hB hB' iA iB F hj hi]
  simp only [mat_comm A B F]

theorem cols_rows_inv (hA : HasMat n m hx A) (hA' : HasMat m n hx' A') (hB : HasMat n' m' hy B) (hB' : HasMat m' n' hy' B')
    (iA : ∀ a : List ℝ, a.length = n → (hx a >>= hx') = .ok a) (iB : ∀ a : List ℝ, a.length = n' → (hy a >>= hy') = .ok a)
    (F : ℕ → ℕ → ℝ) {j i : ℕ} (hj : j < n') (hi : i < n) :
    ∑ q ∈ range m', B' j q * ∑ p ∈ range m, A' i p * ∑ r ∈ range n, A p r * ∑ s ∈ range n', B q s * F s r = F j i := by
  rw [mat_comm A' B' (fun q p => ∑ r ∈ range n, A p r * ∑ s ∈ range n', B q s * F s r)]
  exact rows_cols_inv hA hA' hB hB' iA iB F hj hi
end

section
variable {gx gy : Grid1} (hx : Factor gx) (hy : Factor gy) (sx : Stars gx) (sy : Stars gy)
include hx hy sx sy

theorem HH_0 (t : Bool) (f : List ℝ) (hf : (product gx gy).N 0 t = .ok f.length) :
    ∃ u, (product gx gy).H 0 t f = .ok u ∧ (product gx gy).N 2 (!t) = .ok u.length ∧ (product gx gy).H 2 (!t) u = .ok f := by
  rw [N_eq hx hy] at hf
  obtain ⟨F, rfl⟩ := flat0 (f := f) (r := gy.N 0 t) (c := gx.N 0 t) (ok_inj hf).symm
  obtain ⟨A, hA⟩ := (sx.lin 0 t).exists_mat
  obtain ⟨B, hB⟩ := (sy.lin 0 t).exists_mat
  obtain ⟨A', hA'⟩ := (sx.lin 1 (!t)).exists_mat
  obtain ⟨B', hB'⟩ := (sy.lin 1 (!t)).exists_mat
  simp only [Bool.not_not, sub_zero, sub_self] at hA hB hA' hB'
  refine ⟨_, H0_mtab hx hy t (hy.pos 1 (!t)) (fun i _ => hB fun j => F j i) (fun j _ => hA _), ?_, ?_⟩
  · rw [N_eq hx hy, length_data]; rfl
  · rw [H2_mtab hx hy (!t) (hy.pos 0 t) (fun i _ => hB' _) (fun j _ => hA' _)]
    congr 2
    exact mtab_congr fun j hj i hi => rows_cols_inv hA hA' hB hB' (sx.inv 0 t) (sy.inv 0 t) F hj hi

theorem HH_2 (t : Bool) (f : List ℝ) (hf : (product gx gy).N 2 t = .ok f.length) :
    ∃ u, (product gx gy).H 2 t f = .ok u ∧ (product gx gy).N 0 (!t) = .ok u.length ∧ (product gx gy).H 0 (!t) u = .ok f := by
  rw [N_eq hx hy] at hf
  obtain ⟨F, rfl⟩ := flat0 (f := f) (r := gy.N 1 t) (c := gx.N 1 t) (ok_inj hf).symm
  obtain ⟨A, hA⟩ := (sx.lin 1 t).exists_mat
  obtain ⟨B, hB⟩ := (sy.lin 1 t).exists_mat
  obtain ⟨A', hA'⟩ := (sx.lin 0 (!t)).exists_mat
  obtain ⟨B', hB'⟩ := (sy.lin 0 (!t)).exists_mat
  simp only [Bool.not_not, sub_zero, sub_self] at hA hB hA' hB'
  refine ⟨_, H2_mtab hx hy t (hy.pos 0 (!t)) (fun i _ => hB fun j => F j i) (fun j _ => hA _), ?_, ?_⟩
  · rw [N_eq hx hy, length_data]; rfl
  · rw [H0_mtab hx hy (!t) (hy.pos 1 t) (fun i _ => hB' _) (fun j _ => hA' _)]
    congr 2
    exact mtab_congr fun j hj i hi => rows_cols_inv hA hA' hB hB' (sx.inv 1 t) (sy.inv 1 t) F hj hi

theorem HH_1 (t : Bool) (f : List ℝ) (hf : (product gx gy).N 1 t = .ok f.length) :
    ∃ u, (product gx gy).H 1 t f = .ok u ∧ (product gx gy).N 1 (!t) = .ok u.length ∧ (product gx gy).H 1 (!t) u = .ok (f.map (- ·)) := by
  rw [N_eq hx hy] at hf
  obtain ⟨F, G, rfl⟩ := flat1 (f := f) (r := gy.N 0 t) (c := gx.N 1 t) (r' := gy.N 1 t) (c' := gx.N 0 t) (ok_inj hf).symm
  obtain ⟨A0, hA0⟩ := (sx.lin 0 t).exists_mat
  obtain ⟨A1, hA1⟩ := (sx.lin 1 t).exists_mat
  obtain ⟨B0, hB0⟩ := (sy.lin 0 t).exists_mat
  obtain ⟨B1, hB1⟩ := (sy.lin 1 t).exists_mat
  obtain ⟨A0', hA0'⟩ := (sx.lin 0 (!t)).exists_mat
  obtain ⟨A1', hA1'⟩ := (sx.lin 1 (!t)).exists_mat
  obtain ⟨B0', hB0'⟩ := (sy.lin 0 (!t)).exists_mat
  obtain ⟨B1', hB1'⟩ := (sy.lin 1 (!t)).exists_mat
  simp only [Bool.not_not, sub_zero, sub_self] at hA0 hA1 hB0 hB1 hA0' hA1' hB0' hB1'
  refine ⟨_, H1_mtab hx hy t (hy.pos 0 (!t)) (hx.pos 0 (!t)) (fun i _ => hB1 fun j => G j i) (fun j _ => hA0 _) (fun j _ => hA1 (F j)) (fun i _ => hB0 _), ?_, ?_⟩
  · rw [N_eq hx hy, List.length_append, length_data, length_data]; rfl
  · rw [H1_mtab hx hy (!t) (hy.pos 0 t) (hx.pos 0 t) (fun i _ => hB1' _) (fun j _ => hA0' _) (fun j _ => hA1' _) (fun i _ => hB0' _)]
    have hneg : ∀ (r c : ℕ) (K : ℕ → ℕ → ℝ), (mtab r c K).data.map (- ·) = (mtab r c fun j i => -K j i).data := fun r c K => congrArg Arr.data (neg_mtab r c K)
    rw [List.map_append, hneg, hneg]
    refine congrArg _ (congrArg₂ (· ++ ·) (congrArg Arr.data (mtab_congr fun j hj i hi => ?_)) (congrArg Arr.data (mtab_congr fun j hj i hi => ?_)))
    · exact congrArg Neg.neg (rows_cols_inv' hA1 hA0' hB0 hB1' (sx.inv 1 t) (sy.inv 0 t) F hj hi)
    · simp only [mul_neg, Finset.sum_neg_distrib]
      exact congrArg Neg.neg (cols_rows_inv hA0 hA1' hB1 hB0' (sx.inv 0 t) (sy.inv 1 t) G hj hi)
end

section
variable (k k' : Kind) (n n' : ℕ) (hn : validSize k n) (hn' : validSize k' n') (h : k = .chebyshev → n ≤ 927) (h' : k' = .chebyshev → n' ≤ 927)
  (a b a' b' : ℝ) (t : Bool) (f : List ℝ)
include hn hn' h h'

/-- **C26**, degrees 0 and 2: the star is inverse to the star of the complementary degree and duality. -/
theorem C26_hodge_even (d : Fin 3) (hd : d ≠ 1) (hf : (product (grid k n a b) (grid k' n' a' b')).N d t = .ok f.length) :
    ∃ u, (product (grid k n a b) (grid k' n' a' b')).H d t f = .ok u ∧ (product (grid k n a b) (grid k' n' a' b')).N (2 - d) (!t) = .ok u.length ∧
      (product (grid k n a b) (grid k' n' a' b')).H (2 - d) (!t) u = .ok f := by
  obtain rfl | rfl : d = 0 ∨ d = 2 := by omega
  · exact HH_0 (grid_factor k n hn a b) (grid_factor k' n' hn' a' b') (grid_stars k n hn h a b) (grid_stars k' n' hn' h' a' b') t f hf
  · exact HH_2 (grid_factor k n hn a b) (grid_factor k' n' hn' a' b') (grid_stars k n hn h a b) (grid_stars k' n' hn' h' a' b') t f hf

/-- **C26**, degree 1: the star squares to minus one. -/
theorem C26_hodge_one (hf : (product (grid k n a b) (grid k' n' a' b')).N 1 t = .ok f.length) :
    ∃ u, (product (grid k n a b) (grid k' n' a' b')).H 1 t f = .ok u ∧ (product (grid k n a b) (grid k' n' a' b')).N 1 (!t) = .ok u.length ∧
      (product (grid k n a b) (grid k' n' a' b')).H 1 (!t) u = .ok (f.map (- ·)) :=
  HH_1 (grid_factor k n hn a b) (grid_factor k' n' hn' a' b') (grid_stars k n hn h a b) (grid_stars k' n' hn' h' a' b') t f hf
end

/-- A regular grid times a Chebyshev grid: the hypotheses hold, with a 1-form that is not zero. -/
example : ∃ u, (product (grid .regular 3 0 1) (grid .chebyshev 2 (-1) 1)).H 1 true (List.range 7 |>.map Nat.cast) = .ok u ∧
    (product (grid .regular 3 0 1) (grid .chebyshev 2 (-1) 1)).N 1 false = .ok u.length ∧
      (product (grid .regular 3 0 1) (grid .chebyshev 2 (-1) 1)).H 1 false u = .ok ((List.range 7 |>.map (Nat.cast : ℕ → ℝ)).map (- ·)) := by
  refine C26_hodge_one .regular .chebyshev 3 2 (by norm_num [validSize]) (by norm_num [validSize]) (by simp) (by simp) 0 1 (-1) 1 true _ ?_
  rw [N_eq (grid_factor .regular 3 (by norm_num [validSize]) 0 1) (grid_factor .chebyshev 2 (by norm_num [validSize]) (-1) 1)]
  rfl

end Dec.Props
