import Verif.Lib.Factors

set_option linter.unusedSimpArgs false
set_option linter.unusedVariables false

/-! # The operators of product grids are linear -/

namespace Dec.G2

open Finset

theorem _root_.Dec.ELin.of_tab {n m : ℕ} {F : List ℝ → Except Err (List ℝ)} (ℓ : (ℕ → ℝ) → ℕ → ℝ) (h : ∀ x, F (tab n x) = .ok (tab m (ℓ x)))
    (hadd : ∀ x y i, i < m → ℓ (fun j => x j + y j) i = ℓ x i + ℓ y i) (hsmul : ∀ (c : ℝ) x i, i < m → ℓ (fun j => c * x j) i = c * ℓ x i) : ELin n m F := by
  refine ⟨fun x => tab m (ℓ fun i => x.getD i 0), ?_, fun x hx => ?_⟩
  · refine Lin.of_tab ℓ (fun x => ?_) hadd hsmul
    have h1 := h x
    have h2 := h fun i => (tab n x).getD i 0
    rw [← eq_tab' (length_tab n x) 0, h1] at h2
    exact (Except.ok.inj h2).symm
  · rw [← h]; rw [← eq_tab' hx 0]

theorem data_tab (r c : ℕ) (x : ℕ → ℝ) (s : ℕ) : (mtab r c fun j i => x (s + (j * c + i))).data = tab (r * c) fun k => x (s + k) := by
  unfold mtab
  exact tab_congr fun k _ => by beta_reduce; rw [Nat.div_add_mod' k c]

theorem tab_split (r c r' c' : ℕ) (x : ℕ → ℝ) : tab (r * c + r' * c') x
    = (mtab r c fun j i => x (0 + (j * c + i))).data ++ (mtab r' c' fun j i => x (r * c + (j * c' + i))).data := by
  rw [data_tab, data_tab]
  simp only [zero_add]
  rw [append_tab]
  refine tab_congr fun i _ => ?_
  by_cases h : i < r * c
  · rw [if_pos h]
  · rw [if_neg h, Nat.add_sub_cancel' (not_lt.1 h)]

/-- Two blocks as one array. -/
theorem blocks_tab (r c r' c' : ℕ) (F G : ℕ → ℕ → ℝ) : (mtab r c F).data ++ (mtab r' c' G).data
    = tab (r * c + r' * c') fun k => if k < r * c then F (k / c) (k % c) else G ((k - r * c) / c') ((k - r * c) % c') := by
  unfold mtab; rw [append_tab]

theorem tab_data (r c : ℕ) (x : ℕ → ℝ) : tab (r * c) x = (mtab r c fun j i => x (j * c + i)).data := by
  have := data_tab r c x 0
  simp only [zero_add] at this
  exact this.symm

variable {gx gy : Grid1}

theorem elin2_D0 (hx : Factor gx) (hy : Factor gy) (t : Bool) : ELin (count gx gy 0 t) (count gx gy 1 t) ((product gx gy).D 0 t) := by
  obtain ⟨A, hA⟩ := (hx.d t).exists_mat
  obtain ⟨B, hB⟩ := (hy.d t).exists_mat
  refine ELin.of_tab (fun x k => if k < gy.N 0 t * gx.N 1 t
      then ∑ i ∈ range (gx.N 0 t), A (k % gx.N 1 t) i * x (k / gx.N 1 t * gx.N 0 t + i)
      else ∑ j ∈ range (gy.N 0 t), B ((k - gy.N 0 t * gx.N 1 t) / gx.N 0 t) j * x (j * gx.N 0 t + (k - gy.N 0 t * gx.N 1 t) % gx.N 0 t)) (fun x => ?_) (fun x y i _ => ?_) (fun c x i _ => ?_)
  · show (product gx gy).D 0 t (tab (gy.N 0 t * gx.N 0 t) x) = .ok (tab (gy.N 0 t * gx.N 1 t + gy.N 1 t * gx.N 0 t) _)
    rw [tab_data, D0_mtab hx hy t (fun j _ => hA _) (fun i _ => hB _), blocks_tab]
  · split_ifs <;> simp only [mul_add, sum_add_distrib]
  · split_ifs <;> rw [mul_sum] <;> exact sum_congr rfl fun _ _ => by ring

theorem elin2_D1 (hx : Factor gx) (hy : Factor gy) (t : Bool) : ELin (count gx gy 1 t) (count gx gy 2 t) ((product gx gy).D 1 t) := by
  obtain ⟨A, hA⟩ := (hx.d t).exists_mat
  obtain ⟨B, hB⟩ := (hy.d t).exists_mat
  refine ELin.of_tab (fun x k => -(∑ j ∈ range (gy.N 0 t), B (k / gx.N 1 t) j * x (0 + (j * gx.N 1 t + k % gx.N 1 t)))
      + ∑ i ∈ range (gx.N 0 t), A (k % gx.N 1 t) i * x (gy.N 0 t * gx.N 1 t + (k / gx.N 1 t * gx.N 0 t + i))) (fun x => ?_) (fun x y i _ => ?_) (fun c x i _ => ?_)
  · show (product gx gy).D 1 t (tab (gy.N 0 t * gx.N 1 t + gy.N 1 t * gx.N 0 t) x) = .ok (tab (gy.N 1 t * gx.N 1 t) _)
    rw [tab_split, D1_mtab hx hy t (fun i _ => hB _) (fun j _ => hA _)]
    rfl
  · simp only [mul_add, sum_add_distrib]; ring
  · beta_reduce
    rw [mul_add, mul_neg, mul_sum, mul_sum]
    exact congrArg₂ (fun a b => -a + b) (sum_congr rfl fun _ _ => by ring) (sum_congr rfl fun _ _ => by ring)

theorem elin2_H0 (hx : Factor gx) (hy : Factor gy) (sx : Stars gx) (sy : Stars gy) (t : Bool) : ELin (count gx gy 0 t) (count gx gy 2 (!t)) ((product gx gy).H 0 t) := by
  obtain ⟨A, hA⟩ := (sx.lin 0 t).exists_mat
  obtain ⟨B, hB⟩ := (sy.lin 0 t).exists_mat
  refine ELin.of_tab (fun x k => ∑ i ∈ range (gx.N 0 t), A (k % gx.N 1 (!t)) i * ∑ j ∈ range (gy.N 0 t), B (k / gx.N 1 (!t)) j * x (j * gx.N 0 t + i))
    (fun x => ?_) (fun x y i _ => ?_) (fun c x i _ => ?_)
  · show (product gx gy).H 0 t (tab (gy.N 0 t * gx.N 0 t) x) = .ok (tab (gy.N 1 (!t) * gx.N 1 (!t)) _)
    rw [tab_data, H0_mtab hx hy t (hy.pos 1 (!t)) (fun i _ => hB _) (fun j _ => hA _)]
    rfl
  · simp only [mul_add, sum_add_distrib]
  · simp only [mul_sum]; exact sum_congr rfl fun _ _ => sum_congr rfl fun _ _ => by ring

theorem elin2_H2 (hx : Factor gx) (hy : Factor gy) (sx : Stars gx) (sy : Stars gy) (t : Bool) : ELin (count gx gy 2 t) (count gx gy 0 (!t)) ((product gx gy).H 2 t) := by
  obtain ⟨A, hA⟩ := (sx.lin 1 t).exists_mat
  obtain ⟨B, hB⟩ := (sy.lin 1 t).exists_mat
  refine ELin.of_tab (fun x k => ∑ i ∈ range (gx.N 1 t), A (k % gx.N 0 (!t)) i * ∑ j ∈ range (gy.N 1 t), B (k / gx.N 0 (!t)) j * x (j * gx.N 1 t + i))
    (fun x => ?_) (fun x y i _ => ?_) (fun c x i _ => ?_)
  · show (product gx gy).H 2 t (tab (gy.N 1 t * gx.N 1 t) x) = .ok (tab (gy.N 0 (!t) * gx.N 0 (!t)) _)
    rw [tab_data, H2_mtab hx hy t (hy.pos 0 (!t)) (fun i _ => hB _) (fun j _ => hA _)]
    rfl
  · simp only [mul_add, sum_add_distrib]
  · simp only [mul_sum]; exact sum_congr rfl fun _ _ => sum_congr rfl fun _ _ => by ring

theorem elin2_H1 (hx : Factor gx) (hy : Factor gy) (sx : Stars gx) (sy : Stars gy) (t : Bool) : ELin (count gx gy 1 t) (count gx gy 1 (!t)) ((product gx gy).H 1 t) := by
  obtain ⟨A0, hA0⟩ := (sx.lin 0 t).exists_mat
  obtain ⟨B0, hB0⟩ := (sy.lin 0 t).exists_mat
  obtain ⟨A1, hA1⟩ := (sx.lin 1 t).exists_mat
  obtain ⟨B1, hB1⟩ := (sy.lin 1 t).exists_mat
  refine ELin.of_tab (fun x k => if k < gy.N 0 (!t) * gx.N 1 (!t)
      then -∑ i ∈ range (gx.N 0 t), A0 (k % gx.N 1 (!t)) i * ∑ j ∈ range (gy.N 1 t), B1 (k / gx.N 1 (!t)) j * x (gy.N 0 t * gx.N 1 t + (j * gx.N 0 t + i))
      else ∑ j ∈ range (gy.N 0 t), B0 ((k - gy.N 0 (!t) * gx.N 1 (!t)) / gx.N 0 (!t)) j *
        ∑ i ∈ range (gx.N 1 t), A1 ((k - gy.N 0 (!t) * gx.N 1 (!t)) % gx.N 0 (!t)) i * x (0 + (j * gx.N 1 t + i)))
    (fun x => ?_) (fun x y i _ => ?_) (fun c x i _ => ?_)
  · show (product gx gy).H 1 t (tab (gy.N 0 t * gx.N 1 t + gy.N 1 t * gx.N 0 t) x) = .ok (tab (gy.N 0 (!t) * gx.N 1 (!t) + gy.N 1 (!t) * gx.N 0 (!t)) _)
    rw [tab_split, H1_mtab hx hy t (hy.pos 0 (!t)) (hx.pos 0 (!t)) (fun i _ => hB1 _) (fun j _ => hA0 _) (fun j _ => hA1 _) (fun i _ => hB0 _)]
    rw [blocks_tab]
    rfl
  · split_ifs <;> simp only [mul_add, sum_add_distrib]; ring
  · split_ifs <;> simp only [mul_sum, mul_neg]
    · exact congrArg Neg.neg (sum_congr rfl fun _ _ => sum_congr rfl fun _ _ => by ring)
    · exact sum_congr rfl fun _ _ => sum_congr rfl fun _ _ => by ring

theorem elin2_D (hx : Factor gx) (hy : Factor gy) (d : Fin 3) (hd : d ≠ 2) (t : Bool) : ELin (count gx gy d t) (count gx gy (d + 1) t) ((product gx gy).D d t) := by
  obtain rfl | rfl : d = 0 ∨ d = 1 := by omega
  · exact elin2_D0 hx hy t
  · exact elin2_D1 hx hy t

theorem elin2_H (hx : Factor gx) (hy : Factor gy) (sx : Stars gx) (sy : Stars gy) (d : Fin 3) (t : Bool) :
    ELin (count gx gy d t) (count gx gy (2 - d) (!t)) ((product gx gy).H d t) := by
  obtain rfl | rfl | rfl : d = 0 ∨ d = 1 ∨ d = 2 := by omega
  · exact elin2_H0 hx hy sx sy t
  · exact elin2_H1 hx hy sx sy t
  · exact elin2_H2 hx hy sx sy t

end Dec.G2
