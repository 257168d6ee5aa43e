import Verif.Lib.Accuracy2

set_option linter.unusedSimpArgs false
set_option linter.unusedVariables false

/-! # C70, two dimensions: every array of coefficients is the projection of one determined form -/

namespace Dec.Props

open Finset Real G2 Sp

section
variable {gx gy : Grid1} {V W : Fin 2 → Bool → (ℝ → ℝ) → Prop} {X Y : Fin 2 → Bool → Set ℝ}

/-- A function of two variables with given coefficients. -/
theorem block_rep (sx : Spans gx V X) (sy : Spans gy W Y) (d d' : Fin 2) (t : Bool) (F : ℕ → ℕ → ℝ) :
    ∃ r : ℝ → ℝ → ℝ, Tensor (V d t) (W d' t) r ∧ ∀ i < gx.N d t, ∀ j < gy.N d' t, pe2 gx gy d d' t t r i j = F j i := by
  obtain ⟨b, hb, hB, hr⟩ := spans_reps sx d t
  obtain ⟨b', hb', hB', hr'⟩ := spans_reps sy d' t
  have hx := sx.factor
  have hy := sy.factor
  have cb : ∀ k < gx.N d t, Continuous (b k) := fun k hk => (sx.space d t).cont _ (hb k hk)
  have cb' : ∀ k < gy.N d' t, Continuous (b' k) := fun k hk => (sy.space d' t).cont _ (hb' k hk)
  refine ⟨fun x y => ∑ i ∈ range (gx.N d t), ∑ j ∈ range (gy.N d' t), F j i * (b i x * b' j y), ?_, fun i hi j hj => ?_⟩
  · refine Tensor.sum (g := fun i x y => ∑ j ∈ range (gy.N d' t), F j i * (b i x * b' j y)) fun i hi => Tensor.sum (g := fun j x y => F j i * (b i x * b' j y)) fun j hj => ?_
    have := Tensor.single (V := V d t) (W := W d' t) ((sx.space d t).smul (F j i) _ (hb i hi)) (hb' j hj)
    refine (show (fun x y => F j i * (b i x * b' j y)) = fun x y => F j i * b i x * b' j y from ?_) ▸ this
    funext x y; ring
  · have h1 : (fun x => pe gy d' t (fun y => ∑ k ∈ range (gx.N d t), ∑ l ∈ range (gy.N d' t), F l k * (b k x * b' l y)) j) = fun x => ∑ k ∈ range (gx.N d t), F j k * b k x := by
      funext x
      rw [pe_sum hy d' t _ (fun k y => ∑ l ∈ range (gy.N d' t), F l k * (b k x * b' l y))
        (fun k hk => continuous_finsetSum _ fun l hl => ((cb' l (mem_range.1 hl)).const_mul _).const_mul _) hj]
      refine sum_congr rfl fun k _ => ?_
      rw [pe_sum hy d' t _ (fun l y => F l k * (b k x * b' l y)) (fun l hl => ((cb' l hl).const_mul _).const_mul _) hj, sum_eq_single j]
      · have h2 : pe gy d' t (b' j) j = 1 := by unfold pe; rw [sy.P_rep d' t hj (hb' j hj) (hB' j hj), getD_tab hj, if_pos rfl]
        rw [pe_smul hy d' t _ _ hj, pe_smul hy d' t _ _ hj, h2, mul_one]
      · intro l hl hne
        have h2 : pe gy d' t (b' l) j = 0 := by unfold pe; rw [sy.P_rep d' t (mem_range.1 hl) (hb' l (mem_range.1 hl)) (hB' l (mem_range.1 hl)), getD_tab hj, if_neg (Ne.symm hne)]
        rw [pe_smul hy d' t _ _ hj, pe_smul hy d' t _ _ hj, h2, mul_zero, mul_zero]
      · intro h; exact absurd (mem_range.2 hj) h
    unfold pe2
    rw [h1, pe_sum hx d t _ (fun k x => F j k * b k x) (fun k hk => (cb k hk).const_mul _) hi, sum_eq_single i]
    · have h2 : pe gx d t (b i) i = 1 := by unfold pe; rw [sx.P_rep d t hi (hb i hi) (hB i hi), getD_tab hi, if_pos rfl]
      rw [pe_smul hx d t _ _ hi, h2, mul_one]
    · intro k hk hne
      have h2 : pe gx d t (b k) i = 0 := by unfold pe; rw [sx.P_rep d t (mem_range.1 hk) (hb k (mem_range.1 hk)) (hB k (mem_range.1 hk)), getD_tab hi, if_neg (Ne.symm hne)]
      rw [pe_smul hx d t _ _ hi, h2, mul_zero]
    · intro h; exact absurd (mem_range.2 hi) h

theorem list_mtab {r c : ℕ} {a : List ℝ} (h : a.length = r * c) : a = (mtab r c fun j i => a.getD (j * c + i) 0).data := by
  conv_lhs => rw [eq_tab' h 0]
  unfold mtab
  refine tab_congr fun m hm => ?_
  show _ = a.getD (m / c * c + m % c) 0
  rw [Nat.div_add_mod']

/-- Every array of the right length is the projection of a determined form. -/
theorem form_rep (sx : Spans gx V X) (sy : Spans gy W Y) (d : Fin 3) (t : Bool) (a : List ℝ) (ha : a.length = count gx gy d t) :
    ∃ σ, TensorForm (fun e => V e t) (fun e => W e t) d σ ∧ (product gx gy).P d t σ = .ok a := by
  have hx := sx.factor
  have hy := sy.factor
  obtain rfl | rfl | rfl : d = 0 ∨ d = 1 ∨ d = 2 := by omega
  · obtain ⟨r, h1, h2⟩ := block_rep sx sy 0 0 t fun j i => a.getD (j * gx.N 0 t + i) 0
    refine ⟨[r], h1, ?_⟩
    have hl : a.length = gy.N 0 t * gx.N 0 t := ha
    rw [P0_pe2 hx hy, mtab_congr (fun j hj i hi => h2 i hi j hj), ← list_mtab hl]
  · have hl : a.length = gy.N 0 t * gx.N 1 t + gy.N 1 t * gx.N 0 t := ha
    obtain ⟨r, h1, h2⟩ := block_rep sx sy 1 0 t fun j i => (a.take (gy.N 0 t * gx.N 1 t)).getD (j * gx.N 1 t + i) 0
    obtain ⟨r', h1', h2'⟩ := block_rep sx sy 0 1 t fun j i => (a.drop (gy.N 0 t * gx.N 1 t)).getD (j * gx.N 0 t + i) 0
    refine ⟨[r, r'], ⟨h1, h1'⟩, ?_⟩
    rw [P1_pe2 hx hy, mtab_congr (fun j hj i hi => h2 i hi j hj), mtab_congr (fun j hj i hi => h2' i hi j hj),
      ← list_mtab (by rw [List.length_take]; omega), ← list_mtab (by rw [List.length_drop]; omega), List.take_append_drop]
  · obtain ⟨r, h1, h2⟩ := block_rep sx sy 1 1 t fun j i => a.getD (j * gx.N 1 t + i) 0
    refine ⟨[r], h1, ?_⟩
    have hl : a.length = gy.N 1 t * gx.N 1 t := ha
    rw [P2_pe2 hx hy, mtab_congr (fun j hj i hi => h2 i hi j hj), ← list_mtab hl]
end

/-! ## C70 -/

/-- **C70**, two dimensions: on the product of two grids of any kinds and sizes, every array of coefficients is the projection of a form whose components are sums of
products of functions that the coefficients in each direction determine, and its reconstruction is this form. -/
theorem C70_reconstruction_determined_2d (k k' : Kind) (n n' : ℕ) (hn : validSize k n) (hn' : validSize k' n') (d : Fin 3) (t : Bool) (a : List ℝ)
    (ha : (product (grid₀ k n) (grid₀ k' n')).N d t = .ok a.length) :
    ∃ σ r, TensorForm (fun e => Determined k n e t) (fun e => Determined k' n' e t) d σ ∧ (product (grid₀ k n) (grid₀ k' n')).P d t σ = .ok a ∧
      (product (grid₀ k n) (grid₀ k' n')).R d t a = .ok r ∧
      ∀ x ∈ Inside k (if d = 0 then 0 else 1), ∀ y ∈ Inside k' (if d = 0 then 0 else 1), r x y = σ.map fun f => some (f x y) := by
  have sx := spans' k n hn
  have sy := spans' k' n' hn'
  obtain ⟨σ, hσ, hP⟩ := form_rep sx sy d t a ((length_of_N sx.factor sy.factor).1 ha)
  obtain ⟨a', r, h1, h2, h3⟩ := C70_reconstruct_2d k k' n n' hn hn' d t σ hσ
  obtain rfl : a' = a := Except.ok.inj (h1.symm.trans hP)
  exact ⟨σ, r, hσ, hP, h2, h3⟩

/-- **C70**, two dimensions: two such forms with the same projection agree at every point of the rectangle. -/
theorem C70_projection_injective_2d (k k' : Kind) (n n' : ℕ) (hn : validSize k n) (hn' : validSize k' n') (d : Fin 3) (t : Bool) (σ τ : List (ℝ → ℝ → ℝ))
    (hσ : TensorForm (fun e => Determined k n e t) (fun e => Determined k' n' e t) d σ) (hτ : TensorForm (fun e => Determined k n e t) (fun e => Determined k' n' e t) d τ)
    (h : (product (grid₀ k n) (grid₀ k' n')).P d t σ = (product (grid₀ k n) (grid₀ k' n')).P d t τ) (x y : ℝ)
    (hx : x ∈ Inside k (if d = 0 then 0 else 1)) (hy : y ∈ Inside k' (if d = 0 then 0 else 1)) : σ.map (fun f => f x y) = τ.map fun f => f x y := by
  obtain ⟨a, r, h1, h2, h3⟩ := C70_reconstruct_2d k k' n n' hn hn' d t σ hσ
  obtain ⟨a', r', h1', h2', h3'⟩ := C70_reconstruct_2d k k' n n' hn hn' d t τ hτ
  obtain rfl : a = a' := Except.ok.inj (h1.symm.trans (h.trans h1'))
  obtain rfl : r = r' := Except.ok.inj (h2.symm.trans h2')
  have e := (h3 x hx y hy).symm.trans (h3' x hx y hy)
  have e2 : ∀ l : List (ℝ → ℝ → ℝ), l.map (fun f => some (f x y)) = (l.map fun f => f x y).map some := fun l => by rw [List.map_map]; rfl
  rw [e2, e2] at e
  exact (List.map_injective_iff.2 (Option.some_injective _)) e

example : (product (grid₀ .periodic 3) (grid₀ .chebyshev 3)).N 1 true = .ok (List.replicate 15 (1 : ℝ)).length := by
  rw [length_of_N (grid₀_factor .periodic 3 (show 1 ≤ 3 by norm_num)) (grid₀_factor .chebyshev 3 (show 2 ≤ 3 by norm_num))]
  have N01 : (grid₀ .chebyshev 3).N 0 true = 3 := (Chebyshev.isInterval (n := 3) (by norm_num) (-1) 1).N01
  have N11 : (grid₀ .chebyshev 3).N 1 true = 2 := (Chebyshev.isInterval (n := 3) (by norm_num) (-1) 1).N11
  show _ = (grid₀ .chebyshev 3).N 0 true * (grid₀ .periodic 3).N 1 true + (grid₀ .chebyshev 3).N 1 true * (grid₀ .periodic 3).N 0 true
  rw [N01, N11]; rfl

end Dec.Props
