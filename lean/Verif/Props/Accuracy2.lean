import Verif.Lib.Accuracy2
import Verif.Props.AccuracyCheb

set_option linter.unusedSimpArgs false
set_option linter.unusedVariables false

/-! # C91: how large the errors are on product grids, for forms that the grid does not resolve -/

namespace Dec.Props

open Finset Real G2 Sp

/-! ## Specification -/

/-- The functions of one variable in which the components of a form are expanded: `1, sin x, cos x, sin 2x, cos 2x, …` on the circle, `1, cos x, cos 2x, …` on
`[0, π]`, and on `[-1, 1]` the Chebyshev polynomials, or their differentials divided by their largest values in a direction in which the form is integrated. -/
noncomputable def wave (k : Kind) (d : Fin 2) (i : ℕ) (x : ℝ) : ℝ :=
  match k, d with
  | .periodic, _ => if i % 2 = 0 then cos ((i / 2 : ℕ) * x) else sin ((i / 2 + 1 : ℕ) * x)
  | .regular, _ => cos (i * x)
  | .chebyshev, 0 => (Polynomial.Chebyshev.T ℝ i).eval x
  | .chebyshev, 1 => (Polynomial.derivative (Polynomial.Chebyshev.T ℝ (i + 1 : ℕ))).eval x / ((i + 1 : ℕ) : ℝ) ^ 2

/-- How many of the functions `N` coefficients determine. -/
def wavesOf (k : Kind) (N : ℕ) : ℕ :=
  match k with
  | .periodic => 2 * ((N + 1) / 2) - 1
  | _ => N

/-- `f` is the sum of an absolutely convergent double series. -/
def Expansion2 (k k' : Kind) (d d' : Fin 2) (c : ℕ × ℕ → ℝ) (f : ℝ → ℝ → ℝ) : Prop :=
  (Summable fun p => |c p|) ∧ ∀ x ∈ Whole k, ∀ y ∈ Whole k', HasSum (fun p : ℕ × ℕ => c p * (wave k d p.1 x * wave k' d' p.2 y)) (f x y)

/-- The sum of the coefficients that the grid does not resolve: those not among the first `K` in `x` and the first `K'` in `y`. -/
noncomputable def tail2 (c : ℕ × ℕ → ℝ) (K K' : ℕ) : ℝ := ∑' p : ℕ × ℕ, if p.1 < K ∧ p.2 < K' then 0 else |c p|

/-- The factor of the error: 1, and 3 in a direction in which a Chebyshev form is integrated. -/
def gain (k : Kind) (d : Fin 2) : ℝ := if k = .chebyshev ∧ d = 1 then 3 else 1

/-- The component `f` of degree `d` in `x` and `d'` in `y` has an expansion whose unresolved part is at most `ε`. -/
def NearlyResolved (k k' : Kind) (n n' : ℕ) (t : Bool) (d d' : Fin 2) (ε : ℝ) (f : ℝ → ℝ → ℝ) : Prop :=
  ∃ c, Expansion2 k k' d d' c f ∧ (gain k d * gain k' d' + 1) * tail2 c (wavesOf k ((grid₀ k n).N d t)) (wavesOf k' ((grid₀ k' n').N d' t)) ≤ ε

/-- All the components of a form. -/
def NearlyResolvedForm (k k' : Kind) (n n' : ℕ) (t : Bool) (ε : ℝ) : Fin 3 → List (ℝ → ℝ → ℝ) → Prop
  | 0, [f] => NearlyResolved k k' n n' t 0 0 ε f
  | 1, [f, g] => NearlyResolved k k' n n' t 1 0 ε f ∧ NearlyResolved k k' n n' t 0 1 ε g
  | 2, [f] => NearlyResolved k k' n n' t 1 1 ε f
  | _, _ => False

/-- The Hodge star of a form on the plane. -/
def planeStar : Fin 3 → List (ℝ → ℝ → ℝ) → List (ℝ → ℝ → ℝ)
  | 1, [f, g] => [fun x y => -g x y, f]
  | _, σ => σ

/-- The form of a degree all of whose components are 1: its projection gives the sizes of the cells. -/
def unitForm (d : Fin 3) : List (ℝ → ℝ → ℝ) := List.replicate (Grid2.ncomp d) fun _ _ => 1

/-! ## The waves have aliases -/

theorem waves_exist (k : Kind) (n : ℕ) (hn : validSize k n) (d : Fin 2) (t : Bool) :
    ∃ q, Waves (grid₀ k n) (Determined k n d t) (Whole k) d t (wavesOf k ((grid₀ k n).N d t)) (gain k d) (wave k d) q := by
  -- a wave is a term of a series with one term
  have term : ∀ i, (k = .chebyshev → d = 0) → ∃ (c s : ℕ → ℝ) (m : ℕ), (∀ x, term k c s m x = wave k d i x) ∧ amplitude k c s m = 1 ∧ (i < wavesOf k ((grid₀ k n).N d t) → m < termsOf k ((grid₀ k n).N d t)) := by
    intro i hc
    cases k
    · by_cases h : i % 2 = 0
      · refine ⟨fun _ => 1, fun _ => 0, i / 2, fun x => ?_, by simp [amplitude], fun h' => ?_⟩
        · simp only [Props.term, wave, if_pos h, one_mul, zero_mul, add_zero]
        · simp only [wavesOf, termsOf] at h' ⊢; omega
      · refine ⟨fun _ => 0, fun _ => 1, i / 2 + 1, fun x => ?_, by simp [amplitude], fun h' => ?_⟩
        · simp only [Props.term, wave, if_neg h, one_mul, zero_mul, zero_add]
        · simp only [wavesOf, termsOf] at h' ⊢; omega
    · exact ⟨fun _ => 1, fun _ => 0, i, fun x => by simp only [Props.term, wave, one_mul], by simp [amplitude], fun h => h⟩
    · obtain rfl := hc rfl
      exact ⟨fun _ => 1, fun _ => 0, i, fun x => by simp only [Props.term, wave, one_mul], by simp [amplitude], fun h => h⟩
  by_cases hc : k = .chebyshev ∧ d = 1
  · obtain ⟨rfl, rfl⟩ := hc
    have hn' : 2 ≤ n := hn
    have hpos : ∀ i : ℕ, (0 : ℝ) < ((i + 1 : ℕ) : ℝ) ^ 2 := fun i => by positivity
    -- the alias of one differential
    have one : ∀ i, ∃ q, Determined .chebyshev n 1 t q ∧ (grid₀ .chebyshev n).P 1 t q = (grid₀ .chebyshev n).P 1 t (wave .chebyshev 1 i) ∧
        (∀ x ∈ Whole .chebyshev, |q x| ≤ 3) ∧ (i < (grid₀ .chebyshev n).N 1 t → q = wave .chebyshev 1 i) := by
      intro i
      set c : ℕ → ℝ := fun m => if m = i + 1 then 1 / ((i + 1 : ℕ) : ℝ) ^ 2 else 0 with hcdef
      have hE : DerivedExpansion c (wave .chebyshev 1 i) := by
        refine ⟨summable_of_ne_finset_zero (s := {i + 1}) fun m hm => ?_, fun x _ => ?_⟩
        · rw [hcdef]; simp only; rw [if_neg (by simpa using hm), abs_zero, mul_zero]
        · have := hasSum_single (f := fun m : ℕ => c m * (Polynomial.derivative (Polynomial.Chebyshev.T ℝ m)).eval x) (i + 1) fun m hm => by
            rw [hcdef]; simp only; rw [if_neg hm, zero_mul]
          have e : c (i + 1) * (Polynomial.derivative (Polynomial.Chebyshev.T ℝ (i + 1 : ℕ))).eval x = wave .chebyshev 1 i x := by
            rw [hcdef]; simp only [if_true]
            show _ = (Polynomial.derivative (Polynomial.Chebyshev.T ℝ (i + 1 : ℕ))).eval x / ((i + 1 : ℕ) : ℝ) ^ 2
            rw [one_div, div_eq_inv_mul]
          rw [e] at this
          exact this
      obtain ⟨q, h⟩ := cheb_aliased hn' t c _ hE
      have e : (fun x => c (i + 1) * (Polynomial.derivative (Polynomial.Chebyshev.T ℝ (i + 1 : ℕ))).eval x) = wave .chebyshev 1 i := by
        funext x
        rw [hcdef]; simp only [if_true]
        show _ = (Polynomial.derivative (Polynomial.Chebyshev.T ℝ (i + 1 : ℕ))).eval x / ((i + 1 : ℕ) : ℝ) ^ 2
        rw [one_div, div_eq_inv_mul]
      refine ⟨q (i + 1), h.mem _, ?_, fun x hx => ?_, fun hi => ?_⟩
      · rw [h.same, e]
      · have h1 := h.qbound (i + 1) x hx
        have h2 : c (i + 1) = 1 / ((i + 1 : ℕ) : ℝ) ^ 2 := by rw [hcdef]; simp only [if_true]
        have h3 := hpos i
        rw [h2, abs_of_pos (one_div_pos.2 h3), mul_one_div_cancel h3.ne', mul_one] at h1
        exact h1
      · rw [h.low (i + 1) (by omega), e]
    choose q h1 h2 h3 h4 using one
    refine ⟨q, ⟨fun i => ?_, fun i x hx => ?_, h1, h2, fun i x hx => ?_, h4⟩⟩
    · show Continuous fun x => (Polynomial.derivative (Polynomial.Chebyshev.T ℝ (i + 1 : ℕ))).eval x / ((i + 1 : ℕ) : ℝ) ^ 2
      exact (Polynomial.continuous _).div_const _
    · show |(Polynomial.derivative (Polynomial.Chebyshev.T ℝ (i + 1 : ℕ))).eval x / ((i + 1 : ℕ) : ℝ) ^ 2| ≤ 1
      rw [abs_div, abs_of_pos (hpos i), div_le_one (hpos i)]
      exact deriv_T_bound (i + 1) hx
    · unfold gain; rw [if_pos ⟨rfl, rfl⟩]; exact h3 i x hx
  · have hc' : k = .chebyshev → d = 0 := fun h => by
      by_contra h'
      exact hc ⟨h, by omega⟩
    have hg : gain k d = 1 := if_neg hc
    have one : ∀ i, ∃ q, Determined k n d t q ∧ (grid₀ k n).P d t q = (grid₀ k n).P d t (wave k d i) ∧ (∀ x ∈ Whole k, |q x| ≤ 1) ∧
        (i < wavesOf k ((grid₀ k n).N d t) → q = wave k d i) ∧ Continuous (wave k d i) ∧ ∀ x ∈ Whole k, |wave k d i x| ≤ 1 := by
      intro i
      obtain ⟨c, s, m, h1, h2, h3⟩ := term i hc'
      obtain ⟨q, g1, g2, g3, g4⟩ := term_alias k n hn d t hc' c s m
      have e : Props.term k c s m = wave k d i := funext h1
      have h5 := term_cont k c s m
      have h6 := fun x hx => term_bound k c s m (x := x) hx
      rw [h2] at g3 h6
      rw [e] at g2 g4 h5 h6
      exact ⟨q, g1, g2, g3, fun hi => g4 (h3 hi), h5, h6⟩
    choose q h1 h2 h3 h4 h5 h6 using one
    exact ⟨q, h5, h6, h1, h2, fun i x hx => by rw [hg]; exact h3 i x hx, h4⟩

/-! ## Flat lists of coefficients -/

/-- A pointwise statement about two and three lists of the same length. -/
def Within (ε : ℝ) (a b s : List ℝ) : Prop := a.length = b.length ∧ s.length = b.length ∧ ∀ m < b.length, |a.getD m 0 - b.getD m 0| ≤ ε * s.getD m 0

theorem within_mtab {ε : ℝ} {r c : ℕ} {F G S : ℕ → ℕ → ℝ} (h : ∀ j < r, ∀ i < c, |F j i - G j i| ≤ ε * S j i) :
    Within ε (mtab r c F).data (mtab r c G).data (mtab r c S).data := by
  refine ⟨by simp [mtab], by simp [mtab], fun m hm => ?_⟩
  have hm' : m < r * c := by simpa [mtab] using hm
  obtain ⟨h1, h2⟩ := mod_div_lt hm'
  unfold mtab
  rw [getD_tab hm', getD_tab hm', getD_tab hm']
  exact h _ h2 _ h1

theorem Within.append {ε : ℝ} {a b s a' b' s' : List ℝ} (h : Within ε a b s) (h' : Within ε a' b' s') : Within ε (a ++ a') (b ++ b') (s ++ s') := by
  obtain ⟨h1, h2, h3⟩ := h
  obtain ⟨g1, g2, g3⟩ := h'
  refine ⟨by simp [h1, g1], by simp [h2, g2], fun m hm => ?_⟩
  simp only [List.getD_eq_getElem?_getD] at h3 g3 ⊢
  by_cases hb : m < b.length
  · rw [List.getElem?_append_left (by omega), List.getElem?_append_left hb, List.getElem?_append_left (by omega)]
    exact h3 m hb
  · rw [List.getElem?_append_right (by omega), List.getElem?_append_right (by omega), List.getElem?_append_right (by omega), h1, h2]
    exact g3 (m - b.length) (by rw [List.length_append] at hm; omega)

/-! ## One component -/

section
variable (k k' : Kind) (n n' : ℕ) (hn : validSize k n) (hn' : validSize k' n') (t : Bool)
include hn hn'

theorem component {d d' : Fin 2} {ε : ℝ} {f : ℝ → ℝ → ℝ} (hf : NearlyResolved k k' n n' t d d' ε f) :
    ∃ r : ℝ → ℝ → ℝ, Tensor (Determined k n d t) (Determined k' n' d' t) r ∧
      (∀ i < (grid₀ k n).N d t, ∀ j < (grid₀ k' n').N d' t, pe2 (grid₀ k n) (grid₀ k' n') d d' t t r i j = pe2 (grid₀ k n) (grid₀ k' n') d d' t t f i j) ∧
      (∀ x ∈ Inside k d, ∀ y ∈ Inside k' d', |r x y - f x y| ≤ ε) ∧
      ((k = .chebyshev → d = 1 → t = true → n ≤ 927) → (k' = .chebyshev → d' = 1 → t = true → n' ≤ 927) →
        ∀ i < (grid₀ k n).N (1 - d) (!t), ∀ j < (grid₀ k' n').N (1 - d') (!t),
          |pe2 (grid₀ k n) (grid₀ k' n') (1 - d) (1 - d') (!t) (!t) r i j - pe2 (grid₀ k n) (grid₀ k' n') (1 - d) (1 - d') (!t) (!t) f i j|
            ≤ ε * pe2 (grid₀ k n) (grid₀ k' n') (1 - d) (1 - d') (!t) (!t) (fun _ _ => 1) i j) := by
  obtain ⟨c, hE, hε⟩ := hf
  obtain ⟨q, hw⟩ := waves_exist k n hn d t
  obtain ⟨q', hw'⟩ := waves_exist k' n' hn' d' t
  obtain ⟨r, h1, h2, h3, h4⟩ := block_error (spans' k n hn) (spans' k' n' hn') (cells_in k n hn d t) (cells_in k' n' hn' d' t) hw hw' hE.1 hE.2
  have whole : ∀ (k : Kind) (d : Fin 2) (x : ℝ), x ∈ Inside k d → x ∈ Whole k := fun k d x hx => by
    cases k
    · exact Set.mem_univ x
    · obtain rfl | rfl : d = 0 ∨ d = 1 := by omega
      all_goals exact hx
    · obtain rfl | rfl : d = 0 ∨ d = 1 := by omega
      · exact hx
      · exact Set.Ioo_subset_Icc_self hx
  refine ⟨r, h1, h2, fun x hx y hy => (h3 x (inside_dom k n hn d t hx) (whole k d x hx) y (inside_dom k' n' hn' d' t hy) (whole k' d' y hy)).trans hε, fun h927 h927' i hi j hj => ?_⟩
  have hsx := size_nonneg (grid₀_factor k n hn) _ _ (cells_in k n hn (1 - d) (!t)) hi
  have hsy := size_nonneg (grid₀_factor k' n' hn') _ _ (cells_in k' n' hn' (1 - d') (!t)) hj
  have hone : pe2 (grid₀ k n) (grid₀ k' n') (1 - d) (1 - d') (!t) (!t) (fun _ _ => 1) i j
      = pe (grid₀ k n) (1 - d) (!t) (fun _ => 1) i * pe (grid₀ k' n') (1 - d') (!t) (fun _ => 1) j := by
    unfold pe2
    have := pe_smul (grid₀_factor k n hn) (1 - d) (!t) (pe (grid₀ k' n') (1 - d') (!t) (fun _ => 1) j) (fun _ => 1) hi
    simp only [mul_one] at this
    rw [this, mul_comm]
  have h5 := h4 (determined_star k n hn d t h927) (determined_star k' n' hn' d' t h927') (cells_in k n hn (1 - d) (!t)) (cells_in k' n' hn' (1 - d') (!t)) i hi j hj
  rw [hone]
  refine h5.trans ?_
  rw [mul_right_comm]
  exact mul_le_mul_of_nonneg_right hε (mul_nonneg hsx hsy)

/-! ## The theorems -/

/-- **C91**: on the product of two grids of any kinds and sizes, let every component of a form be the sum of an absolutely convergent double series whose
unresolved part is at most `ε`.  Then `H` of its projection differs from the projection of its Hodge star, on every cell of the other grid, by at most `ε` times
the size of the cell.  (For 1-forms and 2-forms on the primal cells of a Chebyshev direction: up to 927 vertices, as for C06.) -/
theorem C91_star_error (d : Fin 3) (h927 : k = .chebyshev → d ≠ 0 → t = true → n ≤ 927) (h927' : k' = .chebyshev → d ≠ 0 → t = true → n' ≤ 927) (ε : ℝ)
    (σ : List (ℝ → ℝ → ℝ)) (hσ : NearlyResolvedForm k k' n n' t ε d σ) :
    ∃ a b c s, (product (grid₀ k n) (grid₀ k' n')).P d t σ = .ok a ∧ (product (grid₀ k n) (grid₀ k' n')).H d t a = .ok b ∧
      (product (grid₀ k n) (grid₀ k' n')).P (2 - d) (!t) (planeStar d σ) = .ok c ∧ (product (grid₀ k n) (grid₀ k' n')).P (2 - d) (!t) (unitForm (2 - d)) = .ok s ∧
      b.length = c.length ∧ s.length = c.length ∧ ∀ m < c.length, |b.getD m 0 - c.getD m 0| ≤ ε * s.getD m 0 := by
  have hx := grid₀_factor k n hn
  have hy := grid₀_factor k' n' hn'
  have sx := (spans' k n hn).space
  have sy := (spans' k' n' hn').space
  obtain rfl | rfl | rfl : d = 0 ∨ d = 1 ∨ d = 2 := by omega
  · match σ, hσ with
    | [f], hσ =>
      obtain ⟨r, h1, h2, _, h4⟩ := component k k' n n' hn hn' t hσ
      have H := h4 (fun _ h => by cases h) (fun _ h => by cases h)
      have e : (mtab ((grid₀ k' n').N 0 t) ((grid₀ k n).N 0 t) fun j i => pe2 (grid₀ k n) (grid₀ k' n') 0 0 t t f i j)
          = mtab ((grid₀ k' n').N 0 t) ((grid₀ k n).N 0 t) fun j i => pe2 (grid₀ k n) (grid₀ k' n') 0 0 t t r i j := mtab_congr fun j hj i hi => (h2 i hi j hj).symm
      exact ⟨_, (mtab ((grid₀ k' n').N 1 (!t)) ((grid₀ k n).N 1 (!t)) fun j i => pe2 (grid₀ k n) (grid₀ k' n') 1 1 (!t) (!t) r i j).data, _, _, P0_pe2 hx hy t f,
        by rw [e]; exact H0_pe2 hx hy (sx 0 t) (sy 0 t) h1 t (determined_star k n hn 0 t fun _ h => by cases h) (determined_star k' n' hn' 0 t fun _ h => by cases h),
        P2_pe2 hx hy (!t) f, P2_pe2 hx hy (!t) fun _ _ => 1, within_mtab fun j hj i hi => H i hi j hj⟩
  · match σ, hσ with
    | [f, g], hσ =>
      obtain ⟨r, h1, h2, _, h4⟩ := component k k' n n' hn hn' t hσ.1
      obtain ⟨r', h1', h2', _, h4'⟩ := component k k' n n' hn hn' t hσ.2
      have H := h4 (fun h _ => h927 h (by decide)) (fun _ h => by cases h)
      have H' := h4' (fun _ h => by cases h) (fun h _ => h927' h (by decide))
      have e : (mtab ((grid₀ k' n').N 0 t) ((grid₀ k n).N 1 t) fun j i => pe2 (grid₀ k n) (grid₀ k' n') 1 0 t t f i j)
          = mtab ((grid₀ k' n').N 0 t) ((grid₀ k n).N 1 t) fun j i => pe2 (grid₀ k n) (grid₀ k' n') 1 0 t t r i j := mtab_congr fun j hj i hi => (h2 i hi j hj).symm
      have e' : (mtab ((grid₀ k' n').N 1 t) ((grid₀ k n).N 0 t) fun j i => pe2 (grid₀ k n) (grid₀ k' n') 0 1 t t g i j)
          = mtab ((grid₀ k' n').N 1 t) ((grid₀ k n).N 0 t) fun j i => pe2 (grid₀ k n) (grid₀ k' n') 0 1 t t r' i j := mtab_congr fun j hj i hi => (h2' i hi j hj).symm
      have hst := H1_pe2 hx hy (sx 1 t) (sy 0 t) h1 (sx 0 t) (sy 1 t) h1' t (determined_star k n hn 1 t fun h _ => h927 h (by decide))
        (determined_star k' n' hn' 0 t fun _ h => by cases h) (determined_star k n hn 0 t fun _ h => by cases h)
        (determined_star k' n' hn' 1 t fun h _ => h927' h (by decide))
      refine ⟨_, ((mtab ((grid₀ k' n').N 0 (!t)) ((grid₀ k n).N 1 (!t)) fun j i => -pe2 (grid₀ k n) (grid₀ k' n') 1 0 (!t) (!t) r' i j).data
          ++ (mtab ((grid₀ k' n').N 1 (!t)) ((grid₀ k n).N 0 (!t)) fun j i => pe2 (grid₀ k n) (grid₀ k' n') 0 1 (!t) (!t) r i j).data), _, _, P1_pe2 hx hy t f g,
        by rw [e, e']; exact hst,
        P1_pe2 hx hy (!t) (fun x y => -g x y) f, P1_pe2 hx hy (!t) (fun _ _ => 1) fun _ _ => 1, Within.append (within_mtab fun j hj i hi => ?_) (within_mtab fun j hj i hi => H i hi j hj)⟩
      rw [pe2_neg hx hy _ _ _ _ g hi hj, neg_sub_neg, abs_sub_comm]
      exact H' i hi j hj
  · match σ, hσ with
    | [f], hσ =>
      obtain ⟨r, h1, h2, _, h4⟩ := component k k' n n' hn hn' t hσ
      have H := h4 (fun h _ => h927 h (by decide)) (fun h _ => h927' h (by decide))
      have e : (mtab ((grid₀ k' n').N 1 t) ((grid₀ k n).N 1 t) fun j i => pe2 (grid₀ k n) (grid₀ k' n') 1 1 t t f i j)
          = mtab ((grid₀ k' n').N 1 t) ((grid₀ k n).N 1 t) fun j i => pe2 (grid₀ k n) (grid₀ k' n') 1 1 t t r i j := mtab_congr fun j hj i hi => (h2 i hi j hj).symm
      exact ⟨_, (mtab ((grid₀ k' n').N 0 (!t)) ((grid₀ k n).N 0 (!t)) fun j i => pe2 (grid₀ k n) (grid₀ k' n') 0 0 (!t) (!t) r i j).data, _, _, P2_pe2 hx hy t f,
        by rw [e]; exact H2_pe2 hx hy (sx 1 t) (sy 1 t) h1 t (determined_star k n hn 1 t fun h _ => h927 h (by decide)) (determined_star k' n' hn' 1 t fun h _ => h927' h (by decide)),
        P0_pe2 hx hy (!t) f, P0_pe2 hx hy (!t) fun _ _ => 1, within_mtab fun j hj i hi => H i hi j hj⟩

/-- **C91**: the reconstruction of the projection of such a form differs from the form, in every component and at every point of the rectangle (without the ends
named in `Inside`, for 1-forms and 2-forms), by at most `ε`. -/
theorem C91_reconstruction_error (d : Fin 3) (ε : ℝ) (σ : List (ℝ → ℝ → ℝ)) (hσ : NearlyResolvedForm k k' n n' t ε d σ) :
    ∃ a r, (product (grid₀ k n) (grid₀ k' n')).P d t σ = .ok a ∧ (product (grid₀ k n) (grid₀ k' n')).R d t a = .ok r ∧
      ∀ x ∈ Inside k (if d = 0 then 0 else 1), ∀ y ∈ Inside k' (if d = 0 then 0 else 1), ∃ v : List ℝ, r x y = v.map some ∧ v.length = σ.length ∧
        ∀ m < σ.length, |v.getD m 0 - (σ.getD m fun _ _ => 0) x y| ≤ ε := by
  have hx := grid₀_factor k n hn
  have hy := grid₀_factor k' n' hn'
  have mono : ∀ (k : Kind) (z : ℝ) (e : Fin 2), z ∈ Inside k 1 → z ∈ Inside k e := fun k z e hz => by
    obtain rfl | rfl : e = 0 ∨ e = 1 := by omega
    · cases k
      · exact hz
      · exact hz
      · exact Set.Ioo_subset_Icc_self hz
    · exact hz
  obtain rfl | rfl | rfl : d = 0 ∨ d = 1 ∨ d = 2 := by omega
  · match σ, hσ with
    | [f], hσ =>
      obtain ⟨r, h1, h2, h3, _⟩ := component k k' n n' hn hn' t hσ
      obtain ⟨a, R, g1, g2, g3⟩ := C70_reconstruct_2d k k' n n' hn hn' 0 t [r] h1
      refine ⟨a, R, ?_, g2, fun x hxI y hyI => ⟨[r x y], g3 x hxI y hyI, rfl, fun m hm => ?_⟩⟩
      · rw [← g1, P0_pe2 hx hy, P0_pe2 hx hy]
        exact congrArg (fun a : Arr ℝ => Except.ok a.data) (mtab_congr fun j hj i hi => (h2 i hi j hj).symm)
      · obtain rfl : m = 0 := by simpa using hm
        exact h3 x hxI y hyI
  · match σ, hσ with
    | [f, g], hσ =>
      obtain ⟨r, h1, h2, h3, _⟩ := component k k' n n' hn hn' t hσ.1
      obtain ⟨r', h1', h2', h3', _⟩ := component k k' n n' hn hn' t hσ.2
      obtain ⟨a, R, g1, g2, g3⟩ := C70_reconstruct_2d k k' n n' hn hn' 1 t [r, r'] ⟨h1, h1'⟩
      refine ⟨a, R, ?_, g2, fun x hxI y hyI => ⟨[r x y, r' x y], g3 x hxI y hyI, rfl, fun m hm => ?_⟩⟩
      · rw [← g1, P1_pe2 hx hy, P1_pe2 hx hy]
        exact congrArg₂ (fun a b : Arr ℝ => Except.ok (a.data ++ b.data)) (mtab_congr fun j hj i hi => (h2 i hi j hj).symm) (mtab_congr fun j hj i hi => (h2' i hi j hj).symm)
      · have hxI' : x ∈ Inside k 1 := hxI
        have hyI' : y ∈ Inside k' 1 := hyI
        obtain rfl | rfl : m = 0 ∨ m = 1 := by simp at hm; omega
        · exact h3 x hxI' y (mono k' y 0 hyI')
        · exact h3' x (mono k x 0 hxI') y hyI'
  · match σ, hσ with
    | [f], hσ =>
      obtain ⟨r, h1, h2, h3, _⟩ := component k k' n n' hn hn' t hσ
      obtain ⟨a, R, g1, g2, g3⟩ := C70_reconstruct_2d k k' n n' hn hn' 2 t [r] h1
      refine ⟨a, R, ?_, g2, fun x hxI y hyI => ⟨[r x y], g3 x hxI y hyI, rfl, fun m hm => ?_⟩⟩
      · rw [← g1, P2_pe2 hx hy, P2_pe2 hx hy]
        exact congrArg (fun a : Arr ℝ => Except.ok a.data) (mtab_congr fun j hj i hi => (h2 i hi j hj).symm)
      · obtain rfl : m = 0 := by simpa using hm
        exact h3 x hxI y hyI

end

/-- **C91**: the hypothesis is met by every absolutely convergent double series on every fine enough grid, with `ε` as small as desired: the errors tend to zero. -/
theorem C91_convergence (k k' : Kind) (d d' : Fin 2) (t : Bool) (c : ℕ × ℕ → ℝ) (f : ℝ → ℝ → ℝ) (hf : Expansion2 k k' d d' c f) (ε : ℝ) (hε : 0 < ε) :
    ∃ n₀, ∀ n ≥ n₀, ∀ n' ≥ n₀, validSize k n → validSize k' n' → NearlyResolved k k' n n' t d d' ε f := by
  have hg : ∀ k d, 1 ≤ gain k d ∧ gain k d ≤ 3 := fun k d => by unfold gain; split_ifs <;> norm_num
  obtain ⟨s, hs⟩ := (summable_iff_vanishing_norm.1 hf.1) (ε / 10) (by positivity)
  set M := s.sup Prod.fst + s.sup Prod.snd + 1 with hM
  have hw : ∀ (k : Kind) (n : ℕ) (hn : validSize k n) (d : Fin 2), 2 * M + 2 ≤ n → M ≤ wavesOf k ((grid₀ k n).N d t) := fun k n hn d h => by
    have := N_ge k n hn d t
    cases k
    · show M ≤ 2 * (((grid₀ .periodic n).N d t + 1) / 2) - 1; omega
    · show M ≤ (grid₀ .regular n).N d t; omega
    · show M ≤ (grid₀ .chebyshev n).N d t; omega
  refine ⟨2 * M + 2, fun n hn n' hn' hv hv' => ⟨c, hf, ?_⟩⟩
  set K := wavesOf k ((grid₀ k n).N d t) with hK
  set K' := wavesOf k' ((grid₀ k' n').N d' t) with hK'
  have h1 : M ≤ K := hw k n hv d hn
  have h2 : M ≤ K' := hw k' n' hv' d' hn'
  have h3 : tail2 c K K' ≤ ε / 10 := by
    refine Real.tsum_le_of_sum_le (fun p => by split_ifs <;> positivity) fun u => ?_
    have h4 := hs (u.filter fun p => ¬ (p.1 < K ∧ p.2 < K')) ?_
    · rw [Real.norm_eq_abs] at h4
      have h5 := (le_abs_self _).trans h4.le
      rw [sum_filter] at h5
      refine le_trans (le_of_eq (sum_congr rfl fun p _ => ?_)) h5
      by_cases h : p.1 < K ∧ p.2 < K'
      · rw [if_pos h, if_neg (not_not.2 h)]
      · rw [if_neg h, if_pos h]
    · rw [Finset.disjoint_left]
      intro p hp hps
      refine (mem_filter.1 hp).2 ⟨?_, ?_⟩
      · have : p.1 ≤ s.sup Prod.fst := le_sup (f := Prod.fst) hps
        omega
      · have : p.2 ≤ s.sup Prod.snd := le_sup (f := Prod.snd) hps
        omega
  have h0 : 0 ≤ tail2 c K K' := tsum_nonneg fun p => by split_ifs <;> positivity
  have h6 : gain k d * gain k' d' ≤ 3 * 3 := mul_le_mul (hg k d).2 (hg k' d').2 (by linarith [(hg k' d').1]) (by norm_num)
  nlinarith

/-- The geometric series without its first terms. -/
theorem hasSum_geometric_from {ρ : ℝ} (h0 : 0 ≤ ρ) (h1 : ρ < 1) (K : ℕ) : HasSum (fun i : ℕ => if i < K then 0 else ρ ^ i) (ρ ^ K / (1 - ρ)) := by
  refine (hasSum_nat_add_iff' K).1 ?_
  rw [sum_eq_zero fun i hi => if_pos (mem_range.1 hi), sub_zero]
  have := (hasSum_geometric_of_lt_one h0 h1).mul_left (ρ ^ K)
  rw [← div_eq_mul_inv] at this
  have e : (fun i : ℕ => if i + K < K then 0 else ρ ^ (i + K)) = fun i => ρ ^ K * ρ ^ i := funext fun i => by rw [if_neg (by omega), pow_add, mul_comm]
  rw [e]; exact this

theorem hasSum_mul_pair {u v : ℕ → ℝ} {a b : ℝ} (hu : HasSum u a) (hv : HasSum v b) (h0 : ∀ i, 0 ≤ u i) (h1 : ∀ i, 0 ≤ v i) :
    HasSum (fun p : ℕ × ℕ => u p.1 * v p.2) (a * b) :=
  HasSum.mul hu hv (hu.summable.mul_of_nonneg hv.summable h0 h1)

theorem hasSum_geometric_two {ρ ρ' : ℝ} (h0 : 0 ≤ ρ) (h1 : ρ < 1) (h0' : 0 ≤ ρ') (h1' : ρ' < 1) (K K' : ℕ) :
    HasSum (fun p : ℕ × ℕ => (if p.1 < K then 0 else ρ ^ p.1) * ρ' ^ p.2) (ρ ^ K / (1 - ρ) * (1 - ρ')⁻¹) ∧
      HasSum (fun p : ℕ × ℕ => ρ ^ p.1 * if p.2 < K' then 0 else ρ' ^ p.2) ((1 - ρ)⁻¹ * (ρ' ^ K' / (1 - ρ'))) := by
  refine ⟨hasSum_mul_pair (u := fun i => if i < K then 0 else ρ ^ i) (v := fun j => ρ' ^ j) (hasSum_geometric_from h0 h1 K) (hasSum_geometric_of_lt_one h0' h1') (fun i => ?_) fun j => ?_,
    hasSum_mul_pair (u := fun i => ρ ^ i) (v := fun j => if j < K' then 0 else ρ' ^ j) (hasSum_geometric_of_lt_one h0 h1) (hasSum_geometric_from h0' h1' K') (fun i => ?_) fun j => ?_⟩
  · beta_reduce; split_ifs <;> positivity
  · positivity
  · positivity
  · beta_reduce; split_ifs <;> positivity

/-- **C91**: the errors decrease geometrically with the numbers of vertices if the coefficients decrease geometrically. -/
theorem C91_geometric (k k' : Kind) (n n' : ℕ) (t : Bool) (d d' : Fin 2) (c : ℕ × ℕ → ℝ) (f : ℝ → ℝ → ℝ) (hf : Expansion2 k k' d d' c f)
    (A ρ ρ' : ℝ) (h0 : 0 ≤ ρ) (h1 : ρ < 1) (h0' : 0 ≤ ρ') (h1' : ρ' < 1) (hc : ∀ p : ℕ × ℕ, |c p| ≤ A * (ρ ^ p.1 * ρ' ^ p.2)) :
    NearlyResolved k k' n n' t d d' ((gain k d * gain k' d' + 1) * (A * (ρ ^ wavesOf k ((grid₀ k n).N d t) + ρ' ^ wavesOf k' ((grid₀ k' n').N d' t)) / ((1 - ρ) * (1 - ρ')))) f := by
  refine ⟨c, hf, mul_le_mul_of_nonneg_left ?_ ?_⟩
  · set K := wavesOf k ((grid₀ k n).N d t)
    set K' := wavesOf k' ((grid₀ k' n').N d' t)
    have hA : 0 ≤ A := by
      have := (abs_nonneg _).trans (hc (0, 0))
      simpa using this
    obtain ⟨s1, s2⟩ := hasSum_geometric_two h0 h1 h0' h1' K K'
    have s3 := ((s1.add s2).mul_left A)
    have hne : 1 - ρ ≠ 0 := by linarith
    have hne' : 1 - ρ' ≠ 0 := by linarith
    have e : A * (ρ ^ K / (1 - ρ) * (1 - ρ')⁻¹ + (1 - ρ)⁻¹ * (ρ' ^ K' / (1 - ρ'))) = A * (ρ ^ K + ρ' ^ K') / ((1 - ρ) * (1 - ρ')) := by
      field_simp
    rw [e] at s3
    have hs : Summable fun p : ℕ × ℕ => if p.1 < K ∧ p.2 < K' then 0 else |c p| := by
      refine Summable.of_nonneg_of_le (fun p => by split_ifs <;> positivity) (fun p => ?_) hf.1
      split_ifs
      · positivity
      · exact le_refl _
    refine hasSum_le (fun p => ?_) hs.hasSum s3
    have hp := hc p
    have a1 : 0 ≤ ρ ^ p.1 := by positivity
    have a2 : 0 ≤ ρ' ^ p.2 := by positivity
    have a3 := mul_nonneg hA (mul_nonneg a1 a2)
    by_cases g1 : p.1 < K
    · by_cases g2 : p.2 < K'
      · simp [g1, g2]
      · simp only [g1, g2, and_false, if_false, if_true, zero_mul, zero_add]
        exact hp
    · by_cases g2 : p.2 < K'
      · simp only [g1, g2, false_and, if_false, if_true, mul_zero, add_zero]
        exact hp
      · simp only [g1, g2, and_false, if_false]
        linarith
  · have hg : ∀ k d, 0 ≤ gain k d := fun k d => by unfold gain; split_ifs <;> norm_num
    have := mul_nonneg (hg k d) (hg k' d')
    linarith

/-! ## Non-vacuity -/

/-- Waves are bounded by one. -/
theorem wave_bound (k : Kind) (d : Fin 2) (i : ℕ) {x : ℝ} (hx : x ∈ Whole k) : |wave k d i x| ≤ 1 := by
  obtain ⟨q, h⟩ := waves_exist k 2 (by cases k <;> simp [validSize]) d true
  exact h.bound i x hx

/-- Every summable family of coefficients is an expansion. -/
theorem expansion2_exists (k k' : Kind) (d d' : Fin 2) (c : ℕ × ℕ → ℝ) (hc : Summable fun p => |c p|) :
    Expansion2 k k' d d' c fun x y => ∑' p : ℕ × ℕ, c p * (wave k d p.1 x * wave k' d' p.2 y) :=
  ⟨hc, fun x hx y hy => (Summable.of_norm_bounded hc fun p => by
    rw [Real.norm_eq_abs, abs_mul, abs_mul]
    exact mul_le_of_le_one_right (abs_nonneg _) (mul_le_one₀ (wave_bound k d p.1 hx) (abs_nonneg _) (wave_bound k' d' p.2 hy))).hasSum⟩

/-- A 2-form on the product of a periodic grid of 20 and a Chebyshev grid of 30 vertices, with infinitely many terms: the bound is below `10⁻⁴`. -/
example : NearlyResolvedForm .periodic .chebyshev 20 30 true (1 / 10000) 2
    [fun x y => ∑' p : ℕ × ℕ, ((1 / 2) ^ p.1 * (1 / 3) ^ p.2) * (wave .periodic 1 p.1 x * wave .chebyshev 1 p.2 y)] := by
  have hs : Summable fun p : ℕ × ℕ => |((1 / 2 : ℝ)) ^ p.1 * (1 / 3) ^ p.2| := by
    have := (summable_geometric_of_lt_one (r := (1 / 2 : ℝ)) (by norm_num) (by norm_num)).mul_of_nonneg (summable_geometric_of_lt_one (r := (1 / 3 : ℝ)) (by norm_num) (by norm_num))
      (fun i => by positivity) fun i => by positivity
    exact this.congr fun p => (abs_of_nonneg (by positivity)).symm
  obtain ⟨c, h1, h2⟩ := C91_geometric .periodic .chebyshev 20 30 true 1 1 _ _ (expansion2_exists .periodic .chebyshev 1 1 _ hs) 1 (1 / 2) (1 / 3) (by norm_num) (by norm_num) (by norm_num)
    (by norm_num) fun p => by rw [abs_of_nonneg (by positivity), one_mul]
  refine ⟨c, h1, h2.trans ?_⟩
  have e1 : (grid₀ .periodic 20).N 1 true = 20 := rfl
  have e2 : (grid₀ .chebyshev 30).N 1 true = 29 := (Chebyshev.isInterval (show 2 ≤ 30 by norm_num) (-1) 1).N11
  rw [e1, e2]
  norm_num [wavesOf, gain, show ¬ (Kind.periodic = Kind.chebyshev) from nofun]

end Dec.Props
