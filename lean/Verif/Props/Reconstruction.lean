import Verif.Lib.Span
import Verif.Props.Grid2Basis

set_option linter.unusedSimpArgs false
set_option linter.unusedVariables false

/-! # C70: reconstruction inverts projection -/

namespace Dec.Props

open Finset Real G2 Sp

/-- The functions that the coefficients of a discrete `d`-form determine (`t`: primal), on the grid of `n` vertices on the default interval. -/
noncomputable def Determined (k : Kind) (n : ℕ) (d : Fin 2) (t : Bool) (f : ℝ → ℝ) : Prop :=
  match k with
  | .periodic => IsTrigAt n (if (d = 0) = (t = true) then 0 else π / n) f
  | .regular => IsCos ((if (d = 0) = (t = true) then n else n - 1) - 1) f
  | .chebyshev => IsPoly (if (d = 0) = (t = true) then n else n - 1) f

/-- The points at which a form is reconstructed: the default interval, without its end `2π` on the circle; without its ends for Chebyshev 1-forms. -/
def Inside : Kind → Fin 2 → Set ℝ
  | .periodic, _ => Set.Ico 0 (2 * π)
  | .regular, _ => Set.Icc 0 π
  | .chebyshev, 0 => Set.Icc (-1) 1
  | .chebyshev, 1 => Set.Ioo (-1) 1

theorem determined_iff (k : Kind) (n : ℕ) (hn : validSize k n) (d : Fin 2) (t : Bool) (f : ℝ → ℝ) : Determined k n d t f ↔ Spanned k n d t f := by
  have hh2 : hh n / 2 = π / n := by unfold hh; ring
  cases k
  · obtain rfl | rfl : d = 0 ∨ d = 1 := by omega
    all_goals cases t
    all_goals simp [Determined, Spanned, Periodic.ph, hh2]
  · have hn' : 2 ≤ n := hn
    have hI := Regular.isInterval hn' 0 π
    have N00 : (grid₀ .regular n).N 0 false = n - 1 := hI.N00
    have N01 : (grid₀ .regular n).N 0 true = n := hI.N01
    have N10 : (grid₀ .regular n).N 1 false = n := hI.N10
    have N11 : (grid₀ .regular n).N 1 true = n - 1 := hI.N11
    obtain rfl | rfl : d = 0 ∨ d = 1 := by omega
    all_goals cases t
    all_goals simp [Determined, Spanned, Resolved, N00, N01, N10, N11]
  · have hn' : 2 ≤ n := hn
    have hI := Chebyshev.isInterval hn' (-1) 1
    have N00 : (grid₀ .chebyshev n).N 0 false = n - 1 := hI.N00
    have N01 : (grid₀ .chebyshev n).N 0 true = n := hI.N01
    have N10 : (grid₀ .chebyshev n).N 1 false = n := hI.N10
    have N11 : (grid₀ .chebyshev n).N 1 true = n - 1 := hI.N11
    obtain rfl | rfl : d = 0 ∨ d = 1 := by omega
    all_goals cases t
    all_goals simp [Determined, Spanned, Resolved, N00, N01, N10, N11]

theorem inside_dom (k : Kind) (n : ℕ) (hn : validSize k n) (d : Fin 2) (t : Bool) : Inside k d ⊆ Dom k n d t := by
  intro x hx
  cases k
  · have hpos := hh_pos (show 0 < n from hn)
    have h0 : 0 ≤ x := hx.1
    have h1 : x < 2 * π := hx.2
    obtain rfl | rfl : d = 0 ∨ d = 1 := by omega
    all_goals cases t
    · exact ⟨by linarith, by linarith⟩
    · exact ⟨by linarith, by linarith⟩
    · unfold Dom; trivial
    · unfold Dom; trivial
  · obtain rfl | rfl : d = 0 ∨ d = 1 := by omega
    all_goals exact hx
  · obtain rfl | rfl : d = 0 ∨ d = 1 := by omega
    all_goals exact hx

theorem spans' (k : Kind) (n : ℕ) (hn : validSize k n) : Spans (grid₀ k n) (Determined k n) (Dom k n) := by
  have e : Determined k n = Spanned k n := by
    funext d t f; exact propext (determined_iff k n hn d t f)
  rw [e]; exact spans k n hn

/-! ## One dimension -/

/-- **C70**: on a periodic, regular or Chebyshev grid of any size, in every degree and duality: reconstructing the projection of a function that the
coefficients can determine gives the function back, at every point of the interval. -/
theorem C70_reconstruct (k : Kind) (n : ℕ) (hn : validSize k n) (d : Fin 2) (t : Bool) (f : ℝ → ℝ) (hf : Determined k n d t f) (x : ℝ) (hx : x ∈ Inside k d) :
    (grid₀ k n).R d t ((grid₀ k n).P d t f) x = some (f x) :=
  (spans' k n hn).R_P d t hf (inside_dom k n hn d t hx)

/-- **C70**: every array of coefficients is the projection of such a function, namely of its reconstruction. -/
theorem C70_reconstruction_determined (k : Kind) (n : ℕ) (hn : validSize k n) (d : Fin 2) (t : Bool) (a : List ℝ) (ha : a.length = (grid₀ k n).N d t) :
    ∃ f, Determined k n d t f ∧ (grid₀ k n).P d t f = a ∧ ∀ x ∈ Inside k d, (grid₀ k n).R d t a x = some (f x) := by
  have s := spans' k n hn
  have h := s.rep d t
  choose! b hb hB using h
  refine ⟨fun x => ∑ j ∈ range ((grid₀ k n).N d t), a.getD j 0 * b j x, (s.space d t).sum _ (fun j x => a.getD j 0 * b j x) fun j hj => (s.space d t).smul _ _ (hb j hj),
    ?_, fun x hx => s.R_eq d t a b hB (inside_dom k n hn d t hx)⟩
  rw [s.P_lin d t _ (fun j => a.getD j 0) b hb]
  conv_rhs => rw [eq_tab' ha 0]
  refine tab_congr fun i hi => ?_
  rw [sum_eq_single i]
  · rw [s.P_rep d t hi (hb i hi) (hB i hi), getD_tab hi, if_pos rfl, mul_one]
  · intro j hj hne
    rw [s.P_rep d t (mem_range.1 hj) (hb j (mem_range.1 hj)) (hB j (mem_range.1 hj)), getD_tab hi, if_neg (Ne.symm hne), mul_zero]
  · intro h; exact absurd (mem_range.2 hi) h

/-- **C70**: two such functions with the same projection agree at every point of the interval. -/
theorem C70_projection_injective (k : Kind) (n : ℕ) (hn : validSize k n) (d : Fin 2) (t : Bool) (f g : ℝ → ℝ) (hf : Determined k n d t f) (hg : Determined k n d t g)
    (h : (grid₀ k n).P d t f = (grid₀ k n).P d t g) (x : ℝ) (hx : x ∈ Inside k d) : f x = g x :=
  (spans' k n hn).uniq d t f g hf hg h x (inside_dom k n hn d t hx)

/-! ## What happens at the ends -/

theorem foldl_none (l : List ℕ) (F : ℕ → Option ℝ) : l.foldl (fun s i => oadd s (F i)) none = none := by
  induction l with
  | nil => rfl
  | cons i l ih => exact ih

theorem foldl_has_none {l : List ℕ} {F : ℕ → Option ℝ} {j : ℕ} (hj : j ∈ l) (h : F j = none) (s : Option ℝ) : l.foldl (fun s i => oadd s (F i)) s = none := by
  induction l generalizing s with
  | nil => cases hj
  | cons i l ih =>
    rw [List.foldl_cons]
    rcases List.mem_cons.1 hj with rfl | hj
    · rw [h]
      have : oadd s none = none := by cases s <;> rfl
      rw [this, foldl_none]
    · exact ih hj _

/-- **C70**: a primal 0-form on the circle cannot be reconstructed at `2π`: the first basis function is NaN there (although the form is periodic). -/
theorem C70_periodic_end (n : ℕ) (hn : 1 ≤ n) (a : List ℝ) : (Periodic.make n).R 0 true a (2 * π) = none := by
  unfold Grid1.R
  refine foldl_has_none (F := fun i => ((Periodic.make n).B 0 true i (2 * π)).map (a.getD i 0 * ·)) (j := 0) (List.mem_range.2 hn) ?_ _
  have : (Periodic.make n).B 0 true 0 (2 * π) = none := by
    show alpha n ((0 : ℕ) : ℝ) (2 * π) = none
    unfold alpha alpha0
    rw [if_neg (by simp [pi_ne_zero]), if_pos (by simp)]
  rw [this]; rfl

/-- **C70**: a primal 1-form on a Chebyshev grid cannot be reconstructed at the ends of the interval (`0/0`) ... -/
theorem C70_chebyshev_primal_ends (n : ℕ) (hn : 2 ≤ n) (a : List ℝ) :
    (Chebyshev.make n).R 1 true a (-1) = none ∧ (Chebyshev.make n).R 1 true a 1 = none := by
  have hI := Chebyshev.isInterval hn (-1) 1
  have N11 : (Chebyshev.make n).N 1 true = n - 1 := hI.N11
  have key : ∀ x : ℝ, x ^ 2 = 1 → (Chebyshev.make n).R 1 true a x = none := fun x hx => by
    unfold Grid1.R
    refine foldl_has_none (F := fun i => ((Chebyshev.make n).B 1 true i x).map (a.getD i 0 * ·)) (j := 0) (List.mem_range.2 (by rw [N11]; omega)) ?_ _
    have : (Chebyshev.make n).B 1 true 0 x = none := by
      show psi1 n 0 x = none
      unfold psi1 odiv
      rw [hx, sub_self, Real.sqrt_zero, if_pos rfl]
    rw [this]; rfl
  exact ⟨key _ (by norm_num), key _ (by norm_num)⟩

/-- **C70**: ... and a dual 1-form is evaluated at a point a distance `1e-16` inside the interval instead. -/
theorem C70_chebyshev_dual_ends (n : ℕ) (hn : 2 ≤ n) (f : ℝ → ℝ) (hf : IsPoly n f) :
    (Chebyshev.make n).R 1 false ((Chebyshev.make n).P 1 false f) (-1) = some (f (-1 + 1e-16)) ∧
    (Chebyshev.make n).R 1 false ((Chebyshev.make n).P 1 false f) 1 = some (f (1 - 1e-16)) := by
  have e : ∀ x y : ℝ, fixSingularity x = y → fixSingularity y = y → ∀ a, (Chebyshev.make n).R 1 false a x = (Chebyshev.make n).R 1 false a y := fun x y h h' a => by
    have : ∀ j, (Chebyshev.make n).B 1 false j x = (Chebyshev.make n).B 1 false j y := fun j => by
      show psid1 n j x = psid1 n j y
      unfold psid1
      rw [h, h']
    unfold Grid1.R
    simp only [this]
  have h1 : fixSingularity (-1) = -1 + 1e-16 := by unfold fixSingularity; rw [if_pos rfl]
  have h2 : fixSingularity 1 = 1 - 1e-16 := by unfold fixSingularity; rw [if_neg (by norm_num), if_pos rfl]
  have hd : Determined .chebyshev n 1 false f := by simpa [Determined] using hf
  refine ⟨(e _ _ h1 (fix_inside (by norm_num) (by norm_num)) _).trans ?_, (e _ _ h2 (fix_inside (by norm_num) (by norm_num)) _).trans ?_⟩
  · exact C70_reconstruct .chebyshev n hn 1 false f hd _ ⟨by norm_num, by norm_num⟩
  · exact C70_reconstruct .chebyshev n hn 1 false f hd _ ⟨by norm_num, by norm_num⟩

/-! ## Two dimensions -/

theorem sum_blocks (r c : ℕ) (F : ℕ → ℕ → ℝ) : ∑ m ∈ range (r * c), F (m / c) (m % c) = ∑ j ∈ range r, ∑ i ∈ range c, F j i := by
  rcases Nat.eq_zero_or_pos c with rfl | hc
  · simp
  induction r with
  | zero => simp
  | succ r ih =>
    rw [show (r + 1) * c = r * c + c by ring, sum_range_add, ih, sum_range_succ]
    congr 1
    refine sum_congr rfl fun i hi => ?_
    have := mem_range.1 hi
    rw [mul_comm r c, Nat.mul_add_div hc, Nat.mul_add_mod, Nat.div_eq_of_lt this, Nat.mod_eq_of_lt this, add_zero]

section
variable {gx gy : Grid1} {V W : Fin 2 → Bool → (ℝ → ℝ) → Prop} {X Y : Fin 2 → Bool → Set ℝ}

/-- An entry of the projection. -/
noncomputable def pe (g : Grid1) (d : Fin 2) (t : Bool) (f : ℝ → ℝ) (i : ℕ) : ℝ := (g.P d t f).getD i 0

theorem pe0 {g : Grid1} (h : Factor g) (t : Bool) (f : ℝ → ℝ) {i : ℕ} (hi : i < g.N 0 t) : pe g 0 t f i = f (vx g t i) := by
  unfold pe; rw [P0_tab h, getD_tab hi]
theorem pe1 {g : Grid1} (h : Factor g) (t : Bool) (f : ℝ → ℝ) {i : ℕ} (h' : i < g.N 1 t) : pe g 1 t f i = ∫ x in (lo g t i)..(hi g t i), f x := by
  unfold pe; rw [P1_tab h, getD_tab h']

/-- A choice of real-valued representatives of the basis functions. -/
structure Rep (g : Grid1) (X : Fin 2 → Bool → Set ℝ) (V : Fin 2 → Bool → (ℝ → ℝ) → Prop) (b : Fin 2 → Bool → ℕ → ℝ → ℝ) : Prop where
  eq : ∀ d t, ∀ j < g.N d t, ∀ x ∈ X d t, g.B d t j x = some (b d t j x)
  sum : ∀ d t f, V d t f → ∀ x ∈ X d t, ∑ j ∈ range (g.N d t), pe g d t f j * b d t j x = f x

theorem exists_rep' {g : Grid1} (s : Spans g V X) : ∃ b, Rep g X V b := by
  have h := s.rep
  choose! b hb hB using h
  refine ⟨b, hB, fun d t f hf x hx => ?_⟩
  have h1 := s.R_eq d t (g.P d t f) (b d t) (hB d t) hx
  rw [s.R_P d t hf hx] at h1
  exact (Option.some.inj h1).symm

theorem core2 (sx : Spans gx V X) (sy : Spans gy W Y) {b b' : Fin 2 → Bool → ℕ → ℝ → ℝ} (rx : Rep gx X V b) (ry : Rep gy Y W b') (d d' : Fin 2) (t : Bool)
    {f : ℝ → ℝ → ℝ} (hf : Tensor (V d t) (W d' t) f) {x y : ℝ} (hx : x ∈ X d t) (hy : y ∈ Y d' t) :
    ∑ m ∈ range (gy.N d' t * gx.N d t), pe gx d t (fun x => pe gy d' t (f x) (m / gx.N d t)) (m % gx.N d t) * (b d t (m % gx.N d t) x * b' d' t (m / gx.N d t) y) = f x y := by
  rw [sum_blocks (gy.N d' t) (gx.N d t) fun j i => pe gx d t (fun x => pe gy d' t (f x) j) i * (b d t i x * b' d' t j y)]
  have h1 : ∀ j < gy.N d' t, V d t fun x => pe gy d' t (f x) j := fun j hj => by
    obtain rfl | rfl : d' = 0 ∨ d' = 1 := by omega
    · simp only [pe0 sy.factor t _ hj]
      exact hf.row (sx.space _ _) _
    · simp only [pe1 sy.factor t _ hj]
      exact hf.inty (sx.space _ _) (sy.space _ _) _ _
  have h2 : ∑ j ∈ range (gy.N d' t), ∑ i ∈ range (gx.N d t), pe gx d t (fun x => pe gy d' t (f x) j) i * (b d t i x * b' d' t j y)
      = ∑ j ∈ range (gy.N d' t), pe gy d' t (f x) j * b' d' t j y := by
    refine sum_congr rfl fun j hj => ?_
    rw [← rx.sum d t _ (h1 j (mem_range.1 hj)) x hx, sum_mul]
    exact sum_congr rfl fun i _ => by ring
  rw [h2]
  exact ry.sum d' t (f x) (hf.col (sy.space _ _) x) y hy

theorem getD_append_left' {α : Type*} (m n : ℕ) (f g : ℕ → α) (z : α) {i : ℕ} (h : i < m) : (tab m f ++ tab n g).getD i z = f i := by
  rw [List.getD_eq_getElem?_getD, List.getElem?_append_left (by rw [length_tab]; exact h), ← List.getD_eq_getElem?_getD, getD_tab h]

theorem getD_append_right' {α : Type*} (m n : ℕ) (f g : ℕ → α) (z : α) {i : ℕ} (h : i < n) : (tab m f ++ tab n g).getD (m + i) z = g i := by
  rw [List.getD_eq_getElem?_getD, List.getElem?_append_right (by rw [length_tab]; omega), length_tab, Nat.add_sub_cancel_left, ← List.getD_eq_getElem?_getD, getD_tab h]

/-- Reconstruction inverts projection on a product grid. -/
theorem recon2_exact (sx : Spans gx V X) (sy : Spans gy W Y) (d : Fin 3) (t : Bool) (σ : List (ℝ → ℝ → ℝ)) (hσ : TensorForm (fun e => V e t) (fun e => W e t) d σ) :
    ∃ a r, (product gx gy).P d t σ = .ok a ∧ (product gx gy).R d t a = .ok r ∧
      ∀ x y, (∀ e, (d = 0 → e = 0) → (d = 2 → e = 1) → x ∈ X e t ∧ y ∈ Y e t) → r x y = σ.map fun f => some (f x y) := by
  obtain ⟨b, rx⟩ := exists_rep' sx
  obtain ⟨b', ry⟩ := exists_rep' sy
  have hx := sx.factor
  have hy := sy.factor
  obtain rfl | rfl | rfl : d = 0 ∨ d = 1 ∨ d = 2 := by omega
  · match σ, hσ with
    | [f], hσ =>
      refine ⟨_, _, P0_mtab hx hy t f, R_flat hx hy 0 t _, fun x y h => ?_⟩
      have hX := h 0 (by decide) (by decide)
      rw [show Grid2.ncomp (0 : Fin 3) = 1 from rfl]
      show [_] = [_]
      refine congrArg (fun z => [z]) ?_
      beta_reduce
      rw [foldl_opt fun m => b 0 t (m % gx.N 0 t) x * b' 0 t (m / gx.N 0 t) y]
      · refine congrArg some (Eq.trans (sum_congr rfl fun m hm => ?_) (core2 sx sy rx ry 0 0 t hσ hX.1 hX.2))
        obtain ⟨hi', hj'⟩ := mod_div_lt (r := gy.N 0 t) (c := gx.N 0 t) (mem_range.1 hm)
        congr 1
        unfold mtab
        rw [getD_tab (show m < gy.N 0 t * gx.N 0 t from mem_range.1 hm), pe0 hx t _ hi', pe0 hy t _ hj']
      · intro m hm
        obtain ⟨hi', hj'⟩ := mod_div_lt (r := gy.N 0 t) (c := gx.N 0 t) hm
        simp only [flatB, bB, List.getD_cons_zero, rx.eq 0 t _ hi' x hX.1, ry.eq 0 t _ hj' y hX.2, omul]
        rfl
  · match σ, hσ with
    | [f, g], hσ =>
      refine ⟨_, _, P1_mtab hx hy t f g, R_flat hx hy 1 t _, fun x y h => ?_⟩
      have hX := h 0 (by decide) (by decide)
      have hX1 := h 1 (by decide) (by decide)
      have hc : count gx gy 1 t = gy.N 0 t * gx.N 1 t + gy.N 1 t * gx.N 0 t := rfl
      rw [show Grid2.ncomp (1 : Fin 3) = 2 from rfl]
      show [_, _] = [_, _]
      refine congrArg₂ (fun z w => [z, w]) ?_ ?_
      · beta_reduce
        rw [foldl_opt fun m => if m < gy.N 0 t * gx.N 1 t then b 1 t (m % gx.N 1 t) x * b' 0 t (m / gx.N 1 t) y else 0]
        · rw [hc, sum_range_add]
          refine congrArg some ?_
          have e2 : ∀ F : ℕ → ℝ, ∑ m ∈ range (gy.N 1 t * gx.N 0 t), F m * (if gy.N 0 t * gx.N 1 t + m < gy.N 0 t * gx.N 1 t then b 1 t ((gy.N 0 t * gx.N 1 t + m) % gx.N 1 t) x * b' 0 t ((gy.N 0 t * gx.N 1 t + m) / gx.N 1 t) y else 0) = 0 :=
            fun F => sum_eq_zero fun m _ => by rw [if_neg (by omega), mul_zero]
          rw [e2, add_zero]
          refine Eq.trans (sum_congr rfl fun m hm => ?_) (core2 sx sy rx ry 1 0 t hσ.1 hX1.1 hX.2)
          obtain ⟨hi', hj'⟩ := mod_div_lt (r := gy.N 0 t) (c := gx.N 1 t) (mem_range.1 hm)
          rw [if_pos (mem_range.1 hm)]
          congr 1
          unfold mtab
          rw [getD_append_left' _ _ _ _ _ (mem_range.1 hm), pe1 hx t _ hi']
          unfold Integrate.P1x
          simp only [pe0 hy t _ hj']
        · intro m hm
          simp only [flatB]
          by_cases hlt : m < gy.N 0 t * gx.N 1 t
          · obtain ⟨hi', hj'⟩ := mod_div_lt hlt
            rw [if_pos hlt, if_pos hlt]
            simp only [bB, List.getD_cons_zero, rx.eq 1 t _ hi' x hX1.1, ry.eq 0 t _ hj' y hX.2, omul]
            rfl
          · rw [if_neg hlt, if_neg hlt]
            simp only [bB, List.getD_cons_zero]
      · beta_reduce
        rw [foldl_opt fun m => if m < gy.N 0 t * gx.N 1 t then 0 else b 0 t ((m - gy.N 0 t * gx.N 1 t) % gx.N 0 t) x * b' 1 t ((m - gy.N 0 t * gx.N 1 t) / gx.N 0 t) y]
        · rw [hc, sum_range_add]
          refine congrArg some ?_
          have e2 : ∀ F : ℕ → ℝ, ∑ m ∈ range (gy.N 0 t * gx.N 1 t), F m * (if m < gy.N 0 t * gx.N 1 t then 0 else b 0 t ((m - gy.N 0 t * gx.N 1 t) % gx.N 0 t) x * b' 1 t ((m - gy.N 0 t * gx.N 1 t) / gx.N 0 t) y) = 0 :=
            fun F => sum_eq_zero fun m hm => by rw [if_pos (mem_range.1 hm), mul_zero]
          rw [e2, zero_add]
          refine Eq.trans (sum_congr rfl fun m hm => ?_) (core2 sx sy rx ry 0 1 t hσ.2 hX.1 hX1.2)
          obtain ⟨hi', hj'⟩ := mod_div_lt (r := gy.N 1 t) (c := gx.N 0 t) (mem_range.1 hm)
          rw [if_neg (by omega), Nat.add_sub_cancel_left]
          congr 1
          unfold mtab
          rw [getD_append_right' _ _ _ _ _ (mem_range.1 hm), pe0 hx t _ hi', pe1 hy t _ hj']
          rfl
        · intro m hm
          simp only [flatB]
          by_cases hlt : m < gy.N 0 t * gx.N 1 t
          · rw [if_pos hlt, if_pos hlt]
            simp only [bB, List.getD_cons_zero, List.getD_cons_succ]
          · obtain ⟨hi', hj'⟩ := mod_div_lt (m := m - gy.N 0 t * gx.N 1 t) (r := gy.N 1 t) (c := gx.N 0 t) (by omega)
            rw [if_neg hlt, if_neg hlt]
            simp only [bB, List.getD_cons_zero, List.getD_cons_succ, rx.eq 0 t _ hi' x hX.1, ry.eq 1 t _ hj' y hX1.2, omul]
            rfl
  · match σ, hσ with
    | [f], hσ =>
      refine ⟨_, _, P2_mtab hx hy t f, R_flat hx hy 2 t _, fun x y h => ?_⟩
      have hX := h 1 (by decide) (by decide)
      rw [show Grid2.ncomp (2 : Fin 3) = 1 from rfl]
      show [_] = [_]
      refine congrArg (fun z => [z]) ?_
      beta_reduce
      rw [foldl_opt fun m => b 1 t (m % gx.N 1 t) x * b' 1 t (m / gx.N 1 t) y]
      · refine congrArg some (Eq.trans (sum_congr rfl fun m hm => ?_) (core2 sx sy rx ry 1 1 t hσ hX.1 hX.2))
        obtain ⟨hi', hj'⟩ := mod_div_lt (r := gy.N 1 t) (c := gx.N 1 t) (mem_range.1 hm)
        congr 1
        unfold mtab
        rw [getD_tab (show m < gy.N 1 t * gx.N 1 t from mem_range.1 hm), pe1 hx t _ hi']
        unfold Integrate.P2r
        simp only [pe1 hy t _ hj']
      · intro m hm
        obtain ⟨hi', hj'⟩ := mod_div_lt (r := gy.N 1 t) (c := gx.N 1 t) hm
        simp only [flatB, bB, List.getD_cons_zero, rx.eq 1 t _ hi' x hX.1, ry.eq 1 t _ hj' y hX.2, omul]
        rfl
end

/-- **C70**, two dimensions: on the product of two grids of any kinds and sizes, reconstructing the projection of a form whose components are sums of
products of functions that the coefficients in each direction determine gives the form back, at every point of the rectangle (without the ends named in
`Inside`, for forms of degree one and two). -/
theorem C70_reconstruct_2d (k k' : Kind) (n n' : ℕ) (hn : validSize k n) (hn' : validSize k' n') (d : Fin 3) (t : Bool) (σ : List (ℝ → ℝ → ℝ))
    (hσ : TensorForm (fun e => Determined k n e t) (fun e => Determined k' n' e t) d σ) :
    ∃ a r, (product (grid₀ k n) (grid₀ k' n')).P d t σ = .ok a ∧ (product (grid₀ k n) (grid₀ k' n')).R d t a = .ok r ∧
      ∀ x ∈ Inside k (if d = 0 then 0 else 1), ∀ y ∈ Inside k' (if d = 0 then 0 else 1), r x y = σ.map fun f => some (f x y) := by
  obtain ⟨a, r, h1, h2, h3⟩ := recon2_exact (spans' k n hn) (spans' k' n' hn') d t σ hσ
  refine ⟨a, r, h1, h2, fun x hx y hy => h3 x y fun e he0 he2 => ?_⟩
  have mono : ∀ (k : Kind) (z : ℝ), z ∈ Inside k (if d = 0 then 0 else 1) → z ∈ Inside k e := fun k z hz => by
    by_cases h0 : d = 0
    · rw [if_pos h0] at hz; rw [he0 h0]; exact hz
    · rw [if_neg h0] at hz
      obtain rfl | rfl : e = 0 ∨ e = 1 := by omega
      · cases k
        · exact hz
        · exact hz
        · exact Set.Ioo_subset_Icc_self hz
      · exact hz
  exact ⟨inside_dom k n hn e t (mono k x hx), inside_dom k' n' hn' e t (mono k' y hy)⟩

/-! ## Non-vacuity -/

/-- On four points of the circle, `cos 2θ` is determined by the primal vertices ... -/
example : Determined .periodic 4 0 true fun θ => 3 + sin θ + 5 * cos (2 * θ) := by
  refine ⟨fun θ => 3 + sin θ, 5, IsTrig.add (isTrig_const _ 3) (isTrig_sin_nat (m := 1) (by norm_num) |>.congr fun θ => by simp), fun h => by omega, fun θ => ?_⟩
  simp

/-- ... `x² + x` by three Chebyshev vertices, and by a grid of four as a primal 1-form. -/
example : Determined .chebyshev 3 0 true (fun x => x ^ 2 + x) ∧ Determined .chebyshev 4 1 true fun x => x ^ 2 + x := by
  constructor
  · exact ⟨fun k => if k = 0 then 0 else 1, fun x => by simp [sum_range_succ]; ring⟩
  · exact ⟨fun k => if k = 0 then 0 else 1, fun x => by simp [sum_range_succ]; ring⟩

end Dec.Props
