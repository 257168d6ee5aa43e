import Verif.Lib.Condition
import Verif.Props.Energy
import Verif.Props.Cells
import Verif.Props.Grid2Exact

set_option linter.unusedSimpArgs false
set_option linter.unusedVariables false

/-! # C104: the stars of periodic and regular grids are uniformly well conditioned -/

namespace Dec.Props

open Finset Real Dec.Sp Dec.G2

/-- The `i`-th entry of `g.delta`. -/
noncomputable def del (g : Grid1) (t : Bool) (i : ℕ) : ℝ := (g.delta t).getD i 0

theorem delta_periodic (n : ℕ) (hn : 1 ≤ n) (t : Bool) : (grid₀ .periodic n).delta t = tab n fun _ => hh n := by
  have h := (C12_cell_lengths_periodic n hn 0 (2 * π) (by positivity) t).2
  rw [sub_zero, replicate_tab] at h
  exact h

theorem delta_regular_primal (n : ℕ) (hn : 2 ≤ n) : (grid₀ .regular n).delta true = tab (n - 1) fun _ => hh (2 * n - 2) := by
  show diff (Regular.verts n 0 π) = _
  rw [Regular.verts_tab, diff_tab]
  have h : ((n - 1 : ℕ) : ℝ) ≠ 0 := by exact_mod_cast (by omega : n - 1 ≠ 0)
  refine tab_congr fun i _ => ?_
  unfold hh
  rw [show 2 * n - 2 = 2 * (n - 1) by omega]
  push_cast
  field_simp
  ring

theorem delta_regular_dual (n : ℕ) (hn : 2 ≤ n) : (grid₀ .regular n).delta false = tab n fun i => hh (2 * n - 2) * if i = 0 ∨ i = n - 1 then 1 / 2 else 1 := by
  show diff (Regular.tmp n 0 π) = _
  unfold Regular.tmp
  rw [diff_eq, Regular.verts_dual_tab, tmp_tail hn, tmp_dropLast hn, vsub_tab]
  have h : ((n - 1 : ℕ) : ℝ) ≠ 0 := by exact_mod_cast (by omega : n - 1 ≠ 0)
  have e : hh (2 * n - 2) = π / ((n - 1 : ℕ) : ℝ) := by
    unfold hh
    rw [show 2 * n - 2 = 2 * (n - 1) by omega]
    push_cast
    field_simp
  rw [e]
  refine tab_congr fun i hi => ?_
  rcases Nat.eq_zero_or_pos i with rfl | h0
  · rw [if_pos rfl, if_pos (by omega), if_pos (by omega)]
    push_cast; ring
  · rw [if_neg (by omega : ¬ i = 0), Nat.cast_sub (by omega : 1 ≤ i)]
    by_cases h1 : i = n - 1
    · rw [if_neg (by omega), if_pos (by omega), h1]
      push_cast; field_simp; ring
    · rw [if_pos (by omega), if_neg (by omega)]
      push_cast; ring

theorem delta_pos (k : Kind) (n : ℕ) (hn : validSize k n) (hk : k ≠ .chebyshev) (t : Bool) (i : ℕ) (hi : i < (grid₀ k n).N 1 t) : 0 < del (grid₀ k n) t i := by
  unfold del
  cases k
  · have h0 : 0 < hh n := hh_pos hn
    rw [delta_periodic n hn, getD_tab (lt_of_lt_of_eq hi (by cases t <;> rfl))]; exact h0
  · have hn : 2 ≤ n := hn
    have h0 : 0 < hh (2 * n - 2) := hh_pos (by omega)
    cases t
    · have hi : i < n := hi
      rw [delta_regular_dual n hn, getD_tab hi]
      split_ifs <;> positivity
    · have hi : i < n - 1 := hi
      rw [delta_regular_primal n hn, getD_tab hi]; exact h0
  · exact absurd rfl hk

/-- The matrix of a star of 0-forms, with its bounds. -/
theorem star_between (k : Kind) (n : ℕ) (hn : validSize k n) (hk : k ≠ .chebyshev) (t : Bool) :
    ∃ S, HasMat ((grid₀ k n).N 0 t) ((grid₀ k n).N 0 t) ((grid₀ k n).H 0 t) S ∧ MPos ((grid₀ k n).N 0 t) S ∧
      Between ((grid₀ k n).N 0 t) (del (grid₀ k n) (!t)) (2 / π) 1 S := by
  obtain ⟨a, b, e⟩ := grid₀_eq k n
  obtain ⟨S, h1, h2⟩ := grid_mpos k n hn hk a b 0 t
  rw [← e] at h1 h2
  refine ⟨S, h1, h2, fun f => ?_⟩
  have key : ∀ L : List ℝ → List ℝ, (∀ x, (grid₀ k n).H 0 t x = .ok (L x)) → bil ((grid₀ k n).N 0 t) S f f = dot (tab ((grid₀ k n).N 0 t) f) (L (tab ((grid₀ k n).N 0 t) f)) := fun L hL => by
    have h := h1 f
    rw [hL] at h
    rw [Except.ok.inj h, dot_tab]
    rfl
  cases k
  · have hn : 0 < n := hn
    have hN : (grid₀ .periodic n).N 0 t = n := by cases t <;> rfl
    rw [key Hs (fun x => by cases t <;> rfl), hN]
    have hw : ∀ i ∈ range n, del (grid₀ .periodic n) (!t) i * f i ^ 2 = hh n * f i ^ 2 := fun i hi => by
      unfold del; rw [delta_periodic n hn, getD_tab (mem_range.1 hi)]
    rw [sum_congr rfl hw, one_mul]
    exact Hs_between hn f
  · have hn : 2 ≤ n := hn
    cases t
    · rw [key Regular.rH0d fun x => by show Except.ok (re (Regular.H0d (toC x))) = _; rw [Regular.H0d_real, re_toC]]
      have hw : ∀ i ∈ range (n - 1), del (grid₀ .regular n) (!false) i * f i ^ 2 = hh (2 * (n - 1)) * f i ^ 2 := fun i hi => by
        unfold del
        rw [Bool.not_false, delta_regular_primal n hn, getD_tab (mem_range.1 hi), show 2 * n - 2 = 2 * (n - 1) by omega]
      rw [show (grid₀ .regular n).N 0 false = n - 1 from rfl, sum_congr rfl hw, one_mul]
      exact Regular.rH0d_between (by omega) f
    · rw [key Regular.rH0 fun x => by show Except.ok (re (Regular.H0 (toC x))) = _; rw [Regular.H0_real, re_toC]]
      have hw : ∀ i ∈ range n, del (grid₀ .regular n) (!true) i * f i ^ 2 = hh (2 * n - 2) * (if i = 0 ∨ i = n - 1 then 1 / 2 else 1) * f i ^ 2 := fun i hi => by
        unfold del
        rw [Bool.not_true, delta_regular_dual n hn, getD_tab (mem_range.1 hi)]
      rw [show (grid₀ .regular n).N 0 true = n from rfl, sum_congr rfl hw, one_mul]
      exact Regular.rH0_between hn f
  · exact absurd rfl hk

/-- The diagonal star of the textbooks: the size of the dual cell over the size of the cell, where points have size one and `g.delta` holds the lengths of the edges. -/
noncomputable def ratio (g : Grid1) (d : Fin 2) (t : Bool) (i : ℕ) : ℝ := if d = 0 then (g.delta (!t)).getD i 0 else ((g.delta t).getD i 0)⁻¹

/-- The constants. -/
noncomputable def lower (d : Fin 2) : ℝ := if d = 0 then 2 / π else 1
noncomputable def upper (d : Fin 2) : ℝ := if d = 0 then 1 else π / 2

theorem lower_pos (d : Fin 2) : 0 < lower d := by unfold lower; split_ifs <;> positivity
theorem upper_pos (d : Fin 2) : 0 < upper d := by unfold upper; split_ifs <;> positivity

theorem ratio_pos (k : Kind) (n : ℕ) (hn : validSize k n) (hk : k ≠ .chebyshev) (d : Fin 2) (t : Bool) (i : ℕ) (hi : i < (grid₀ k n).N d t) : 0 < ratio (grid₀ k n) d t i := by
  unfold ratio
  obtain ⟨a, b, e⟩ := grid₀_eq k n
  obtain rfl | rfl : d = 0 ∨ d = 1 := by omega
  · rw [if_pos rfl]
    refine delta_pos k n hn hk (!t) i ?_
    rw [e] at hi ⊢
    rwa [(grid_swap hn a b t).1]
  · rw [if_neg (by decide)]
    exact inv_pos.2 (delta_pos k n hn hk t i hi)

/-- A star and its inverse as matrices, with the bounds. -/
theorem star_good (k : Kind) (n : ℕ) (hn : validSize k n) (hk : k ≠ .chebyshev) (d : Fin 2) (t : Bool) :
    ∃ S T : ℕ → ℕ → ℝ, HasMat ((grid₀ k n).N d t) ((grid₀ k n).N d t) ((grid₀ k n).H d t) S ∧ MPos ((grid₀ k n).N d t) S ∧
      Between ((grid₀ k n).N d t) (ratio (grid₀ k n) d t) (lower d) (upper d) S ∧
      (∀ (f : ℕ → ℝ), ∀ i < (grid₀ k n).N d t, ∑ j ∈ range ((grid₀ k n).N d t), S i j * ∑ l ∈ range ((grid₀ k n).N d t), T j l * f l = f i) ∧
      (∀ (f : ℕ → ℝ), ∀ i < (grid₀ k n).N d t, ∑ j ∈ range ((grid₀ k n).N d t), T i j * ∑ l ∈ range ((grid₀ k n).N d t), S j l * f l = f i) := by
  obtain ⟨a, b, e⟩ := grid₀_eq k n
  have hS := grid_stars k n hn (fun h => absurd h hk) a b
  have hd : (1 - (1 - d) : Fin 2) = d := by omega
  have hN : (grid₀ k n).N (1 - d) (!t) = (grid₀ k n).N d t := by
    rw [e]
    obtain rfl | rfl : d = 0 ∨ d = 1 := by omega
    · exact (grid_swap hn a b t).1
    · exact (grid_swap hn a b t).2
  obtain ⟨S, h1, h2⟩ := grid_mpos k n hn hk a b d t
  obtain ⟨T, h3, h4⟩ := grid_mpos k n hn hk a b (1 - d) (!t)
  rw [← e] at h1 h2 h3 h4 hS
  rw [hN] at h3 h4
  have i1 : ∀ (f : ℕ → ℝ), ∀ i < (grid₀ k n).N d t, ∑ j ∈ range ((grid₀ k n).N d t), T i j * ∑ l ∈ range ((grid₀ k n).N d t), S j l * f l = f i := fun f => by
    have := hS.inv d t (tab _ f) (length_tab _ _)
    rw [h1 f] at this
    have h := h3 fun j => ∑ l ∈ range ((grid₀ k n).N d t), S j l * f l
    simp only [Bind.bind, Except.bind] at this
    rw [h] at this
    exact tab_inj.1 (Except.ok.inj this)
  have i2 : ∀ (f : ℕ → ℝ), ∀ i < (grid₀ k n).N d t, ∑ j ∈ range ((grid₀ k n).N d t), S i j * ∑ l ∈ range ((grid₀ k n).N d t), T j l * f l = f i := fun f => by
    have := hS.inv (1 - d) (!t) (tab ((grid₀ k n).N d t) f) (by rw [length_tab, hN])
    rw [h3 f] at this
    have h := h1 fun j => ∑ l ∈ range ((grid₀ k n).N d t), T j l * f l
    simp only [Bind.bind, Except.bind] at this
    rw [hd, Bool.not_not, h] at this
    exact tab_inj.1 (Except.ok.inj this)
  refine ⟨S, T, h1, h2, ?_, i2, i1⟩
  have zero : ∀ t : Bool, ∀ S, HasMat ((grid₀ k n).N 0 t) ((grid₀ k n).N 0 t) ((grid₀ k n).H 0 t) S → Between ((grid₀ k n).N 0 t) (del (grid₀ k n) (!t)) (2 / π) 1 S := fun t S hS f => by
    obtain ⟨S', p1, p2, p3⟩ := star_between k n hn hk t
    have : bil ((grid₀ k n).N 0 t) S f f = bil ((grid₀ k n).N 0 t) S' f f := by
      have h := hS f
      rw [p1 f] at h
      have h := tab_inj.1 (Except.ok.inj h)
      unfold bil
      exact sum_congr rfl fun i hi => by rw [h i (mem_range.1 hi)]
    rw [this]; exact p3 f
  obtain rfl | rfl : d = 0 ∨ d = 1 := by omega
  · have := zero t S h1
    unfold lower upper
    rw [if_pos rfl, if_pos rfl]
    intro f
    have h := this f
    unfold ratio
    simp only [if_true]
    exact h
  · have hN' : (grid₀ k n).N 0 (!t) = (grid₀ k n).N 1 t := hN
    have h3' : HasMat ((grid₀ k n).N 0 (!t)) ((grid₀ k n).N 0 (!t)) ((grid₀ k n).H 0 (!t)) T := by rw [hN']; exact h3
    have := zero (!t) T h3'
    rw [hN', Bool.not_not] at this
    have h := this.inverse (T := S) h4 (fun i hi => delta_pos k n hn hk t i hi) (by positivity) one_pos i1
    unfold lower upper
    rw [if_neg (by decide), if_neg (by decide)]
    rw [inv_one, inv_div] at h
    intro f
    have h := h f
    unfold ratio
    simp only [show ¬ (1 : Fin 2) = 0 by decide, if_false]
    exact h

/-! ## One dimension -/

theorem sum_sq_tab {n : ℕ} (c f : ℕ → ℝ) : ∑ i ∈ range n, c i * (tab n f).getD i 0 ^ 2 = ∑ i ∈ range n, c i * f i ^ 2 :=
  sum_congr rfl fun i hi => by rw [getD_tab (mem_range.1 hi)]

section
variable (k : Kind) (n : ℕ) (hn : validSize k n) (hk : k ≠ .chebyshev) (d : Fin 2) (t : Bool) (x : List ℝ) (hx : x.length = (grid₀ k n).N d t)
include hn hk hx

/-- **C104** (one dimension): on periodic and regular grids of any size the inner product `sum(x * H(x))` of the spectral star lies between the inner product of the diagonal star
and a constant times it: for 0-forms between `2/π` and `1`, for 1-forms between `1` and `π/2`. -/
theorem C104_inner_product :
    ∃ u, (grid₀ k n).H d t x = .ok u ∧
      (if d = 0 then 2 / π else 1) * ∑ i ∈ range x.length, ratio (grid₀ k n) d t i * x.getD i 0 ^ 2 ≤ dot x u ∧
      dot x u ≤ (if d = 0 then 1 else π / 2) * ∑ i ∈ range x.length, ratio (grid₀ k n) d t i * x.getD i 0 ^ 2 := by
  obtain ⟨S, T, h1, h2, h3, -, -⟩ := star_good k n hn hk d t
  obtain ⟨f, rfl⟩ : ∃ f, x = tab ((grid₀ k n).N d t) f := ⟨_, eq_tab' hx 0⟩
  have h := h3 f
  refine ⟨_, h1 f, ?_⟩
  rw [dot_tab, length_tab, sum_sq_tab]
  exact h

/-- **C104** (one dimension): errors grow by at most the factor `π/2`, independently of the number of cells: in the norms of the diagonal star, `‖H(x)‖` lies between the same multiples of `‖x‖`. -/
theorem C104_condition :
    ∃ u, (grid₀ k n).H d t x = .ok u ∧ u.length = x.length ∧
      (if d = 0 then 2 / π else 1) ^ 2 * ∑ i ∈ range x.length, ratio (grid₀ k n) d t i * x.getD i 0 ^ 2 ≤ ∑ i ∈ range x.length, (ratio (grid₀ k n) d t i)⁻¹ * u.getD i 0 ^ 2 ∧
      ∑ i ∈ range x.length, (ratio (grid₀ k n) d t i)⁻¹ * u.getD i 0 ^ 2 ≤ (if d = 0 then 1 else π / 2) ^ 2 * ∑ i ∈ range x.length, ratio (grid₀ k n) d t i * x.getD i 0 ^ 2 := by
  obtain ⟨S, T, h1, h2, h3, h4, h5⟩ := star_good k n hn hk d t
  obtain ⟨f, rfl⟩ : ∃ f, x = tab ((grid₀ k n).N d t) f := ⟨_, eq_tab' hx 0⟩
  have h := h3.image h2 (ratio_pos k n hn hk d t) (lower_pos d) (upper_pos d) h4 h5 f
  refine ⟨_, h1 f, by rw [length_tab, length_tab], ?_⟩
  rw [length_tab, sum_sq_tab, sum_sq_tab (fun i => (ratio (grid₀ k n) d t i)⁻¹)]
  exact h

end

/-! ## Two dimensions -/

theorem sum_sq_data {m n : ℕ} (c : ℕ → ℕ → ℝ) (F : ℕ → ℕ → ℝ) :
    ∑ j ∈ range m, ∑ i ∈ range n, c j i * (mtab m n F).data.getD (j * n + i) 0 ^ 2 = ∑ j ∈ range m, ∑ i ∈ range n, c j i * F j i ^ 2 :=
  sum_congr rfl fun j hj => sum_congr rfl fun i hi => by rw [getD_data (mem_range.1 hj) (mem_range.1 hi)]

theorem sum_sq_fst {m n : ℕ} (c : ℕ → ℕ → ℝ) (F : ℕ → ℕ → ℝ) (l : List ℝ) :
    ∑ j ∈ range m, ∑ i ∈ range n, c j i * ((mtab m n F).data ++ l).getD (j * n + i) 0 ^ 2 = ∑ j ∈ range m, ∑ i ∈ range n, c j i * F j i ^ 2 :=
  sum_congr rfl fun j hj => sum_congr rfl fun i hi => by rw [getD_fst (mem_range.1 hj) (mem_range.1 hi)]

theorem sum_sq_snd {r s m n : ℕ} (c : ℕ → ℕ → ℝ) (E F : ℕ → ℕ → ℝ) :
    ∑ j ∈ range m, ∑ i ∈ range n, c j i * ((mtab r s E).data ++ (mtab m n F).data).getD (r * s + (j * n + i)) 0 ^ 2 = ∑ j ∈ range m, ∑ i ∈ range n, c j i * F j i ^ 2 :=
  sum_congr rfl fun j hj => sum_congr rfl fun i hi => by rw [getD_snd (mem_range.1 hj) (mem_range.1 hi)]

section
variable (k k' : Kind) (n n' : ℕ) (hn : validSize k n) (hn' : validSize k' n') (hk : k ≠ .chebyshev) (hk' : k' ≠ .chebyshev) (t : Bool)

local notation "gx" => grid₀ k n
local notation "gy" => grid₀ k' n'
local notation "𝔾" => product (grid₀ k n) (grid₀ k' n')

include hn hn' hk hk' in
theorem star_mat₀ : ∃ S T R Q : Fin 2 → ℕ → ℕ → ℝ, 
    (∀ d, MPos ((gx).N d t) (S d) ∧ Between ((gx).N d t) (ratio gx d t) (lower d) (upper d) (S d) ∧
      (∀ (f : ℕ → ℝ), ∀ i < (gx).N d t, ∑ j ∈ range ((gx).N d t), S d i j * ∑ l ∈ range ((gx).N d t), T d j l * f l = f i) ∧
      (∀ (f : ℕ → ℝ), ∀ i < (gx).N d t, ∑ j ∈ range ((gx).N d t), T d i j * ∑ l ∈ range ((gx).N d t), S d j l * f l = f i)) ∧
    (∀ d, MPos ((gy).N d t) (R d) ∧ Between ((gy).N d t) (ratio gy d t) (lower d) (upper d) (R d) ∧
      (∀ (f : ℕ → ℝ), ∀ i < (gy).N d t, ∑ j ∈ range ((gy).N d t), R d i j * ∑ l ∈ range ((gy).N d t), Q d j l * f l = f i) ∧
      (∀ (f : ℕ → ℝ), ∀ i < (gy).N d t, ∑ j ∈ range ((gy).N d t), Q d i j * ∑ l ∈ range ((gy).N d t), R d j l * f l = f i)) ∧
    (∀ F, (𝔾).H 0 t (mtab ((gy).N 0 t) ((gx).N 0 t) F).data = .ok (mtab ((gy).N 0 t) ((gx).N 0 t) (kron ((gy).N 0 t) ((gx).N 0 t) (R 0) (S 0) F)).data) ∧
    (∀ F, (𝔾).H 2 t (mtab ((gy).N 1 t) ((gx).N 1 t) F).data = .ok (mtab ((gy).N 1 t) ((gx).N 1 t) (kron ((gy).N 1 t) ((gx).N 1 t) (R 1) (S 1) F)).data) ∧
    (∀ X Y, (𝔾).H 1 t ((mtab ((gy).N 0 t) ((gx).N 1 t) X).data ++ (mtab ((gy).N 1 t) ((gx).N 0 t) Y).data)
      = .ok ((mtab ((gy).N 1 t) ((gx).N 0 t) fun j i => -kron ((gy).N 1 t) ((gx).N 0 t) (R 1) (S 0) Y j i).data ++
        (mtab ((gy).N 0 t) ((gx).N 1 t) (kron ((gy).N 0 t) ((gx).N 1 t) (R 0) (S 1) X)).data)) := by
  have Fx := grid₀_factor k n hn
  have Fy := grid₀_factor k' n' hn'
  choose S T hS pS bS iS jS using fun d => star_good k n hn hk d t
  choose R Q hR pR bR iR jR using fun d => star_good k' n' hn' hk' d t
  have kr : ∀ (m n : ℕ) (R S F : ℕ → ℕ → ℝ) (j i : ℕ), ∑ k ∈ range n, S i k * ∑ l ∈ range m, R j l * F l k = kron m n R S F j i := fun m n R S F j i => by
    unfold kron; simp only [mul_sum]; rw [sum_comm]; exact sum_congr rfl fun _ _ => sum_congr rfl fun _ _ => by ring
  have kr' : ∀ (m n : ℕ) (R S F : ℕ → ℕ → ℝ) (j i : ℕ), ∑ l ∈ range m, R j l * ∑ k ∈ range n, S i k * F l k = kron m n R S F j i := fun m n R S F j i => by
    unfold kron; simp only [mul_sum]; exact sum_congr rfl fun _ _ => sum_congr rfl fun _ _ => by ring
  refine ⟨S, T, R, Q, fun d => ⟨pS d, bS d, iS d, jS d⟩, fun d => ⟨pR d, bR d, iR d, jR d⟩, fun F => ?_, fun F => ?_, fun X Y => ?_⟩
  · rw [H0_mtab Fx Fy t (Fy.pos 0 t) (fun i _ => hR 0 fun j => F j i) (fun j _ => hS 0 _)]
    exact congrArg (fun K => Except.ok (mtab _ _ K).data) (funext fun j => funext fun i => kr _ _ (R 0) (S 0) F j i)
  · rw [H2_mtab Fx Fy t (Fy.pos 1 t) (fun i _ => hR 1 fun j => F j i) (fun j _ => hS 1 _)]
    exact congrArg (fun K => Except.ok (mtab _ _ K).data) (funext fun j => funext fun i => kr _ _ (R 1) (S 1) F j i)
  · rw [H1_mtab Fx Fy t (Fy.pos 1 t) (Fx.pos 1 t) (fun i _ => hR 1 fun j => Y j i) (fun j _ => hS 0 _) (fun j _ => hS 1 (X j)) (fun i _ => hR 0 _)]
    refine congrArg₂ (fun K K' => Except.ok ((mtab _ _ K).data ++ (mtab _ _ K').data)) (funext fun j => funext fun i => ?_) (funext fun j => funext fun i => kr' _ _ (R 0) (S 1) X j i)
    rw [kr]

include hn hn' hk hk'

/-- **C104** (two dimensions, 0- and 2-forms): the same on products of periodic and regular grids: the inner product of the spectral star lies between that of the diagonal star
and a constant times it. -/
theorem C104_inner_product_2d (f : List ℝ) :
    ((𝔾).N 0 t = .ok f.length → ∃ u, (𝔾).H 0 t f = .ok u ∧
      (2 / π) ^ 2 * ∑ j ∈ range ((gy).N 0 t), ∑ i ∈ range ((gx).N 0 t), ratio gy 0 t j * ratio gx 0 t i * f.getD (j * (gx).N 0 t + i) 0 ^ 2 ≤ dot f u ∧
      dot f u ≤ ∑ j ∈ range ((gy).N 0 t), ∑ i ∈ range ((gx).N 0 t), ratio gy 0 t j * ratio gx 0 t i * f.getD (j * (gx).N 0 t + i) 0 ^ 2) ∧
    ((𝔾).N 2 t = .ok f.length → ∃ u, (𝔾).H 2 t f = .ok u ∧
      ∑ j ∈ range ((gy).N 1 t), ∑ i ∈ range ((gx).N 1 t), ratio gy 1 t j * ratio gx 1 t i * f.getD (j * (gx).N 1 t + i) 0 ^ 2 ≤ dot f u ∧
      dot f u ≤ (π / 2) ^ 2 * ∑ j ∈ range ((gy).N 1 t), ∑ i ∈ range ((gx).N 1 t), ratio gy 1 t j * ratio gx 1 t i * f.getD (j * (gx).N 1 t + i) 0 ^ 2) := by
  have Fx := grid₀_factor k n hn
  have Fy := grid₀_factor k' n' hn'
  obtain ⟨S, T, R, Q, hS, hR, h0, h2, h1⟩ := star_mat₀ k k' n n' hn hn' hk hk' t
  constructor
  · intro hf
    rw [N_eq Fx Fy, Except.ok.injEq] at hf
    obtain ⟨F, rfl⟩ := flat0 (show f.length = (gy).N 0 t * (gx).N 0 t from hf.symm)
    have h := (hR 0).2.1.kron (hS 0).2.1 (hR 0).1 (hS 0).1 (ratio_pos k' n' hn' hk' 0 t) (ratio_pos k n hn hk 0 t) (lower_pos 0) (upper_pos 0) F
    refine ⟨_, h0 F, ?_⟩
    rw [dot_data, sum_sq_data (fun j i => ratio gy 0 t j * ratio gx 0 t i)]
    unfold lower upper at h
    simp only [if_true, ← pow_two, one_pow, one_mul] at h
    exact h
  · intro hf
    rw [N_eq Fx Fy, Except.ok.injEq] at hf
    obtain ⟨F, rfl⟩ := flat0 (show f.length = (gy).N 1 t * (gx).N 1 t from hf.symm)
    have h := (hR 1).2.1.kron (hS 1).2.1 (hR 1).1 (hS 1).1 (ratio_pos k' n' hn' hk' 1 t) (ratio_pos k n hn hk 1 t) (lower_pos 1) (upper_pos 1) F
    refine ⟨_, h2 F, ?_⟩
    rw [dot_data, sum_sq_data (fun j i => ratio gy 1 t j * ratio gx 1 t i)]
    unfold lower upper at h
    simp only [show ¬ (1 : Fin 2) = 0 by decide, if_false, ← pow_two, one_pow, one_mul] at h
    exact h

/-- **C104** (two dimensions, 1-forms): `∫ α∧*α` lies between `2/π` and `π/2` times the value of the diagonal star. The entries of `α` are the x-edges row by row, then the y-edges. -/
theorem C104_inner_product_2d_one (α : List ℝ) (hα : (𝔾).N 1 t = .ok α.length) :
    ∃ u, (𝔾).H 1 t α = .ok u ∧
      2 / π * (∑ j ∈ range ((gy).N 0 t), ∑ i ∈ range ((gx).N 1 t), ratio gy 0 t j * ratio gx 1 t i * α.getD (j * (gx).N 1 t + i) 0 ^ 2 +
        ∑ j ∈ range ((gy).N 1 t), ∑ i ∈ range ((gx).N 0 t), ratio gy 1 t j * ratio gx 0 t i * α.getD ((gy).N 0 t * (gx).N 1 t + (j * (gx).N 0 t + i)) 0 ^ 2) ≤ pair1 gx gy t α u ∧
      pair1 gx gy t α u ≤ π / 2 * (∑ j ∈ range ((gy).N 0 t), ∑ i ∈ range ((gx).N 1 t), ratio gy 0 t j * ratio gx 1 t i * α.getD (j * (gx).N 1 t + i) 0 ^ 2 +
        ∑ j ∈ range ((gy).N 1 t), ∑ i ∈ range ((gx).N 0 t), ratio gy 1 t j * ratio gx 0 t i * α.getD ((gy).N 0 t * (gx).N 1 t + (j * (gx).N 0 t + i)) 0 ^ 2) := by
  have Fx := grid₀_factor k n hn
  have Fy := grid₀_factor k' n' hn'
  obtain ⟨a, b, ex⟩ := grid₀_eq k n
  obtain ⟨a', b', ey⟩ := grid₀_eq k' n'
  obtain ⟨S, T, R, Q, hS, hR, h0, h2, h1⟩ := star_mat₀ k k' n n' hn hn' hk hk' t
  obtain ⟨ex1, ex2⟩ := grid_swap hn a b t
  obtain ⟨ey1, ey2⟩ := grid_swap hn' a' b' t
  rw [← ex] at ex1 ex2
  rw [← ey] at ey1 ey2
  rw [N_eq Fx Fy, Except.ok.injEq] at hα
  obtain ⟨X, Y, rfl⟩ := flat1 (show α.length = (gy).N 0 t * (gx).N 1 t + (gy).N 1 t * (gx).N 0 t from hα.symm)
  have key : pair1 gx gy t ((mtab ((gy).N 0 t) ((gx).N 1 t) X).data ++ (mtab ((gy).N 1 t) ((gx).N 0 t) Y).data)
      ((mtab ((gy).N 1 t) ((gx).N 0 t) fun j i => -kron ((gy).N 1 t) ((gx).N 0 t) (R 1) (S 0) Y j i).data ++
        (mtab ((gy).N 0 t) ((gx).N 1 t) (kron ((gy).N 0 t) ((gx).N 1 t) (R 0) (S 1) X)).data)
      = dot2 ((gy).N 0 t) ((gx).N 1 t) X (kron ((gy).N 0 t) ((gx).N 1 t) (R 0) (S 1) X) + dot2 ((gy).N 1 t) ((gx).N 0 t) Y (kron ((gy).N 1 t) ((gx).N 0 t) (R 1) (S 0) Y) := by
    unfold pair1 xEdges
    rw [ex1, ey2]
    rw [List.take_left' (length_data _ _ _), List.drop_left' (length_data _ _ _), List.take_left' (length_data _ _ _), List.drop_left' (length_data _ _ _)]
    rw [dot_data, dot_data]
    unfold dot2
    simp only [mul_neg, sum_neg_distrib, sub_neg_eq_add]
  refine ⟨_, h1 X Y, ?_⟩
  rw [key, sum_sq_fst, sum_sq_snd]
  have q1 := (hR 0).2.1.kron (hS 1).2.1 (hR 0).1 (hS 1).1 (ratio_pos k' n' hn' hk' 0 t) (ratio_pos k n hn hk 1 t) (lower_pos 0) (upper_pos 0) X
  have q2 := (hR 1).2.1.kron (hS 0).2.1 (hR 1).1 (hS 0).1 (ratio_pos k' n' hn' hk' 1 t) (ratio_pos k n hn hk 0 t) (lower_pos 1) (upper_pos 1) Y
  unfold lower upper at q1 q2
  simp only [show ¬ (1 : Fin 2) = 0 by decide, if_true, if_false, one_mul, mul_one] at q1 q2
  rw [mul_add, mul_add]
  exact ⟨add_le_add q1.1 q2.1, add_le_add q1.2 q2.2⟩

/-- **C104** (two dimensions): the stars of 0- and 2-forms amplify errors by at most `(π/2)²`, independently of the number of cells. -/
theorem C104_condition_2d (f : List ℝ) :
    ((𝔾).N 0 t = .ok f.length → ∃ u, (𝔾).H 0 t f = .ok u ∧ u.length = f.length ∧
      (2 / π) ^ 4 * ∑ j ∈ range ((gy).N 0 t), ∑ i ∈ range ((gx).N 0 t), ratio gy 0 t j * ratio gx 0 t i * f.getD (j * (gx).N 0 t + i) 0 ^ 2
        ≤ ∑ j ∈ range ((gy).N 0 t), ∑ i ∈ range ((gx).N 0 t), (ratio gy 0 t j * ratio gx 0 t i)⁻¹ * u.getD (j * (gx).N 0 t + i) 0 ^ 2 ∧
      ∑ j ∈ range ((gy).N 0 t), ∑ i ∈ range ((gx).N 0 t), (ratio gy 0 t j * ratio gx 0 t i)⁻¹ * u.getD (j * (gx).N 0 t + i) 0 ^ 2
        ≤ ∑ j ∈ range ((gy).N 0 t), ∑ i ∈ range ((gx).N 0 t), ratio gy 0 t j * ratio gx 0 t i * f.getD (j * (gx).N 0 t + i) 0 ^ 2) ∧
    ((𝔾).N 2 t = .ok f.length → ∃ u, (𝔾).H 2 t f = .ok u ∧ u.length = f.length ∧
      ∑ j ∈ range ((gy).N 1 t), ∑ i ∈ range ((gx).N 1 t), ratio gy 1 t j * ratio gx 1 t i * f.getD (j * (gx).N 1 t + i) 0 ^ 2
        ≤ ∑ j ∈ range ((gy).N 1 t), ∑ i ∈ range ((gx).N 1 t), (ratio gy 1 t j * ratio gx 1 t i)⁻¹ * u.getD (j * (gx).N 1 t + i) 0 ^ 2 ∧
      ∑ j ∈ range ((gy).N 1 t), ∑ i ∈ range ((gx).N 1 t), (ratio gy 1 t j * ratio gx 1 t i)⁻¹ * u.getD (j * (gx).N 1 t + i) 0 ^ 2
        ≤ (π / 2) ^ 4 * ∑ j ∈ range ((gy).N 1 t), ∑ i ∈ range ((gx).N 1 t), ratio gy 1 t j * ratio gx 1 t i * f.getD (j * (gx).N 1 t + i) 0 ^ 2) := by
  have Fx := grid₀_factor k n hn
  have Fy := grid₀_factor k' n' hn'
  obtain ⟨S, T, R, Q, hS, hR, h0, h2, h1⟩ := star_mat₀ k k' n n' hn hn' hk hk' t
  constructor
  · intro hf
    rw [N_eq Fx Fy, Except.ok.injEq] at hf
    obtain ⟨F, rfl⟩ := flat0 (show f.length = (gy).N 0 t * (gx).N 0 t from hf.symm)
    have h := (hR 0).2.1.kron_image (hS 0).2.1 (hR 0).1 (hS 0).1 (ratio_pos k' n' hn' hk' 0 t) (ratio_pos k n hn hk 0 t) (lower_pos 0) (upper_pos 0) (lower_pos 0) (upper_pos 0)
      (hR 0).2.2.1 (hR 0).2.2.2 (hS 0).2.2.1 (hS 0).2.2.2 F
    refine ⟨_, h0 F, by rw [length_data, length_data], ?_⟩
    rw [sum_sq_data (fun j i => ratio gy 0 t j * ratio gx 0 t i), sum_sq_data (fun j i => (ratio gy 0 t j * ratio gx 0 t i)⁻¹)]
    unfold lower upper at h
    simp only [if_true, ← pow_two, ← pow_mul, one_pow, one_mul] at h
    exact h
  · intro hf
    rw [N_eq Fx Fy, Except.ok.injEq] at hf
    obtain ⟨F, rfl⟩ := flat0 (show f.length = (gy).N 1 t * (gx).N 1 t from hf.symm)
    have h := (hR 1).2.1.kron_image (hS 1).2.1 (hR 1).1 (hS 1).1 (ratio_pos k' n' hn' hk' 1 t) (ratio_pos k n hn hk 1 t) (lower_pos 1) (upper_pos 1) (lower_pos 1) (upper_pos 1)
      (hR 1).2.2.1 (hR 1).2.2.2 (hS 1).2.2.1 (hS 1).2.2.2 F
    refine ⟨_, h2 F, by rw [length_data, length_data], ?_⟩
    rw [sum_sq_data (fun j i => ratio gy 1 t j * ratio gx 1 t i), sum_sq_data (fun j i => (ratio gy 1 t j * ratio gx 1 t i)⁻¹)]
    unfold lower upper at h
    simp only [show ¬ (1 : Fin 2) = 0 by decide, if_false, ← pow_two, ← pow_mul, one_pow, one_mul] at h
    exact h

/-- **C104** (two dimensions): so does the star of 1-forms. -/
theorem C104_condition_2d_one (α : List ℝ) (hα : (𝔾).N 1 t = .ok α.length) :
    ∃ u, (𝔾).H 1 t α = .ok u ∧ u.length = α.length ∧
      (2 / π) ^ 2 * (∑ j ∈ range ((gy).N 0 t), ∑ i ∈ range ((gx).N 1 t), ratio gy 0 t j * ratio gx 1 t i * α.getD (j * (gx).N 1 t + i) 0 ^ 2 +
          ∑ j ∈ range ((gy).N 1 t), ∑ i ∈ range ((gx).N 0 t), ratio gy 1 t j * ratio gx 0 t i * α.getD ((gy).N 0 t * (gx).N 1 t + (j * (gx).N 0 t + i)) 0 ^ 2)
        ≤ ∑ j ∈ range ((gy).N 1 t), ∑ i ∈ range ((gx).N 0 t), (ratio gy 1 t j * ratio gx 0 t i)⁻¹ * u.getD (j * (gx).N 0 t + i) 0 ^ 2 +
          ∑ j ∈ range ((gy).N 0 t), ∑ i ∈ range ((gx).N 1 t), (ratio gy 0 t j * ratio gx 1 t i)⁻¹ * u.getD ((gy).N 1 t * (gx).N 0 t + (j * (gx).N 1 t + i)) 0 ^ 2 ∧
      ∑ j ∈ range ((gy).N 1 t), ∑ i ∈ range ((gx).N 0 t), (ratio gy 1 t j * ratio gx 0 t i)⁻¹ * u.getD (j * (gx).N 0 t + i) 0 ^ 2 +
          ∑ j ∈ range ((gy).N 0 t), ∑ i ∈ range ((gx).N 1 t), (ratio gy 0 t j * ratio gx 1 t i)⁻¹ * u.getD ((gy).N 1 t * (gx).N 0 t + (j * (gx).N 1 t + i)) 0 ^ 2
        ≤ (π / 2) ^ 2 * (∑ j ∈ range ((gy).N 0 t), ∑ i ∈ range ((gx).N 1 t), ratio gy 0 t j * ratio gx 1 t i * α.getD (j * (gx).N 1 t + i) 0 ^ 2 +
          ∑ j ∈ range ((gy).N 1 t), ∑ i ∈ range ((gx).N 0 t), ratio gy 1 t j * ratio gx 0 t i * α.getD ((gy).N 0 t * (gx).N 1 t + (j * (gx).N 0 t + i)) 0 ^ 2) := by
  have Fx := grid₀_factor k n hn
  have Fy := grid₀_factor k' n' hn'
  obtain ⟨S, T, R, Q, hS, hR, h0, h2, h1⟩ := star_mat₀ k k' n n' hn hn' hk hk' t
  rw [N_eq Fx Fy, Except.ok.injEq] at hα
  obtain ⟨X, Y, rfl⟩ := flat1 (show α.length = (gy).N 0 t * (gx).N 1 t + (gy).N 1 t * (gx).N 0 t from hα.symm)
  refine ⟨_, h1 X Y, by rw [List.length_append, List.length_append, length_data, length_data, length_data, length_data, add_comm], ?_⟩
  rw [sum_sq_fst, sum_sq_snd, sum_sq_fst (fun j i => (ratio gy 1 t j * ratio gx 0 t i)⁻¹), sum_sq_snd (fun j i => (ratio gy 0 t j * ratio gx 1 t i)⁻¹)]
  simp only [neg_sq]
  have q1 := (hR 0).2.1.kron_image (hS 1).2.1 (hR 0).1 (hS 1).1 (ratio_pos k' n' hn' hk' 0 t) (ratio_pos k n hn hk 1 t) (lower_pos 0) (upper_pos 0) (lower_pos 1) (upper_pos 1)
    (hR 0).2.2.1 (hR 0).2.2.2 (hS 1).2.2.1 (hS 1).2.2.2 X
  have q2 := (hR 1).2.1.kron_image (hS 0).2.1 (hR 1).1 (hS 0).1 (ratio_pos k' n' hn' hk' 1 t) (ratio_pos k n hn hk 0 t) (lower_pos 1) (upper_pos 1) (lower_pos 0) (upper_pos 0)
    (hR 1).2.2.1 (hR 1).2.2.2 (hS 0).2.2.1 (hS 0).2.2.2 Y
  unfold lower upper at q1 q2
  simp only [show ¬ (1 : Fin 2) = 0 by decide, if_true, if_false, one_mul, mul_one] at q1 q2
  rw [mul_add, mul_add]
  exact ⟨by linarith [q1.1, q2.1], by linarith [q1.2, q2.2]⟩

end

/-! ## The hypotheses are met -/

/-- The weights are positive, so the bounds are bounds by norms. -/
theorem C104_weights_pos (k : Kind) (n : ℕ) (hn : validSize k n) (hk : k ≠ .chebyshev) (d : Fin 2) (t : Bool) :
    ∀ i < (grid₀ k n).N d t, 0 < ratio (grid₀ k n) d t i := ratio_pos k n hn hk d t

/-- A regular grid with three points and one array. -/
example : ∃ u, (grid₀ .regular 3).H 0 true [1, -2, 5] = .ok u ∧
    2 / π * (π / 4 * 1 ^ 2 + π / 2 * (-2) ^ 2 + π / 4 * 5 ^ 2) ≤ dot [1, -2, 5] u ∧ dot [1, -2, 5] u ≤ π / 4 * 1 ^ 2 + π / 2 * (-2) ^ 2 + π / 4 * 5 ^ 2 := by
  obtain ⟨u, h1, h2, h3⟩ := C104_inner_product .regular 3 (show 2 ≤ 3 by norm_num) (by decide) 0 true [1, -2, 5] rfl
  refine ⟨u, h1, ?_⟩
  have e : hh 4 = π / 2 := by unfold hh; push_cast; ring
  have r : ∀ i, i < 3 → ratio (grid₀ .regular 3) 0 true i = if i = 0 ∨ i = 2 then π / 4 else π / 2 := fun i hi => by
    unfold ratio
    rw [if_pos rfl, show (!true) = false from rfl, delta_regular_dual 3 (by norm_num), getD_tab hi, show 2 * 3 - 2 = 4 from rfl, e]
    by_cases h : i = 0 ∨ i = 2
    · rw [if_pos h, if_pos h]; ring
    · rw [if_neg h, if_neg h]; ring
  simp only [List.length_cons, List.length_nil, sum_range_succ, sum_range_zero, if_true] at h2 h3
  rw [r 0 (by norm_num), r 1 (by norm_num), r 2 (by norm_num)] at h2 h3
  norm_num at h2 h3 ⊢
  constructor <;> linarith

/-- A cylinder. -/
example : ∃ u, (product (grid₀ .periodic 4) (grid₀ .regular 3)).H 1 false (List.replicate 20 1) = .ok u :=
  let ⟨u, h, _⟩ := C104_inner_product_2d_one .periodic .regular 4 3 (show 1 ≤ 4 by norm_num) (show 2 ≤ 3 by norm_num) (by decide) (by decide) false (List.replicate 20 1) (by
    rw [N_eq (grid₀_factor .periodic 4 (show 1 ≤ 4 by norm_num)) (grid₀_factor .regular 3 (show 2 ≤ 3 by norm_num))]; rfl)
  ⟨u, h⟩

end Dec.Props
