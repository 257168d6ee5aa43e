import Verif.Model.Grid2
import Verif.Lib.Tab
import Verif.Lib.ELin

set_option linter.unusedSimpArgs false
set_option linter.unusedVariables false

/-! # Two-dimensional arrays in the normal form `mtab r c f` -/

namespace Dec.G2

open Finset

variable {α β : Type*}

/-- The array with entries `f i j`, `i < r`, `j < c`. -/
def mtab (r c : ℕ) (f : ℕ → ℕ → α) : Arr α := ⟨r, c, tab (r * c) fun k => f (k / c) (k % c)⟩

theorem mtab_congr {r c : ℕ} {f g : ℕ → ℕ → α} (h : ∀ i < r, ∀ j < c, f i j = g i j) : mtab r c f = mtab r c g := by
  unfold mtab
  congr 1
  refine tab_congr fun k hk => h _ (Nat.div_lt_of_lt_mul (by rwa [mul_comm])) _ (Nat.mod_lt _ ?_)
  rcases Nat.eq_zero_or_pos c with rfl | h
  · simp at hk
  · exact h

theorem flatten_tab (r c : ℕ) (f : ℕ → ℕ → α) : (tab r fun i => tab c (f i)).flatten = tab (r * c) fun k => f (k / c) (k % c) := by
  induction r with
  | zero => simp
  | succ r ih =>
    unfold tab at *
    rw [List.range_succ, List.map_append, List.flatten_append, ih, Nat.succ_mul, List.range_add, List.map_append]
    congr 1
    simp only [List.map_singleton, List.flatten_singleton, List.map_map]
    refine List.map_congr_left fun j hj => ?_
    rw [List.mem_range] at hj
    have hc : 0 < c := by omega
    simp only [Function.comp]
    rw [mul_comm r c, Nat.mul_add_div hc, Nat.div_eq_of_lt hj, Nat.mul_add_mod, Nat.mod_eq_of_lt hj, add_zero]

theorem flatMap_tab (r c : ℕ) (f : ℕ → ℕ → α) : ((List.range r).flatMap fun i => tab c (f i)) = tab (r * c) fun k => f (k / c) (k % c) := by
  rw [← flatten_tab, List.flatMap_def]; rfl

theorem wf_mtab (r c : ℕ) (f : ℕ → ℕ → α) : (mtab r c f).Wf := by simp [Arr.Wf, mtab]

theorem idx_lt {r c i j : ℕ} (hi : i < r) (hj : j < c) : i * c + j < r * c := by
  calc i * c + j < i * c + c := by omega
    _ = (i + 1) * c := by ring
    _ ≤ r * c := Nat.mul_le_mul_right c hi

theorem idx_div {c i j : ℕ} (hj : j < c) : (i * c + j) / c = i := by
  rw [mul_comm, Nat.mul_add_div (by omega), Nat.div_eq_of_lt hj, add_zero]
theorem idx_mod {c i j : ℕ} (hj : j < c) : (i * c + j) % c = j := by
  rw [mul_comm, Nat.mul_add_mod, Nat.mod_eq_of_lt hj]

theorem Arr.Wf.eq_mtab {X : Arr α} (h : X.Wf) (d : α) : X = mtab X.r X.c fun i j => X.data.getD (i * X.c + j) d := by
  obtain ⟨r, c, data⟩ := X
  simp only [Arr.Wf] at h
  unfold mtab
  simp only
  congr 1
  refine (eq_tab' h d).trans (tab_congr fun k hk => ?_)
  rw [Nat.div_add_mod' k c]

theorem rows_mtab (r c : ℕ) (f : ℕ → ℕ → α) : (mtab r c f).rows = tab r fun i => tab c (f i) := by
  unfold Arr.rows
  refine List.map_congr_left fun i hi => ?_
  rw [List.mem_range] at hi
  apply List.ext_getElem
  · simp only [mtab, List.length_take, List.length_drop, length_tab]
    have : i * c + c ≤ r * c := by calc i * c + c = (i + 1) * c := by ring
      _ ≤ r * c := Nat.mul_le_mul_right c hi
    omega
  · intro j h1 h2
    rw [length_tab] at h2
    rw [List.getElem_take, List.getElem_drop]
    simp only [mtab, getElem_tab]
    rw [idx_div h2, idx_mod h2]

theorem filterMap_range (r : ℕ) (g : ℕ → Option α) (f : ℕ → α) (h : ∀ i < r, g i = some (f i)) : (List.range r).filterMap g = tab r f := by
  induction r with
  | zero => simp
  | succ r ih =>
    rw [List.range_succ, List.filterMap_append, ih fun i hi => h i (by omega)]
    simp only [List.filterMap_cons, h r (by omega), List.filterMap_nil]
    unfold tab; rw [List.range_succ, List.map_append]; rfl

theorem transpose_mtab (r c : ℕ) (f : ℕ → ℕ → α) : (mtab r c f).transpose = mtab c r fun i j => f j i := by
  unfold Arr.transpose
  have e : ((List.range c).flatMap fun j => (List.range r).filterMap fun i => (mtab r c f).data[i * c + j]?)
      = (List.range c).flatMap fun j => tab r fun i => f i j := by
    rw [List.flatMap_def, List.flatMap_def]
    congr 1
    refine List.map_congr_left fun j hj => ?_
    rw [List.mem_range] at hj
    refine filterMap_range _ _ _ fun i hi => ?_
    simp only [mtab, getElem?_tab, if_pos (idx_lt hi hj), idx_div hj, idx_mod hj]
  show (⟨c, r, _⟩ : Arr α) = _
  simp only [mtab] at e ⊢
  rw [e, flatMap_tab c r (fun i j => f j i)]

theorem mapM_tab {r : ℕ} {γ : Type*} {x : ℕ → β} {h : β → Except Err γ} {y : ℕ → γ} (H : ∀ i < r, h (x i) = .ok (y i)) : (tab r x).mapM h = .ok (tab r y) := by
  induction r generalizing x y with
  | zero => simp; rfl
  | succ r ih =>
    rw [tab_succ, tab_succ, List.mapM_cons, H 0 (by omega), ih fun i hi => H (i + 1) (by omega)]
    rfl

theorem apply1_mtab {h : List ℝ → Except Err (List ℝ)} {r c m : ℕ} {f g : ℕ → ℕ → ℝ} (hr : 0 < r) (H : ∀ i < r, h (tab c (f i)) = .ok (tab m (g i))) :
    apply1 h (mtab r c f) = .ok (mtab r m g) := by
  unfold apply1
  rw [if_neg (by show ¬ r = 0; omega), rows_mtab, mapM_tab H]
  have e1 : ((tab r fun i => tab m (g i)).headD []).length = m := by
    obtain ⟨r, rfl⟩ : ∃ k, r = k + 1 := ⟨r - 1, by omega⟩
    rw [tab_succ]; simp
  show (if ((tab r fun i => tab m (g i)).all fun y => y.length == ((tab r fun i => tab m (g i)).headD []).length) = true then _ else _) = _
  rw [if_pos]
  · rw [e1, flatten_tab]; rfl
  · rw [e1, List.all_eq_true]
    intro y hy
    simp only [tab, List.mem_map, List.mem_range] at hy
    obtain ⟨i, -, rfl⟩ := hy
    simp

theorem apply0_mtab {h : List ℝ → Except Err (List ℝ)} {r c m : ℕ} {f g : ℕ → ℕ → ℝ} (hc : 0 < c)
    (H : ∀ j < c, h (tab r fun i => f i j) = .ok (tab m fun i => g i j)) : apply0 h (mtab r c f) = .ok (mtab m c g) := by
  unfold apply0
  rw [transpose_mtab, apply1_mtab (g := fun j i => g i j) hc H]
  show Except.ok (Arr.transpose _) = _
  rw [transpose_mtab]

theorem neg_mtab (r c : ℕ) (f : ℕ → ℕ → ℝ) : (mtab r c f).neg = mtab r c fun i j => -f i j := by
  unfold Arr.neg mtab
  simp only [tab, List.map_map, Function.comp_def]

theorem bop2_mtab (op : ℝ → ℝ → ℝ) (r c : ℕ) (f g : ℕ → ℕ → ℝ) : bop2 op (mtab r c f) (mtab r c g) = .ok (mtab r c fun i j => op (f i j) (g i j)) := by
  unfold bop2
  rw [if_pos ⟨rfl, rfl⟩]
  simp only [mtab, zipWith_tab]

theorem map2_mtab (f : ℝ → ℝ → α) (r c : ℕ) (x y : ℕ → ℕ → ℝ) : map2 f (mtab r c x) (mtab r c y) = mtab r c fun i j => f (x i j) (y i j) := by
  simp only [map2, mtab, zipWith_tab]
theorem map3_mtab (f : ℝ → ℝ → ℝ → α) (r c : ℕ) (x y z : ℕ → ℕ → ℝ) : map3 f (mtab r c x) (mtab r c y) (mtab r c z) = mtab r c fun i j => f (x i j) (y i j) (z i j) := by
  simp only [map3, mtab, zipWith_tab]
theorem map4_mtab (f : ℝ → ℝ → ℝ → ℝ → α) (r c : ℕ) (x y z w : ℕ → ℕ → ℝ) :
    map4 f (mtab r c x) (mtab r c y) (mtab r c z) (mtab r c w) = mtab r c fun i j => f (x i j) (y i j) (z i j) (w i j) := by
  simp only [map4, mtab, zipWith_tab]

theorem meshgrid_tab (n m : ℕ) (u w : ℕ → α) : meshgrid (tab n u) (tab m w) = (mtab m n fun _ i => u i, mtab m n fun j _ => w j) := by
  unfold meshgrid
  have e1 : ((tab m w).flatMap fun _ => tab n u) = tab (m * n) fun k => u (k % n) := by
    rw [← flatMap_tab m n fun _ i => u i]; unfold tab; rw [List.flatMap_map]
  have e2 : ((tab m w).flatMap fun y => List.replicate (tab n u).length y) = tab (m * n) fun k => w (k / n) := by
    rw [← flatMap_tab m n fun j _ => w j]; unfold tab; rw [List.flatMap_map]
    congr 1; funext j; simp
  rw [e1, e2]; simp [mtab]

/-! ## Flattening -/

theorem slice_zero (x : List α) (b : ℕ) : slice x 0 b = x.take b := by simp [slice]

theorem reshape_arr {x : List α} {r c : ℕ} (h : x.length = r * c) : reshape x (.arr (r, c)) = .ok (.arr ⟨r, c, x⟩) := by
  simp only [reshape, reshape1, if_pos h]; rfl

theorem reshape_pair {x : List α} {r c r' c' : ℕ} (h : x.length = r * c + r' * c') :
    reshape x (.tup [(r, c), (r', c')]) = .ok (.tup [⟨r, c, x.take (r * c)⟩, ⟨r', c', x.drop (r * c)⟩]) := by
  simp only [reshape]
  rw [if_neg (by simp)]
  have e : split x (cumul_index [(r, c), (r', c')]).dropLast = [x.take (r * c), x.drop (r * c)] := by
    simp [split, cumul_index, cumsum, slice]
  rw [e]
  simp only [List.zip_cons_cons, List.zip_nil_right, List.mapM_cons, List.mapM_nil, reshape1]
  rw [if_pos (by simp; omega), if_pos (by simp; omega)]
  rfl

theorem reshape_arr_data {X : Arr α} (h : X.Wf) : reshape X.data (.arr (X.r, X.c)) = .ok (.arr X) := reshape_arr h

theorem reshape_pair_data {X Y : Arr α} (hX : X.Wf) (hY : Y.Wf) :
    reshape (X.data ++ Y.data) (.tup [(X.r, X.c), (Y.r, Y.c)]) = .ok (.tup [X, Y]) := by
  rw [reshape_pair (by simp [hX.symm, hY.symm, Arr.Wf] at *)]
  have h1 : (X.data ++ Y.data).take (X.r * X.c) = X.data := by rw [← hX]; simp
  have h2 : (X.data ++ Y.data).drop (X.r * X.c) = Y.data := by rw [← hX]; simp
  rw [h1, h2]

end Dec.G2
