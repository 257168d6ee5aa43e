import Verif.Model.Np
import Mathlib.Tactic

set_option linter.unusedSimpArgs false

/-! Lemmas that bring every numpy primitive into the normal form `tab n f`. -/

namespace Dec

open Finset

variable {α β γ : Type*}

@[simp] theorem length_tab (n : ℕ) (f : ℕ → α) : (tab n f).length = n := by simp [tab]

@[simp] theorem getElem_tab (n : ℕ) (f : ℕ → α) (i : ℕ) (h : i < (tab n f).length) :
    (tab n f)[i] = f i := by simp [tab]

theorem getElem?_tab (n : ℕ) (f : ℕ → α) (i : ℕ) :
    (tab n f)[i]? = if i < n then some (f i) else none := by
  simp only [tab, List.getElem?_map, List.getElem?_range']
  split <;> simp_all [List.getElem?_range]

theorem getD_tab {n : ℕ} {f : ℕ → α} {i : ℕ} (h : i < n) (d : α) : (tab n f).getD i d = f i := by
  simp [List.getD, getElem?_tab, h]

theorem getD_tab_ge {n : ℕ} {f : ℕ → α} {i : ℕ} (h : n ≤ i) (d : α) : (tab n f).getD i d = d := by
  simp [List.getD, getElem?_tab, Nat.not_lt.mpr h]

theorem tab_congr {n : ℕ} {f g : ℕ → α} (h : ∀ i, i < n → f i = g i) : tab n f = tab n g := by
  apply List.ext_getElem <;> simp
  intro i hi; exact h i hi

theorem tab_congr' {n m : ℕ} {f g : ℕ → α} (hn : n = m) (h : ∀ i, i < n → f i = g i) :
    tab n f = tab m g := by subst hn; exact tab_congr h

theorem tab_inj {n : ℕ} {f g : ℕ → α} : tab n f = tab n g ↔ ∀ i, i < n → f i = g i := by
  constructor
  · intro h i hi
    have := congrArg (fun l => l[i]?) h
    simpa [getElem?_tab, hi] using this
  · exact tab_congr

theorem eq_tab (x : List α) (d : α) : x = tab x.length (fun i => x.getD i d) := by
  apply List.ext_getElem
  · simp
  · intro i h1 h2; simp [List.getD, h1]

theorem eq_tab' {x : List α} {n : ℕ} (h : x.length = n) (d : α) :
    x = tab n (fun i => x.getD i d) := by subst h; exact eq_tab x d

theorem eq_tab_of {x : List α} {n : ℕ} {f : ℕ → α} (h : x.length = n) (d : α)
    (hf : ∀ i, i < n → x.getD i d = f i) : x = tab n f := by
  rw [eq_tab' h d]; exact tab_congr hf

@[simp] theorem tab_zero (f : ℕ → α) : tab 0 f = [] := by simp [tab]

theorem tab_succ (n : ℕ) (f : ℕ → α) : tab (n + 1) f = f 0 :: tab n (fun i => f (i + 1)) := by
  simp [tab, List.range_succ_eq_map]

theorem tab_succ' (n : ℕ) (f : ℕ → α) : tab (n + 1) f = tab n f ++ [f n] := by
  simp [tab, List.range_succ]

@[simp] theorem map_tab (g : α → β) (n : ℕ) (f : ℕ → α) :
    (tab n f).map g = tab n (fun i => g (f i)) := by simp [tab]

theorem zipWith_tab (op : α → β → γ) (n : ℕ) (f : ℕ → α) (g : ℕ → β) :
    List.zipWith op (tab n f) (tab n g) = tab n (fun i => op (f i) (g i)) := by
  apply List.ext_getElem <;> simp

theorem zipWith_tab' (op : α → β → γ) (n m : ℕ) (f : ℕ → α) (g : ℕ → β) :
    List.zipWith op (tab n f) (tab m g) = tab (min n m) (fun i => op (f i) (g i)) := by
  apply List.ext_getElem <;> simp

@[simp] theorem vadd_tab [Add α] (n : ℕ) (f g : ℕ → α) :
    vadd (tab n f) (tab n g) = tab n (fun i => f i + g i) := zipWith_tab _ _ _ _
@[simp] theorem vsub_tab [Sub α] (n : ℕ) (f g : ℕ → α) :
    vsub (tab n f) (tab n g) = tab n (fun i => f i - g i) := zipWith_tab _ _ _ _
@[simp] theorem vmul_tab [Mul α] (n : ℕ) (f g : ℕ → α) :
    vmul (tab n f) (tab n g) = tab n (fun i => f i * g i) := zipWith_tab _ _ _ _
@[simp] theorem vdiv_tab [Div α] (n : ℕ) (f g : ℕ → α) :
    vdiv (tab n f) (tab n g) = tab n (fun i => f i / g i) := zipWith_tab _ _ _ _
@[simp] theorem smul_tab [Mul α] (c : α) (n : ℕ) (f : ℕ → α) :
    smul c (tab n f) = tab n (fun i => c * f i) := map_tab _ _ _

theorem tail_tab (n : ℕ) (f : ℕ → α) : (tab n f).tail = tab (n - 1) (fun i => f (i + 1)) := by
  cases n <;> simp [tab_succ]

theorem dropLast_tab (n : ℕ) (f : ℕ → α) : (tab n f).dropLast = tab (n - 1) f := by
  cases n <;> simp [tab_succ']

theorem take_tab (m n : ℕ) (f : ℕ → α) : (tab n f).take m = tab (min m n) f := by
  apply List.ext_getElem <;> simp

theorem drop_tab (m n : ℕ) (f : ℕ → α) : (tab n f).drop m = tab (n - m) (fun i => f (m + i)) := by
  apply List.ext_getElem <;> simp

theorem reverse_tab (n : ℕ) (f : ℕ → α) : (tab n f).reverse = tab n (fun i => f (n - 1 - i)) := by
  apply List.ext_getElem <;> simp

theorem append_tab (m n : ℕ) (f g : ℕ → α) :
    tab m f ++ tab n g = tab (m + n) (fun i => if i < m then f i else g (i - m)) := by
  apply List.ext_getElem
  · simp
  · intro i h1 h2
    rw [List.getElem_append]
    split <;> rename_i h <;> simp at h <;> simp [h]

theorem cons_tab (a : α) (n : ℕ) (f : ℕ → α) :
    a :: tab n f = tab (n + 1) (fun i => if i = 0 then a else f (i - 1)) := by
  rw [tab_succ]; simp

theorem append_singleton_tab (a : α) (n : ℕ) (f : ℕ → α) :
    tab n f ++ [a] = tab (n + 1) (fun i => if i < n then f i else a) := by
  rw [tab_succ']
  simp only [lt_irrefl, if_false]
  congr 1
  exact tab_congr (fun i hi => by simp [hi])

theorem singleton_tab (a : α) : [a] = tab 1 (fun _ => a) := by simp [tab_succ]

theorem replicate_tab (n : ℕ) (a : α) : List.replicate n a = tab n (fun _ => a) := by
  apply List.ext_getElem <;> simp

@[simp] theorem diff_tab [Sub α] (n : ℕ) (f : ℕ → α) :
    diff (tab n f) = tab (n - 1) (fun i => f (i + 1) - f i) := by
  unfold diff
  rw [tail_tab, zipWith_tab', Nat.min_eq_left (by omega)]

@[simp] theorem length_roll (x : List α) (s : ℤ) : (roll x s).length = x.length := by simp [roll]

theorem roll_tab (N : ℕ) (f : ℕ → α) (s : ℤ) :
    roll (tab N f) s = tab N (fun k => f (((k : ℤ) - s) % N).toNat) := by
  rcases Nat.eq_zero_or_pos N with rfl | hN
  · simp [roll]
  apply List.ext_getElem
  · simp
  · intro k h1 h2
    simp only [roll, length_tab, List.getElem_rotate, getElem_tab]
    congr 1
    have hN' : (N : ℤ) ≠ 0 := by omega
    have h3 := Int.emod_nonneg (-s) hN'
    have h4 := Int.emod_nonneg ((k : ℤ) - s) hN'
    zify
    rw [Int.toNat_of_nonneg h3, Int.toNat_of_nonneg h4]
    rw [Int.add_emod, Int.emod_emod_of_dvd _ (dvd_refl _), ← Int.add_emod, sub_eq_add_neg]

theorem roll_neg_one_tab (N : ℕ) (f : ℕ → α) :
    roll (tab N f) (-1) = tab N (fun k => f ((k + 1) % N)) := by
  rw [roll_tab]; apply tab_congr; intro k hk
  congr 1

theorem roll_one_tab (N : ℕ) (f : ℕ → α) :
    roll (tab N f) 1 = tab N (fun k => f ((k + N - 1) % N)) := by
  rw [roll_tab]; apply tab_congr; intro k hk
  congr 1
  zify [show 1 ≤ k + N by omega]
  rw [Int.toNat_of_nonneg (Int.emod_nonneg _ (by omega))]
  rw [show (k : ℤ) + N - 1 = (k - 1) + N by ring, Int.add_emod_right]

theorem stride2_tab (n : ℕ) (f : ℕ → α) :
    stride2 (tab n f) = tab ((n + 1) / 2) (fun i => f (2 * i)) := by
  induction n using Nat.twoStepInduction generalizing f with
  | zero => simp [stride2]
  | one => simp [tab_succ, stride2]
  | more n ih _ =>
    rw [show (n + 1 + 1 + 1) / 2 = (n + 1) / 2 + 1 by omega, tab_succ, tab_succ, stride2, ih, tab_succ]
    rfl

theorem stride2'_tab (n : ℕ) (f : ℕ → α) :
    stride2' (tab n f) = tab (n / 2) (fun i => f (2 * i + 1)) := by
  unfold stride2'
  rw [tail_tab, stride2_tab]
  apply tab_congr' (by omega); intro i _; rfl

theorem sum_tab [AddCommMonoid α] (n : ℕ) (f : ℕ → α) : (tab n f).sum = ∑ i ∈ range n, f i := by
  induction n with
  | zero => simp
  | succ n ih => rw [tab_succ', List.sum_append, ih, Finset.sum_range_succ]; simp

theorem cumsum_tab [AddCommMonoid α] (n : ℕ) (f : ℕ → α) :
    cumsum (tab n f) = tab n (fun k => ∑ i ∈ range (k + 1), f i) := by
  induction n generalizing f with
  | zero => simp [cumsum]
  | succ n ih =>
    rw [tab_succ, cumsum, ih, tab_succ]
    simp only [map_tab, zero_add, Finset.sum_range_one, List.cons.injEq, true_and]
    apply tab_congr; intro i _
    rw [Finset.sum_range_succ' _ (i + 1), add_comm]

@[simp] theorem length_vadd [Add α] (x y : List α) :
    (vadd x y).length = min x.length y.length := by simp [vadd]
@[simp] theorem length_vsub [Sub α] (x y : List α) :
    (vsub x y).length = min x.length y.length := by simp [vsub]
@[simp] theorem length_vmul [Mul α] (x y : List α) :
    (vmul x y).length = min x.length y.length := by simp [vmul]
@[simp] theorem length_vdiv [Div α] (x y : List α) :
    (vdiv x y).length = min x.length y.length := by simp [vdiv]

@[simp] theorem re_tab (n : ℕ) (f : ℕ → ℂ) : re (tab n f) = tab n (fun i => (f i).re) := map_tab _ _ _
@[simp] theorem toC_tab (n : ℕ) (f : ℕ → ℝ) : toC (tab n f) = tab n (fun i => (f i : ℂ)) := map_tab _ _ _
@[simp] theorem length_re (x : List ℂ) : (re x).length = x.length := by simp [re]
@[simp] theorem length_toC (x : List ℝ) : (toC x).length = x.length := by simp [toC]
@[simp] theorem re_toC (x : List ℝ) : re (toC x) = x := by simp [re, toC, Function.comp_def]

end Dec
