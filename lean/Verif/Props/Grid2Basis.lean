import Verif.Model.Nan2
import Verif.Lib.Proj2
import Verif.Props.Basis

set_option linter.unusedSimpArgs false
set_option linter.unusedVariables false

/-! # C53: two-dimensional basis functions are dual to the projections -/

namespace Dec.Props

open Finset Real Dec.G2 MeasureTheory

/-! ## Unravelling -/

theorem unravel_arr {r c m : ℕ} (h : m < r * c) : unravel_index (m : ℤ) (r, c) = .ok (m / c, m % c) := by
  unfold unravel_index
  rw [if_pos ⟨by omega, by exact_mod_cast h⟩]; simp

theorem unravel_fst {r c r' c' m : ℕ} (h : m < r * c) : unravel_idx (m : ℤ) [(r, c), (r', c')] = .ok (0, m / c, m % c) := by
  have h1 : ((m : ℕ) : ℤ) < ((r * c : ℕ) : ℤ) := by exact_mod_cast h
  have e := unravel_arr h
  simp only [unravel_idx, cumul_index, cumsum, List.map, List.dropLast, List.tail, List.zip, List.zipWith, unravelLoop]
  rw [if_pos ⟨by positivity, by exact_mod_cast h⟩]
  simp only [Nat.cast_zero, sub_zero, e, Bind.bind, Except.bind]

theorem unravel_snd {r c r' c' m : ℕ} (h : r * c ≤ m) (h' : m < r * c + r' * c') :
    unravel_idx (m : ℤ) [(r, c), (r', c')] = .ok (1, (m - r * c) / c', (m - r * c) % c') := by
  have e := unravel_arr (m := m - r * c) (r := r') (c := c') (by omega)
  simp only [unravel_idx, cumul_index, cumsum, List.map, List.dropLast, List.tail, List.zip, List.zipWith, unravelLoop]
  rw [if_neg (by push Not; intro _; exact_mod_cast h), if_pos ⟨by exact_mod_cast h, by exact_mod_cast h'⟩]
  rw [show (m : ℤ) - ((r * c : ℕ) : ℤ) = ((m - r * c : ℕ) : ℤ) by push_cast [h]; rfl, e]
  simp only [Bind.bind, Except.bind]

theorem unravel_out {r c : ℕ} {m : ℤ} (h : ¬ (0 ≤ m ∧ m < (r * c : ℕ))) : unravel_index m (r, c) = .error .valueError := if_neg h

theorem unravel_out2 {r c r' c' : ℕ} {m : ℤ} (h : ¬ (0 ≤ m ∧ m < (r * c + r' * c' : ℕ))) :
    unravel_idx m [(r, c), (r', c')] = .error .valueError := by
  simp only [unravel_idx, cumul_index, cumsum, List.map, List.dropLast, List.tail, List.zip, List.zipWith, unravelLoop]
  push_cast at h ⊢
  have h1 : (0 : ℤ) ≤ (r' : ℤ) * c' := by positivity
  have h2 : (0 : ℤ) ≤ (r : ℤ) * c := by positivity
  rw [if_neg (by omega), if_neg (by omega)]

/-! ## Integrals of products -/

theorem oint_of {f : ℝ → Option ℝ} {x y v : ℝ} (h : OInt f x y v) : oint f x y = some v := by
  unfold oint
  rw [if_neg]
  · rw [h.val]
  · rw [min_eq_left h.le, max_eq_right h.le]
    rintro ⟨s, hs, hn⟩
    obtain ⟨r, hr⟩ := h.some s hs
    rw [hr] at hn; cases hn

theorem OInt.mul_const {f : ℝ → Option ℝ} {x y v : ℝ} (h : OInt f x y v) (c : ℝ) : OInt (fun s => omul (f s) (some c)) x y (v * c) := by
  have e : (fun s => (omul (f s) (some c)).getD 0) = fun s => (f s).getD 0 * c := by
    funext s
    cases f s <;> simp [omul]
  refine ⟨h.le, fun s hs => ?_, ?_, ?_⟩
  · obtain ⟨r, hr⟩ := h.some s hs
    exact ⟨r * c, by simp [omul, hr]⟩
  · rw [e]; exact h.int.mul_const c
  · simp only [e, intervalIntegral.integral_mul_const, h.val]

theorem OInt.const_mul {f : ℝ → Option ℝ} {x y v : ℝ} (h : OInt f x y v) (c : ℝ) : OInt (fun s => omul (some c) (f s)) x y (c * v) := by
  have := OInt.mul_const h c
  rw [mul_comm]
  convert this using 2 with s
  cases f s <;> simp [omul, mul_comm]

theorem OInt.zero {x y : ℝ} (h : x ≤ y) : OInt (fun _ => some 0) x y 0 := ⟨h, fun s _ => ⟨0, rfl⟩, by simp, by simp⟩

/-- Sums of separated functions, in the form produced by a reconstruction. -/
theorem oint2_sum {M : ℕ} {f g : ℕ → ℝ → Option ℝ} {x0 x1 y0 y1 : ℝ} {v w : ℕ → ℝ} (a : ℕ → ℝ) (hx : x0 ≤ x1) (hy : y0 ≤ y1)
    (hf : ∀ m < M, OInt (f m) x0 x1 (v m)) (hg : ∀ m < M, OInt (g m) y0 y1 (w m)) {F : ℝ → ℝ → Option ℝ}
    (hF : ∀ x ∈ Set.Ioo x0 x1, ∀ y ∈ Set.Ioo y0 y1, F x y = some (∑ m ∈ range M, a m * ((f m x).getD 0 * (g m y).getD 0))) :
    oint2 F x0 y0 x1 y1 = some (∑ m ∈ range M, a m * (v m * w m)) := by
  unfold oint2
  rw [if_neg]
  swap
  · rw [min_eq_left hx, max_eq_right hx, min_eq_left hy, max_eq_right hy]
    rintro ⟨x, hx', y, hy', hn⟩
    rw [hF x hx' y hy'] at hn; cases hn
  congr 1
  have inner : ∀ y ∈ Set.Ioo y0 y1, ∫ x in x0..x1, (F x y).getD 0 = ∑ m ∈ range M, a m * (v m * (g m y).getD 0) := by
    intro y hy'
    have e : ∫ x in x0..x1, (F x y).getD 0 = ∫ x in x0..x1, ∑ m ∈ range M, a m * ((f m x).getD 0 * (g m y).getD 0) := by
      rw [intervalIntegral.integral_of_le hx, intervalIntegral.integral_of_le hx, integral_Ioc_eq_integral_Ioo, integral_Ioc_eq_integral_Ioo]
      refine setIntegral_congr_fun measurableSet_Ioo fun x hx' => ?_
      beta_reduce
      rw [hF x hx' y hy']; rfl
    rw [e, intervalIntegral.integral_finset_sum fun m hm => ((hf m (mem_range.1 hm)).int.mul_const _).const_mul _]
    refine sum_congr rfl fun m hm => ?_
    rw [intervalIntegral.integral_const_mul, intervalIntegral.integral_mul_const, (hf m (mem_range.1 hm)).val]
  have e : ∫ y in y0..y1, ∫ x in x0..x1, (F x y).getD 0 = ∫ y in y0..y1, ∑ m ∈ range M, a m * (v m * (g m y).getD 0) := by
    rw [intervalIntegral.integral_of_le hy, intervalIntegral.integral_of_le hy, integral_Ioc_eq_integral_Ioo, integral_Ioc_eq_integral_Ioo]
    exact setIntegral_congr_fun measurableSet_Ioo fun y hy' => inner y hy'
  rw [e, intervalIntegral.integral_finset_sum fun m hm => ((hg m (mem_range.1 hm)).int.const_mul _).const_mul _]
  refine sum_congr rfl fun m hm => ?_
  rw [intervalIntegral.integral_const_mul, intervalIntegral.integral_const_mul, (hg m (mem_range.1 hm)).val]

theorem oint2_mul {f g : ℝ → Option ℝ} {x0 x1 y0 y1 v w : ℝ} (hf : OInt f x0 x1 v) (hg : OInt g y0 y1 w) :
    oint2 (fun x y => omul (f x) (g y)) x0 y0 x1 y1 = some (v * w) := by
  have := oint2_sum (M := 1) (f := fun _ => f) (g := fun _ => g) (v := fun _ => v) (w := fun _ => w) (fun _ => 1) hf.le hg.le
    (fun _ _ => hf) (fun _ _ => hg) (F := fun x y => omul (f x) (g y)) (fun x hx y hy => by
      obtain ⟨r, hr⟩ := hf.some x hx
      obtain ⟨s, hs⟩ := hg.some y hy
      simp [omul, hr, hs])
  simpa using this

/-! ## The projection in normal form -/

section
variable {gx gy : Grid1} (hx : Factor gx) (hy : Factor gy)
include hx hy

theorem oPn0 (t : Bool) (F : ℝ → ℝ → List (Option ℝ)) :
    (product gx gy).oPn 0 t F = .ok (mtab (gy.N 0 t) (gx.N 0 t) fun j i => (F (vx gx t i) (vx gy t j)).getD 0 none).data := by
  simp only [Grid2.oPn, bcells_v hx hy, Bind.bind, Except.bind, unshape, map2_mtab]

theorem oPn1 (t : Bool) (F : ℝ → ℝ → List (Option ℝ)) :
    (product gx gy).oPn 1 t F = .ok ((mtab (gy.N 0 t) (gx.N 1 t) fun j i => oint (fun s => (F s (vx gy t j)).getD 0 none) (lo gx t i) (hi gx t i)).data
      ++ (mtab (gy.N 1 t) (gx.N 0 t) fun j i => oint (fun s => (F (vx gx t i) s).getD 1 none) (lo gy t j) (hi gy t j)).data) := by
  simp only [Grid2.oPn, bcells_e hx hy, Bind.bind, Except.bind, unshape, map3_mtab]
  simp

theorem oPn2 (t : Bool) (F : ℝ → ℝ → List (Option ℝ)) :
    (product gx gy).oPn 2 t F = .ok (mtab (gy.N 1 t) (gx.N 1 t) fun j i =>
      oint2 (fun x y => (F x y).getD 0 none) (lo gx t i) (lo gy t j) (hi gx t i) (hi gy t j)).data := by
  simp only [Grid2.oPn, bcells_f hx hy, Bind.bind, Except.bind, unshape, map4_mtab]

/-! ## Basis functions in normal form -/

theorem B0 (t : Bool) {m : ℕ} (hm : m < gy.N 0 t * gx.N 0 t) : (product gx gy).B 0 t m = .ok (bB gx gy 0 t 0 (m / gx.N 0 t) (m % gx.N 0 t)) := by
  simp only [Grid2.B, shape0 hx hy, unravel_arr hm, Bind.bind, Except.bind]; rfl

theorem B2 (t : Bool) {m : ℕ} (hm : m < gy.N 1 t * gx.N 1 t) : (product gx gy).B 2 t m = .ok (bB gx gy 2 t 0 (m / gx.N 1 t) (m % gx.N 1 t)) := by
  simp only [Grid2.B, shape2 hx hy, unravel_arr hm, Bind.bind, Except.bind]; rfl

theorem B1_fst (t : Bool) {m : ℕ} (hm : m < gy.N 0 t * gx.N 1 t) : (product gx gy).B 1 t m = .ok (bB gx gy 1 t 0 (m / gx.N 1 t) (m % gx.N 1 t)) := by
  simp only [Grid2.B, shape1 hx hy, unravel_fst hm, Bind.bind, Except.bind]; rfl

theorem B1_snd (t : Bool) {m : ℕ} (hm : gy.N 0 t * gx.N 1 t ≤ m) (hm' : m < gy.N 0 t * gx.N 1 t + gy.N 1 t * gx.N 0 t) :
    (product gx gy).B 1 t m = .ok (bB gx gy 1 t 1 ((m - gy.N 0 t * gx.N 1 t) / gx.N 0 t) ((m - gy.N 0 t * gx.N 1 t) % gx.N 0 t)) := by
  simp only [Grid2.B, shape1 hx hy, unravel_snd hm hm', Bind.bind, Except.bind]; rfl

end

theorem delta_flat {c m k : ℕ} : ((if k % c = m % c then (1 : ℝ) else 0) * if k / c = m / c then (1 : ℝ) else 0) = if k = m then 1 else 0 := by
  by_cases h : k = m
  · simp [h]
  · rw [if_neg h]
    by_cases h1 : k % c = m % c
    · have h2 : k / c ≠ m / c := fun h2 => h (by rw [← Nat.div_add_mod k c, ← Nat.div_add_mod m c, h1, h2])
      rw [if_neg h2, mul_zero]
    · rw [if_neg h1, zero_mul]

theorem flat_delta {r c m : ℕ} {F : ℕ → ℕ → Option ℝ}
    (h : ∀ j < r, ∀ i < c, F j i = some ((if i = m % c then (1 : ℝ) else 0) * if j = m / c then (1 : ℝ) else 0)) :
    (mtab r c F).data = tab (r * c) fun k => some (if k = m then (1 : ℝ) else 0) := by
  rw [mtab_congr h]
  exact tab_congr fun k _ => congrArg some delta_flat

theorem flat_const {r c : ℕ} {F : ℕ → ℕ → Option ℝ} {x : Option ℝ} (h : ∀ j < r, ∀ i < c, F j i = x) :
    (mtab r c F).data = tab (r * c) fun _ => x := by
  rw [mtab_congr h]; rfl

theorem mod_div_lt {r c m : ℕ} (h : m < r * c) : m % c < c ∧ m / c < r := by
  have hc : 0 < c := Nat.pos_of_ne_zero fun h0 => by simp [h0] at h
  exact ⟨Nat.mod_lt _ hc, Nat.div_lt_of_lt_mul (by rwa [mul_comm])⟩

theorem tab_append {α : Type*} (m n : ℕ) (f : ℕ → α) : tab (m + n) f = tab m f ++ tab n fun k => f (m + k) := by
  unfold tab
  rw [List.range_add, List.map_append, List.map_map]; rfl

theorem dual2 {gx gy : Grid1} (hx : Factor gx) (hy : Factor gy) (bx : DualBasis gx) (by' : DualBasis gy) (d : Fin 3) (t : Bool) (m : ℕ)
    (hm : m < count gx gy d t) :
    ∃ b, (product gx gy).B d t m = .ok b ∧ (product gx gy).oPn d t b = .ok (tab (count gx gy d t) fun i => some (if i = m then 1 else 0)) := by
  obtain rfl | rfl | rfl : d = 0 ∨ d = 1 ∨ d = 2 := by omega
  · have hm' : m < gy.N 0 t * gx.N 0 t := hm
    obtain ⟨hi, hj⟩ := mod_div_lt hm'
    refine ⟨_, B0 hx hy t hm', ?_⟩
    rw [oPn0 hx hy, flat_delta]
    · rfl
    · intro j hj' i hi'
      simp only [bB, List.getD_cons_zero]
      rw [show gx.B 0 t (m % gx.N 0 t) (vx gx t i) = _ from bx.v0 t i hi' _ hi, show gy.B 0 t (m / gx.N 0 t) (vx gy t j) = _ from by'.v0 t j hj' _ hj]
      rfl
  · have hm' : m < gy.N 0 t * gx.N 1 t + gy.N 1 t * gx.N 0 t := hm
    have hc : count gx gy 1 t = gy.N 0 t * gx.N 1 t + gy.N 1 t * gx.N 0 t := rfl
    by_cases hlt : m < gy.N 0 t * gx.N 1 t
    · obtain ⟨hi, hj⟩ := mod_div_lt hlt
      refine ⟨_, B1_fst hx hy t hlt, ?_⟩
      rw [oPn1 hx hy, hc, tab_append]
      rw [flat_delta (m := m), flat_const (x := some 0)]
      · refine congrArg _ (congrArg _ (tab_congr fun k _ => ?_))
        rw [if_neg (by omega)]
      · intro j hj' i hi'
        simp only [bB]
        exact oint_of (OInt.zero (by'.e1 t j hj' j hj').le)
      · intro j hj' i hi'
        simp only [bB, List.getD_cons_zero]
        rw [show gy.B 0 t (m / gx.N 1 t) (vx gy t j) = _ from by'.v0 t j hj' _ hj]
        exact oint_of (OInt.mul_const (bx.e1 t i hi' _ hi) _)
    · have hle : gy.N 0 t * gx.N 1 t ≤ m := by omega
      obtain ⟨hi, hj⟩ := mod_div_lt (m := m - gy.N 0 t * gx.N 1 t) (r := gy.N 1 t) (c := gx.N 0 t) (by omega)
      refine ⟨_, B1_snd hx hy t hle hm', ?_⟩
      rw [oPn1 hx hy, hc, tab_append]
      rw [flat_delta (r := gy.N 1 t) (m := m - gy.N 0 t * gx.N 1 t), flat_const (r := gy.N 0 t) (x := some 0)]
      · refine congrArg _ (congrArg₂ _ (tab_congr fun k hk => ?_) (tab_congr fun k _ => ?_))
        · rw [if_neg (by omega)]
        · have : (k = m - gy.N 0 t * gx.N 1 t) ↔ (gy.N 0 t * gx.N 1 t + k = m) := by omega
          simp only [this]
      · intro j hj' i hi'
        simp only [bB]
        exact oint_of (OInt.zero (bx.e1 t i hi' i hi').le)
      · intro j hj' i hi'
        simp only [bB, List.getD_cons_succ, List.getD_cons_zero]
        rw [show gx.B 0 t ((m - gy.N 0 t * gx.N 1 t) % gx.N 0 t) (vx gx t i) = _ from bx.v0 t i hi' _ hi]
        exact oint_of (OInt.const_mul (by'.e1 t j hj' _ hj) _)
  · have hm' : m < gy.N 1 t * gx.N 1 t := hm
    obtain ⟨hi, hj⟩ := mod_div_lt hm'
    refine ⟨_, B2 hx hy t hm', ?_⟩
    rw [oPn2 hx hy, flat_delta]
    · rfl
    · intro j hj' i hi'
      simp only [bB, List.getD_cons_zero]
      exact oint2_mul (bx.e1 t i hi' _ hi) (by'.e1 t j hj' _ hj)

/-! ## Reconstruction -/

theorem mapM_range {α : Type*} (N : ℕ) (f : ℕ → Except Err α) (g : ℕ → α) (h : ∀ i < N, f i = .ok (g i)) :
    (List.range N).mapM f = .ok (tab N g) := by
  have key : ∀ l : List ℕ, (∀ i ∈ l, f i = .ok (g i)) → l.mapM f = .ok (l.map g) := by
    intro l
    induction l with
    | nil => intro _; rfl
    | cons a l ih =>
      intro h
      rw [List.mapM_cons, h a (by simp), ih fun i hi => h i (by simp [hi])]; rfl
  exact key _ fun i hi => h i (List.mem_range.1 hi)

theorem foldl_opt {a : List ℝ} {B : ℕ → Option ℝ} (b : ℕ → ℝ) (N : ℕ) (hb : ∀ i < N, B i = some (b i)) :
    (List.range N).foldl (fun s i => Sp.oadd s ((B i).map (a.getD i 0 * ·))) (some 0) = some (∑ i ∈ range N, a.getD i 0 * b i) := by
  simpa using foldl_oadd (a := a) (B := fun i _ => B i) (x := 0) b N hb

theorem oint_sum {M : ℕ} {f : ℕ → ℝ → Option ℝ} {x y : ℝ} {v : ℕ → ℝ} (a : ℕ → ℝ) (hle : x ≤ y) (hf : ∀ m < M, OInt (f m) x y (v m)) {F : ℝ → Option ℝ}
    (hF : ∀ s ∈ Set.Ioo x y, F s = some (∑ m ∈ range M, a m * (f m s).getD 0)) : oint F x y = some (∑ m ∈ range M, a m * v m) := by
  unfold oint
  rw [if_neg]
  swap
  · rw [min_eq_left hle, max_eq_right hle]
    rintro ⟨s, hs, hn⟩
    rw [hF s hs] at hn; cases hn
  congr 1
  have e : ∫ s in x..y, (F s).getD 0 = ∫ s in x..y, ∑ m ∈ range M, a m * (f m s).getD 0 := by
    rw [intervalIntegral.integral_of_le hle, intervalIntegral.integral_of_le hle, integral_Ioc_eq_integral_Ioo, integral_Ioc_eq_integral_Ioo]
    refine setIntegral_congr_fun measurableSet_Ioo fun s hs => ?_
    beta_reduce
    rw [hF s hs]; rfl
  rw [e, intervalIntegral.integral_finset_sum fun m hm => (hf m (mem_range.1 hm)).int.const_mul _]
  refine sum_congr rfl fun m hm => ?_
  rw [intervalIntegral.integral_const_mul, (hf m (mem_range.1 hm)).val]

/-- The basis function with flat index `m`. -/
noncomputable def flatB (gx gy : Grid1) (d : Fin 3) (t : Bool) (m : ℕ) : ℝ → ℝ → List (Option ℝ) :=
  match d with
  | 0 => bB gx gy 0 t 0 (m / gx.N 0 t) (m % gx.N 0 t)
  | 1 => if m < gy.N 0 t * gx.N 1 t then bB gx gy 1 t 0 (m / gx.N 1 t) (m % gx.N 1 t)
    else bB gx gy 1 t 1 ((m - gy.N 0 t * gx.N 1 t) / gx.N 0 t) ((m - gy.N 0 t * gx.N 1 t) % gx.N 0 t)
  | 2 => bB gx gy 2 t 0 (m / gx.N 1 t) (m % gx.N 1 t)

theorem B_flatB {gx gy : Grid1} (hx : Factor gx) (hy : Factor gy) (d : Fin 3) (t : Bool) {m : ℕ} (hm : m < count gx gy d t) :
    (product gx gy).B d t m = .ok (flatB gx gy d t m) := by
  obtain rfl | rfl | rfl : d = 0 ∨ d = 1 ∨ d = 2 := by omega
  · exact B0 hx hy t hm
  · simp only [flatB]
    split_ifs with h
    · exact B1_fst hx hy t h
    · exact B1_snd hx hy t (by omega) hm
  · exact B2 hx hy t hm

theorem R_flat {gx gy : Grid1} (hx : Factor gx) (hy : Factor gy) (d : Fin 3) (t : Bool) (a : List ℝ) :
    (product gx gy).R d t a = .ok fun x y => tab (Grid2.ncomp d) fun c =>
      (List.range (count gx gy d t)).foldl (fun s i => Sp.oadd s (((flatB gx gy d t i x y).getD c none).map (a.getD i 0 * ·))) (some 0) := by
  unfold Grid2.R
  rw [N_eq hx hy]
  simp only [Bind.bind, Except.bind]
  rw [mapM_range _ _ (flatB gx gy d t) fun i hi => B_flatB hx hy d t hi]
  simp only
  refine congrArg _ (funext fun x => funext fun y => tab_congr fun c _ => ?_)
  have key : ∀ (l : List ℕ) (s : Option ℝ), (∀ i ∈ l, i < count gx gy d t) →
      l.foldl (fun s i => Sp.oadd s (((((tab (count gx gy d t) (flatB gx gy d t)).getD i fun _ _ => []) x y).getD c none).map (a.getD i 0 * ·))) s
      = l.foldl (fun s i => Sp.oadd s (((flatB gx gy d t i x y).getD c none).map (a.getD i 0 * ·))) s := by
    intro l
    induction l with
    | nil => intro s _; rfl
    | cons i l ih =>
      intro s h
      rw [List.foldl_cons, List.foldl_cons, ih _ fun i hi => h i (by simp [hi])]
      rw [getD_tab (h i (by simp)) _]
  exact key _ _ fun i hi => List.mem_range.1 hi

theorem recon2 {gx gy : Grid1} (hx : Factor gx) (hy : Factor gy) (bx : DualBasis gx) (by' : DualBasis gy) (d : Fin 3) (t : Bool) (a : List ℝ)
    (ha : a.length = count gx gy d t) :
    ∃ r, (product gx gy).R d t a = .ok r ∧ (product gx gy).oPn d t r = .ok (a.map some) := by
  refine ⟨_, R_flat hx hy d t a, ?_⟩
  have hr : a.map some = tab (count gx gy d t) fun i => some (a.getD i 0) := by
    conv_lhs => rw [eq_tab' ha 0, map_tab]
  have hδ : ∀ i < count gx gy d t, ∑ j ∈ range (count gx gy d t), a.getD j 0 * (if i = j then (1 : ℝ) else 0) = a.getD i 0 := fun i hi => by
    simp [Finset.sum_ite_eq, hi]
  rw [hr]
  obtain rfl | rfl | rfl : d = 0 ∨ d = 1 ∨ d = 2 := by omega
  · rw [oPn0 hx hy]
    refine congrArg _ (tab_congr fun k hk => ?_)
    obtain ⟨hi, hj⟩ := mod_div_lt hk
    beta_reduce
    rw [getD_tab (by decide) _, foldl_opt (fun m => if k = m then (1 : ℝ) else 0), hδ k hk]
    intro m hm
    obtain ⟨hi', hj'⟩ := mod_div_lt (r := gy.N 0 t) (c := gx.N 0 t) hm
    simp only [flatB, bB, List.getD_cons_zero]
    rw [show gx.B 0 t (m % gx.N 0 t) (vx gx t (k % gx.N 0 t)) = _ from bx.v0 t _ hi _ hi', show gy.B 0 t (m / gx.N 0 t) (vx gy t (k / gx.N 0 t)) = _ from by'.v0 t _ hj _ hj']
    exact congrArg some delta_flat
  · have hc : count gx gy 1 t = gy.N 0 t * gx.N 1 t + gy.N 1 t * gx.N 0 t := rfl
    rw [oPn1 hx hy, hc, tab_append]
    refine congrArg _ (congrArg₂ _ (tab_congr fun k hk => ?_) (tab_congr fun k hk => ?_))
    · obtain ⟨hi', hj'⟩ := mod_div_lt hk
      beta_reduce
      have hO : ∀ m < count gx gy 1 t, OInt (fun s => (flatB gx gy 1 t m s (vx gy t (k / gx.N 1 t))).getD 0 none)
          (lo gx t (k % gx.N 1 t)) (hi gx t (k % gx.N 1 t)) (if k = m then 1 else 0) := by
        intro m hm
        simp only [flatB]
        by_cases hlt : m < gy.N 0 t * gx.N 1 t
        · rw [if_pos hlt]
          obtain ⟨hi, hj⟩ := mod_div_lt hlt
          simp only [bB, List.getD_cons_zero]
          rw [show gy.B 0 t (m / gx.N 1 t) (vx gy t (k / gx.N 1 t)) = _ from by'.v0 t _ hj' _ hj, ← delta_flat (c := gx.N 1 t) (k := k) (m := m)]
          exact OInt.mul_const (bx.e1 t _ hi' _ hi) _
        · rw [if_neg hlt, if_neg (by omega)]
          simp only [bB, List.getD_cons_zero]
          exact OInt.zero (bx.e1 t _ hi' _ hi').le
      have hle : lo gx t (k % gx.N 1 t) ≤ hi gx t (k % gx.N 1 t) := (bx.e1 t _ hi' _ hi').le
      rw [← hδ k (by omega)]
      refine oint_sum (fun m => a.getD m 0) hle hO fun s hs => ?_
      rw [getD_tab (by decide) _]
      refine foldl_opt _ _ fun m hm => ?_
      obtain ⟨r, hr⟩ := (hO m hm).some s hs
      rw [hr]; rfl
    · obtain ⟨hi', hj'⟩ := mod_div_lt hk
      beta_reduce
      have hO : ∀ m < count gx gy 1 t, OInt (fun s => (flatB gx gy 1 t m (vx gx t (k % gx.N 0 t)) s).getD 1 none)
          (lo gy t (k / gx.N 0 t)) (hi gy t (k / gx.N 0 t)) (if gy.N 0 t * gx.N 1 t + k = m then 1 else 0) := by
        intro m hm
        simp only [flatB]
        by_cases hlt : m < gy.N 0 t * gx.N 1 t
        · rw [if_pos hlt, if_neg (by omega)]
          simp only [bB, List.getD_cons_zero, List.getD_cons_succ]
          exact OInt.zero (by'.e1 t _ hj' _ hj').le
        · rw [if_neg hlt]
          obtain ⟨hi, hj⟩ := mod_div_lt (m := m - gy.N 0 t * gx.N 1 t) (r := gy.N 1 t) (c := gx.N 0 t) (by omega)
          simp only [bB, List.getD_cons_zero, List.getD_cons_succ]
          rw [show gx.B 0 t ((m - gy.N 0 t * gx.N 1 t) % gx.N 0 t) (vx gx t (k % gx.N 0 t)) = _ from bx.v0 t _ hi' _ hi]
          have e : (gy.N 0 t * gx.N 1 t + k = m) ↔ (k = m - gy.N 0 t * gx.N 1 t) := by omega
          simp only [e]
          rw [← delta_flat (c := gx.N 0 t) (k := k) (m := m - gy.N 0 t * gx.N 1 t)]
          exact OInt.const_mul (by'.e1 t _ hj' _ hj) _
      have hle : lo gy t (k / gx.N 0 t) ≤ hi gy t (k / gx.N 0 t) := (by'.e1 t _ hj' _ hj').le
      rw [← hδ (gy.N 0 t * gx.N 1 t + k) (by omega)]
      refine oint_sum (fun m => a.getD m 0) hle hO fun s hs => ?_
      rw [getD_tab (by decide) _]
      refine foldl_opt _ _ fun m hm => ?_
      obtain ⟨r, hr⟩ := (hO m hm).some s hs
      rw [hr]; rfl
  · rw [oPn2 hx hy]
    refine congrArg _ (tab_congr fun k hk => ?_)
    obtain ⟨hi', hj'⟩ := mod_div_lt hk
    beta_reduce
    have h1 : ∀ m < count gx gy 2 t, OInt (gx.B 1 t (m % gx.N 1 t)) (lo gx t (k % gx.N 1 t)) (hi gx t (k % gx.N 1 t)) (if k % gx.N 1 t = m % gx.N 1 t then 1 else 0) :=
      fun m hm => bx.e1 t _ hi' _ (mod_div_lt (r := gy.N 1 t) (c := gx.N 1 t) hm).1
    have h2 : ∀ m < count gx gy 2 t, OInt (gy.B 1 t (m / gx.N 1 t)) (lo gy t (k / gx.N 1 t)) (hi gy t (k / gx.N 1 t)) (if k / gx.N 1 t = m / gx.N 1 t then 1 else 0) :=
      fun m hm => by'.e1 t _ hj' _ (mod_div_lt (r := gy.N 1 t) (c := gx.N 1 t) hm).2
    have := oint2_sum (fun m => a.getD m 0) (bx.e1 t _ hi' _ hi').le (by'.e1 t _ hj' _ hj').le h1 h2
      (F := fun x y => (List.range (count gx gy 2 t)).foldl (fun s i => Sp.oadd s (((flatB gx gy 2 t i x y).getD 0 none).map (a.getD i 0 * ·))) (some 0)) (by
        intro x hx' y hy'
        refine foldl_opt _ _ fun m hm => ?_
        obtain ⟨r, hr⟩ := (h1 m hm).some x hx'
        obtain ⟨q, hq⟩ := (h2 m hm).some y hy'
        simp [flatB, bB, omul, hr, hq])
    simp only [delta_flat] at this
    rw [hδ k hk] at this
    rw [← this]
    rfl

/-! ## The property -/

theorem standard_factor (k : Kind) (n : ℕ) (hn : validSize k n) : Factor (standardGrid k n) := by
  cases k
  · exact grid_factor .periodic n hn _ _
  · exact grid_factor .regular n hn _ _
  · exact grid_factor .chebyshev n hn _ _

theorem standard_dual (k : Kind) (n : ℕ) (hn : validSize k n) : DualBasis (standardGrid k n) := by
  cases k
  · exact Periodic.dualBasis hn
  · exact Regular.dualBasis hn
  · exact Chebyshev.dualBasis hn

/-- **C53**: on the product of any two standard grids, in every degree and duality, the numerical projection of the basis function with flat
index `m` is the `m`-th unit vector (and no NaN is met). -/
theorem C53_dual (k k' : Kind) (n n' : ℕ) (hn : validSize k n) (hn' : validSize k' n') (d : Fin 3) (t : Bool) (M : ℕ)
    (hM : (product (standardGrid k n) (standardGrid k' n')).N d t = .ok M) (m : ℕ) (hm : m < M) :
    ∃ b, (product (standardGrid k n) (standardGrid k' n')).B d t m = .ok b ∧
      (product (standardGrid k n) (standardGrid k' n')).oPn d t b = .ok ((List.range M).map fun i => some (if i = m then 1 else 0)) := by
  have hx := standard_factor k n hn
  have hy := standard_factor k' n' hn'
  rw [N_eq hx hy] at hM
  injection hM with hM
  subst hM
  exact dual2 hx hy (standard_dual k n hn) (standard_dual k' n' hn') d t m hm

/-- **C53**: an index out of range (also a negative one) is rejected. -/
theorem C53_out_of_range (k k' : Kind) (n n' : ℕ) (hn : validSize k n) (hn' : validSize k' n') (a b a' b' : ℝ) (d : Fin 3) (t : Bool) (M : ℕ)
    (hM : (product (grid k n a b) (grid k' n' a' b')).N d t = .ok M) (m : ℤ) (hm : ¬ (0 ≤ m ∧ m < M)) :
    (product (grid k n a b) (grid k' n' a' b')).B d t m = .error .valueError := by
  have hx := grid_factor k n hn a b
  have hy := grid_factor k' n' hn' a' b'
  rw [N_eq hx hy] at hM
  injection hM with hM
  subst hM
  obtain rfl | rfl | rfl : d = 0 ∨ d = 1 ∨ d = 2 := by omega
  · simp only [Grid2.B, shape0 hx hy, unravel_out hm, Bind.bind, Except.bind]
  · simp only [Grid2.B, shape1 hx hy, unravel_out2 hm, Bind.bind, Except.bind]
  · simp only [Grid2.B, shape2 hx hy, unravel_out hm, Bind.bind, Except.bind]

/-- **C53**: projecting the reconstruction of a two-dimensional discrete form gives its coefficients back. -/
theorem C53_projection_reconstruction (k k' : Kind) (n n' : ℕ) (hn : validSize k n) (hn' : validSize k' n') (d : Fin 3) (t : Bool) (a : List ℝ)
    (ha : (product (standardGrid k n) (standardGrid k' n')).N d t = .ok a.length) :
    ∃ r, (product (standardGrid k n) (standardGrid k' n')).R d t a = .ok r ∧ (product (standardGrid k n) (standardGrid k' n')).oPn d t r = .ok (a.map some) := by
  have hx := standard_factor k n hn
  have hy := standard_factor k' n' hn'
  rw [N_eq hx hy] at ha
  injection ha with ha
  exact recon2 hx hy (standard_dual k n hn) (standard_dual k' n' hn') d t a ha.symm

/-- Non-vacuity: a periodic grid of three vertices times a Chebyshev grid of four has `4*3 + 3*3` primal edges. -/
example : (product (standardGrid .periodic 3) (standardGrid .chebyshev 4)).N 1 true = .ok 21 :=
  N_eq (standard_factor .periodic 3 (by simp [validSize])) (standard_factor .chebyshev 4 (by simp [validSize])) 1 true

end Dec.Props
