import Verif.Props.Scaling
import Verif.Props.Symmetry
import Mathlib.MeasureTheory.Integral.IntervalIntegral.Periodic

set_option linter.unusedSimpArgs false
set_option linter.unusedVariables false

/-! # C121: intervals given backwards, and the sizes that the constructors accept -/

namespace Dec.Props

open Finset Real MeasureTheory

/-- **C121**: what the constructors accept. Only `regular` looks at the interval; none asks for two vertices. -/
theorem C121_construct (k : Kind) (n : ℕ) (xmin xmax : ℝ) :
    (construct k n xmin xmax = .ok (grid k n xmin xmax) ↔ (k = .regular → xmin < xmax) ∧ (k ≠ .regular → 1 ≤ n)) ∧
    (∀ g, construct k n xmin xmax = .ok g → g = grid k n xmin xmax) ∧
    (construct k n xmin xmax = .error .assertion ↔ k = .regular ∧ xmax ≤ xmin) ∧
    (construct k n xmin xmax = .error .indexError ↔ k = .periodic ∧ n = 0) ∧
    (construct k n xmin xmax = .error .valueError ↔ k = .chebyshev ∧ n = 0) := by
  cases k
  · by_cases h : n = 0
    · simp [construct, h]
    · simp [construct, grid, h, Nat.one_le_iff_ne_zero]
  · by_cases h : xmax > xmin
    · have h2 : xmin < xmax := h
      simp [construct, grid, h2]
    · have h2 : ¬ xmin < xmax := h
      simp [construct, grid, h2, not_lt.1 h2]
  · by_cases h : n = 0
    · simp [construct, h]
    · simp [construct, grid, h, Nat.one_le_iff_ne_zero]

theorem pt_swap (a b x : ℝ) : Chebyshev.pt b a x = Chebyshev.pt a b (π - x) := by
  unfold Chebyshev.pt; rw [cos_pi_sub]; ring

theorem vertex_swap {n : ℕ} (hn : 2 ≤ n) (a b : ℝ) {i : ℕ} (hi : i ≤ n - 1) :
    Chebyshev.pt b a (i * (π / ((n - 1 : ℕ) : ℝ))) = Chebyshev.pt a b (((n - 1 - i : ℕ) : ℝ) * (π / ((n - 1 : ℕ) : ℝ))) := by
  have h1 : ((n - 1 : ℕ) : ℝ) ≠ 0 := by exact_mod_cast (by omega : n - 1 ≠ 0)
  rw [pt_swap]; congr 1
  rw [Nat.cast_sub hi]; field_simp

theorem middle_swap {n : ℕ} (hn : 2 ≤ n) (a b : ℝ) {i : ℕ} (hi : i < n - 1) :
    Chebyshev.pt b a ((i + 1 / 2) * (π / ((n - 1 : ℕ) : ℝ))) = Chebyshev.pt a b ((((n - 1 - 1 - i : ℕ) : ℝ) + 1 / 2) * (π / ((n - 1 : ℕ) : ℝ))) := by
  have h1 : ((n - 1 : ℕ) : ℝ) ≠ 0 := by exact_mod_cast (by omega : n - 1 ≠ 0)
  rw [pt_swap]; congr 1
  rw [Nat.cast_sub (by omega : i ≤ n - 1 - 1), Nat.cast_sub (by omega : 1 ≤ n - 1)]; field_simp; push_cast; ring

/-- **C121**: a Chebyshev grid with the ends of the interval exchanged is the mirror image of the grid: the cells are numbered backwards and edges run the other way, so the
projections of every function are the mirror images (1-forms with the sign reversed), and the reported lengths are the negatives. -/
theorem C121_chebyshev_mirror (n : ℕ) (hn : 2 ≤ n) (a b : ℝ) (t : Bool) :
    (Chebyshev.make n b a).cells.v t = ((Chebyshev.make n a b).cells.v t).reverse ∧
    ((Chebyshev.make n b a).cells.e t).1 = ((Chebyshev.make n a b).cells.e t).2.reverse ∧
    ((Chebyshev.make n b a).cells.e t).2 = ((Chebyshev.make n a b).cells.e t).1.reverse ∧
    (Chebyshev.make n b a).delta t = ((Chebyshev.make n a b).delta t).reverse.map (-·) ∧
    ∀ (d : Fin 2) (f : ℝ → ℝ), (Chebyshev.make n b a).P d t f = mirror .chebyshev d t ((Chebyshev.make n a b).P d t f) := by
  have hg := Chebyshev.isInterval hn a b
  have hg' := Chebyshev.isInterval hn b a
  have ev : ∀ t, (Chebyshev.make n b a).cells.v t = ((Chebyshev.make n a b).cells.v t).reverse := fun t => by
    cases t
    · rw [hg.verts_dual, hg'.verts_dual, reverse_tab]
      exact tab_congr fun i hi => middle_swap hn a b hi
    · rw [hg.verts, hg'.verts, reverse_tab]
      exact tab_congr fun i hi => vertex_swap hn a b (show i ≤ n - 1 by have : i < n := hi; omega)
  have e1 : ∀ t, ((Chebyshev.make n b a).cells.e t).1 = ((Chebyshev.make n a b).cells.e t).2.reverse := fun t => by
    cases t
    · rw [hg.edges_dual, hg'.edges_dual, reverse_tab]
      refine tab_congr fun i hi => ?_
      replace hi : i < n := hi
      show (if i = 0 then b else _) = if n - 1 - i < n - 1 then _ else b
      by_cases h0 : i = 0
      · rw [if_pos h0, if_neg (by omega)]
      · rw [if_neg h0, if_pos (by omega), middle_swap hn a b (show i - 1 < n - 1 by omega), show n - 1 - 1 - (i - 1) = n - 1 - i by omega]
        rfl
    · rw [hg.edges, hg'.edges, reverse_tab]
      refine tab_congr fun i hi => ?_
      replace hi : i < n - 1 := hi
      rw [vertex_swap hn a b (by omega)]
      show _ = Chebyshev.pt a b (((n - 1 - 1 - i + 1 : ℕ) : ℝ) * _)
      rw [show n - 1 - 1 - i + 1 = n - 1 - i by omega]
  have e2 : ∀ t, ((Chebyshev.make n b a).cells.e t).2 = ((Chebyshev.make n a b).cells.e t).1.reverse := fun t => by
    cases t
    · rw [hg.edges_dual, hg'.edges_dual, reverse_tab]
      refine tab_congr fun i hi => ?_
      replace hi : i < n := hi
      show (if i < n - 1 then _ else a) = if n - 1 - i = 0 then a else _
      by_cases h0 : i < n - 1
      · rw [if_pos h0, if_neg (by omega), middle_swap hn a b h0, show n - 1 - 1 - i = n - 1 - i - 1 by omega]
        rfl
      · rw [if_neg h0, if_pos (by omega)]
    · rw [hg.edges, hg'.edges, reverse_tab]
      refine tab_congr fun i hi => ?_
      replace hi : i < n - 1 := hi
      show Chebyshev.pt b a (((i + 1 : ℕ) : ℝ) * _) = Chebyshev.pt a b (((n - 1 - 1 - i : ℕ) : ℝ) * _)
      rw [vertex_swap hn a b (by omega), show n - 1 - (i + 1) = n - 1 - 1 - i by omega]
  have len : ∀ c d : ℝ, ∀ t, ((Chebyshev.make n c d).cells.e t).1.length = ((Chebyshev.make n c d).cells.e t).2.length := fun c d t => by
    have h := Chebyshev.isInterval hn c d
    cases t
    · rw [h.edges_dual]; simp
    · rw [h.edges]; simp
  have zip : ∀ (F : ℝ → ℝ → ℝ), (∀ x y, F y x = -F x y) → List.zipWith F ((Chebyshev.make n b a).cells.e t).1 ((Chebyshev.make n b a).cells.e t).2
      = (List.zipWith F ((Chebyshev.make n a b).cells.e t).1 ((Chebyshev.make n a b).cells.e t).2).reverse.map (-·) := fun F hF => by
    rw [e1, e2, ← List.reverse_zipWith (len a b t).symm, List.map_reverse, List.map_zipWith, List.zipWith_comm]
    congr 2
    funext x y
    exact hF _ _
  refine ⟨ev t, e1 t, e2 t, ?_, fun d f => ?_⟩
  · have h1 := C12_cell_lengths_interval .chebyshev n b a t
    have h2 := C12_cell_lengths_interval .chebyshev n a b t
    replace h1 : (Chebyshev.make n b a).delta t = vsub ((Chebyshev.make n b a).cells.e t).2 ((Chebyshev.make n b a).cells.e t).1 := h1
    replace h2 : (Chebyshev.make n a b).delta t = vsub ((Chebyshev.make n a b).cells.e t).2 ((Chebyshev.make n a b).cells.e t).1 := h2
    have := zip (fun x y => y - x) fun x y => by ring
    rw [h1, h2]
    unfold vsub
    rw [List.zipWith_comm, this, List.zipWith_comm]
  · obtain rfl | rfl : d = 0 ∨ d = 1 := by omega
    · show ((Chebyshev.make n b a).cells.v t).map f = _
      rw [ev]
      simp [mirror, List.map_reverse, Grid1.P, P]
    · have := zip (fun x y => ∫ s in x..y, f s) fun x y => intervalIntegral.integral_symm _ _
      simp only [mirror]
      exact this

/-- The operators do not look at the interval at all. -/
theorem C121_same_operators (k : Kind) (n : ℕ) (a b : ℝ) (d : Fin 2) (t : Bool) :
    (grid k n b a).H d t = (grid k n a b).H d t ∧ (grid k n b a).D d t = (grid k n a b).D d t ∧ (grid k n b a).T d t = (grid k n a b).T d t ∧
      (grid k n b a).U d t = (grid k n a b).U d t := by
  cases k <;> exact ⟨rfl, rfl, rfl, rfl⟩

/-- **C121**: so on a Chebyshev grid given backwards the derivative still commutes with the projections (with the boundary term of that grid) ... -/
theorem C121_chebyshev_derivative (n : ℕ) (hn : 2 ≤ n) (xmin xmax : ℝ) (f f' : ℝ → ℝ) (hd : ∀ s, HasDerivAt f (f' s) s) (hi : ∀ a b, IntervalIntegrable f' volume a b) :
    (Chebyshev.make n xmin xmax).D 0 true ((Chebyshev.make n xmin xmax).P 0 true f) = some ((Chebyshev.make n xmin xmax).P 1 true f') ∧
    ((Chebyshev.make n xmin xmax).D 0 false ((Chebyshev.make n xmin xmax).P 0 false f)).map (vadd · ((Chebyshev.make n xmin xmax).boundary_condition f))
      = some ((Chebyshev.make n xmin xmax).P 1 false f') := by
  have hg := Chebyshev.isInterval hn xmin xmax
  have ftc : ∀ a b, ∫ s in a..b, f' s = f b - f a := fun a b => intervalIntegral.integral_eq_sub_of_hasDerivAt (fun s _ => hd s) (hi a b)
  constructor
  · rw [hg.D0, hg.P0, hg.P1, diff_tab]
    refine congrArg some (tab_congr fun i _ => ?_)
    rw [ftc]
  · rw [hg.D0d, hg.P0d, hg.P1d, hg.boundary_condition, hg.diff_zero_pad, Option.map_some, vadd_tab]
    refine congrArg some (tab_congr fun i hi => ?_)
    rw [ftc]
    have hn1 : (Chebyshev.make n xmin xmax).n = n := rfl
    rw [hn1] at hi ⊢
    show (if i < n - 1 then f _ else 0) - (if i = 0 then 0 else f _) + (if i = n - 1 then f xmax else if i = 0 then -f xmin else 0) = f (if i < n - 1 then _ else xmax) - f (if i = 0 then xmin else _)
    by_cases h0 : i = 0
    · subst h0
      rw [if_pos (by omega), if_pos rfl, if_neg (by omega), if_pos rfl, if_pos (by omega), if_pos rfl]; ring
    · rw [if_neg h0, if_neg h0, if_neg h0]
      by_cases h1 : i < n - 1
      · rw [if_pos h1, if_neg (by omega), if_pos h1]; ring
      · rw [if_neg h1, if_pos (by omega), if_neg h1]; ring

/-- ... and the stars, which ignore the interval, are exact for resolved functions up to the factor of C51, now negative: they give the opposite sign of the projection. -/
theorem C121_chebyshev_star (n : ℕ) (hn : 2 ≤ n) (a b : ℝ) (hab : a < b) (t : Bool) (f : ℝ → ℝ) (hf : ResolvedOn .chebyshev n t fun x => f (toInterval .chebyshev a b x)) :
    (Chebyshev.make n b a).H 0 t ((Chebyshev.make n b a).P 0 t f) = .ok (smul (-((b - a) / 2)⁻¹) ((Chebyshev.make n b a).P 1 (!t) f)) := by
  have h := (C51_hodge_off_by_length .chebyshev n hn a b hab t f hf).1
  have hm0 := (C121_chebyshev_mirror n hn a b t).2.2.2.2 0 f
  have hm1 := (C121_chebyshev_mirror n hn a b (!t)).2.2.2.2 1 f
  have hl : ((Chebyshev.make n a b).P 0 t f).length = (grid .chebyshev n a b).N 0 t := by
    rw [grid_N]; exact P_length .chebyshev n hn a b 0 t f
  have hs := C81_mirror_star .chebyshev n hn a b 0 t (by simp) _ hl
  rw [hm0, hm1]
  have e : (Chebyshev.make n b a).H 0 t = (grid .chebyshev n a b).H 0 t := (C121_same_operators .chebyshev n a b 0 t).1
  rw [e, hs]
  replace h : (grid .chebyshev n a b).H 0 t ((Chebyshev.make n a b).P 0 t f) = .ok (smul ((b - a) / (1 - -1))⁻¹ ((Chebyshev.make n a b).P 1 (!t) f)) := h
  rw [h]
  refine congrArg Except.ok ?_
  simp only [mirror, smul, reduceCtorEq, false_and, if_false]
  rw [← List.map_reverse, List.map_map]
  norm_num

theorem dual_edges_backwards {n : ℕ} (hn : 1 ≤ n) {a b : ℝ} (hab : a < b) :
    (roll (Periodic.verts_dual n b a) 1).modify 0 (· - |a - b|)
      = tab n fun i => b - ((i : ℝ) - 1 / 2) * ((b - a) / n) - if i = 0 then 2 * (b - a) else 0 := by
  have hn' : (n : ℝ) ≠ 0 := by positivity
  have habs : |a - b| = b - a := by rw [abs_of_nonpos (by linarith)]; ring
  rw [Periodic.verts_dual_tab, roll_one_tab, habs]
  refine List.ext_getElem (by simp) fun i h1 h2 => ?_
  simp only [List.length_modify, length_tab] at h1
  rw [List.getElem_modify, getElem_tab, getElem_tab]
  by_cases h0 : i = 0
  · subst h0
    simp only [if_true]
    rw [Nat.zero_add, Nat.mod_eq_of_lt (by omega : n - 1 < n), Nat.cast_pred hn]
    field_simp; push_cast; ring
  · rw [if_neg (by omega), if_neg h0, show i + n - 1 = i - 1 + n by omega, Nat.add_mod_right, Nat.mod_eq_of_lt (by omega : i - 1 < n), Nat.cast_pred (by omega)]
    ring

/-- **C121** (defect): a periodic grid given backwards, `xmin = b > xmax = a`, has its vertices in decreasing order and its primal and dual edges run backwards (their reported
lengths are negative), except that the first dual edge starts two lengths of the interval too early. -/
theorem C121_periodic_cells (n : ℕ) (hn : 1 ≤ n) (a b : ℝ) (hab : a < b) :
    (Periodic.make n b a).cells.v true = (List.range n).map (fun i : ℕ => b - i * ((b - a) / n)) ∧
    (Periodic.make n b a).cells.v false = (List.range n).map (fun i : ℕ => b - (i + 1 / 2) * ((b - a) / n)) ∧
    (Periodic.make n b a).cells.e true = ((List.range n).map (fun i : ℕ => b - i * ((b - a) / n)), (List.range n).map (fun i : ℕ => b - (i + 1) * ((b - a) / n))) ∧
    (Periodic.make n b a).cells.e false = ((List.range n).map (fun i : ℕ => b - ((i : ℝ) - 1 / 2) * ((b - a) / n) - if i = 0 then 2 * (b - a) else 0),
      (List.range n).map (fun i : ℕ => b - (i + 1 / 2) * ((b - a) / n))) ∧
    ∀ t, (Periodic.make n b a).delta t = List.replicate n (-((b - a) / n)) := by
  have e1 : (Periodic.make n b a).cells.v true = tab n fun i => b + i * ((a - b) / n) := Periodic.verts_tab _ _ _
  have e2 : (Periodic.make n b a).cells.v false = tab n fun i => b + (i + 1 / 2) * ((a - b) / n) := Periodic.verts_dual_tab _ _ _
  have hr : (a - b) / n = -((b - a) / n) := by ring
  refine ⟨?_, ?_, ?_, ?_, fun t => ?_⟩
  · rw [e1, hr]; exact tab_congr fun i _ => by ring
  · rw [e2, hr]; exact tab_congr fun i _ => by ring
  · show ((Periodic.pnts n b a).dropLast, (Periodic.pnts n b a).tail) = _
    rw [Periodic.pnts_tab, dropLast_tab, tail_tab, Nat.add_sub_cancel, hr]
    exact Prod.ext (tab_congr fun i _ => by ring) (tab_congr fun i _ => by push_cast; ring)
  · show ((roll (Periodic.verts_dual n b a) 1).modify 0 (· - |a - b|), Periodic.verts_dual n b a) = _
    rw [dual_edges_backwards hn hab, Periodic.verts_dual_tab, hr]
    exact Prod.ext rfl (tab_congr fun i _ => by ring)
  · show Periodic.delta n b a = _
    rw [Periodic.delta_tab, hr, replicate_tab]

/-- **C121** (defect): so the first entry of the projection of a 1-form to the dual edges is off by twice the integral over the circle; the others are the integrals over the cells. -/
theorem C121_periodic_projection (n : ℕ) (hn : 1 ≤ n) (a b : ℝ) (hab : a < b) (f : ℝ → ℝ) (hi : ∀ x y, IntervalIntegrable f volume x y) (hp : Function.Periodic f (b - a)) :
    (Periodic.make n b a).P 1 false f = (List.range n).map fun i : ℕ =>
      (∫ s in (b - ((i : ℝ) - 1 / 2) * ((b - a) / n))..(b - (i + 1 / 2) * ((b - a) / n)), f s) + if i = 0 then 2 * ∫ s in a..b, f s else 0 := by
  have h : (Periodic.make n b a).P 1 false f = slow_integration ((Periodic.make n b a).cells.e false).1 ((Periodic.make n b a).cells.e false).2 f := rfl
  rw [h, (C121_periodic_cells n hn a b hab).2.2.2.1]
  refine (zipWith_tab _ _ _ _).trans (tab_congr fun i _ => ?_)
  by_cases h0 : i = 0
  · subst h0
    simp only [if_true]
    refine (intervalIntegral.integral_add_adjacent_intervals (hi _ (b - (((0 : ℕ) : ℝ) - 1 / 2) * ((b - a) / n))) (hi _ _)).symm.trans ?_
    refine (add_comm _ _).trans (congrArg _ ?_)
    have h2 := Function.Periodic.intervalIntegral_add_eq hp (b - (((0 : ℕ) : ℝ) - 1 / 2) * ((b - a) / n) - 2 * (b - a)) a
    have h3 := Function.Periodic.intervalIntegral_add_eq hp (b - (((0 : ℕ) : ℝ) - 1 / 2) * ((b - a) / n) - 2 * (b - a) + (b - a)) a
    rw [show a + (b - a) = b by ring] at h2 h3
    rw [show b - (((0 : ℕ) : ℝ) - 1 / 2) * ((b - a) / n) - 2 * (b - a) + (b - a) + (b - a) = b - (((0 : ℕ) : ℝ) - 1 / 2) * ((b - a) / n) by ring] at h3
    rw [← intervalIntegral.integral_add_adjacent_intervals (hi _ (b - (((0 : ℕ) : ℝ) - 1 / 2) * ((b - a) / n) - 2 * (b - a) + (b - a))) (hi _ _), h2, h3]
    ring
  · simp [h0]

/-- **C121**: derivatives still commute with the projections of periodic functions, because their integral over the circle is zero. -/
theorem C121_periodic_derivative (n : ℕ) (hn : 1 ≤ n) (a b : ℝ) (hab : a < b) (f f' : ℝ → ℝ) (hd : ∀ s, HasDerivAt f (f' s) s) (hi : ∀ x y, IntervalIntegrable f' volume x y)
    (hp : Function.Periodic f (b - a)) (t : Bool) : (Periodic.make n b a).D 0 t ((Periodic.make n b a).P 0 t f) = some ((Periodic.make n b a).P 1 t f') := by
  have hn' : (n : ℝ) ≠ 0 := by positivity
  have ftc : ∀ x y, ∫ s in x..y, f' s = f y - f x := fun x y => intervalIntegral.integral_eq_sub_of_hasDerivAt (fun s _ => hd s) (hi x y)
  have hsub : ∀ x, f (x - (b - a)) = f x := fun x => hp.sub_eq x
  obtain ⟨c1, c2, c3, c4, -⟩ := C121_periodic_cells n hn a b hab
  have hP1 : (Periodic.make n b a).P 1 t f' = slow_integration ((Periodic.make n b a).cells.e t).1 ((Periodic.make n b a).cells.e t).2 f' := rfl
  have hP0 : (Periodic.make n b a).P 0 t f = ((Periodic.make n b a).cells.v t).map f := rfl
  rw [hP0, hP1]
  cases t
  · show some (Periodic.D0d _) = _
    rw [c2, c4]
    unfold Periodic.D0d Periodic.D0
    rw [show (List.range n).map (fun i : ℕ => b - ((i : ℝ) + 1 / 2) * ((b - a) / n)) = tab n fun i => b - ((i : ℝ) + 1 / 2) * ((b - a) / n) from rfl, map_tab,
      roll_neg_one_tab, vsub_tab, roll_one_tab]
    refine congrArg some ((tab_congr fun i hin => ?_).trans (zipWith_tab _ _ _ _).symm)
    rw [ftc]
    have e1 : ((i + n - 1) % n + 1) % n = i := by
      rcases Nat.eq_zero_or_pos i with rfl | h
      · rw [Nat.zero_add, Nat.mod_eq_of_lt (by omega : n - 1 < n), Nat.sub_add_cancel hn, Nat.mod_self]
      · rw [show i + n - 1 = i - 1 + n by omega, Nat.add_mod_right, Nat.mod_eq_of_lt (by omega : i - 1 < n), Nat.sub_add_cancel h, Nat.mod_eq_of_lt hin]
    rw [e1]
    congr 1
    by_cases h0 : i = 0
    · subst h0
      rw [if_pos rfl, Nat.zero_add, Nat.mod_eq_of_lt (by omega : n - 1 < n), Nat.cast_pred hn,
        ← hsub (b - (((n : ℝ) - 1 + 1 / 2) * ((b - a) / n)))]
      congr 1; field_simp; push_cast; ring
    · rw [if_neg h0, show i + n - 1 = i - 1 + n by omega, Nat.add_mod_right, Nat.mod_eq_of_lt (by omega : i - 1 < n), Nat.cast_pred (by omega)]
      congr 1; ring
  · show some (Periodic.D0 _) = _
    rw [c1, c3]
    unfold Periodic.D0
    rw [show (List.range n).map (fun i : ℕ => b - (i : ℝ) * ((b - a) / n)) = tab n fun i => b - (i : ℝ) * ((b - a) / n) from rfl, map_tab, roll_neg_one_tab, vsub_tab]
    refine congrArg some ((tab_congr fun i hin => ?_).trans (zipWith_tab _ _ _ _).symm)
    rw [ftc]
    congr 1
    by_cases h0 : i + 1 < n
    · rw [Nat.mod_eq_of_lt h0]; push_cast; rfl
    · have h1 : i + 1 = n := by omega
      have h2 : (i : ℝ) + 1 = n := by exact_mod_cast h1
      rw [h1, Nat.mod_self, h2, ← hsub (b - ((0 : ℕ) : ℝ) * ((b - a) / n))]
      congr 1; field_simp; push_cast; ring

/-- **C121** (defect): the star does not: already for the constant one, on every periodic grid given backwards, the star of the projection has positive entries, while the projection
of the 1-form has the entry `2 (b - a) - h` first and `-h` after it, where `h` is the length of an edge. -/
theorem C121_periodic_star (n : ℕ) (hn : 1 ≤ n) (a b : ℝ) (hab : a < b) :
    (Periodic.make n b a).H 0 true ((Periodic.make n b a).P 0 true fun _ => 1) = .ok (List.replicate n (2 * π / n)) ∧
    (Periodic.make n b a).P 1 false (fun _ => 1) = (List.range n).map fun i : ℕ => if i = 0 then 2 * (b - a) - (b - a) / n else -((b - a) / n) := by
  constructor
  · have h := (C51_hodge_off_by_length .periodic n hn a b hab true (fun _ => 1) (resolved_one .periodic n hn true)).1
    have e0 : ∀ x y, (Periodic.make n x y).P 0 true (fun _ => 1) = List.replicate n 1 := fun x y => by
      show ((Periodic.make n x y).cells.v true).map _ = _
      rw [show (Periodic.make n x y).cells.v true = _ from Periodic.verts_tab _ _ _, map_tab, replicate_tab]
    have e1 : (Periodic.make n a b).P 1 false (fun _ => 1) = List.replicate n ((b - a) / n) := by
      rw [Periodic.P1d hab.le, replicate_tab]
      refine tab_congr fun i _ => ?_
      simp only [intervalIntegral.integral_const, smul_eq_mul, mul_one]; ring
    replace h : (Periodic.make n a b).H 0 true ((Periodic.make n a b).P 0 true fun _ => 1) = .ok (smul ((b - a) / (2 * π - 0))⁻¹ ((Periodic.make n a b).P 1 false fun _ => 1)) := h
    rw [e0, e1] at h
    rw [e0]
    refine h.trans (congrArg Except.ok ?_)
    unfold smul
    rw [List.map_replicate]
    congr 1
    have : b - a ≠ 0 := by linarith
    field_simp; ring
  · rw [C121_periodic_projection n hn a b hab _ (fun x y => intervalIntegrable_const) (fun _ => rfl)]
    refine List.map_congr_left fun i _ => ?_
    simp only [intervalIntegral.integral_const, smul_eq_mul, mul_one]
    by_cases h0 : i = 0
    · subst h0; simp; ring
    · simp [h0]; ring

/-- The circle given backwards, four vertices: the first dual edge. -/
example : ((Periodic.make 4 (2 * π) 0).cells.e false).1.getD 0 0 = -(2 * π) + π / 4 ∧ ((Periodic.make 4 (2 * π) 0).cells.e false).2.getD 0 0 = 2 * π - π / 4 := by
  rw [(C121_periodic_cells 4 (by norm_num) 0 (2 * π) (by positivity)).2.2.2.1]
  constructor <;> simp [List.range_succ] <;> ring

end Dec.Props
