import Verif.Props.Pictures
import Verif.Props.Arrays

set_option linter.unusedSimpArgs false
set_option linter.unusedVariables false

/-!
# C116: nested grids (`g.points` of `/repo/dec/grid1.py:58-65`, `/repo/dec/grid2.py:157-159`, and the refinement of `/repo/doc/plot/cheb/plot_basis_refined.py`)
-/

namespace Dec.Props

open Real Finset Dec.G2 Dec.Sp MeasureTheory

/-- The number of vertices of the grid with twice as many edges (`2*n-1` for the Chebyshev grid of `/repo/doc/plot/cheb/plot_basis_refined.py:32-34`). -/
def refined : Kind → ℕ → ℕ
  | .periodic, n => 2 * n
  | .regular, n => 2 * n - 1
  | .chebyshev, n => 2 * n - 1

/-- Every cell of the coarse grid `g` is made of cells of the fine grid `g'`. -/
structure NestedIn (g g' : Grid1) : Prop where
  N0 : g'.N 0 true = g.N 0 true + g.N 0 false
  N1 : g'.N 1 true = 2 * g.N 1 true
  N01 : g.N 0 true = g.N 0 false ∨ g.N 0 true = g.N 0 false + 1
  vt : ∀ i < g.N 0 true, vx g true i = vx g' true (2 * i)
  vf : ∀ i < g.N 0 false, vx g false i = vx g' true (2 * i + 1)
  lo : ∀ i < g.N 1 true, lo g true i = lo g' true (2 * i)
  mid : ∀ i < g.N 1 true, G2.hi g' true (2 * i) = G2.lo g' true (2 * i + 1)
  hi : ∀ i < g.N 1 true, G2.hi g true i = G2.hi g' true (2 * i + 1)

theorem refined_valid {k : Kind} {n : ℕ} (hn : validSize k n) : validSize k (refined k n) := by
  cases k
  · show 1 ≤ 2 * n; have : 1 ≤ n := hn; omega
  · show 2 ≤ 2 * n - 1; have : 2 ≤ n := hn; omega
  · show 2 ≤ 2 * n - 1; have : 2 ≤ n := hn; omega

theorem interval_nested {g g' : Grid1} {v w v' w' : ℕ → ℝ} (h : IsInterval g v w) (h' : IsInterval g' v' w') (hn : g'.n = 2 * g.n - 1)
    (hv : ∀ i, v i = v' (2 * i)) (hw : ∀ i, w i = v' (2 * i + 1)) : NestedIn g g' := by
  have h2 := h.two_le
  constructor
  · rw [h'.N01, h.N01, h.N00]; omega
  · rw [h'.N11, h.N11]; omega
  · rw [h.N01, h.N00]; omega
  · intro i hi; rw [h.N01] at hi
    rw [vx_tab h.verts hi, vx_tab h'.verts (by omega), hv]
  · intro i hi; rw [h.N00] at hi
    rw [vx_tab h.verts_dual hi, vx_tab h'.verts (by omega), hw]
  · intro i hi; rw [h.N11] at hi
    rw [lo_tab h.edges hi, lo_tab h'.edges (by omega), hv]
  · intro i hi; rw [h.N11] at hi
    rw [hi_tab h'.edges (by omega), lo_tab h'.edges (by omega)]
  · intro i hi; rw [h.N11] at hi
    rw [hi_tab h.edges hi, hi_tab h'.edges (by omega), hv]; rfl

theorem nested_regular {n : ℕ} (hn : 2 ≤ n) (a b : ℝ) : (∀ i : ℕ, a + (i : ℝ) * ((b - a) / ((n - 1 : ℕ) : ℝ)) = a + ((2 * i : ℕ) : ℝ) * ((b - a) / ((2 * n - 1 - 1 : ℕ) : ℝ))) ∧
    ∀ i : ℕ, a + ((i : ℝ) + 1 / 2) * ((b - a) / ((n - 1 : ℕ) : ℝ)) = a + ((2 * i + 1 : ℕ) : ℝ) * ((b - a) / ((2 * n - 1 - 1 : ℕ) : ℝ)) := by
  obtain ⟨m, rfl⟩ : ∃ m, n = m + 2 := ⟨n - 2, by omega⟩
  rw [show m + 2 - 1 = m + 1 by omega, show 2 * (m + 2) - 1 - 1 = 2 * (m + 1) by omega]
  have : ((m + 1 : ℕ) : ℝ) ≠ 0 := by positivity
  constructor
  · intro i; push_cast at this ⊢; field_simp
  · intro i; push_cast at this ⊢; field_simp

theorem nested_cheb {n : ℕ} (hn : 2 ≤ n) (a b : ℝ) : (∀ i : ℕ, Chebyshev.pt a b ((i : ℝ) * (π / ((n - 1 : ℕ) : ℝ))) = Chebyshev.pt a b (((2 * i : ℕ) : ℝ) * (π / ((2 * n - 1 - 1 : ℕ) : ℝ)))) ∧
    ∀ i : ℕ, Chebyshev.pt a b (((i : ℝ) + 1 / 2) * (π / ((n - 1 : ℕ) : ℝ))) = Chebyshev.pt a b (((2 * i + 1 : ℕ) : ℝ) * (π / ((2 * n - 1 - 1 : ℕ) : ℝ))) := by
  obtain ⟨m, rfl⟩ : ∃ m, n = m + 2 := ⟨n - 2, by omega⟩
  rw [show m + 2 - 1 = m + 1 by omega, show 2 * (m + 2) - 1 - 1 = 2 * (m + 1) by omega]
  have : ((m + 1 : ℕ) : ℝ) ≠ 0 := by positivity
  constructor
  · intro i; congr 1; push_cast at this ⊢; field_simp
  · intro i; congr 1; push_cast at this ⊢; field_simp

theorem nested (k : Kind) (n : ℕ) (hn : validSize k n) (a b : ℝ) : NestedIn (grid k n a b) (grid k (refined k n) a b) := by
  cases k
  · have hn0 : (n : ℝ) ≠ 0 := by have : 1 ≤ n := hn; positivity
    have e : ∀ m, (grid .periodic m a b).cells.v true = tab m (fun i => a + i * ((b - a) / m)) := fun m => Periodic.verts_tab m a b
    have e' : (grid .periodic n a b).cells.v false = tab n (fun i => a + (i + 1 / 2) * ((b - a) / n)) := Periodic.verts_dual_tab n a b
    have ee : ∀ m, (grid .periodic m a b).cells.e true = (tab m fun i => a + i * ((b - a) / m), tab m fun i => a + ((i + 1 : ℕ) : ℝ) * ((b - a) / m)) := fun m => periodic_edges a b
    have N : ∀ m d t, (grid .periodic m a b).N d t = m := fun m d t => rfl
    show NestedIn (grid .periodic n a b) (grid .periodic (2 * n) a b)
    constructor
    · rw [N, N, N]; omega
    · rw [N, N]
    · rw [N, N]; omega
    · intro i hi; rw [N] at hi
      rw [vx_tab (e n) hi, vx_tab (e _) (by omega)]; push_cast; field_simp
    · intro i hi; rw [N] at hi
      rw [vx_tab e' hi, vx_tab (e _) (by omega)]; push_cast; field_simp
    · intro i hi; rw [N] at hi
      rw [lo_tab (ee n) hi, lo_tab (ee _) (by omega)]; push_cast; field_simp
    · intro i hi; rw [N] at hi
      rw [hi_tab (ee _) (by omega), lo_tab (ee _) (by omega)]
    · intro i hi; rw [N] at hi
      rw [hi_tab (ee n) hi, hi_tab (ee _) (by omega)]; push_cast; field_simp; ring
  · have hn' : 2 ≤ n := hn
    exact interval_nested (Regular.isInterval hn' a b) (Regular.isInterval (show 2 ≤ 2 * n - 1 by omega) a b) rfl (nested_regular hn' a b).1 (nested_regular hn' a b).2
  · have hn' : 2 ≤ n := hn
    exact interval_nested (Chebyshev.isInterval hn' a b) (Chebyshev.isInterval (show 2 ≤ 2 * n - 1 by omega) a b) rfl (nested_cheb hn' a b).1 (nested_cheb hn' a b).2

theorem weave_tab {α : Type*} (N M : ℕ) (h : N = M ∨ N = M + 1) (f : ℕ → α) : weave (tab N fun i => f (2 * i)) (tab M fun i => f (2 * i + 1)) = tab (N + M) f := by
  induction N generalizing M f with
  | zero => obtain rfl : M = 0 := by omega
            rfl
  | succ N ih =>
    cases M with
    | zero => obtain rfl : N = 0 := by omega
              rfl
    | succ M =>
      rw [tab_succ, tab_succ, weave, show N + 1 + (M + 1) = N + M + 1 + 1 by omega, tab_succ, tab_succ]
      congr 2
      exact ih M (by omega) fun i => f (i + 1 + 1)

section
variable (k : Kind) (n : ℕ) (hn : validSize k n)
include hn

/-- **C116** (points): `g.points` is the array of vertices of the grid with twice as many edges. -/
theorem C116_points (a b : ℝ) : (grid k n a b).points = .ok ((grid k (refined k n) a b).cells.v true) := by
  have h := nested k n hn a b
  have F := grid_factor k n hn a b
  have F' := grid_factor k (refined k n) (refined_valid hn) a b
  unfold Grid1.points interweave
  rw [if_pos (by rw [F.v, F.v]; exact h.N01), F.v_tab true, F.v_tab false, F'.v_tab true, h.N0]
  refine congrArg _ ?_
  rw [← weave_tab _ _ h.N01]
  exact congrArg₂ weave (tab_congr fun i hi => h.vt i hi) (tab_congr fun i hi => h.vf i hi)

/-- **C116** (values): the values of a function at the vertices and at the dual vertices are the even and the odd values on the fine grid. -/
theorem C116_values (a b : ℝ) (f : ℝ → ℝ) :
    (grid k n a b).P 0 true f = stride2 ((grid k (refined k n) a b).P 0 true f) ∧ (grid k n a b).P 0 false f = stride2' ((grid k (refined k n) a b).P 0 true f) := by
  have h := nested k n hn a b
  have F := grid_factor k n hn a b
  have F' := grid_factor k (refined k n) (refined_valid hn) a b
  rw [P0_tab F, P0_tab F, P0_tab F', stride2_tab, stride2'_tab, h.N0]
  have := h.N01
  exact ⟨tab_congr' (by omega) fun i hi => by rw [h.vt i hi], tab_congr' (by omega) fun i hi => by rw [h.vf i hi]⟩

/-- **C116** (integrals): the integral over an edge is the sum of the integrals over two consecutive fine edges. -/
theorem C116_integrals (a b : ℝ) (f : ℝ → ℝ) (hf : ∀ x y, IntervalIntegrable f volume x y) :
    (grid k n a b).P 1 true f
      = List.zipWith (· + ·) (stride2 ((grid k (refined k n) a b).P 1 true f)) (stride2' ((grid k (refined k n) a b).P 1 true f)) := by
  have h := nested k n hn a b
  have F := grid_factor k n hn a b
  have F' := grid_factor k (refined k n) (refined_valid hn) a b
  rw [P1_tab F, P1_tab F', stride2_tab, stride2'_tab, h.N1, zipWith_tab']
  refine tab_congr' (by omega) fun i hi => ?_
  rw [h.lo i hi, h.hi i hi, h.mid i hi, intervalIntegral.integral_add_adjacent_intervals (hf _ _) (hf _ _)]

/-- **C116** (derivative): the differences of the even values are the sums of two consecutive fine differences. -/
theorem C116_derivative (a b : ℝ) (c : List ℝ) (hc : c.length = (grid k (refined k n) a b).N 0 true) :
    ∃ e, (grid k (refined k n) a b).D 0 true c = some e ∧ (grid k n a b).D 0 true (stride2 c) = some (List.zipWith (· + ·) (stride2 e) (stride2' e)) := by
  obtain ⟨c, rfl⟩ : ∃ f, c = tab _ f := ⟨_, eq_tab' hc 0⟩
  have key : ∀ {g g' : Grid1} {v w v' w' : ℕ → ℝ} (h : IsInterval g v w) (h' : IsInterval g' v' w') (hn : g'.n = 2 * g.n - 1),
      ∃ e, g'.D 0 true (tab (g'.N 0 true) c) = some e ∧ g.D 0 true (stride2 (tab (g'.N 0 true) c)) = some (List.zipWith (· + ·) (stride2 e) (stride2' e)) := by
    intro g g' v w v' w' h h' hn
    have h2 := h.two_le
    refine ⟨_, h'.D0 _, ?_⟩
    rw [h.D0, h'.N01, stride2_tab, diff_tab, diff_tab, stride2_tab, stride2'_tab, zipWith_tab']
    refine congrArg _ (tab_congr' (by omega) fun i hi => ?_)
    rw [show 2 * (i + 1) = 2 * i + 1 + 1 by ring]; ring
  cases k
  · have hn' : 1 ≤ n := hn
    refine ⟨_, rfl, ?_⟩
    show some (Periodic.D0 (stride2 (tab (2 * n) c))) = some (List.zipWith (· + ·) (stride2 (Periodic.D0 (tab (2 * n) c))) (stride2' (Periodic.D0 (tab (2 * n) c))))
    rw [stride2_tab, periodic_D0_tab, periodic_D0_tab, stride2_tab, stride2'_tab, zipWith_tab']
    refine congrArg _ (tab_congr' (by omega) fun i hi => ?_)
    rw [Nat.mod_eq_of_lt (show 2 * i + 1 < 2 * n by omega), show (2 * n + 1) / 2 = n by omega]
    rw [show 2 * ((i + 1) % n) = (2 * i + 1 + 1) % (2 * n) by rw [← Nat.mul_mod_mul_left]; congr 1]
    ring
  · have hn' : 2 ≤ n := hn
    exact key (Regular.isInterval hn' a b) (Regular.isInterval (show 2 ≤ 2 * n - 1 by omega) a b) rfl
  · have hn' : 2 ≤ n := hn
    exact key (Chebyshev.isInterval hn' a b) (Chebyshev.isInterval (show 2 ≤ 2 * n - 1 by omega) a b) rfl

end

/-! ## Dual edges -/

theorem C116_dual_key {g g' : Grid1} {v w v' w' : ℕ → ℝ} (h : IsInterval g v w) (h' : IsInterval g' v' w') (hn : g'.n = 2 * g.n - 1) (F : Factor g) (F' : Factor g')
    (hv : ∀ i, v i = v' (2 * i)) (hw : ∀ i, w i = v' (2 * i + 1)) (f : ℝ → ℝ) (hf : ∀ x y, IntervalIntegrable f volume x y) :
    g.P 1 false f = List.zipWith (· + ·) (0 :: stride2' (g'.P 1 true f)) (stride2 (g'.P 1 true f) ++ [0]) := by
  have h2 := h.two_le
  rw [P1_tab F, P1_tab F', stride2_tab, stride2'_tab, cons_tab, append_singleton_tab, zipWith_tab', h'.N11, h.N10]
  refine tab_congr' (by omega) fun i hi => ?_
  rw [lo_tab h.edges_dual hi, hi_tab h.edges_dual hi]
  have e : ∀ j < g'.n - 1, ∫ x in (lo g' true j)..(G2.hi g' true j), f x = ∫ x in (v' j)..(v' (j + 1)), f x := fun j hj => by
    rw [lo_tab h'.edges hj, hi_tab h'.edges hj]
  have f0 : g.xmin = v' 0 := by rw [← h.first, hv]
  have fl : g.xmax = v' (2 * (g.n - 1)) := by rw [← h.last, hv]
  rcases Nat.eq_zero_or_pos i with rfl | h0
  · rw [if_pos rfl, if_pos (by omega), if_pos rfl, if_pos (by omega), e _ (by omega), f0, hw, zero_add, Nat.mul_zero]
  · rw [if_neg (show ¬ i = 0 by omega), if_neg (show ¬ i = 0 by omega), e (2 * (i - 1) + 1) (by omega), hw (i - 1), show 2 * (i - 1) + 1 = 2 * i - 1 by omega, show 2 * i - 1 + 1 = 2 * i by omega]
    rcases Nat.lt_or_ge i (g.n - 1) with hl | hl
    · rw [if_pos hl, if_pos (show i < (g'.n - 1 + 1) / 2 by omega), e (2 * i) (by omega), hw, intervalIntegral.integral_add_adjacent_intervals (hf _ _) (hf _ _)]
    · rw [if_neg (show ¬ i < g.n - 1 by omega), if_neg (show ¬ i < (g'.n - 1 + 1) / 2 by omega), fl, show g.n - 1 = i by omega, add_zero]

theorem periodic_dual_key (n : ℕ) (hn : 1 ≤ n) {a b : ℝ} (hab : a < b) (f : ℝ → ℝ) (hf : ∀ x y, IntervalIntegrable f volume x y) (hp : Function.Periodic f (b - a)) :
    (grid .periodic n a b).P 1 false f = List.zipWith (· + ·) (roll (stride2' ((grid .periodic (2 * n) a b).P 1 true f)) 1) (stride2 ((grid .periodic (2 * n) a b).P 1 true f)) := by
  have F := grid_factor .periodic n hn a b
  have F' := grid_factor .periodic (2 * n) (show 1 ≤ 2 * n by omega) a b
  have ee : (grid .periodic (2 * n) a b).cells.e true = _ := periodic_edges a b
  have ed : (grid .periodic n a b).cells.e false = _ := periodic_edges_dual hab
  have hn0 : (n : ℝ) ≠ 0 := by positivity
  rw [P1_tab F, P1_tab F', show (grid .periodic n a b).N 1 false = n from rfl, show (grid .periodic (2 * n) a b).N 1 true = 2 * n from rfl,
    stride2_tab, stride2'_tab, show (2 * n + 1) / 2 = n by omega, show 2 * n / 2 = n by omega, roll_one_tab, zipWith_tab]
  refine tab_congr fun i hi => ?_
  rw [lo_tab ed hi, hi_tab ed hi, lo_tab ee (show 2 * i < 2 * n by omega), hi_tab ee (show 2 * i < 2 * n by omega)]
  have hm : (i + n - 1) % n < n := Nat.mod_lt _ (by omega)
  rw [lo_tab ee (show 2 * ((i + n - 1) % n) + 1 < 2 * n by omega), hi_tab ee (show 2 * ((i + n - 1) % n) + 1 < 2 * n by omega)]
  have e : ∫ x in (a + ((2 * ((i + n - 1) % n) + 1 : ℕ) : ℝ) * ((b - a) / ((2 * n : ℕ) : ℝ)))..(a + ((2 * ((i + n - 1) % n) + 1 + 1 : ℕ) : ℝ) * ((b - a) / ((2 * n : ℕ) : ℝ))), f x
      = ∫ x in (a + ((i : ℝ) - 1 / 2) * ((b - a) / n))..(a + (i : ℝ) * ((b - a) / n)), f x := by
    rcases Nat.eq_zero_or_pos i with rfl | h0
    · rw [show (0 + n - 1) % n = n - 1 by rw [Nat.zero_add]; exact Nat.mod_eq_of_lt (by omega), show 2 * (n - 1) + 1 = 2 * n - 1 by omega, show 2 * n - 1 + 1 = 2 * n by omega]
      have e := intervalIntegral.integral_comp_add_right (a := a + (((0 : ℕ) : ℝ) - 1 / 2) * ((b - a) / n)) (b := a + ((0 : ℕ) : ℝ) * ((b - a) / n)) f (b - a)
      simp only [hp _] at e
      rw [e]
      congr 1
      · rw [Nat.cast_sub (by omega)]; push_cast; field_simp; ring
      · push_cast; field_simp; ring
    · rw [show (i + n - 1) % n = i - 1 by rw [show i + n - 1 = i - 1 + n by omega, Nat.add_mod_right]; exact Nat.mod_eq_of_lt (by omega), show 2 * (i - 1) + 1 = 2 * i - 1 by omega, show 2 * i - 1 + 1 = 2 * i by omega]
      congr 1
      · rw [Nat.cast_sub (by omega)]; push_cast; field_simp
      · push_cast; field_simp
  rw [e]
  rw [show a + ((2 * i : ℕ) : ℝ) * ((b - a) / ((2 * n : ℕ) : ℝ)) = a + (i : ℝ) * ((b - a) / n) by push_cast; field_simp,
    intervalIntegral.integral_add_adjacent_intervals (hf _ _) (hf _ _)]
  congr 1
  push_cast; field_simp

/-- **C116** (dual integrals): the integral over a dual edge is the sum of the integrals over the two fine edges that meet in its vertex; at an end of an
interval there is only one; on a circle the function has to be periodic. -/
theorem C116_dual_integrals (k : Kind) (n : ℕ) (hn : validSize k n) {a b : ℝ} (hab : a < b) (f : ℝ → ℝ) (hf : ∀ x y, IntervalIntegrable f volume x y) :
    (k ≠ .periodic → (grid k n a b).P 1 false f
      = List.zipWith (· + ·) (0 :: stride2' ((grid k (refined k n) a b).P 1 true f)) (stride2 ((grid k (refined k n) a b).P 1 true f) ++ [0])) ∧
    (k = .periodic → Function.Periodic f (b - a) → (grid k n a b).P 1 false f
      = List.zipWith (· + ·) (roll (stride2' ((grid k (refined k n) a b).P 1 true f)) 1) (stride2 ((grid k (refined k n) a b).P 1 true f))) := by
  cases k
  · exact ⟨fun h => absurd rfl h, fun _ hp => periodic_dual_key n hn hab f hf hp⟩
  · have hn' : 2 ≤ n := hn
    exact ⟨fun _ => C116_dual_key (Regular.isInterval hn' a b) (Regular.isInterval (show 2 ≤ 2 * n - 1 by omega) a b) rfl (grid_factor .regular n hn a b)
      (grid_factor .regular (2 * n - 1) (show 2 ≤ 2 * n - 1 by omega) a b) (nested_regular hn' a b).1 (nested_regular hn' a b).2 f hf, fun h => by cases h⟩
  · have hn' : 2 ≤ n := hn
    exact ⟨fun _ => C116_dual_key (Chebyshev.isInterval hn' a b) (Chebyshev.isInterval (show 2 ≤ 2 * n - 1 by omega) a b) rfl (grid_factor .chebyshev n hn a b)
      (grid_factor .chebyshev (2 * n - 1) (show 2 ≤ 2 * n - 1 by omega) a b) (nested_cheb hn' a b).1 (nested_cheb hn' a b).2 f hf, fun h => by cases h⟩

/-! ## Reconstructions -/

theorem oP_agree0 {g : Grid1} (F : Factor g) (t : Bool) {R : ℝ → Option ℝ} {f : ℝ → ℝ} (h : ∀ i < g.N 0 t, R (vx g t i) = some (f (vx g t i))) : oP g.cells 0 t R = (g.P 0 t f).map some := by
  rw [oP0 (F.v t) h, P0_tab F, map_tab]

theorem oP_agree1 {g : Grid1} (F : Factor g) (t : Bool) {R : ℝ → Option ℝ} {f : ℝ → ℝ} (hf : Continuous f) (hle : ∀ i < g.N 1 t, lo g t i ≤ G2.hi g t i)
    (h : ∀ i < g.N 1 t, ∀ x ∈ Set.Ioo (lo g t i) (G2.hi g t i), R x = some (f x)) : oP g.cells 1 t R = (g.P 1 t f).map some := by
  rw [oP1 (F.e1 t) (F.e2 t) fun i hi => OInt.of_cont (hle i hi) hf (h i hi) rfl, P1_tab F, map_tab]
  rfl

theorem interior_inside (k : Kind) : ∃ a b : ℝ, a < b ∧ (∀ m, grid₀ k m = grid k m a b) ∧ Set.Ioo a b ⊆ Inside k 1 := by
  cases k
  · exact ⟨0, 2 * π, by positivity, fun m => rfl, fun x hx => ⟨hx.1.le, hx.2⟩⟩
  · exact ⟨0, π, by positivity, fun m => rfl, fun x hx => ⟨hx.1.le, hx.2.le⟩⟩
  · exact ⟨-1, 1, by norm_num, fun m => rfl, fun x hx => hx⟩

section
variable (k : Kind) (n : ℕ) (hn : validSize k n)
include hn

/-- **C116** (reconstructed 0-forms): the reconstruction of a fine 0-form, projected to the coarse grid, has the even coefficients at the vertices and the odd ones at the dual vertices. -/
theorem C116_reconstruct_zero (c : List ℝ) (hc : c.length = (grid₀ k (refined k n)).N 0 true) :
    oP (grid₀ k n).cells 0 true ((grid₀ k (refined k n)).R 0 true c) = (stride2 c).map some ∧
      oP (grid₀ k n).cells 0 false ((grid₀ k (refined k n)).R 0 true c) = (stride2' c).map some := by
  obtain ⟨a, b, hab, e, -⟩ := interior_inside k
  have h := (spans' k (refined k n) (refined_valid hn)).dual.oP_R 0 true hc
  have N := nested k n hn a b
  have F := grid_factor k n hn a b
  have F' := grid_factor k (refined k n) (refined_valid hn) a b
  rw [e] at hc h
  rw [e, e]
  generalize (grid k (refined k n) a b).R 0 true c = R at h
  obtain ⟨c, rfl⟩ : ∃ f, c = tab _ f := ⟨_, eq_tab' hc 0⟩
  have h' : tab ((grid k (refined k n) a b).N 0 true) (fun i => R (vx (grid k (refined k n) a b) true i)) = tab ((grid k (refined k n) a b).N 0 true) fun i => some (c i) := by
    have h1 : ((grid k (refined k n) a b).cells.v true).map R = _ := h
    rw [F'.v_tab, map_tab, map_tab] at h1
    exact h1
  rw [tab_inj] at h'
  have H0 := N.N0
  have H1 := N.N01
  rw [stride2_tab, stride2'_tab, map_tab, map_tab, oP0 (F.v true) fun i hi => by
    rw [show ((grid k n a b).cells.v true).getD i 0 = _ from N.vt i hi]; exact h' (2 * i) (by omega), oP0 (F.v false) fun i hi => by
    rw [show ((grid k n a b).cells.v false).getD i 0 = _ from N.vf i hi]; exact h' (2 * i + 1) (by omega)]
  exact ⟨tab_congr' (by omega) fun i hi => rfl, tab_congr' (by omega) fun i hi => rfl⟩

/-- **C116** (reconstructed 1-forms): the reconstruction of a fine 1-form, projected to the edges of the coarse grid, has the sums of two consecutive coefficients; on the dual edges
of an interval those of the two that meet in the vertex. -/
theorem C116_reconstruct_one (c : List ℝ) (hc : c.length = (grid₀ k (refined k n)).N 1 true) :
    oP (grid₀ k n).cells 1 true ((grid₀ k (refined k n)).R 1 true c) = (List.zipWith (· + ·) (stride2 c) (stride2' c)).map some ∧
      (k ≠ .periodic → oP (grid₀ k n).cells 1 false ((grid₀ k (refined k n)).R 1 true c) = (List.zipWith (· + ·) (0 :: stride2' c) (stride2 c ++ [0])).map some) := by
  obtain ⟨a, b, hab, e, hin⟩ := interior_inside k
  obtain ⟨f, hf, hP, hR⟩ := C70_reconstruction_determined k (refined k n) (refined_valid hn) 1 true c hc
  have hcont : Continuous f := ((spans' k (refined k n) (refined_valid hn)).space 1 true).cont f hf
  have hint : ∀ x y, IntervalIntegrable f volume x y := fun x y => hcont.intervalIntegrable x y
  have F := grid_factor k n hn a b
  rw [e] at hP hR
  rw [e, e]
  have key : ∀ t, (k = .periodic → t = true) → oP (grid k n a b).cells 1 t ((grid k (refined k n) a b).R 1 true c) = ((grid k n a b).P 1 t f).map some := fun t ht => by
    have hp := grid_edges k n hn hab t ht
    have l : ((grid k n a b).cells.e t).1.length = (grid k n a b).N 1 t := F.e1 t
    refine oP_agree1 F t hcont (fun i hi => (hp.2.2.2.2.1 i (by rw [l]; exact hi)).le) fun i hi x hx => hR x (hin ?_)
    have c1 := (partition_cover hp (lo (grid k n a b) t i)).1 ⟨i, by rw [l]; exact hi, le_rfl, (hx.1.trans hx.2).le⟩
    have c2 := (partition_cover hp (G2.hi (grid k n a b) t i)).1 ⟨i, by rw [l]; exact hi, (hx.1.trans hx.2).le, le_rfl⟩
    exact ⟨c1.1.trans_lt hx.1, hx.2.trans_le c2.2⟩
  refine ⟨?_, fun hk => ?_⟩
  · rw [key true fun _ => rfl, C116_integrals k n hn a b f hint, hP]
  · rw [key false fun h => absurd h hk, (C116_dual_integrals k n hn hab f hint).1 hk, hP]

/-- **C116** (basis 1-forms): the two fine basis 1-forms of the halves of an edge, added, have integral 2 over that edge and 0 over the others:
the blue curve of `/repo/doc/plot/cheb/plot_basis_refined.py` integrates to twice the black one over every coarse edge. -/
theorem C116_basis (i : ℕ) (hi : i < (grid₀ k n).N 1 true) :
    oP (grid₀ k n).cells 1 true ((grid₀ k (refined k n)).R 1 true (tab ((grid₀ k (refined k n)).N 1 true) fun j => if j = 2 * i ∨ j = 2 * i + 1 then 1 else 0))
      = tab ((grid₀ k n).N 1 true) fun j => some (if j = i then 2 else 0) := by
  obtain ⟨a, b, hab, e, -⟩ := interior_inside k
  have N := (nested k n hn a b).N1
  rw [← e, ← e] at N
  rw [(C116_reconstruct_one k n hn _ (length_tab _ _)).1, stride2_tab, stride2'_tab, zipWith_tab', map_tab, N]
  refine tab_congr' (by omega) fun j hj => ?_
  by_cases h : j = i
  · rw [if_pos (by omega), if_pos (by omega), if_pos h]; norm_num
  · rw [if_neg (by omega), if_neg (by omega), if_neg h]; norm_num

end

/-! ## Two dimensions -/

/-- **C116** (points of a product): the points of a product grid are the vertices of the product of the fine grids. -/
theorem C116_points_2d (k k' : Kind) (n n' : ℕ) (hn : validSize k n) (hn' : validSize k' n') (a b a' b' : ℝ) :
    (G2.product (grid k n a b) (grid k' n' a' b')).points = .ok ((G2.product (grid k (refined k n) a b) (grid k' (refined k' n') a' b')).bcells.v true) := by
  unfold Grid2.points
  rw [show (G2.product (grid k n a b) (grid k' n' a' b')).gx = grid k n a b from rfl, show (G2.product (grid k n a b) (grid k' n' a' b')).gy = grid k' n' a' b' from rfl, C116_points k n hn, C116_points k' n' hn']
  rfl

theorem P2r_split {f : ℝ → ℝ → ℝ} (hf : Continuous fun p : ℝ × ℝ => f p.1 p.2) (x₀ x₁ x₂ y₀ y₁ y₂ : ℝ) :
    Integrate.P2r f x₀ y₀ x₂ y₂ = Integrate.P2r f x₀ y₀ x₁ y₁ + Integrate.P2r f x₁ y₀ x₂ y₁ + (Integrate.P2r f x₀ y₁ x₁ y₂ + Integrate.P2r f x₁ y₁ x₂ y₂) := by
  unfold Integrate.P2r
  have hc : ∀ u v : ℝ, Continuous fun x => ∫ y in u..v, f x y := fun u v => intervalIntegral.continuous_parametric_intervalIntegral_of_continuous' hf u v
  have hy : ∀ x u v, IntervalIntegrable (f x) volume u v := fun x u v => (hf.comp (by fun_prop : Continuous fun y : ℝ => (x, y))).intervalIntegrable u v
  have hx : ∀ u v p q, IntervalIntegrable (fun x => ∫ y in u..v, f x y) volume p q := fun u v p q => (hc u v).intervalIntegrable p q
  rw [intervalIntegral.integral_add_adjacent_intervals (hx _ _ _ _) (hx _ _ _ _), intervalIntegral.integral_add_adjacent_intervals (hx _ _ _ _) (hx _ _ _ _),
    ← intervalIntegral.integral_add (hx _ _ _ _) (hx _ _ _ _)]
  exact intervalIntegral.integral_congr fun x _ => (intervalIntegral.integral_add_adjacent_intervals (hy _ _ _) (hy _ _ _)).symm

/-- **C116** (faces): on a product grid the integral of a continuous function over a face is the sum of its integrals over four fine faces: columns `2i`, `2i+1` of rows `2j`, `2j+1`. -/
theorem C116_faces (k k' : Kind) (n n' : ℕ) (hn : validSize k n) (hn' : validSize k' n') (a b a' b' : ℝ) (f : ℝ → ℝ → ℝ) (hf : Continuous fun p : ℝ × ℝ => f p.1 p.2) :
    ∃ A C : List ℝ, (G2.product (grid k n a b) (grid k' n' a' b')).P 2 true [f] = .ok A ∧
      (G2.product (grid k (refined k n) a b) (grid k' (refined k' n') a' b')).P 2 true [f] = .ok C ∧
      (grid k (refined k n) a b).N 1 true = 2 * (grid k n a b).N 1 true ∧ (grid k' (refined k' n') a' b').N 1 true = 2 * (grid k' n' a' b').N 1 true ∧
      A.length = (grid k' n' a' b').N 1 true * (grid k n a b).N 1 true ∧ C.length = (grid k' (refined k' n') a' b').N 1 true * (grid k (refined k n) a b).N 1 true ∧
      ∀ i < (grid k n a b).N 1 true, ∀ j < (grid k' n' a' b').N 1 true,
        A.getD (j * (grid k n a b).N 1 true + i) 0
          = C.getD ((2 * j) * (2 * (grid k n a b).N 1 true) + 2 * i) 0 + C.getD ((2 * j) * (2 * (grid k n a b).N 1 true) + (2 * i + 1)) 0
            + (C.getD ((2 * j + 1) * (2 * (grid k n a b).N 1 true) + 2 * i) 0 + C.getD ((2 * j + 1) * (2 * (grid k n a b).N 1 true) + (2 * i + 1)) 0) := by
  have X := nested k n hn a b
  have Y := nested k' n' hn' a' b'
  have Fx := grid_factor k n hn a b
  have Fy := grid_factor k' n' hn' a' b'
  have Fx' := grid_factor k (refined k n) (refined_valid hn) a b
  have Fy' := grid_factor k' (refined k' n') (refined_valid hn') a' b'
  refine ⟨_, _, P2_mtab Fx Fy true f, P2_mtab Fx' Fy' true f, X.N1, Y.N1, ?_, ?_, fun i hi j hj => ?_⟩
  · exact length_tab _ _
  · exact length_tab _ _
  · rw [X.N1, Y.N1, getD_data hj hi, getD_data (by omega) (by omega), getD_data (by omega) (by omega), getD_data (by omega) (by omega), getD_data (by omega) (by omega),
      X.lo i hi, X.hi i hi, Y.lo j hj, Y.hi j hj, X.mid i hi, Y.mid j hj]
    exact P2r_split hf _ _ _ _ _ _

/-- Non-vacuity: the Chebyshev grid of `/repo/doc/plot/cheb/plot_basis_refined.py` with four vertices, refined to seven; its second edge; a function that can be integrated. -/
example : validSize .chebyshev 4 ∧ refined .chebyshev 4 = 7 ∧ 1 < (grid₀ .chebyshev 4).N 1 true ∧ ([1, 2, 3, 4, 5, 6] : List ℝ).length = (grid₀ .chebyshev (refined .chebyshev 4)).N 1 true :=
  ⟨show 2 ≤ 4 by norm_num, rfl, show 1 < 3 by norm_num, rfl⟩

example : (∀ x y, IntervalIntegrable (fun x : ℝ => sin x) volume x y) ∧ Function.Periodic (fun x : ℝ => sin x) (2 * π - 0) :=
  ⟨fun x y => continuous_sin.intervalIntegrable x y, by rw [sub_zero]; exact sin_periodic⟩

end Dec.Props
