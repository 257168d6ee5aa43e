import Verif.Model.Regular
import Verif.Model.Chebyshev
import Verif.Lib.PeriodicGrid

set_option linter.unusedSimpArgs false
set_option linter.unusedVariables false

/-! Regular and Chebyshev grids in normal form. -/

namespace Dec

open Real Finset

/-- The common shape of the two interval grids: `n` primal vertices `v i`, `n - 1` dual vertices `w i`. -/
structure IsInterval (g : Grid1) (v w : ℕ → ℝ) : Prop where
  two_le : 2 ≤ g.n
  verts : g.cells.v true = tab g.n v
  verts_dual : g.cells.v false = tab (g.n - 1) w
  edges : g.cells.e true = (tab (g.n - 1) v, tab (g.n - 1) fun i => v (i + 1))
  edges_dual : g.cells.e false
    = (tab g.n fun i => if i = 0 then g.xmin else w (i - 1), tab g.n fun i => if i < g.n - 1 then w i else g.xmax)
  first : v 0 = g.xmin
  last : v (g.n - 1) = g.xmax
  D0 : ∀ f, g.D 0 true f = some (diff f)
  D0d : ∀ f, g.D 0 false f = some (diff ([0] ++ f ++ [0]))
  D1 : ∀ t f, g.D 1 t f = none
  N01 : g.N 0 true = g.n
  N11 : g.N 1 true = g.n - 1
  N00 : g.N 0 false = g.n - 1
  N10 : g.N 1 false = g.n

theorem tmp_dropLast {n : ℕ} (hn : 2 ≤ n) (a b : ℝ) (w : ℕ → ℝ) :
    ([a] ++ tab (n - 1) w ++ [b]).dropLast = tab n (fun i => if i = 0 then a else w (i - 1)) := by
  rw [List.dropLast_concat, List.singleton_append, cons_tab]
  exact tab_congr' (by omega) fun i _ => rfl

theorem tmp_tail {n : ℕ} (hn : 2 ≤ n) (a b : ℝ) (w : ℕ → ℝ) :
    ([a] ++ tab (n - 1) w ++ [b]).tail = tab n (fun i => if i < n - 1 then w i else b) := by
  rw [List.singleton_append, List.cons_append, List.tail_cons, append_singleton_tab]
  exact tab_congr' (by omega) fun i _ => rfl

namespace Regular

theorem verts_tab {n : ℕ} (a b : ℝ) :
    verts n a b = tab n (fun i => a + i * ((b - a) / ((n - 1 : ℕ) : ℝ))) := rfl

theorem verts_dual_tab {n : ℕ} (a b : ℝ) :
    verts_dual n a b = tab (n - 1) (fun i => a + (i + 1 / 2) * ((b - a) / ((n - 1 : ℕ) : ℝ))) := by
  unfold verts_dual delta; rw [verts_tab, dropLast_tab, diff_tab, smul_tab, vadd_tab]
  exact tab_congr fun i _ => by push_cast; ring

theorem isInterval {n : ℕ} (hn : 2 ≤ n) (a b : ℝ) :
    IsInterval (make n a b) (fun i => a + i * ((b - a) / ((n - 1 : ℕ) : ℝ)))
      (fun i => a + (i + 1 / 2) * ((b - a) / ((n - 1 : ℕ) : ℝ))) where
  two_le := hn
  verts := rfl
  verts_dual := verts_dual_tab a b
  edges := by
    show ((verts n a b).dropLast, (verts n a b).tail) = _
    rw [verts_tab, dropLast_tab, tail_tab]; rfl
  edges_dual := by
    show ((tmp n a b).dropLast, (tmp n a b).tail) = _
    unfold tmp; rw [verts_dual_tab, tmp_dropLast hn, tmp_tail hn]; rfl
  first := by simp [make]
  last := by
    show a + ((n - 1 : ℕ) : ℝ) * ((b - a) / ((n - 1 : ℕ) : ℝ)) = b
    have : ((n - 1 : ℕ) : ℝ) ≠ 0 := by exact_mod_cast (by omega : n - 1 ≠ 0)
    field_simp; ring
  D0 := fun _ => rfl
  D0d := fun _ => rfl
  D1 := fun t _ => by cases t <;> rfl
  N01 := rfl
  N11 := rfl
  N00 := rfl
  N10 := rfl

end Regular

namespace Chebyshev

/-- The point of `[a, b]` with Chebyshev angle `θ`. -/
noncomputable def pt (a b θ : ℝ) : ℝ := 1 / 2 * (a * (1 + cos θ) + b * (1 - cos θ))

theorem pnts_tab {n : ℕ} (hn : 2 ≤ n) (a b : ℝ) :
    pnts n a b = tab (2 * n - 1) (fun i => pt a b (i * (π / ((n - 1 : ℕ) : ℝ) / 2))) := by
  unfold pnts linspace
  rw [map_tab, map_tab]
  apply tab_congr; intro i _
  have h1 : ((2 * n - 1 - 1 : ℕ) : ℝ) = 2 * ((n - 1 : ℕ) : ℝ) := by exact_mod_cast (by omega : 2 * n - 1 - 1 = 2 * (n - 1))
  have : ((n - 1 : ℕ) : ℝ) ≠ 0 := by exact_mod_cast (by omega : n - 1 ≠ 0)
  have h2 : -(π / 2) + (i : ℝ) * ((π / 2 - -(π / 2)) / ((2 * n - 1 - 1 : ℕ) : ℝ)) = i * (π / ((n - 1 : ℕ) : ℝ) / 2) - π / 2 := by
    rw [h1]; field_simp; ring
  rw [h2, sin_sub_pi_div_two]
  unfold pt; ring

theorem verts_tab {n : ℕ} (hn : 2 ≤ n) (a b : ℝ) :
    verts n a b = tab n (fun i => pt a b (i * (π / ((n - 1 : ℕ) : ℝ)))) := by
  unfold verts; rw [pnts_tab hn, stride2_tab]
  exact tab_congr' (by omega) fun i _ => by congr 1; push_cast; ring

theorem verts_dual_tab {n : ℕ} (hn : 2 ≤ n) (a b : ℝ) :
    verts_dual n a b = tab (n - 1) (fun i => pt a b ((i + 1 / 2) * (π / ((n - 1 : ℕ) : ℝ)))) := by
  unfold verts_dual; rw [pnts_tab hn, stride2'_tab]
  exact tab_congr' (by omega) fun i _ => by congr 1; push_cast; ring

theorem pt_zero (a b : ℝ) : pt a b 0 = a := by unfold pt; simp; ring
theorem pt_pi (a b : ℝ) : pt a b π = b := by unfold pt; simp; ring

theorem isInterval {n : ℕ} (hn : 2 ≤ n) (a b : ℝ) :
    IsInterval (make n a b) (fun i => pt a b (i * (π / ((n - 1 : ℕ) : ℝ))))
      (fun i => pt a b ((i + 1 / 2) * (π / ((n - 1 : ℕ) : ℝ)))) where
  two_le := hn
  verts := verts_tab hn a b
  verts_dual := verts_dual_tab hn a b
  edges := by
    show ((verts n a b).dropLast, (verts n a b).tail) = _
    rw [verts_tab hn, dropLast_tab, tail_tab]; rfl
  edges_dual := by
    show ((tmp n a b).dropLast, (tmp n a b).tail) = _
    have : ((n - 1 : ℕ) : ℝ) ≠ 0 := by exact_mod_cast (by omega : n - 1 ≠ 0)
    have h0 : (pnts n a b).getD 0 0 = a := by
      rw [pnts_tab hn, getD_tab (by omega)]; simp [pt_zero]
    have h1 : (pnts n a b).getD (2 * n - 1 - 1) 0 = b := by
      rw [pnts_tab hn, getD_tab (by omega)]
      have : ((2 * n - 1 - 1 : ℕ) : ℝ) = 2 * ((n - 1 : ℕ) : ℝ) := by exact_mod_cast (by omega : 2 * n - 1 - 1 = 2 * (n - 1))
      rw [this, show 2 * ((n - 1 : ℕ) : ℝ) * (π / ((n - 1 : ℕ) : ℝ) / 2) = π by field_simp, pt_pi]
    unfold tmp; rw [h0, h1, verts_dual_tab hn, tmp_dropLast hn, tmp_tail hn]; rfl
  first := by simp [make, pt_zero]
  last := by
    have : ((n - 1 : ℕ) : ℝ) ≠ 0 := by exact_mod_cast (by omega : n - 1 ≠ 0)
    show pt a b (((n - 1 : ℕ) : ℝ) * (π / ((n - 1 : ℕ) : ℝ))) = b
    rw [mul_div_cancel₀ _ this, pt_pi]
  D0 := fun _ => rfl
  D0d := fun _ => rfl
  D1 := fun t _ => by cases t <;> rfl
  N01 := rfl
  N11 := rfl
  N00 := rfl
  N10 := rfl

end Chebyshev

namespace IsInterval

variable {g : Grid1} {v w : ℕ → ℝ} (hg : IsInterval g v w)
include hg

theorem P0 (f : ℝ → ℝ) : g.P 0 true f = tab g.n fun i => f (v i) := by
  show (g.cells.v true).map f = _; rw [hg.verts, map_tab]

theorem P0d (f : ℝ → ℝ) : g.P 0 false f = tab (g.n - 1) fun i => f (w i) := by
  show (g.cells.v false).map f = _; rw [hg.verts_dual, map_tab]

theorem P1 (f : ℝ → ℝ) : g.P 1 true f = tab (g.n - 1) fun i => ∫ t in (v i)..(v (i + 1)), f t := by
  show slow_integration (g.cells.e true).1 (g.cells.e true).2 f = _
  rw [hg.edges]; exact zipWith_tab _ _ _ _

theorem P1d (f : ℝ → ℝ) : g.P 1 false f = tab g.n fun i =>
    ∫ t in (if i = 0 then g.xmin else w (i - 1))..(if i < g.n - 1 then w i else g.xmax), f t := by
  show slow_integration (g.cells.e false).1 (g.cells.e false).2 f = _
  rw [hg.edges_dual]; exact zipWith_tab _ _ _ _

theorem diff_zero_pad (x : ℕ → ℝ) : diff ([0] ++ tab (g.n - 1) x ++ [0])
    = tab g.n fun i => (if i < g.n - 1 then x i else 0) - (if i = 0 then 0 else x (i - 1)) := by
  have hn := hg.two_le
  unfold diff
  have e : [0] ++ tab (g.n - 1) x ++ [0] = tab (g.n + 1) (fun i => if i = 0 then 0 else if i < g.n then x (i - 1) else 0) := by
    rw [List.singleton_append, cons_tab, append_singleton_tab]
    refine tab_congr' (by omega) fun i hi => ?_
    by_cases h0 : i = 0
    · simp [h0]
    · simp only [h0, if_false]
      by_cases h1 : i < g.n
      · simp [h1, show i < g.n - 1 + 1 by omega]
      · simp [h1, show ¬ i < g.n - 1 + 1 by omega]
  rw [e, tail_tab, zipWith_tab', Nat.add_sub_cancel]
  refine tab_congr' (by omega) fun i hi => ?_
  have hi' : i < g.n := by omega
  by_cases h1 : i < g.n - 1
  · simp [h1, show i + 1 < g.n by omega, hi']
  · simp [h1, show ¬ i + 1 < g.n by omega, hi']

theorem boundary_condition (f : ℝ → ℝ) : g.boundary_condition f
    = tab g.n fun i => if i = g.n - 1 then f g.xmax else if i = 0 then -f g.xmin else 0 := by
  have hn := hg.two_le
  unfold Grid1.boundary_condition
  apply List.ext_getElem
  · simp
  · intro i h1 h2
    simp only [length_tab] at h2
    simp only [List.getElem_set, List.getElem_replicate, getElem_tab, eq_comm]

end IsInterval

end Dec
