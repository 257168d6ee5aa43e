import Verif.Lib.DualityCheb
import Verif.Model.Grids

set_option linter.unusedSimpArgs false
set_option linter.unusedVariables false

/-!
# C13, C14, C15, C16: basis functions are dual to the projections, and reconstruction

A basis function that divides zero by zero at a point has the value `none` (NaN) there. The statements say in particular that no
projection of a basis function or of a reconstruction sees such a point.
-/

namespace Dec.Props

open Real Finset Dec.Sp MeasureTheory

/-- C13: on the periodic grid the projection of the `j`-th basis function is the `j`-th unit vector. -/
theorem C13_dual (n : ℕ) (hn : 1 ≤ n) (d : Fin 2) (t : Bool) (j : ℕ) (hj : j < (Periodic.make n).N d t) :
    oP (Periodic.make n).cells d t ((Periodic.make n).B d t j) = tab ((Periodic.make n).N d t) fun i => some (if i = j then 1 else 0) :=
  (Periodic.dualBasis hn).oP d t hj

/-- C13, spelled out: 0-form basis functions are the cardinal functions of the vertices; 1-form basis functions are defined on every
open edge and integrate to 1 on their own edge and 0 on the others. -/
theorem C13_cells (n : ℕ) (hn : 1 ≤ n) (t : Bool) :
    (∀ i j, i < n → j < n → (Periodic.make n).B 0 t j (((Periodic.make n).cells.v t).getD i 0) = some (if i = j then 1 else 0)) ∧
    (∀ i j, i < n → j < n → ∃ b : ℝ → ℝ,
      (∀ s ∈ Set.Ioo (((Periodic.make n).cells.e t).1.getD i 0) (((Periodic.make n).cells.e t).2.getD i 0), (Periodic.make n).B 1 t j s = some (b s)) ∧
      IntervalIntegrable b volume (((Periodic.make n).cells.e t).1.getD i 0) (((Periodic.make n).cells.e t).2.getD i 0) ∧
      ∫ s in (((Periodic.make n).cells.e t).1.getD i 0)..(((Periodic.make n).cells.e t).2.getD i 0), b s = if i = j then 1 else 0) := by
  have h := Periodic.dualBasis hn
  have hN : ∀ d : Fin 2, (Periodic.make n).N d t = n := fun d => rfl
  refine ⟨fun i j hi hj => h.v0 t i (by rw [hN]; exact hi) j (by rw [hN]; exact hj), fun i j hi hj => ?_⟩
  obtain ⟨_, hs, hint, hv⟩ := h.e1 t i (by rw [hN]; exact hi) j (by rw [hN]; exact hj)
  refine ⟨fun s => ((Periodic.make n).B 1 t j s).getD 0, fun s hs' => ?_, hint, hv⟩
  obtain ⟨r, hr⟩ := hs s hs'
  simp [hr]

/-- C14: the same on the regular grid. -/
theorem C14_dual (n : ℕ) (hn : 2 ≤ n) (d : Fin 2) (t : Bool) (j : ℕ) (hj : j < (Regular.make n).N d t) :
    oP (Regular.make n).cells d t ((Regular.make n).B d t j) = tab ((Regular.make n).N d t) fun i => some (if i = j then 1 else 0) :=
  (Regular.dualBasis hn).oP d t hj

/-- C14, spelled out on the regular grid: 0-form basis functions are the cardinal functions of the vertices; 1-form basis functions are defined on every
open edge, boundary half edges included, and integrate to 1 on their own edge and 0 on the others. -/
theorem C14_cells (n : ℕ) (hn : 2 ≤ n) (t : Bool) :
    (∀ i j, i < (Regular.make n).N 0 t → j < (Regular.make n).N 0 t →
      (Regular.make n).B 0 t j (((Regular.make n).cells.v t).getD i 0) = some (if i = j then 1 else 0)) ∧
    (∀ i j, i < (Regular.make n).N 1 t → j < (Regular.make n).N 1 t → ∃ b : ℝ → ℝ,
      (∀ s ∈ Set.Ioo (((Regular.make n).cells.e t).1.getD i 0) (((Regular.make n).cells.e t).2.getD i 0), (Regular.make n).B 1 t j s = some (b s)) ∧
      IntervalIntegrable b volume (((Regular.make n).cells.e t).1.getD i 0) (((Regular.make n).cells.e t).2.getD i 0) ∧
      ∫ s in (((Regular.make n).cells.e t).1.getD i 0)..(((Regular.make n).cells.e t).2.getD i 0), b s = if i = j then 1 else 0) := by
  have h := Regular.dualBasis hn
  refine ⟨fun i j hi hj => h.v0 t i hi j hj, fun i j hi hj => ?_⟩
  obtain ⟨_, hs, hint, hv⟩ := h.e1 t i hi j hj
  refine ⟨fun s => ((Regular.make n).B 1 t j s).getD 0, fun s hs' => ?_, hint, hv⟩
  obtain ⟨r, hr⟩ := hs s hs'
  simp [hr]

/-- C15: the same on the Chebyshev grid. -/
theorem C15_dual (n : ℕ) (hn : 2 ≤ n) (d : Fin 2) (t : Bool) (j : ℕ) (hj : j < (Chebyshev.make n).N d t) :
    oP (Chebyshev.make n).cells d t ((Chebyshev.make n).B d t j) = tab ((Chebyshev.make n).N d t) fun i => some (if i = j then 1 else 0) :=
  (Chebyshev.dualBasis hn).oP d t hj

/-- C15, spelled out on the Chebyshev grid, including the functions `psid1` of the boundary half edges. 1-form basis functions are defined on every
open edge, where they integrate to 1 on their own edge and 0 on the others. -/
theorem C15_cells (n : ℕ) (hn : 2 ≤ n) (t : Bool) :
    (∀ i j, i < (Chebyshev.make n).N 0 t → j < (Chebyshev.make n).N 0 t →
      (Chebyshev.make n).B 0 t j (((Chebyshev.make n).cells.v t).getD i 0) = some (if i = j then 1 else 0)) ∧
    (∀ i j, i < (Chebyshev.make n).N 1 t → j < (Chebyshev.make n).N 1 t → ∃ b : ℝ → ℝ,
      (∀ s ∈ Set.Ioo (((Chebyshev.make n).cells.e t).1.getD i 0) (((Chebyshev.make n).cells.e t).2.getD i 0), (Chebyshev.make n).B 1 t j s = some (b s)) ∧
      IntervalIntegrable b volume (((Chebyshev.make n).cells.e t).1.getD i 0) (((Chebyshev.make n).cells.e t).2.getD i 0) ∧
      ∫ s in (((Chebyshev.make n).cells.e t).1.getD i 0)..(((Chebyshev.make n).cells.e t).2.getD i 0), b s = if i = j then 1 else 0) := by
  have h := Chebyshev.dualBasis hn
  refine ⟨fun i j hi hj => h.v0 t i hi j hj, fun i j hi hj => ?_⟩
  obtain ⟨_, hs, hint, hv⟩ := h.e1 t i hi j hj
  refine ⟨fun s => ((Chebyshev.make n).B 1 t j s).getD 0, fun s hs' => ?_, hint, hv⟩
  obtain ⟨r, hr⟩ := hs s hs'
  simp [hr]

/-- Non-vacuity: the first and the last dual edge of a Chebyshev grid of three vertices. -/
example : 2 ≤ 3 ∧ 0 < (Chebyshev.make 3).N 1 false ∧ 2 < (Chebyshev.make 3).N 1 false ∧ 1 < (Regular.make 3).N 1 true ∧ 2 < (Periodic.make 3).N 0 false :=
  ⟨by omega, show 0 < 3 by omega, show 2 < 3 by omega, show 1 < 3 - 1 by omega, show 2 < 3 by omega⟩

/-- The standard domain of each kind of grid: the default `xmin` and `xmax` of the constructors. -/
noncomputable def standardGrid (k : Kind) (n : ℕ) : Grid1 :=
  match k with
  | .periodic => Periodic.make n
  | .regular => Regular.make n
  | .chebyshev => Chebyshev.make n

/-- C16: projecting a reconstruction gives the coefficients back, and the reconstruction is defined wherever the projection needs it. -/
theorem C16_projection_reconstruction (k : Kind) (n : ℕ) (hn : match k with | .periodic => 1 ≤ n | .regular => 2 ≤ n | .chebyshev => 2 ≤ n)
    (d : Fin 2) (t : Bool) (a : List ℝ) (ha : a.length = (standardGrid k n).N d t) :
    oP (standardGrid k n).cells d t ((standardGrid k n).R d t a) = a.map some := by
  cases k
  · exact (Periodic.dualBasis hn).oP_R d t ha
  · exact (Regular.dualBasis hn).oP_R d t ha
  · exact (Chebyshev.dualBasis hn).oP_R d t ha

/-- Non-vacuity: a dual 1-form on a Chebyshev grid of three vertices. -/
example : ([1, 2, 3] : List ℝ).length = (standardGrid .chebyshev 3).N 1 false := rfl

end Dec.Props
