import Verif.Lib.Proj2
import Verif.Props.Integrate
import Verif.Props.Grid2Commute

set_option linter.unusedSimpArgs false
set_option linter.unusedVariables false

/-! # C55: the symbolic, numeric and flat versions of projections and boundary terms agree -/

namespace Dec.Props

open Finset Real Dec.G2 Integrate

/-! ## Axis-parallel segments and rectangles -/

theorem segment_x (f : ℝ → ℝ → ℝ × ℝ) (x0 x1 y : ℝ) : integrate_1form (x0, y) (x1, y) f = P1x (fun x y => (f x y).1) x0 x1 y := by
  rw [integrate_1form_eq]
  have h := C44_average_integral (fun x => (f x y).1) x0 x1
  unfold avg1 int1 at h
  unfold P1 P1x
  rw [← h, ← intervalIntegral.integral_const_mul]
  refine intervalIntegral.integral_congr fun s _ => ?_
  simp only [sub_self, mul_zero, add_zero]
  rw [show y * (1 - s) + y * s = y by ring]; ring

theorem segment_y (f : ℝ → ℝ → ℝ × ℝ) (x y0 y1 : ℝ) : integrate_1form (x, y0) (x, y1) f = P1y (fun x y => (f x y).2) x y0 y1 := by
  rw [integrate_1form_eq]
  have h := C44_average_integral (fun y => (f x y).2) y0 y1
  unfold avg1 int1 at h
  unfold P1 P1y
  rw [← h, ← intervalIntegral.integral_const_mul]
  refine intervalIntegral.integral_congr fun s _ => ?_
  simp only [sub_self, mul_zero, zero_add]
  rw [show x * (1 - s) + x * s = x by ring]; ring

theorem zip_mtab {α β : Type*} (r c : ℕ) (F : ℕ → ℕ → α) (G : ℕ → ℕ → β) : List.zip (mtab r c F).data (mtab r c G).data = (mtab r c fun j i => (F j i, G j i)).data := by
  unfold mtab List.zip; rw [zipWith_tab]

theorem zipWith_mtab {α β γ : Type*} (h : α → β → γ) (r c : ℕ) (F : ℕ → ℕ → α) (G : ℕ → ℕ → β) :
    List.zipWith h (mtab r c F).data (mtab r c G).data = (mtab r c fun j i => h (F j i) (G j i)).data := by
  unfold mtab; rw [zipWith_tab]

theorem length_data' {α : Type*} (r c : ℕ) (F : ℕ → ℕ → α) : (mtab r c F).data.length = r * c := wf_mtab r c F

section
variable {gx gy : Grid1} (hx : Factor gx) (hy : Factor gy)
include hx hy

theorem flat0_mtab (t : Bool) (f : ℝ → ℝ → ℝ) :
    projection_2d (product gx gy).cells 0 t (.scalar f) = .ok (mtab (gy.N 0 t) (gx.N 0 t) fun j i => f (vx gx t i) (vx gy t j)).data := by
  simp only [projection_2d, Grid2.cells, flatten_cells, bcells_v hx hy, zipWith_mtab]

theorem flat1_mtab (t : Bool) (f : ℝ → ℝ → ℝ × ℝ) :
    projection_2d (product gx gy).cells 1 t (.pair f) = .ok ((mtab (gy.N 0 t) (gx.N 1 t) fun j i => P1x (fun x y => (f x y).1) (lo gx t i) (hi gx t i) (vx gy t j)).data
      ++ (mtab (gy.N 1 t) (gx.N 0 t) fun j i => P1y (fun x y => (f x y).2) (vx gx t i) (lo gy t j) (hi gy t j)).data) := by
  simp only [projection_2d, Grid2.cells, flatten_cells, bcells_e hx hy]
  rw [List.zip_append (by rw [length_data, length_data]), List.zip_append (by rw [length_data, length_data])]
  simp only [zip_mtab]
  rw [List.zipWith_append (by rw [length_data', length_data'])]
  simp only [zipWith_mtab, segment_x, segment_y]

theorem flat2_mtab (t : Bool) (f : ℝ → ℝ → ℝ) (hf : Continuous fun p : ℝ × ℝ => f p.1 p.2) :
    projection_2d (product gx gy).cells 2 t (.scalar f) = .ok (mtab (gy.N 1 t) (gx.N 1 t) fun j i => P2r f (lo gx t i) (lo gy t j) (hi gx t i) (hi gy t j)).data := by
  simp only [projection_2d, Grid2.cells, flatten_cells, bcells_f hx hy, zip_mtab, zipWith_mtab, fan_rectangle f hf]
  refine congrArg _ (congrArg Arr.data (mtab_congr fun j _ i _ => ?_))
  exact (Triangle.rect_swap _ _ _ _ _ hf).symm
end

section
variable (k k' : Kind) (n n' : ℕ) (hn : validSize k n) (hn' : validSize k' n') (a b a' b' : ℝ)
include hn hn'

/-- **C55**, 0-forms: the three projections agree. -/
theorem C55_projection_0 (t : Bool) (f : ℝ → ℝ → ℝ) :
    (product (grid k n a b) (grid k' n' a' b')).Pn 0 t (.scalar f) = (product (grid k n a b) (grid k' n' a' b')).P 0 t [f] ∧
    projection_2d (product (grid k n a b) (grid k' n' a' b')).cells 0 t (.scalar f) = (product (grid k n a b) (grid k' n' a' b')).P 0 t [f] := by
  have hx := grid_factor k n hn a b
  have hy := grid_factor k' n' hn' a' b'
  rw [Pn0_mtab hx hy, P0_mtab hx hy, flat0_mtab hx hy]
  exact ⟨rfl, rfl⟩

/-- **C55**, 1-forms: the three projections agree. -/
theorem C55_projection_1 (t : Bool) (f g : ℝ → ℝ → ℝ) :
    (product (grid k n a b) (grid k' n' a' b')).Pn 1 t (.pair fun x y => (f x y, g x y)) = (product (grid k n a b) (grid k' n' a' b')).P 1 t [f, g] ∧
    projection_2d (product (grid k n a b) (grid k' n' a' b')).cells 1 t (.pair fun x y => (f x y, g x y)) = (product (grid k n a b) (grid k' n' a' b')).P 1 t [f, g] := by
  have hx := grid_factor k n hn a b
  have hy := grid_factor k' n' hn' a' b'
  rw [Pn1_mtab hx hy, P1_mtab hx hy, flat1_mtab hx hy]
  exact ⟨rfl, rfl⟩

/-- **C55**, 2-forms: the three projections agree, for continuous densities. -/
theorem C55_projection_2 (t : Bool) (f : ℝ → ℝ → ℝ) (hf : Continuous fun p : ℝ × ℝ => f p.1 p.2) :
    (product (grid k n a b) (grid k' n' a' b')).Pn 2 t (.scalar f) = (product (grid k n a b) (grid k' n' a' b')).P 2 t [f] ∧
    projection_2d (product (grid k n a b) (grid k' n' a' b')).cells 2 t (.scalar f) = (product (grid k n a b) (grid k' n' a' b')).P 2 t [f] := by
  have hx := grid_factor k n hn a b
  have hy := grid_factor k' n' hn' a' b'
  rw [Pn2_mtab hx hy, P2_mtab hx hy, flat2_mtab hx hy t f hf]
  simp only [C44_P2r_nP2r f hf, and_self]
end

/-! ## Boundary terms -/

/-- The dual vertices are inside the interval. -/
theorem dual_inside (k : Kind) (n : ℕ) (hn : validSize k n) {a b : ℝ} (hab : a < b) {i : ℕ} (hi : i < (grid k n a b).N 0 false) :
    a < vx (grid k n a b) false i ∧ vx (grid k n a b) false i < b := by
  have key : ∀ K : IKind, 2 ≤ n → i < (intervalGrid K n a b).N 0 false → a < vx (intervalGrid K n a b) false i ∧ vx (intervalGrid K n a b) false i < b := by
    intro K h2 hi
    obtain ⟨v, w, hg, ho⟩ := interval_order K h2 hab
    rw [hg.N00] at hi
    rw [vx_tab hg.verts_dual hi]
    simp only [intervalGrid_n] at hi
    exact ho i hi
  cases k
  · have hi : i < n := hi
    have hv : (Periodic.make n a b).cells.v false = tab n fun i => a + ((i : ℝ) + 1 / 2) * ((b - a) / n) := Periodic.verts_dual_tab n a b
    have e : vx (grid .periodic n a b) false i = a + ((i : ℝ) + 1 / 2) * ((b - a) / n) := vx_tab hv hi
    rw [e]
    have h0 : (0 : ℝ) < n := by exact_mod_cast (by omega : 0 < n)
    have h1 : (i : ℝ) + 1 ≤ n := by exact_mod_cast hi
    have h2 : 0 < (b - a) / n := div_pos (by linarith) h0
    have h3 : (n : ℝ) * ((b - a) / n) = b - a := mul_div_cancel₀ _ h0.ne'
    constructor
    · have : 0 < ((i : ℝ) + 1 / 2) * ((b - a) / n) := by positivity
      linarith
    · nlinarith
  · exact key .regular hn hi
  · exact key .chebyshev hn hi

theorem grid_xmin (k : Kind) (n : ℕ) (a b : ℝ) : (grid k n a b).xmin = a ∧ (grid k n a b).xmax = b := by cases k <;> exact ⟨rfl, rfl⟩

section
variable (k k' : Kind) (n n' : ℕ) (hn : validSize k n) (hn' : validSize k' n') (a b a' b' : ℝ) (hab : a < b) (hab' : a' < b')
include hn hn' hab hab'

/-- **C55**: the boundary term of 0-forms: the flat version is the block version. -/
theorem C55_boundary_0 (f : ℝ → ℝ → ℝ) :
    (product (grid k n a b) (grid k' n' a' b')).BC 1 [f] = .ok ((product (grid k n a b) (grid k' n' a' b')).boundary_condition0 f) := by
  have hx := grid_factor k n hn a b
  have hy := grid_factor k' n' hn' a' b'
  rw [BC1_mtab hx hy]
  refine congrArg _ ?_
  unfold Grid2.boundary_condition0 flatBC0
  simp only [Grid2.cells, flatten_cells, bcells_e hx hy]
  rw [List.zip_append (by rw [length_data, length_data]), List.zip_append (by rw [length_data, length_data])]
  simp only [zip_mtab]
  rw [List.zipWith_append (by rw [length_data', length_data'])]
  simp only [zipWith_mtab]
  refine congrArg₂ (· ++ ·) (congrArg Arr.data (mtab_congr fun j hj i hi => ?_)) (congrArg Arr.data (mtab_congr fun j hj i hi => ?_))
  · have hin := dual_inside k' n' hn' hab' hj
    simp only [product, (grid_xmin k n a b).1, (grid_xmin k n a b).2, (grid_xmin k' n' a' b').1, (grid_xmin k' n' a' b').2, if_neg hin.1.ne', if_neg hin.2.ne, beta]
    split_ifs <;> ring
  · have hin := dual_inside k n hn hab hi
    simp only [product, (grid_xmin k n a b).1, (grid_xmin k n a b).2, (grid_xmin k' n' a' b').1, (grid_xmin k' n' a' b').2, if_neg hin.1.ne', if_neg hin.2.ne, beta]
    split_ifs <;> ring
end

/-- Membership in a flat array. -/
theorem mem_mtab {α : Type*} {r c : ℕ} {F : ℕ → ℕ → α} {z : α} : z ∈ (mtab r c F).data ↔ ∃ j < r, ∃ i < c, F j i = z := by
  simp only [mtab, tab, List.mem_map, List.mem_range]
  constructor
  · rintro ⟨p, hp, rfl⟩
    have hc : 0 < c := Nat.pos_of_ne_zero (by rintro rfl; simp at hp)
    exact ⟨p / c, Nat.div_lt_of_lt_mul (by rw [Nat.mul_comm]; exact hp), p % c, Nat.mod_lt _ hc, rfl⟩
  · rintro ⟨j, hj, i, hi, rfl⟩
    refine ⟨j * c + i, by nlinarith, ?_⟩
    have hc : 0 < c := by omega
    rw [Nat.mul_comm, Nat.mul_add_div hc, Nat.div_eq_of_lt hi, Nat.add_zero, Nat.mul_add_mod, Nat.mod_eq_of_lt hi]

theorem interval_reaches (k : Kind) (n : ℕ) (hn : validSize k n) (hk : k ≠ .periodic) (a b : ℝ) :
    (∃ i < (grid k n a b).N 1 false, lo (grid k n a b) false i = a) ∧ (∃ i < (grid k n a b).N 1 false, hi (grid k n a b) false i = b) := by
  have key : ∀ {g : Grid1} {v w : ℕ → ℝ}, IsInterval g v w → (∃ i < g.N 1 false, lo g false i = g.xmin) ∧ (∃ i < g.N 1 false, hi g false i = g.xmax) := by
    intro g v w hg
    have h2 := hg.two_le
    rw [hg.N10]
    refine ⟨⟨0, by omega, ?_⟩, ⟨g.n - 1, by omega, ?_⟩⟩
    · rw [lo_tab hg.edges_dual (by omega)]; simp
    · rw [hi_tab hg.edges_dual (by omega)]; simp
  cases k
  · exact absurd rfl hk
  · exact key (Regular.isInterval hn a b)
  · exact key (Chebyshev.isInterval hn a b)

section
variable (k k' : Kind) (n n' : ℕ) (hn : validSize k n) (hn' : validSize k' n') (a b a' b' : ℝ)
include hn hn'

/-- **C55**: the boundary term of 1-forms on products of interval grids: the flat version is the block version. -/
theorem C55_boundary_1 (hk : k ≠ .periodic) (hk' : k' ≠ .periodic) (f g : ℝ → ℝ → ℝ) :
    (product (grid k n a b) (grid k' n' a' b')).boundary_condition1 (fun x y => (f x y, g x y)) = (product (grid k n a b) (grid k' n' a' b')).BC 2 [f, g] := by
  have hx := grid_factor k n hn a b
  have hy := grid_factor k' n' hn' a' b'
  obtain ⟨⟨i0, hi0, e0⟩, ⟨i1, hi1, e1⟩⟩ := interval_reaches k n hn hk a b
  obtain ⟨⟨j0, hj0, e2⟩, ⟨j1, hj1, e3⟩⟩ := interval_reaches k' n' hn' hk' a' b'
  rw [BC2_mtab hx hy]
  unfold Grid2.boundary_condition1 flatBC1
  simp only [Grid2.cells, flatten_cells, bcells_f hx hy]
  rw [if_neg]
  · refine congrArg _ ?_
    simp only [zip_mtab, zipWith_mtab]
    refine congrArg Arr.data (mtab_congr fun j hj i h => ?_)
    simp only [product, (grid_xmin k n a b).1, (grid_xmin k n a b).2, (grid_xmin k' n' a' b').1, (grid_xmin k' n' a' b').2, beta, segment_x, segment_y]
    have r1 : ∀ y, P1x (fun x y => f x y) (hi (grid k n a b) false i) (lo (grid k n a b) false i) y
        = -P1x f (lo (grid k n a b) false i) (hi (grid k n a b) false i) y := fun y => intervalIntegral.integral_symm _ _
    have r2 : ∀ x, P1y (fun x y => g x y) x (hi (grid k' n' a' b') false j) (lo (grid k' n' a' b') false j)
        = -P1y g x (lo (grid k' n' a' b') false j) (hi (grid k' n' a' b') false j) := fun y => intervalIntegral.integral_symm _ _
    simp only [r1, r2]
    split_ifs <;> ring
  · simp only [mem_mtab, product, (grid_xmin k n a b).1, (grid_xmin k n a b).2, (grid_xmin k' n' a' b').1, (grid_xmin k' n' a' b').2]
    push Not
    exact ⟨⟨j0, hj0, i0, hi0, e2⟩, ⟨j0, hj0, i1, hi1, e1⟩, ⟨j1, hj1, i0, hi0, e3⟩, ⟨j0, hj0, i0, hi0, e0⟩⟩

/-- **C55**, disagreement: with a periodic axis the flat boundary term of a 1-form always raises `ValueError`
(`numpy.vectorize` on the empty selection), whereas the block version returns. -/
theorem C55_boundary_1_periodic_fails (hab : a < b) (hab' : a' < b') (hk : k = .periodic ∨ k' = .periodic) (f g : ℝ → ℝ → ℝ) :
    (product (grid k n a b) (grid k' n' a' b')).boundary_condition1 (fun x y => (f x y, g x y)) = .error .valueError ∧
    ∃ v, (product (grid k n a b) (grid k' n' a' b')).BC 2 [f, g] = .ok v := by
  have hx := grid_factor k n hn a b
  have hy := grid_factor k' n' hn' a' b'
  refine ⟨?_, _, BC2_mtab hx hy f g⟩
  unfold Grid2.boundary_condition1 flatBC1
  simp only [Grid2.cells, flatten_cells, bcells_f hx hy]
  rw [if_pos]
  simp only [mem_mtab, product, (grid_xmin k n a b).1, (grid_xmin k n a b).2, (grid_xmin k' n' a' b').1, (grid_xmin k' n' a' b').2]
  rcases hk with rfl | rfl
  · right; left
    rintro ⟨j, hj, i, h, e⟩
    exact (periodic_off hn hab h).2 e
  · left
    rintro ⟨j, hj, i, h, e⟩
    exact (periodic_off hn' hab' hj).1 e
end

/-- The hypotheses are met by a regular grid times a Chebyshev grid. -/
example : validSize .regular 2 ∧ validSize .chebyshev 5 ∧ Kind.regular ≠ .periodic ∧ Kind.chebyshev ≠ .periodic := by simp [validSize]

end Dec.Props
