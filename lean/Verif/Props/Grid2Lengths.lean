import Verif.Lib.Proj2
import Verif.Props.Grid2Wedge
import Verif.Props.Flatten

set_option linter.unusedSimpArgs false
set_option linter.unusedVariables false

/-! # C29 and C31: lengths of arrays on product grids; the derivative in top degree -/

namespace Dec.Props

open Finset Real Dec.G2

section
variable (k k' : Kind) (n n' : ℕ) (hn : validSize k n) (hn' : validSize k' n') (a b a' b' : ℝ)
include hn hn'

/-- **C29**, cells: all coordinate arrays of the vertices, edges and faces have the length given by the table `N`. -/
theorem C29_cells (t : Bool) :
    (product (grid k n a b) (grid k' n' a' b')).N 0 t = .ok ((product (grid k n a b) (grid k' n' a' b')).cells.v t).1.length ∧
    (product (grid k n a b) (grid k' n' a' b')).N 0 t = .ok ((product (grid k n a b) (grid k' n' a' b')).cells.v t).2.length ∧
    (∀ p : (List ℝ × List ℝ) × (List ℝ × List ℝ), (product (grid k n a b) (grid k' n' a' b')).cells.e t = p →
      ∀ l ∈ [p.1.1, p.1.2, p.2.1, p.2.2], (product (grid k n a b) (grid k' n' a' b')).N 1 t = .ok l.length) ∧
    (∀ q : (List ℝ × List ℝ) × (List ℝ × List ℝ) × (List ℝ × List ℝ) × (List ℝ × List ℝ), (product (grid k n a b) (grid k' n' a' b')).cells.f t = q →
      ∀ l ∈ [q.1.1, q.1.2, q.2.1.1, q.2.1.2, q.2.2.1.1, q.2.2.1.2, q.2.2.2.1, q.2.2.2.2], (product (grid k n a b) (grid k' n' a' b')).N 2 t = .ok l.length) := by
  have hx := grid_factor k n hn a b
  have hy := grid_factor k' n' hn' a' b'
  refine ⟨?_, ?_, ?_, ?_⟩
  · rw [length_of_N hx hy]; simp only [Grid2.cells, flatten_cells, bcells_v hx hy, length_data]; rfl
  · rw [length_of_N hx hy]; simp only [Grid2.cells, flatten_cells, bcells_v hx hy, length_data]; rfl
  · rintro p rfl l hl
    rw [length_of_N hx hy]
    simp only [Grid2.cells, flatten_cells, bcells_e hx hy, List.mem_cons, List.not_mem_nil, or_false] at hl
    rcases hl with rfl | rfl | rfl | rfl <;> rw [List.length_append, length_data, length_data] <;> rfl
  · rintro p rfl l hl
    rw [length_of_N hx hy]
    simp only [Grid2.cells, flatten_cells, bcells_f hx hy, List.mem_cons, List.not_mem_nil, or_false] at hl
    rcases hl with rfl | rfl | rfl | rfl | rfl | rfl | rfl | rfl <;> rw [length_data] <;> rfl

/-- **C29**, projections and boundary terms. -/
theorem C29_projection (t : Bool) (f g : ℝ → ℝ → ℝ) (h : ℝ → ℝ → ℝ × ℝ) :
    (∃ v, (product (grid k n a b) (grid k' n' a' b')).P 0 t [f] = .ok v ∧ (product (grid k n a b) (grid k' n' a' b')).N 0 t = .ok v.length) ∧
    (∃ v, (product (grid k n a b) (grid k' n' a' b')).P 1 t [f, g] = .ok v ∧ (product (grid k n a b) (grid k' n' a' b')).N 1 t = .ok v.length) ∧
    (∃ v, (product (grid k n a b) (grid k' n' a' b')).P 2 t [f] = .ok v ∧ (product (grid k n a b) (grid k' n' a' b')).N 2 t = .ok v.length) ∧
    (∃ v, (product (grid k n a b) (grid k' n' a' b')).Pn 0 t (.scalar f) = .ok v ∧ (product (grid k n a b) (grid k' n' a' b')).N 0 t = .ok v.length) ∧
    (∃ v, (product (grid k n a b) (grid k' n' a' b')).Pn 1 t (.pair h) = .ok v ∧ (product (grid k n a b) (grid k' n' a' b')).N 1 t = .ok v.length) ∧
    (∃ v, (product (grid k n a b) (grid k' n' a' b')).Pn 2 t (.scalar f) = .ok v ∧ (product (grid k n a b) (grid k' n' a' b')).N 2 t = .ok v.length) ∧
    (∃ v, (product (grid k n a b) (grid k' n' a' b')).BC 1 [f] = .ok v ∧ (product (grid k n a b) (grid k' n' a' b')).N 1 false = .ok v.length) ∧
    (∃ v, (product (grid k n a b) (grid k' n' a' b')).BC 2 [f, g] = .ok v ∧ (product (grid k n a b) (grid k' n' a' b')).N 2 false = .ok v.length) := by
  have hx := grid_factor k n hn a b
  have hy := grid_factor k' n' hn' a' b'
  simp only [length_of_N hx hy]
  exact ⟨⟨_, P0_mtab hx hy t f, length_data _ _ _⟩, ⟨_, P1_mtab hx hy t f g, by rw [List.length_append, length_data, length_data]; rfl⟩,
    ⟨_, P2_mtab hx hy t f, length_data _ _ _⟩, ⟨_, Pn0_mtab hx hy t f, length_data _ _ _⟩,
    ⟨_, Pn1_mtab hx hy t h, by rw [List.length_append, length_data, length_data]; rfl⟩, ⟨_, Pn2_mtab hx hy t f, length_data _ _ _⟩,
    ⟨_, BC1_mtab hx hy f, by rw [List.length_append, length_data, length_data]; rfl⟩, ⟨_, BC2_mtab hx hy f g, length_data _ _ _⟩⟩

/-- **C29**, derivative: it maps arrays of the length of its degree to arrays of the length of the next degree. -/
theorem C29_derivative (t : Bool) (f : List ℝ) :
    ((product (grid k n a b) (grid k' n' a' b')).N 0 t = .ok f.length →
      ∃ v, (product (grid k n a b) (grid k' n' a' b')).D 0 t f = .ok v ∧ (product (grid k n a b) (grid k' n' a' b')).N 1 t = .ok v.length) ∧
    ((product (grid k n a b) (grid k' n' a' b')).N 1 t = .ok f.length →
      ∃ v, (product (grid k n a b) (grid k' n' a' b')).D 1 t f = .ok v ∧ (product (grid k n a b) (grid k' n' a' b')).N 2 t = .ok v.length) := by
  have hx := grid_factor k n hn a b
  have hy := grid_factor k' n' hn' a' b'
  simp only [length_of_N hx hy]
  obtain ⟨A, hA⟩ := (hx.d t).exists_mat
  obtain ⟨B, hB⟩ := (hy.d t).exists_mat
  refine ⟨fun hf => ?_, fun hf => ?_⟩
  · obtain ⟨F, rfl⟩ := flat0 hf
    exact ⟨_, D0_mtab hx hy t (fun j _ => hA (F j)) (fun i _ => hB fun j => F j i), by rw [List.length_append, length_data, length_data]; rfl⟩
  · obtain ⟨F, G, rfl⟩ := flat1 hf
    exact ⟨_, D1_mtab hx hy t (fun i _ => hB fun j => F j i) (fun j _ => hA (G j)), length_data _ _ _⟩

/-- An array of any other length is rejected by the derivative and by the Hodge star. -/
theorem C29_rejects (d : Fin 3) (t : Bool) (f : List ℝ) (hf : (product (grid k n a b) (grid k' n' a' b')).N d t ≠ .ok f.length) :
    (product (grid k n a b) (grid k' n' a' b')).D d t f = .error .valueError ∧ (product (grid k n a b) (grid k' n' a' b')).H d t f = .error .valueError := by
  have hx := grid_factor k n hn a b
  have hy := grid_factor k' n' hn' a' b'
  rw [Ne, length_of_N hx hy] at hf
  have e : reshape f ((product (grid k n a b) (grid k' n' a' b')).shape d t) = .error .valueError := by
    obtain rfl | rfl | rfl : d = 0 ∨ d = 1 ∨ d = 2 := by omega
    · rw [shape0 hx hy]; exact (C28_unshape_reshape f (.arr _) (by simp [shapesOf])).2 (fun e => hf (by rw [e]; simp [total, shapesOf, count]))
    · rw [shape1 hx hy]; exact (C28_unshape_reshape f (.tup _) (by simp [shapesOf])).2 (fun e => hf (by rw [e]; simp [total, shapesOf, count]))
    · rw [shape2 hx hy]; exact (C28_unshape_reshape f (.arr _) (by simp [shapesOf])).2 (fun e => hf (by rw [e]; simp [total, shapesOf, count]))
  simp only [Grid2.D, Grid2.H, Grid2.reshapeO, e]
  exact ⟨rfl, rfl⟩

/-- **C29**, Hodge star: arrays of degree `d` go to arrays of degree `2 - d` of the other duality. -/
theorem C29_hodge (h : k = .chebyshev → n ≤ 927) (h' : k' = .chebyshev → n' ≤ 927) (d : Fin 3) (t : Bool) (f : List ℝ)
    (hf : (product (grid k n a b) (grid k' n' a' b')).N d t = .ok f.length) :
    ∃ v, (product (grid k n a b) (grid k' n' a' b')).H d t f = .ok v ∧ (product (grid k n a b) (grid k' n' a' b')).N (2 - d) (!t) = .ok v.length := by
  by_cases hd : d = 1
  · subst hd
    obtain ⟨u, h1, h2, _⟩ := C26_hodge_one k k' n n' hn hn' h h' a b a' b' t f hf
    exact ⟨u, h1, h2⟩
  · obtain ⟨u, h1, h2, _⟩ := C26_hodge_even k k' n n' hn hn' h h' a b a' b' t f d hd hf
    exact ⟨u, h1, h2⟩

/-! ## C31 -/

/-- **C31**, two dimensions: the derivative of a 2-form is not zero but always raises `TypeError`, because the Python integer `0` returned by the derivative
is passed to `unshape`. (In one dimension the derivative of a 1-form is the integer `0`, `C31_one_dimension`.) -/
theorem C31_two_dimensions_fails (t : Bool) (f : List ℝ) (hf : (product (grid k n a b) (grid k' n' a' b')).N 2 t = .ok f.length) :
    (product (grid k n a b) (grid k' n' a' b')).D 2 t f = .error .typeError := by
  have hx := grid_factor k n hn a b
  have hy := grid_factor k' n' hn' a' b'
  rw [length_of_N hx hy] at hf
  obtain ⟨F, rfl⟩ := flat0 (f := f) (r := (grid k' n' a' b').N 1 t) (c := (grid k n a b).N 1 t) hf
  simp only [Grid2.D, Grid2.reshapeO]
  rw [reshape_shape2 hx hy]; rfl

omit hn hn' in
/-- The block derivative, before flattening, does return the integer `0`. -/
theorem C31_block (t : Bool) (f : Val ℝ) : bD (grid k n a b) (grid k' n' a' b') 2 t f = .ok .zero := rfl
end

/-- **C31**, one dimension: the derivative of a 1-form is the Python integer `0` (`none`), and the derivative of a 0-form is an array. -/
theorem C31_one_dimension (k : Kind) (n : ℕ) (a b : ℝ) (t : Bool) (f : List ℝ) : (grid k n a b).D 1 t f = none ∧ ((grid k n a b).D 0 t f).isSome := by
  cases k <;> cases t <;> exact ⟨rfl, rfl⟩

/-- Lengths on a Chebyshev grid times a periodic grid. -/
example : (product (grid .chebyshev 3 0 1) (grid .periodic 2 0 1)).N 2 true = .ok ([1, 2, 3, 4] : List ℝ).length := by
  rw [length_of_N (grid_factor .chebyshev 3 (by norm_num [validSize]) 0 1) (grid_factor .periodic 2 (by norm_num [validSize]) 0 1)]
  rfl

end Dec.Props
