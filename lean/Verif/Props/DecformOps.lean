import Verif.Props.Decform
import Verif.Props.Lengths
import Verif.Props.Grid2
import Verif.Props.Grid2Wedge
import Verif.Props.Grid2Lengths

set_option linter.unusedSimpArgs false
set_option linter.unusedVariables false

/-! # C57: the operators on discrete forms are well typed and satisfy `D D = 0`, `H H = ±1`

`WellFormed h x` says that the array of `x` has the length that the grid of `x` advertises for the degree and duality of `x`. Every operator
applied to well-formed forms gives a well-formed form of the stated degree, so no chain of operators ever produces an array of a wrong length. -/

namespace Dec.Props

open Dec.Decform Dec.G2

theorem key_ok {n d : ℕ} (h : d < n) : key n d = .ok ⟨d, h⟩ := dif_pos h
theorem key_error {n d : ℕ} (h : ¬ d < n) : key n d = .error .keyError := dif_neg h

/-! ## One dimension -/

section
variable (h : Heap) (k : Kind) (n : ℕ) (hn : validSize k n) (a b : ℝ)

theorem wf1 {x : DForm} (hg : h x.grid = ops1 (grid k n a b)) (hx : WellFormed h x) :
    ∃ d : Fin 2, d.val = x.degree ∧ x.array.length = (grid k n a b).N d x.isprimal := by
  unfold WellFormed at hx
  rw [hg] at hx
  by_cases hd : x.degree < 2
  · simp only [ops1, key_ok hd, Bind.bind, Except.bind] at hx
    injection hx with hx
    exact ⟨⟨x.degree, hd⟩, rfl, hx.symm⟩
  · simp only [ops1, key_error hd, Bind.bind, Except.bind] at hx
    cases hx

theorem wf1_of {y : DForm} (hg : h y.grid = ops1 (grid k n a b)) {d : Fin 2} (hd : y.degree = d.val) (hl : y.array.length = (grid k n a b).N d y.isprimal) :
    WellFormed h y := by
  unfold WellFormed
  rw [hg, hl, hd]
  simp only [ops1, key_ok d.2, Bind.bind, Except.bind]

include hn

/-- **C57**, one dimension: the derivative of a 0-form is a 1-form on the same side; the derivative of a 1-form is `0`. -/
theorem C57_derivative_1d (x : DForm) (hg : h x.grid = ops1 (grid k n a b)) (hx : WellFormed h x) :
    (x.degree = 0 → ∃ y, D h x = .ok (some y) ∧ WellFormed h y ∧ y.degree = 1 ∧ y.isprimal = x.isprimal ∧ y.grid = x.grid ∧ D h y = .ok none) ∧
    (x.degree = 1 → D h x = .ok none) ∧ x.degree ≤ 1 := by
  obtain ⟨d, hd, hl⟩ := wf1 h k n a b hg hx
  have top : ∀ y : DForm, y.grid = x.grid → y.degree = 1 → D h y = .ok none := by
    intro y h1 h2
    unfold D
    rw [h1, hg, h2]
    simp only [ops1, key_ok (show 1 < 2 by omega), Bind.bind, Except.bind]
    rw [show (grid k n a b).D ⟨1, by omega⟩ y.isprimal y.array = none from (C31_one_dimension k n a b y.isprimal y.array).1]
  refine ⟨fun h0 => ?_, fun h1 => top x rfl h1, by omega⟩
  obtain rfl : d = 0 := by omega
  obtain ⟨v, hv, hvl⟩ := C11_derivative k n hn a b x.isprimal x.array hl
  refine ⟨⟨1, x.isprimal, x.grid, v⟩, ?_, wf1_of h k n a b (d := 1) hg rfl hvl, rfl, rfl, rfl, top _ rfl rfl⟩
  unfold D
  rw [hg, h0]
  simp only [ops1, key_ok (show 0 < 2 by omega), Bind.bind, Except.bind]
  rw [show (grid k n a b).D ⟨0, by omega⟩ x.isprimal x.array = some v from hv]

/-- **C57**, one dimension: the star of a form of degree `d` is a form of degree `1 - d` on the other side, and its star is the form itself. -/
theorem C57_hodge_1d (h927 : k = .chebyshev → n ≤ 927) (x : DForm) (hg : h x.grid = ops1 (grid k n a b)) (hx : WellFormed h x) :
    ∃ y, H h x = .ok y ∧ WellFormed h y ∧ y.degree = 1 - x.degree ∧ y.isprimal = !x.isprimal ∧ y.grid = x.grid ∧ H h y = .ok x := by
  obtain ⟨d, hd, hl⟩ := wf1 h k n a b hg hx
  have hs := grid_stars k n hn h927 a b
  obtain ⟨v, hv, hvl⟩ := C11_hodge k n hn a b d x.isprimal (fun e _ _ => h927 e) x.array hl
  have hinv := hs.inv d x.isprimal x.array hl
  rw [hv] at hinv
  have hd' : (1 - d : Fin 2).val = 1 - d.val := by omega
  refine ⟨⟨1 - d.val, !x.isprimal, x.grid, v⟩, ?_, wf1_of h k n a b (d := 1 - d) hg hd'.symm hvl, by rw [hd], rfl, rfl, ?_⟩
  · unfold H
    rw [hg, ← hd]
    simp only [ops1, key_ok d.2, Bind.bind, Except.bind, hv]
  · unfold H
    simp only [hg, ops1]
    rw [key_ok (show 1 - d.val < 2 by omega)]
    rw [show (⟨1 - d.val, by omega⟩ : Fin 2) = 1 - d from Fin.ext hd'.symm]
    simp only [Bind.bind, Except.bind] at hinv ⊢
    rw [hinv]
    obtain ⟨dx, px, gx, ax⟩ := x
    simp only [Bool.not_not, DForm.mk.injEq, Except.ok.injEq, and_true, true_and] at *
    omega

/-- **C57**, one dimension: wedge products and contractions, on periodic grids and Chebyshev grids with at most 927 vertices. -/
theorem C57_products_1d (hk : Refinable k n) (x y : DForm) (hg : h x.grid = ops1 (grid k n a b)) (hxy : y.grid = x.grid)
    (hx : WellFormed h x) (hy : WellFormed h y) (u : Bool) :
    (x.degree + y.degree ≤ 1 → ∃ z, W h x y u = .ok z ∧ WellFormed h z ∧ z.degree = x.degree + y.degree ∧ z.isprimal = u ∧ z.grid = x.grid) ∧
    (1 < x.degree + y.degree → W h x y u = .error .keyError) ∧
    (x.degree = 1 → y.degree = 1 → ∃ z, C h x y u = .ok z ∧ WellFormed h z ∧ z.degree = 0 ∧ z.isprimal = u ∧ z.grid = x.grid) ∧
    (x.degree = 1 → y.degree = 0 → C h x y u = .error .keyError) := by
  obtain ⟨d, hd, hl⟩ := wf1 h k n a b hg hx
  obtain ⟨e, he, hl'⟩ := wf1 h k n a b (x := y) (by rw [hxy]; exact hg) hy
  have hw : WedgeGrid (grid k n a b) := by
    obtain ⟨h1, h2, h3⟩ := hk
    cases k
    · exact Or.inl ⟨n, a, b, rfl⟩
    · exact absurd rfl h2
    · exact Or.inr ⟨n, a, b, h1, h3 rfl, rfl⟩
  refine ⟨fun hsum => ?_, fun hsum => ?_, fun h1 h1' => ?_, fun h1 h0 => ?_⟩
  · obtain ⟨c, hc, hcl⟩ := C11_wedge _ hw d e (by omega) x.isprimal y.isprimal u x.array y.array hl hl'
    refine ⟨⟨x.degree + y.degree, u, x.grid, c⟩, ?_, wf1_of h k n a b (d := ⟨d.val + e.val, by omega⟩) hg (by simp [hd, he]) hcl, rfl, rfl, rfl⟩
    unfold W
    rw [if_neg (by simp [hxy]), hg, ← hd, ← he]
    simp only [ops1, key_ok d.2, key_ok e.2, Bind.bind, Except.bind, hc]
  · unfold W
    rw [if_neg (by simp [hxy]), hg, ← hd, ← he]
    simp only [ops1, key_ok d.2, key_ok e.2, Bind.bind, Except.bind]
    rw [(C20_commutative_key_error _ hw d e (by omega) x.isprimal y.isprimal u x.array y.array).1]
  · obtain rfl : d = 1 := by omega
    obtain rfl : e = 1 := by omega
    obtain ⟨c, hc, hcl⟩ := C11_contraction _ hw x.isprimal y.isprimal u x.array y.array hl hl'
    refine ⟨⟨y.degree - 1, u, x.grid, c⟩, ?_, wf1_of h k n a b (d := 0) hg (by simp [← he]) hcl, by simp [h1'], rfl, rfl⟩
    unfold C
    rw [if_neg (by simp [hxy, h1]), hg, ← he]
    simp only [ops1, key_ok (show ((1 : Fin 2) : ℕ) < 2 by omega), Bind.bind, Except.bind]
    rw [show (⟨((1 : Fin 2) : ℕ), by omega⟩ : Fin 2) = 1 from rfl, hc]
  · obtain rfl : e = 0 := by omega
    unfold C
    rw [if_neg (by simp [hxy, h1]), hg, ← he]
    simp only [ops1, key_ok (show ((0 : Fin 2) : ℕ) < 2 by omega), Bind.bind, Except.bind, Grid1.contraction]
    obtain ⟨_, _, hC⟩ := hw.refining
    rw [hC]
    simp [contraction1]
end

/-! ## Two dimensions -/

section
variable (h : Heap) (k k' : Kind) (n n' : ℕ) (hn : validSize k n) (hn' : validSize k' n') (a b a' b' : ℝ)

theorem wf2 {x : DForm} (hg : h x.grid = ops2 (product (grid k n a b) (grid k' n' a' b'))) (hx : WellFormed h x) :
    ∃ d : Fin 3, d.val = x.degree ∧ (product (grid k n a b) (grid k' n' a' b')).N d x.isprimal = .ok x.array.length := by
  unfold WellFormed at hx
  rw [hg] at hx
  by_cases hd : x.degree < 3
  · simp only [ops2, key_ok hd, Bind.bind, Except.bind] at hx
    exact ⟨⟨x.degree, hd⟩, rfl, hx⟩
  · simp only [ops2, key_error hd, Bind.bind, Except.bind] at hx
    cases hx

theorem wf2_of {y : DForm} (hg : h y.grid = ops2 (product (grid k n a b) (grid k' n' a' b'))) {d : Fin 3} (hd : y.degree = d.val)
    (hl : (product (grid k n a b) (grid k' n' a' b')).N d y.isprimal = .ok y.array.length) : WellFormed h y := by
  unfold WellFormed
  rw [hg, hd]
  simp only [ops2, key_ok d.2, Bind.bind, Except.bind]
  exact hl

theorem D2_of {x : DForm} (hg : h x.grid = ops2 (product (grid k n a b) (grid k' n' a' b'))) {d : Fin 3} (hd : d.val = x.degree) {v : List ℝ}
    (hv : (product (grid k n a b) (grid k' n' a' b')).D d x.isprimal x.array = .ok v) : D h x = .ok (some ⟨x.degree + 1, x.isprimal, x.grid, v⟩) := by
  unfold D
  rw [hg, ← hd]
  simp only [ops2, key_ok d.2, Bind.bind, Except.bind, hv]

include hn hn'

/-- **C57**, two dimensions: the derivative raises the degree by one and keeps the side; the second derivative of a 0-form is the zero 2-form. -/
theorem C57_derivative_2d (x : DForm) (hg : h x.grid = ops2 (product (grid k n a b) (grid k' n' a' b'))) (hx : WellFormed h x) :
    (x.degree ≤ 1 → ∃ y, D h x = .ok (some y) ∧ WellFormed h y ∧ y.degree = x.degree + 1 ∧ y.isprimal = x.isprimal ∧ y.grid = x.grid) ∧
    (x.degree = 0 → ∃ y z, D h x = .ok (some y) ∧ D h y = .ok (some z) ∧ z.degree = 2 ∧ ∀ v ∈ z.array, v = 0) ∧
    (x.degree = 2 → D h x = .error .typeError) ∧ x.degree ≤ 2 := by
  obtain ⟨d, hd, hl⟩ := wf2 h k k' n n' a b a' b' hg hx
  refine ⟨fun h1 => ?_, fun h0 => ?_, fun h2 => ?_, by omega⟩
  · obtain rfl | rfl : d = 0 ∨ d = 1 := by omega
    · obtain ⟨v, hv, hvl⟩ := (C29_derivative k k' n n' hn hn' a b a' b' x.isprimal x.array).1 hl
      exact ⟨_, D2_of h k k' n n' a b a' b' hg hd hv, wf2_of h k k' n n' a b a' b' (d := 1) hg (by simp [← hd]) hvl, rfl, rfl, rfl⟩
    · obtain ⟨v, hv, hvl⟩ := (C29_derivative k k' n n' hn hn' a b a' b' x.isprimal x.array).2 hl
      exact ⟨_, D2_of h k k' n n' a b a' b' hg hd hv, wf2_of h k k' n n' a b a' b' (d := 2) hg (by simp [← hd]) hvl, rfl, rfl, rfl⟩
  · obtain rfl : d = 0 := by omega
    obtain ⟨u, hu, w, hw, _, hz⟩ := C25_derivative_squared k k' n n' hn hn' a b a' b' x.isprimal x.array hl
    refine ⟨_, _, D2_of h k k' n n' a b a' b' hg hd hu, D2_of h k k' n n' a b a' b' (x := ⟨x.degree + 1, x.isprimal, x.grid, u⟩) (d := 1) hg ?_ hw, ?_, hz⟩
    · simp [← hd]
    · show x.degree + 1 + 1 = 2
      omega
  · obtain rfl : d = 2 := by omega
    unfold D
    rw [hg, h2]
    simp only [ops2, key_ok (show 2 < 3 by omega), Bind.bind, Except.bind]
    rw [show (product (grid k n a b) (grid k' n' a' b')).D ⟨2, by omega⟩ x.isprimal x.array = _ from
      C31_two_dimensions_fails k k' n n' hn hn' a b a' b' x.isprimal x.array hl]

/-- **C57**, two dimensions: the star of a form of degree `d` is a form of degree `2 - d` on the other side; applying it twice gives the form back,
with the opposite sign for 1-forms. -/
theorem C57_hodge_2d (h927 : k = .chebyshev → n ≤ 927) (h927' : k' = .chebyshev → n' ≤ 927) (x : DForm)
    (hg : h x.grid = ops2 (product (grid k n a b) (grid k' n' a' b'))) (hx : WellFormed h x) :
    ∃ y, H h x = .ok y ∧ WellFormed h y ∧ y.degree = 2 - x.degree ∧ y.isprimal = !x.isprimal ∧ y.grid = x.grid ∧
      H h y = .ok (if x.degree = 1 then neg x else x) := by
  obtain ⟨d, hd, hl⟩ := wf2 h k k' n n' a b a' b' hg hx
  have hd' : (2 - d : Fin 3).val = 2 - d.val := by omega
  have step : ∀ (u w : List ℝ), (product (grid k n a b) (grid k' n' a' b')).H d x.isprimal x.array = .ok u →
      (product (grid k n a b) (grid k' n' a' b')).N (2 - d) (!x.isprimal) = .ok u.length →
      (product (grid k n a b) (grid k' n' a' b')).H (2 - d) (!x.isprimal) u = .ok w →
      ∃ y, H h x = .ok y ∧ WellFormed h y ∧ y.degree = 2 - x.degree ∧ y.isprimal = !x.isprimal ∧ y.grid = x.grid ∧
        H h y = .ok ⟨x.degree, x.isprimal, x.grid, w⟩ := by
    intro u w hu hul hw
    refine ⟨⟨2 - d.val, !x.isprimal, x.grid, u⟩, ?_, wf2_of h k k' n n' a b a' b' (d := 2 - d) hg hd'.symm hul, by rw [hd], rfl, rfl, ?_⟩
    · unfold H
      rw [hg, ← hd]
      simp only [ops2, key_ok d.2, Bind.bind, Except.bind, hu]
    · unfold H
      simp only [hg, ops2]
      rw [key_ok (show 2 - d.val < 3 by omega)]
      rw [show (⟨2 - d.val, by omega⟩ : Fin 3) = 2 - d from Fin.ext hd'.symm]
      simp only [Bind.bind, Except.bind, hw, Bool.not_not, DForm.mk.injEq, Except.ok.injEq, and_true, true_and]
      omega
  by_cases h1 : x.degree = 1
  · obtain rfl : d = 1 := by omega
    obtain ⟨u, hu, hul, hw⟩ := C26_hodge_one k k' n n' hn hn' h927 h927' a b a' b' x.isprimal x.array hl
    rw [if_pos h1]
    exact step u _ hu hul hw
  · obtain ⟨u, hu, hul, hw⟩ := C26_hodge_even k k' n n' hn hn' h927 h927' a b a' b' x.isprimal x.array d (by omega) hl
    rw [if_neg h1]
    exact step u _ hu hul hw

omit hn hn'

/-- **C57**, two dimensions: wedge products and contractions, on products of periodic grids and Chebyshev grids with at most 927 vertices. -/
theorem C57_products_2d (hk : Refinable k n) (hk' : Refinable k' n') (x y : DForm) (hg : h x.grid = ops2 (product (grid k n a b) (grid k' n' a' b')))
    (hxy : y.grid = x.grid) (hx : WellFormed h x) (hy : WellFormed h y) (u : Bool) :
    (x.degree + y.degree ≤ 2 → ∃ z, W h x y u = .ok z ∧ WellFormed h z ∧ z.degree = x.degree + y.degree ∧ z.isprimal = u ∧ z.grid = x.grid) ∧
    (2 < x.degree + y.degree → W h x y u = .error .keyError) ∧
    (x.degree = 1 → y.degree ≠ 0 → ∃ z, C h x y u = .ok z ∧ WellFormed h z ∧ z.degree = y.degree - 1 ∧ z.isprimal = u ∧ z.grid = x.grid) ∧
    (x.degree = 1 → y.degree = 0 → C h x y u = .error .keyError) := by
  obtain ⟨d, hd, hl⟩ := wf2 h k k' n n' a b a' b' hg hx
  obtain ⟨e, he, hl'⟩ := wf2 h k k' n n' a b a' b' (x := y) (by rw [hxy]; exact hg) hy
  have hP := C29_products k k' n n' hk hk' a b a' b' d e x.isprimal y.isprimal u x.array y.array hl hl'
  refine ⟨fun hsum => ?_, fun hsum => ?_, fun h1 h1' => ?_, fun h1 h0 => ?_⟩
  · obtain ⟨c, hc, hcl⟩ := hP.1 (by omega)
    refine ⟨⟨x.degree + y.degree, u, x.grid, c⟩, ?_, wf2_of h k k' n n' a b a' b' (d := ⟨d.val + e.val, by omega⟩) hg (by simp [hd, he]) hcl, rfl, rfl, rfl⟩
    unfold W
    rw [if_neg (by simp [hxy]), hg, ← hd, ← he]
    simp only [ops2, key_ok d.2, key_ok e.2, Bind.bind, Except.bind, hc]
  · unfold W
    rw [if_neg (by simp [hxy]), hg, ← hd, ← he]
    simp only [ops2, key_ok d.2, key_ok e.2, Bind.bind, Except.bind]
    rw [show (product (grid k n a b) (grid k' n' a' b')).wedge d x.isprimal e y.isprimal u x.array y.array = .error .keyError by
      unfold Grid2.wedge; rw [if_pos (by omega)]]
  · obtain ⟨c, hc, hcl⟩ := hP.2 (by omega) (by omega)
    refine ⟨⟨y.degree - 1, u, x.grid, c⟩, ?_, wf2_of h k k' n n' a b a' b' (d := ⟨e.val - 1, by omega⟩) hg (by simp [he]) hcl, rfl, rfl, rfl⟩
    unfold C
    rw [if_neg (by simp [hxy, h1]), hg, ← he]
    simp only [ops2, key_ok e.2, Bind.bind, Except.bind, hc]
  · obtain rfl : e = 0 := by omega
    unfold C
    rw [if_neg (by simp [hxy, h1]), hg, ← he]
    simp only [ops2, key_ok (show ((0 : Fin 3) : ℕ) < 3 by omega), Bind.bind, Except.bind, Grid2.contraction]
    simp
end

/-- Non-vacuity: a dual 1-form on a periodic grid times a Chebyshev grid. -/
example : WellFormed (fun _ => ops2 (product (grid .periodic 2 0 1) (grid .chebyshev 3 0 1))) ⟨1, false, 7, List.replicate 10 1⟩ := by
  unfold WellFormed
  simp only [ops2, key_ok (show 1 < 3 by omega), Bind.bind, Except.bind]
  exact N_eq (grid_factor .periodic 2 (by norm_num [validSize]) 0 1) (grid_factor .chebyshev 3 (by norm_num [validSize]) 0 1) 1 false

end Dec.Props
