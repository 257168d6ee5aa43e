import Verif.Lib.Factors

set_option linter.unusedSimpArgs false
set_option linter.unusedVariables false

/-! # Projections and boundary terms on product grids, in normal form -/

namespace Dec.G2

open Finset Real Integrate

variable {gx gy : Grid1} (hx : Factor gx) (hy : Factor gy)
include hx hy

theorem P0_mtab (t : Bool) (f : ℝ → ℝ → ℝ) :
    (product gx gy).P 0 t [f] = .ok (mtab (gy.N 0 t) (gx.N 0 t) fun j i => f (vx gx t i) (vx gy t j)).data := by
  simp only [Grid2.P, bP, bcells_v hx hy, Bind.bind, Except.bind, unshape, map2_mtab]

theorem P1_mtab (t : Bool) (f g : ℝ → ℝ → ℝ) :
    (product gx gy).P 1 t [f, g] = .ok ((mtab (gy.N 0 t) (gx.N 1 t) fun j i => P1x f (lo gx t i) (hi gx t i) (vx gy t j)).data
      ++ (mtab (gy.N 1 t) (gx.N 0 t) fun j i => P1y g (vx gx t i) (lo gy t j) (hi gy t j)).data) := by
  simp only [Grid2.P, bP, bcells_e hx hy, Bind.bind, Except.bind, unshape, map3_mtab]
  simp

theorem P2_mtab (t : Bool) (f : ℝ → ℝ → ℝ) :
    (product gx gy).P 2 t [f] = .ok (mtab (gy.N 1 t) (gx.N 1 t) fun j i => P2r f (lo gx t i) (lo gy t j) (hi gx t i) (hi gy t j)).data := by
  simp only [Grid2.P, bP, bcells_f hx hy, Bind.bind, Except.bind, unshape, map4_mtab]

theorem Pn0_mtab (t : Bool) (f : ℝ → ℝ → ℝ) :
    (product gx gy).Pn 0 t (.scalar f) = .ok (mtab (gy.N 0 t) (gx.N 0 t) fun j i => f (vx gx t i) (vx gy t j)).data := by
  simp only [Grid2.Pn, bPn, bcells_v hx hy, Bind.bind, Except.bind, unshape, map2_mtab]

theorem Pn1_mtab (t : Bool) (f : ℝ → ℝ → ℝ × ℝ) :
    (product gx gy).Pn 1 t (.pair f) = .ok ((mtab (gy.N 0 t) (gx.N 1 t) fun j i => P1x (fun x y => (f x y).1) (lo gx t i) (hi gx t i) (vx gy t j)).data
      ++ (mtab (gy.N 1 t) (gx.N 0 t) fun j i => P1y (fun x y => (f x y).2) (vx gx t i) (lo gy t j) (hi gy t j)).data) := by
  simp only [Grid2.Pn, bPn, bcells_e hx hy, Bind.bind, Except.bind, unshape, map3_mtab]
  simp

theorem Pn2_mtab (t : Bool) (f : ℝ → ℝ → ℝ) :
    (product gx gy).Pn 2 t (.scalar f) = .ok (mtab (gy.N 1 t) (gx.N 1 t) fun j i => nP2r f (lo gx t i) (lo gy t j) (hi gx t i) (hi gy t j)).data := by
  simp only [Grid2.Pn, bPn, bcells_f hx hy, Bind.bind, Except.bind, unshape, map4_mtab]

theorem BC1_mtab (f : ℝ → ℝ → ℝ) :
    (product gx gy).BC 1 [f] = .ok ((mtab (gy.N 0 false) (gx.N 1 false) fun j i => beta gx (fun x => f x (vx gy false j)) i).data
      ++ (mtab (gy.N 1 false) (gx.N 0 false) fun j i => beta gy (fun y => f (vx gx false i) y) j).data) := by
  simp only [Grid2.BC, bBC, bcells_e hx hy, Bind.bind, Except.bind, unshape, map3_mtab, show (product gx gy).gx = gx from rfl, show (product gx gy).gy = gy from rfl]
  rw [if_neg (by simp)]
  simp only [List.flatMap_cons, List.flatMap_nil, List.append_nil]
  refine congrArg _ (congrArg₂ (· ++ ·) (congrArg Arr.data (mtab_congr fun j hj i hi => ?_)) (congrArg Arr.data (mtab_congr fun j hj i hi => ?_)))
  · unfold beta; split_ifs <;> ring
  · unfold beta; split_ifs <;> ring

theorem BC2_mtab (f g : ℝ → ℝ → ℝ) :
    (product gx gy).BC 2 [f, g] = .ok (mtab (gy.N 1 false) (gx.N 1 false) fun j i =>
      -beta gy (fun y => P1x f (lo gx false i) (hi gx false i) y) j + beta gx (fun x => P1y g x (lo gy false j) (hi gy false j)) i).data := by
  simp only [Grid2.BC, bBC, bcells_f hx hy, Bind.bind, Except.bind, unshape, map4_mtab, show (product gx gy).gx = gx from rfl, show (product gx gy).gy = gy from rfl]
  refine congrArg _ (congrArg Arr.data (mtab_congr fun j hj i h => ?_))
  have e1 : ∀ y, P1x f (hi gx false i) (lo gx false i) y = -P1x f (lo gx false i) (hi gx false i) y := fun y => intervalIntegral.integral_symm _ _
  have e2 : ∀ x, P1y g x (hi gy false j) (lo gy false j) = -P1y g x (lo gy false j) (hi gy false j) := fun y => intervalIntegral.integral_symm _ _
  simp only [e1, e2]
  unfold beta; split_ifs <;> ring

end Dec.G2
