import Verif.Model.Spectral
import Verif.Model.Helper
import Verif.Model.Misc
import Verif.Model.Grid2
import Verif.Model.Forms
import Verif.Model.Symbolic
import Verif.Model.Periodic
import Mathlib.Tactic

/-!
# The documented examples, run on the model

These are *not* properties and no claim rests on them. They are the doctests of `/repo`, evaluated on the definitions of the model, to
check that the model transcribes the code. Each cites the doctest it repeats. Numbers are exact, so that what a doctest prints rounded is
compared exactly here.
-/

namespace Dec.Doctest

open Dec Dec.Sp

/-! ## `/repo/dec/helper.py` -/

/-- `/repo/dec/helper.py:9-26`. -/
example : [nCr 1 0, nCr 1 1, nCr 2 0, nCr 2 1, nCr 2 2, nCr 3 0, nCr 3 1, nCr 3 2, nCr 3 3] = ([1, 1, 1, 2, 1, 1, 3, 3, 1] : List ℕ).map Except.ok := by decide

/-- `/repo/dec/helper.py:39-48`. -/
example : toMatrix (fun x : List ℤ => x) 2 2 = [[1, 0], [0, 1]] ∧ toMatrix (fun x : List ℤ => roll x 1) 2 2 = [[0, 1], [1, 0]] := by decide

/-- `/repo/dec/helper.py:57-61`. -/
example : toMatrixByIndex (fun i j => 10 * i + j) 2 = [[0, 1], [10, 11]] := by decide

/-- `/repo/dec/helper.py:71-76`. -/
example : sparseDiag [1, 2, 3] = [[1, 0, 0], [0, 2, 0], [0, 0, 3]] := by decide

/-- `/repo/dec/helper.py:85-89`. -/
example : sparseMatrix [(0, 1, 1), (1, 0, 2)] 2 2 = [[0, 1], [2, 0]] := by decide

/-- `/repo/dec/helper.py:157-159`. -/
example : makeNamedtuple ["x", "y"] (fun s => [("x", 1), ("y", 2), ("z", 3)].lookup s) = .ok [1, 2] := by decide

/-- `/repo/dec/helper.py:165-166`. -/
example : applyMap [0, 1, 2] [(0, 3), (1, 4), (2, 5)] = .ok [3, 4, 5] := by decide

/-- `/repo/dec/helper.py:178-180`. -/
example : bndryWithZeros [1, 2, 4, 7, 0] = [0, 1, 2, 4, 7, 0, 0] := by decide

/-- `/repo/dec/helper.py:181-189`. -/
example : bndryWithZeros0 ⟨2, 4, [1, 3, 6, 10, 0, 5, 6, 8]⟩ = .ok ⟨4, 4, [0, 0, 0, 0, 1, 3, 6, 10, 0, 5, 6, 8, 0, 0, 0, 0]⟩ ∧
    bndryWithZeros1 ⟨2, 4, [1, 3, 6, 10, 0, 5, 6, 8]⟩ = .ok ⟨2, 6, [0, 1, 3, 6, 10, 0, 0, 0, 5, 6, 8, 0]⟩ := ⟨rfl, rfl⟩

/-- `/repo/dec/helper.py:197-200`. -/
example : interweave [0, 1, 2] [3, 4, 5] = .ok [0, 3, 1, 4, 2, 5] ∧ interweave [0, 1, 2] [3, 4] = .ok [0, 3, 1, 4, 2] := by decide

/-! ## `/repo/dec/spectral.py` -/

/-- `/repo/dec/spectral.py:399-402`. -/
example : freq 5 = [-2, -1, 0, 1, 2] ∧ freq 6 = [-3, -2, -1, 0, 1, 2] := by decide

/-- `/repo/dec/spectral.py:681-684`. -/
example : A_diag 2 = ([0.5, 0.5] : List ℚ) ∧ A_diag 3 = ([0.5, 1, 0.5] : List ℚ) := by
  constructor <;> norm_num [A_diag]

/-- `/repo/dec/spectral.py:719-720`. -/
example : extend ([1, 2, 3, 4] : List ℚ) 2 = [0, 0, 2, 4, 6, 8, 0, 0] := by norm_num [extend, extend_, smul, List.replicate]

/-- `/repo/dec/spectral.py:762-763`. -/
example : unextend ([0, 0, 2, 4, 6, 8, 0, 0] : List ℚ) 2 = .ok [1, 2, 3, 4] := by decide +kernel

/-- `/repo/dec/spectral.py:771-772`. -/
example : extend_ ([1, 2, 3, 4] : List ℤ) 2 = [0, 0, 1, 2, 3, 4, 0, 0] := by decide

/-- `/repo/dec/spectral.py:780-785`. -/
example : unextend_ ([0, 0, 1, 2, 3, 4, 0, 0] : List ℤ) 2 = .ok [1, 2, 3, 4] ∧ unextend_ ([1, 2, 0, 0, 3, 4] : List ℤ) 2 = .ok [4, 6] ∧
    unextend_ ([0, 1, 2, 3, 4, 5, 6, 7] : List ℤ) 2 = .ok [8, 10, 4, 6] := by decide

/-- `/repo/dec/spectral.py:813-826`. -/
example : mirror0 ([1, 2, 3] : List ℤ) 1 = [1, 2, 3, 2] ∧ mirror0 ([1, 2, 3] : List ℤ) (-1) = [1, 2, 3, -2] ∧
    toMatrix (fun x : List ℤ => mirror0 x 1) 3 4 = [[1, 0, 0], [0, 1, 0], [0, 0, 1], [0, 1, 0]] ∧
    toMatrix (fun x : List ℤ => mirror0 x (-1)) 3 4 = [[1, 0, 0], [0, 1, 0], [0, 0, 1], [0, -1, 0]] := by decide

/-- `/repo/dec/spectral.py:853-866`. -/
example : mirror1 ([1, 2, 3] : List ℤ) 1 = [1, 2, 3, 3, 2, 1] ∧ mirror1 ([1, 2, 3] : List ℤ) (-1) = [1, 2, 3, -3, -2, -1] ∧
    toMatrix (fun x : List ℤ => mirror1 x 1) 2 4 = [[1, 0], [0, 1], [0, 1], [1, 0]] ∧
    toMatrix (fun x : List ℤ => mirror1 x (-1)) 2 4 = [[1, 0], [0, 1], [0, -1], [-1, 0]] := by decide

/-- `/repo/dec/spectral.py:889-890` and `911-912`. -/
example : unmirror0 [1, 2, 3, 2] = [1, 2, 3] ∧ unmirror1 ([1, 2, 3, -3, -2, -1] : List ℤ) = [1, 2, 3] := by decide

/-- `/repo/dec/spectral.py:966-967`. -/
example : half_edge_base 3 = ([4.5, -0.5, 0.5] : List ℚ) := by decide +kernel

/-- `/repo/dec/spectral.py:1105-1108`. -/
example : fold1 ([0, 1, 2, 3] : List ℤ) 1 = [3, 3] ∧ fold1 ([0, 1, 2, 3] : List ℤ) (-1) = [-3, -1] := by decide

/-- `/repo/dec/spectral.py:1117-1120`. -/
example : fold0 ([0, 1, 2, 3] : List ℤ) 1 = [0, 4, 2] ∧ fold0 ([0, 1, 2, 3] : List ℤ) (-1) = [0, -2, -2] := by decide

/-- `/repo/dec/spectral.py:1129-1130`. -/
example : unfold0 ([1, 1, 1] : List ℚ) = [1, 0.5, -1, -0.5] := by decide +kernel

/-- `/repo/dec/spectral.py:180-183` and `193-196`. -/
example : varphi (-1) = 0 ∧ varphi 1 = Real.pi ∧ varphi_inv 0 = -1 ∧ varphi_inv Real.pi = 1 := by
  simp [varphi, varphi_inv, Real.arccos_one, Real.arccos_neg_one]

/-! ## `/repo/dec/grid2.py` -/

/-- `/repo/dec/grid2.py:21-32`. -/
example : G2.arange2 (.arr (2, 1)) = .ok (.arr ⟨2, 1, [0, 1]⟩) ∧ G2.arange2 (.arr (3, 4)) = .ok (.arr ⟨3, 4, [0, 1, 2, 3, 4, 5, 6, 7, 8, 9, 10, 11]⟩) ∧
    G2.arange2 (.tup [(2, 2), (3, 2)]) = .ok (.tup [⟨2, 2, [0, 1, 2, 3]⟩, ⟨3, 2, [4, 5, 6, 7, 8, 9]⟩]) := ⟨rfl, rfl, rfl⟩

/-- `/repo/dec/grid2.py:42-52`: entry `10` is in the first array, row `0`, column `10`; entry `200` in the second, row `4`, column `12`
(`132 + 4 * 14 + 12 = 200`). -/
example : G2.unravel_idx 10 [(11, 12), (13, 14)] = .ok (0, 0, 10) ∧ G2.unravel_idx 0 [(11, 12), (13, 14)] = .ok (0, 0, 0) ∧
    G2.unravel_idx 200 [(11, 12), (13, 14)] = .ok (1, 4, 12) := by decide

/-- `/repo/dec/grid2.py:62-63`. -/
example : G2.cartesian_product [0, 1] [2, 3] = ([0, 1, 0, 1], [2, 2, 3, 3]) := rfl

/-- `/repo/dec/grid2.py:72-73`. -/
example : G2.cumul_index [(3, 1), (4, 5), (6, 7)] = [3, 23, 65] := by decide

/-- `/repo/dec/grid2.py:80-87`. -/
example : G2.unshape (.arr ⟨2, 3, [0, 1, 2, 3, 4, 5]⟩) = .ok ([0, 1, 2, 3, 4, 5], .arr (2, 3)) ∧
    G2.unshape (.tup [⟨2, 3, [0, 1, 2, 3, 4, 5]⟩, ⟨2, 2, [6, 7, 8, 9]⟩]) = .ok ([0, 1, 2, 3, 4, 5, 6, 7, 8, 9], .tup [(2, 3), (2, 2)]) := by
  constructor
  · rfl
  · simp [G2.unshape]

/-- `/repo/dec/grid2.py:103-109`. -/
example : G2.reshape [0, 1, 2, 3, 4, 5] (.arr (2, 3)) = .ok (.arr ⟨2, 3, [0, 1, 2, 3, 4, 5]⟩) ∧
    G2.reshape [0, 1, 2, 3, 4, 5, 6, 7, 8, 9] (.tup [(2, 3), (2, 2)]) = .ok (.tup [⟨2, 3, [0, 1, 2, 3, 4, 5]⟩, ⟨2, 2, [6, 7, 8, 9]⟩]) := ⟨rfl, rfl⟩

/-- `/repo/dec/grid2.py:685-698`. -/
example : G2.countshape 0 (.arr (4, 4)) = .ok 16 ∧ G2.countshape 0 (.arr (5, 5)) = .ok 25 ∧ G2.countshape 1 (.tup [(4, 5), (5, 4)]) = .ok 40 ∧
    G2.countshape 1 (.tup [(5, 4), (4, 5)]) = .ok 40 ∧ G2.countshape 2 (.arr (5, 5)) = .ok 25 ∧ G2.countshape 2 (.arr (4, 4)) = .ok 16 := by decide

/-! ## `/repo/dec/forms.py` -/

/-- `/repo/dec/forms.py:5-13`. -/
example : (Forms.lamD 0, Forms.lamD 1, Forms.lamD 2) = (1, 2, 3) ∧ (Forms.lamH 2 0, Forms.lamH 2 1, Forms.lamH 2 2) = (2, 1, 0) ∧
    (Forms.lamW 0 0, Forms.lamW 0 1, Forms.lamW 1 1, Forms.lamW 0 2) = (0, 1, 2, 2) ∧ (Forms.lamC 1 1, Forms.lamC 1 2) = (.ok 0, .ok 1) := by decide

/-- `/repo/dec/forms.py:29-42`. -/
example : Forms.operators_by_degree 1 = ⟨[(0, 1)], [(0, 1), (1, 0)], [((0, 0), 0), ((0, 1), 1)], [((1, 1), 0)]⟩ ∧
    Forms.operators_by_degree 2 = ⟨[(0, 1), (1, 2)], [(0, 2), (1, 1), (2, 0)], [((0, 0), 0), ((0, 1), 1), ((0, 2), 2), ((1, 1), 2)],
      [((1, 1), 0), ((1, 2), 1)]⟩ := ⟨by simp [Forms.operators_by_degree, Forms.irange, Forms.product, List.range, List.range.loop],
    by simp [Forms.operators_by_degree, Forms.irange, Forms.product, List.range, List.range.loop]⟩

/-- `/repo/dec/forms.py:56-71`. -/
example : Forms.operators 1 =
    { D := [("D0", some (0, true), some (1, true)), ("D0d", some (0, false), some (1, false))]
      H := [("H0", some (0, true), some (1, false)), ("H0d", some (0, false), some (1, true)), ("H1", some (1, true), some (0, false)),
        ("H1d", some (1, false), some (0, true))]
      P := [("P0", none, some (0, true)), ("P0d", none, some (0, false)), ("P1", none, some (1, true)), ("P1d", none, some (1, false))]
      R := [("R0", some (0, true), none), ("R0d", some (0, false), none), ("R1", some (1, true), none), ("R1d", some (1, false), none)] } := by
  simp [Forms.operators, Forms.irange, Forms.product, List.range, List.range.loop, Forms.opName]
  decide

/-! ## `/repo/dec/symbolic.py` -/

section symbolic

open Dec.Sym

variable {R : Type} [CommRing R] (x y u v f g : R) (dx dy : R → R)

/-- `/repo/dec/symbolic.py:44-47`. -/
example (i : ℕ) : (mkChart i 1).map Chart.dim = .ok 1 ∧ (mkChart i 2).map Chart.dim = .ok 2 := ⟨rfl, rfl⟩

/-- `/repo/dec/symbolic.py:94-102`. -/
example : enumerate_coords ["x"] 0 = ["x0"] ∧ enumerate_coords ["x"] 1 = ["x0", "x1"] ∧ enumerate_coords ["x"] 2 = ["x0", "x1", "x2"] ∧
    enumerate_coords ["x", "y"] 2 = ["x0", "y0", "x1", "y1", "x2", "y2"] := by decide

/-- `/repo/dec/symbolic.py:143-149`. -/
example (h : dx x = 1) (h' : dx (x * y) = y) : derivative_1d dx 0 [x] = some [1] ∧ derivative_1d dx 0 [x * y] = some [y] ∧ derivative_1d dx 1 [x] = none := by
  simp [derivative_1d, h, h']

/-- `/repo/dec/symbolic.py:157-165`. -/
example (h : dx x = 1) (h0 : dy x = 0) (h' : dx (x * y) = y) (h'' : dy (x * y) = x) (h3 : dy (-y) = -1) : derivative_2d dx dy 0 [x] = some [1, 0] ∧
    derivative_2d dx dy 0 [x * y] = some [y, x] ∧ derivative_2d dx dy 1 [-y, x] = some [2] ∧ derivative_2d dx dy 2 [x] = none := by
  simp [derivative_2d, h, h', h0, h'', h3]; norm_num

/-- `/repo/dec/symbolic.py:177-181` and `189-195`. -/
example : hodge_star_1d 0 [x] = [x] ∧ hodge_star_1d 1 [x] = [x] ∧ hodge_star_2d 0 [x] = [x] ∧ hodge_star_2d 1 [x, y] = [-y, x] ∧ hodge_star_2d 2 [x] = [x] := by
  simp [hodge_star_1d, hodge_star_2d]

/-- `/repo/dec/symbolic.py:219-226`. -/
example : (wedge_1d 0 0).map (· [f] [g]) = some [f * g] ∧ (wedge_1d 0 1).map (· [f] [u]) = some [f * u] ∧ (wedge_1d 1 0).map (· [u] [f]) = some [f * u] := by
  simp [wedge_1d, antisymmetrize, wedge_1d_base]

/-- `/repo/dec/symbolic.py:236-249`. -/
example : (wedge_2d 0 0).map (· [f] [g]) = some [f * g] ∧ (wedge_2d 0 1).map (· [f] [u, v]) = some [f * u, f * v] ∧
    (wedge_2d 1 0).map (· [u, v] [f]) = some [f * u, f * v] ∧ (wedge_2d 1 1).map (· [u, v] [f, g]) = some [-f * v + g * u] ∧
    (wedge_2d 0 2).map (· [f] [g]) = some [f * g] ∧ (wedge_2d 2 0).map (· [g] [f]) = some [f * g] := by
  simp [wedge_2d, antisymmetrize, wedge_2d_base]; ring

/-- `/repo/dec/symbolic.py:262-268` and `277-285`. -/
example : contraction_1d 0 [u] [f] = none ∧ contraction_1d 1 [u] [f] = some [f * u] ∧ contraction_2d 0 [u, v] [f] = none ∧
    contraction_2d 1 [u, v] [f, g] = some [f * u + g * v] ∧ contraction_2d 2 [u, v] [f] = some [-f * v, f * u] := by
  simp [contraction_1d, contraction_2d, mul_comm]

end symbolic

end Dec.Doctest
