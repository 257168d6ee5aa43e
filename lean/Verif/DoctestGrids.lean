import Verif.Props.Quadrature
import Verif.Lib.ChebyshevStar
import Verif.Lib.ChebyshevForms
import Verif.Model.Periodic
import Verif.Props.Rounding
import Mathlib.Tactic

/-!
# The documented examples of the grids and of the transforms, run on the model

As `Verif/Doctest.lean`: not properties, no claim rests on them.
-/

namespace Dec.Doctest

open Dec Dec.Sp Dec.Props Real

/-- `/repo/dec/grid1.py:10-21`, as the action of the printed matrices. -/
example : Grid1.n (Periodic.make 3) = 3 ∧ (∀ a b c : ℝ, (Periodic.make 3).D 0 true [a, b, c] = some [-a + b, -b + c, a - c]) ∧
    ∀ a b c : ℝ, (Periodic.make 3).D 0 false [a, b, c] = some [a - c, -a + b, -b + c] := by
  refine ⟨rfl, fun a b c => ?_, fun a b c => ?_⟩
  · show some (Periodic.D0 [a, b, c]) = _
    have e : Periodic.D0 [a, b, c] = [b - a, c - b, a - c] := rfl
    rw [e]; simp [sub_eq_neg_add]
  · show some (Periodic.D0d [a, b, c]) = _
    have e : Periodic.D0d [a, b, c] = [a - c, b - a, c - b] := rfl
    rw [e]; simp [sub_eq_neg_add]

theorem alpha0_node (N : ℕ) (hN : 0 < N) (i : ℕ) (h0 : 0 < i) (hi : i < N) : alpha0 N (i * (2 * π / N)) = some 0 ∧ alpha0_alt N (i * (2 * π / N)) = some 0 := by
  have hN' : (0 : ℝ) < N := by exact_mod_cast hN
  have hi' : (i : ℝ) < N := by exact_mod_cast hi
  have h0' : (0 : ℝ) < i := by exact_mod_cast h0
  have e : (i : ℝ) * (2 * π / N) / 2 = i / N * π := by ring
  have hs : 0 < sin (i / N * π) := sin_pos_of_pos_of_lt_pi (by positivity) (by
    rw [div_mul_eq_mul_div, div_lt_iff₀ hN', mul_comm]; exact mul_lt_mul_of_pos_left hi' pi_pos)
  have hz : sin ((N : ℝ) * (i * (2 * π / N)) / 2) = 0 := by
    rw [show (N : ℝ) * (i * (2 * π / N)) / 2 = i * π by field_simp]; exact sin_nat_mul_pi i
  have hne : (i : ℝ) * (2 * π / N) ≠ 0 := by positivity
  constructor
  · unfold alpha0; rw [if_neg hne, e, if_neg hs.ne', hz]; simp
  · unfold alpha0_alt; rw [if_neg hne, e, if_neg hs.ne', hz]; simp

/-- `/repo/dec/spectral.py:21-23` and `46-48`. -/
example : (alpha0 5 0, alpha0 5 ((1 : ℕ) * (2 * π / (5 : ℕ))), alpha0 5 ((2 : ℕ) * (2 * π / (5 : ℕ)))) = (some 1, some 0, some 0) ∧
    (alpha0 6 0, alpha0 6 ((1 : ℕ) * (2 * π / (6 : ℕ))), alpha0 6 ((2 : ℕ) * (2 * π / (6 : ℕ)))) = (some 1, some 0, some 0) ∧
    (alpha0_alt 5 0, alpha0_alt 5 ((1 : ℕ) * (2 * π / (5 : ℕ))), alpha0_alt 5 ((2 : ℕ) * (2 * π / (5 : ℕ)))) = (some 1, some 0, some 0) ∧
    (alpha0_alt 6 0, alpha0_alt 6 ((1 : ℕ) * (2 * π / (6 : ℕ))), alpha0_alt 6 ((2 : ℕ) * (2 * π / (6 : ℕ)))) = (some 1, some 0, some 0) := by
  rw [(alpha0_node 5 (by norm_num) 1 (by norm_num) (by norm_num)).1, (alpha0_node 5 (by norm_num) 2 (by norm_num) (by norm_num)).1,
    (alpha0_node 6 (by norm_num) 1 (by norm_num) (by norm_num)).1, (alpha0_node 6 (by norm_num) 2 (by norm_num) (by norm_num)).1,
    (alpha0_node 5 (by norm_num) 1 (by norm_num) (by norm_num)).2, (alpha0_node 5 (by norm_num) 2 (by norm_num) (by norm_num)).2,
    (alpha0_node 6 (by norm_num) 1 (by norm_num) (by norm_num)).2, (alpha0_node 6 (by norm_num) 2 (by norm_num) (by norm_num)).2]
  simp [alpha0, alpha0_alt]

theorem filters : (List.range ([0, 1, 2] : List ℝ).length).filter (· ≠ 0) = [1, 2] ∧ (List.range ([0, 1, 2] : List ℝ).length).filter (· ≠ 1) = [0, 2] ∧
    (List.range ([0, 1, 2] : List ℝ).length).filter (· ≠ 2) = [0, 1] := ⟨by decide, by decide, by decide⟩

/-- `/repo/dec/spectral.py:379-385`: the three polynomials, in closed form. -/
theorem lagrange012 (y : ℝ) : lagrange [0, 1, 2] 0 y = .ok ((y - 1) / (0 - 1) * ((y - 2) / (0 - 2))) ∧
    lagrange [0, 1, 2] 1 y = .ok ((y - 0) / (1 - 0) * ((y - 2) / (1 - 2))) ∧
    lagrange [0, 1, 2] 2 y = .ok ((y - 0) / (2 - 0) * ((y - 1) / (2 - 1))) := by
  refine ⟨?_, ?_, ?_⟩
  · unfold lagrange; simp only [filters.1]; simp
  · unfold lagrange; simp only [filters.2.1]; norm_num
  · unfold lagrange; simp only [filters.2.2]; norm_num

example : [0, 1, 2].map (fun i => lagrange [0, 1, 2] i 0) = [.ok 1, .ok 0, .ok 0] ∧ [0, 1, 2].map (fun i => lagrange [0, 1, 2] i 1) = [.ok 0, .ok 1, .ok 0] ∧
    [0, 1, 2].map (fun i => lagrange [0, 1, 2] i 2) = [.ok 0, .ok 0, .ok 1] := by
  simp only [List.map, lagrange012]
  norm_num

/-- `/repo/dec/spectral.py:602-603`. -/
example : integrate_spectral (circlePoints 2 (-π)) sin = [-2, 2] := by
  have hp : IsTrig 1 sin := ⟨fun _ => 0, fun _ => 1, fun x => by simp [Finset.sum_range_succ]⟩
  rw [C48_spectral 2 (-π) 1 (by norm_num) sin hp]
  simp only [integral_sin]
  simp [tab, List.range, List.range.loop]
  rw [show -π + (1 + 1) * π = π by ring]
  norm_num

/-- `/repo/dec/spectral.py:615-616`. -/
example : integrate_chebyshev (chebPoints 2) (fun x => x) = [-0.5, 0.5] := by
  rw [C48_chebyshev 2 (by norm_num) 2 (by norm_num) _ ⟨fun k => if k = 1 then 1 else 0, fun x => by simp [Finset.sum_range_succ]⟩]
  simp [tab, List.range, List.range.loop]
  rw [show ((1 : ℝ) + 1) * (π / 2) = π by ring]
  norm_num

/-- `/repo/dec/spectral.py:569-573`. -/
example : refine (tab 4 fun i => cos (i * (2 * π / 4))) = .ok (tab 8 fun i => cos (i * (2 * π / 8))) := by
  have hp : IsTrig 1 cos := ⟨fun k => if k = 1 then 1 else 0, fun _ => 0, fun x => by simp [Finset.sum_range_succ]⟩
  have h := (Res_of_isTrig (N := 4) (by norm_num) hp 0).S
  have e0 : samp 4 0 cos = tab 4 fun i => cos (i * (2 * π / 4)) := by unfold samp hh; simp
  rw [e0] at h
  unfold Sp.refine
  rw [h]
  unfold interweave samp
  rw [if_pos (by simp), Periodic.weave_tab]
  refine congrArg _ (tab_congr fun i _ => ?_)
  unfold hh
  rcases Nat.even_or_odd' i with ⟨k, rfl | rfl⟩
  · rw [if_pos (by omega), show 2 * k / 2 = k by omega]; push_cast; congr 1; ring
  · rw [if_neg (by omega), show (2 * k + 1) / 2 = k by omega]; push_cast; congr 1; ring

/-- `/repo/dec/helper.py:230-233`. -/
example : isEquidistant [0, 1, 2] = .ok true ∧ isEquidistant [0, 1, 2.5] = .ok false := by
  have h1 : rint ((1 : ℝ) * 10 ^ 8) = 10 ^ 8 := rint_of_near (by norm_num)
  have h2 : rint ((1.5 : ℝ) * 10 ^ 8) = 15 * 10 ^ 7 := rint_of_near (by norm_num)
  constructor
  · simp [isEquidistant, diff]; norm_num
  · have e : diff ([0, 1, 2.5] : List ℝ) = [1, 1.5] := by simp [diff]; norm_num
    unfold isEquidistant
    rw [e]
    simp only [List.all_cons, List.all_nil, npRound_eq_iff, h1, h2]
    norm_num

theorem hh2 : hh (2 * 2 - 2) = π := by unfold hh; norm_num
theorem hh4 : hh (2 * 3 - 2) = π / 2 := by unfold hh; norm_num; ring

/-- `/repo/dec/chebyshev.py:125-127`, as the action of the printed matrix. -/
theorem H0_two (a b : ℝ) : Chebyshev.H0 [a, b] = [0.75 * a + 0.25 * b, 0.25 * a + 0.75 * b] := by
  have hp : IsCos (2 - 1) fun θ => (a + b) / 2 + (a - b) / 2 * cos θ := ⟨fun k => if k = 0 then (a + b) / 2 else (a - b) / 2, fun θ => by simp [Finset.sum_range_succ]⟩
  have h := Chebyshev.H0_exact (n := 2) le_rfl hp
  rw [hh2] at h
  have key : ∀ s t : ℝ, ∫ ξ in s..t, ((a + b) / 2 + (a - b) / 2 * cos ξ) * sin ξ
      = (-(a + b) / 2 * cos t + (a - b) / 4 * sin t ^ 2) - (-(a + b) / 2 * cos s + (a - b) / 4 * sin s ^ 2) := fun s t => by
    refine intervalIntegral.integral_eq_sub_of_hasDerivAt (f := fun ξ => -(a + b) / 2 * cos ξ + (a - b) / 4 * sin ξ ^ 2) (fun ξ _ => ?_) ?_
    · have := ((hasDerivAt_cos ξ).const_mul (-(a + b) / 2)).add (((hasDerivAt_sin ξ).pow 2).const_mul ((a - b) / 4))
      refine this.congr_deriv ?_
      push_cast; ring
    · exact Continuous.intervalIntegrable (by fun_prop) _ _
  simp only [key] at h
  simp [tab, List.range, List.range.loop, Regular.lo, Regular.hi] at h
  rw [show (a + b) / 2 + (a - b) / 2 = a by ring, show (a + b) / 2 + -((a - b) / 2) = b by ring, show (2 : ℝ)⁻¹ * π = π / 2 by ring] at h
  rw [h]
  simp
  constructor <;> ring

/-- `/repo/dec/chebyshev.py:139-141`, as the action of the printed matrix. -/
example (a b : ℝ) : Chebyshev.H1d [a, b] = [1.5 * a + -0.5 * b, -0.5 * a + 1.5 * b] := by
  have h := H0_two (1.5 * a + -0.5 * b) (-0.5 * a + 1.5 * b)
  have e : Chebyshev.H0 [1.5 * a + -0.5 * b, -0.5 * a + 1.5 * b] = [a, b] := by rw [h]; simp; constructor <;> ring
  rw [← e, Chebyshev.H1d_H0 (n := 2) le_rfl _ rfl]

/-- `/repo/dec/chebyshev.py:165-171`, as the action of the printed matrix: the entries printed are `(1 + √2) / 4`, `1 / 2` and `(1 - √2) / 4`. -/
theorem S_three (a b c : ℝ) : Chebyshev.S_cheb [a, b, c]
    = [(1 + √2) / 4 * a + 1 / 2 * b + (1 - √2) / 4 * c, (1 - √2) / 4 * a + 1 / 2 * b + (1 + √2) / 4 * c] := by
  have hp : IsCos (3 - 1) fun θ => (a + 2 * b + c) / 4 + (a - c) / 2 * cos θ + (a - 2 * b + c) / 4 * cos (2 * θ) :=
    ⟨fun k => if k = 0 then (a + 2 * b + c) / 4 else if k = 1 then (a - c) / 2 else (a - 2 * b + c) / 4, fun θ => by simp [Finset.sum_range_succ]⟩
  have h := Chebyshev.S_cheb_exact (n := 3) (by norm_num) hp
  rw [hh4] at h
  simp [tab, List.range, List.range.loop] at h
  rw [show (2 : ℝ) * (π / 2) = π by ring] at h
  simp at h
  rw [show 2 * (π / 2 / 2) = π / 2 by ring, show π / 2 / 2 = π / 4 by ring, show 2 * (π / 4 + π / 2) = π + π / 2 by ring, show π / 4 + π / 2 = π - π / 4 by ring,
    cos_pi_sub, cos_add] at h
  simp at h
  rw [show (a + 2 * b + c) / 4 + (a - c) / 2 + (a - 2 * b + c) / 4 = a by ring, show (a + 2 * b + c) / 4 + -((a - 2 * b + c) / 4) = b by ring,
    show (a + 2 * b + c) / 4 + -((a - c) / 2) + (a - 2 * b + c) / 4 = c by ring] at h
  rw [h, show (a + 2 * b + c) / 4 + (a - c) / 2 * (√2 / 2) = (1 + √2) / 4 * a + 1 / 2 * b + (1 - √2) / 4 * c by ring,
    show (a + 2 * b + c) / 4 + -((a - c) / 2 * (√2 / 2)) = (1 - √2) / 4 * a + 1 / 2 * b + (1 + √2) / 4 * c by ring]

/-- `/repo/dec/chebyshev.py:165-168`. -/
example : Chebyshev.S_cheb [-1, 0, 1] = [-(√2 / 2), √2 / 2] ∧ Chebyshev.S_cheb [1, 0, -1] = [√2 / 2, -(√2 / 2)] := by
  rw [S_three, S_three]
  constructor
  · rw [show (1 + √2) / 4 * -1 + 1 / 2 * 0 + (1 - √2) / 4 * 1 = -(√2 / 2) by ring, show (1 - √2) / 4 * -1 + 1 / 2 * 0 + (1 + √2) / 4 * 1 = √2 / 2 by ring]
  · rw [show (1 + √2) / 4 * 1 + 1 / 2 * 0 + (1 - √2) / 4 * -1 = √2 / 2 by ring, show (1 - √2) / 4 * 1 + 1 / 2 * 0 + (1 + √2) / 4 * -1 = -(√2 / 2) by ring]

/-- `/repo/dec/chebyshev.py:185-194`, as the action of the printed matrix: the entries printed are `(1 + √2) / 2`, `(1 - √2) / 2` and `1 / 2`. -/
theorem S_pinv_two (a b : ℝ) : Chebyshev.S_cheb_pinv [a, b]
    = [(1 + √2) / 2 * a + (1 - √2) / 2 * b, 1 / 2 * a + 1 / 2 * b, (1 - √2) / 2 * a + (1 + √2) / 2 * b] := by
  have hp : IsCos (3 - 2) fun θ => (a + b) / 2 + √2 * ((a - b) / 2) * cos θ :=
    ⟨fun k => if k = 0 then (a + b) / 2 else √2 * ((a - b) / 2), fun θ => by simp [Finset.sum_range_succ]⟩
  have h := Chebyshev.S_cheb_pinv_exact (n := 3) (by norm_num) hp
  rw [hh4] at h
  simp [tab, List.range, List.range.loop] at h
  rw [show (2 : ℝ) * (π / 2) = π by ring, show π / 2 / 2 = π / 4 by ring, show π / 4 + π / 2 = π - π / 4 by ring, cos_pi_sub] at h
  simp at h
  have e : √2 * √2 = 2 := by norm_num
  rw [show (a + b) / 2 + √2 * ((a - b) / 2) * (√2 / 2) = (a + b) / 2 + √2 * √2 * ((a - b) / 2) / 2 by ring,
    show (a + b) / 2 + -(√2 * ((a - b) / 2) * (√2 / 2)) = (a + b) / 2 - √2 * √2 * ((a - b) / 2) / 2 by ring, e,
    show (a + b) / 2 + 2 * ((a - b) / 2) / 2 = a by ring, show (a + b) / 2 - 2 * ((a - b) / 2) / 2 = b by ring] at h
  rw [h, show (a + b) / 2 + √2 * ((a - b) / 2) = (1 + √2) / 2 * a + (1 - √2) / 2 * b by ring, show (a + b) / 2 = 1 / 2 * a + 1 / 2 * b by ring,
    show 1 / 2 * a + 1 / 2 * b + -(√2 * ((a - b) / 2)) = (1 - √2) / 2 * a + (1 + √2) / 2 * b by ring]

end Dec.Doctest
