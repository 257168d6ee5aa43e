import Verif.Lib.ChebyshevAccept
import Mathlib.MeasureTheory.Integral.IntervalIntegral.FundThmCalculus
import Mathlib.MeasureTheory.Integral.IntervalIntegral.IntegrationByParts

set_option linter.unusedSimpArgs false
set_option linter.unusedVariables false

/-! Projections on the default Chebyshev grid in the angle variable. -/

namespace Dec.Chebyshev

open Finset Real Dec.Sp Dec.Regular

theorem pt_default (θ : ℝ) : pt (-1) 1 θ = -cos θ := by unfold pt; ring

/-- Substitution `x = -cos θ`. -/
theorem integral_subst {f : ℝ → ℝ} (hf : Continuous f) (a b : ℝ) :
    ∫ x in (-cos a)..(-cos b), f x = ∫ ξ in a..b, f (-cos ξ) * sin ξ := by
  have := intervalIntegral.integral_comp_mul_deriv (a := a) (b := b) (f := fun ξ => -cos ξ) (f' := fun ξ => sin ξ) (g := f)
    (fun x _ => ((hasDerivAt_cos x).neg).congr_deriv (neg_neg _)) continuous_sin.continuousOn hf
  rw [← this]; rfl

section
variable {n : ℕ} (hn : 2 ≤ n)
include hn

theorem P0 (f : ℝ → ℝ) : (make n).P 0 true f = tab n fun j => f (-cos (j * hh (2 * n - 2))) := by
  rw [(isInterval hn (-1) 1).P0]
  refine tab_congr fun j _ => ?_
  beta_reduce
  rw [pt_default, hh_double hn]

theorem P0d (f : ℝ → ℝ) : (make n).P 0 false f = tab (n - 1) fun j => f (-cos (hh (2 * n - 2) / 2 + j * hh (2 * n - 2))) := by
  rw [(isInterval hn (-1) 1).P0d]
  refine tab_congr fun j _ => ?_
  beta_reduce
  rw [pt_default, hh_double hn]
  congr 3; ring

theorem P1 {f : ℝ → ℝ} (hf : Continuous f) :
    (make n).P 1 true f = tab (n - 1) fun j => ∫ ξ in ((j : ℝ) * hh (2 * n - 2))..((j + 1) * hh (2 * n - 2)), f (-cos ξ) * sin ξ := by
  rw [(isInterval hn (-1) 1).P1]
  refine tab_congr fun j _ => ?_
  rw [pt_default, pt_default, integral_subst hf, hh_double hn]
  push_cast; rfl

theorem P1d {f : ℝ → ℝ} (hf : Continuous f) :
    (make n).P 1 false f = tab n fun j => ∫ ξ in (lo (hh (2 * n - 2)) j)..(hi n (hh (2 * n - 2)) j), f (-cos ξ) * sin ξ := by
  rw [(isInterval hn (-1) 1).P1d]
  refine tab_congr fun j _ => ?_
  have e1 : (if j = 0 then (make n).xmin else pt (-1) 1 (((j - 1 : ℕ) + 1 / 2) * (π / ((n - 1 : ℕ) : ℝ)))) = -cos (lo (hh (2 * n - 2)) j) := by
    unfold lo
    split_ifs with h
    · show (-1 : ℝ) = _; simp
    · rw [pt_default, hh_double hn]
  have e2 : (if j < (make n).n - 1 then pt (-1) 1 ((j + 1 / 2) * (π / ((n - 1 : ℕ) : ℝ))) else (make n).xmax) = -cos (hi n (hh (2 * n - 2)) j) := by
    unfold hi
    show (if j < n - 1 then pt (-1) 1 ((j + 1 / 2) * (π / ((n - 1 : ℕ) : ℝ))) else (1 : ℝ)) = _
    split_ifs with h
    · rw [pt_default, hh_double hn]
    · simp
  rw [e1, e2, integral_subst hf]

end

theorem make_H0 (n : ℕ) (a b : ℝ) (f : List ℝ) : (make n a b).H 0 true f = .ok (H0 f) := rfl
theorem make_H1 (n : ℕ) (a b : ℝ) (f : List ℝ) : (make n a b).H 1 true f = H1 f := rfl
theorem make_H0d (n : ℕ) (a b : ℝ) (f : List ℝ) : (make n a b).H 0 false f = .ok (H0d f) := rfl
theorem make_H1d (n : ℕ) (a b : ℝ) (f : List ℝ) : (make n a b).H 1 false f = .ok (H1d f) := rfl

theorem _root_.Dec.IsPoly.continuous {m : ℕ} {f : ℝ → ℝ} (hf : IsPoly m f) : Continuous f := by
  obtain ⟨a, ha⟩ := hf
  rw [show f = fun x => ∑ k ∈ range m, a k * x ^ k from funext ha]
  fun_prop

end Dec.Chebyshev
