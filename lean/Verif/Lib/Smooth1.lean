import Verif.Props.Symbolic
import Mathlib.Analysis.Calculus.ContDiff.Operations
import Mathlib.Analysis.Calculus.Deriv.Mul
import Mathlib.Analysis.Calculus.IteratedDeriv.Lemmas
import Mathlib.Tactic

/-! # The smooth functions of one real variable as a ring of expressions -/

namespace Dec

/-- The smooth functions on the line. -/
noncomputable def Smooth1 : Subalgebra ℝ (ℝ → ℝ) where
  carrier := {f | ContDiff ℝ (⊤ : ℕ∞) f}
  mul_mem' := fun {a b} ha hb => by
    have ha' : ContDiff ℝ (⊤ : ℕ∞) a := ha
    have hb' : ContDiff ℝ (⊤ : ℕ∞) b := hb
    exact ha'.mul hb'
  one_mem' := show ContDiff ℝ (⊤ : ℕ∞) (fun _ => 1) from contDiff_const
  add_mem' := fun {a b} ha hb => by
    have ha' : ContDiff ℝ (⊤ : ℕ∞) a := ha
    have hb' : ContDiff ℝ (⊤ : ℕ∞) b := hb
    exact ha'.add hb'
  zero_mem' := show ContDiff ℝ (⊤ : ℕ∞) (fun _ => 0) from contDiff_const
  algebraMap_mem' := fun c => show ContDiff ℝ (⊤ : ℕ∞) (fun _ => c) from contDiff_const

namespace Smooth1

theorem diff (f : Smooth1) : Differentiable ℝ f.1 :=
  (show ContDiff ℝ (⊤ : ℕ∞) f.1 from f.2).differentiable (by simp)

/-- The derivative of a smooth function. -/
noncomputable def dx (f : Smooth1) : Smooth1 :=
  ⟨deriv f.1, by
    have h : ContDiff ℝ (⊤ : ℕ∞) f.1 := f.2
    exact (contDiff_infty_iff_deriv.1 h).2⟩

/-- The smooth functions of one variable satisfy the assumptions of the symbolic theorems, with no second coordinate. -/
theorem partials : Props.Partials dx (fun _ => 0) where
  dx_add f g := by
    apply Subtype.ext; funext p
    exact deriv_add (diff f p) (diff g p)
  dy_add f g := (add_zero _).symm
  dx_mul f g := by
    apply Subtype.ext; funext p
    exact deriv_mul (diff f p) (diff g p)
  dy_mul f g := by simp
  comm f := by
    apply Subtype.ext; funext p
    exact deriv_const p 0

end Smooth1

end Dec
