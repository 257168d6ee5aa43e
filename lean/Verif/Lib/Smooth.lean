import Verif.Props.Symbolic
import Mathlib.Analysis.Calculus.ContDiff.Operations
import Mathlib.Analysis.Calculus.FDeriv.Symmetric
import Mathlib.Analysis.SpecialFunctions.Trigonometric.Deriv
import Mathlib.Tactic

/-! # The smooth functions of two real variables as a ring of expressions

sympy expressions in `x, y` denote smooth functions; `diff` denotes partial differentiation.  The ring `Smooth` with the maps `dx`, `dy` is an
instance of the assumption `Partials` under which the symbolic theorems are proved. -/

namespace Dec

/-- The smooth functions on the plane. -/
noncomputable def Smooth : Subalgebra ℝ (ℝ × ℝ → ℝ) where
  carrier := {f | ContDiff ℝ (⊤ : ℕ∞) f}
  mul_mem' := fun {a b} ha hb => by
    have ha' : ContDiff ℝ (⊤ : ℕ∞) a := ha
    have hb' : ContDiff ℝ (⊤ : ℕ∞) b := hb
    exact ha'.mul hb'
  one_mem' := show ContDiff ℝ (⊤ : ℕ∞) (fun _ => 1) from contDiff_const
  add_mem' := fun {a b} ha hb => by
    have ha' : ContDiff ℝ (⊤ : ℕ∞) a := ha
    have hb' : ContDiff ℝ (⊤ : ℕ∞) b := hb
    exact ha'.add hb'
  zero_mem' := show ContDiff ℝ (⊤ : ℕ∞) (fun _ => 0) from contDiff_const
  algebraMap_mem' := fun c => show ContDiff ℝ (⊤ : ℕ∞) (fun _ => c) from contDiff_const

namespace Smooth

/-- The directional derivative of a smooth function. -/
noncomputable def dir (v : ℝ × ℝ) (f : Smooth) : Smooth :=
  ⟨fun p => fderiv ℝ f.1 p v, by
    have h : ContDiff ℝ (⊤ : ℕ∞) f.1 := f.2
    exact (h.fderiv_right (m := (⊤ : ℕ∞)) (by simp)).clm_apply contDiff_const⟩

/-- The partial derivatives. -/
noncomputable def dx : Smooth → Smooth := dir (1, 0)
noncomputable def dy : Smooth → Smooth := dir (0, 1)

theorem diff (f : Smooth) : Differentiable ℝ f.1 :=
  (show ContDiff ℝ (⊤ : ℕ∞) f.1 from f.2).differentiable (by simp)

theorem dir_apply (v : ℝ × ℝ) (f : Smooth) (p : ℝ × ℝ) : (dir v f).1 p = fderiv ℝ f.1 p v := rfl

theorem dir_add (v : ℝ × ℝ) (f g : Smooth) : dir v (f + g) = dir v f + dir v g := by
  apply Subtype.ext; funext p
  have h : fderiv ℝ (f.1 + g.1) p v = fderiv ℝ f.1 p v + fderiv ℝ g.1 p v := by
    rw [fderiv_add (diff f p) (diff g p)]; rfl
  exact h

theorem dir_mul (v : ℝ × ℝ) (f g : Smooth) : dir v (f * g) = dir v f * g + f * dir v g := by
  apply Subtype.ext; funext p
  have h : fderiv ℝ (f.1 * g.1) p v = fderiv ℝ f.1 p v * g.1 p + f.1 p * fderiv ℝ g.1 p v := by
    rw [fderiv_mul (diff f p) (diff g p)]; simp; ring
  exact h

theorem dir_comm (v w : ℝ × ℝ) (f : Smooth) : dir v (dir w f) = dir w (dir v f) := by
  apply Subtype.ext; funext p
  have hf : ContDiff ℝ (⊤ : ℕ∞) f.1 := f.2
  have h1 : Differentiable ℝ (fderiv ℝ f.1) := (hf.fderiv_right (m := (⊤ : ℕ∞)) (by simp)).differentiable (by simp)
  have e : ∀ a b : ℝ × ℝ, (dir a (dir b f)).1 p = fderiv ℝ (fderiv ℝ f.1) p a b := by
    intro a b
    show fderiv ℝ (fun q => fderiv ℝ f.1 q b) p a = _
    rw [fderiv_clm_apply (h1 p) (differentiableAt_const b)]
    simp
  rw [e, e]
  exact (hf.contDiffAt.isSymmSndFDerivAt (by simp only [minSmoothness_of_isRCLikeNormedField]; exact WithTop.coe_le_coe.2 (le_top : (2 : ℕ∞) ≤ ⊤))).eq v w

/-- The plane's smooth functions satisfy the assumptions of the symbolic theorems. -/
theorem partials : Props.Partials dx dy where
  dx_add := dir_add _
  dy_add := dir_add _
  dx_mul := dir_mul _
  dy_mul := dir_mul _
  comm := fun a => dir_comm _ _ a

/-- The coordinates, and sines and cosines of smooth functions. -/
noncomputable def X : Smooth := ⟨Prod.fst, show ContDiff ℝ (⊤ : ℕ∞) Prod.fst from contDiff_fst⟩
noncomputable def Y : Smooth := ⟨Prod.snd, show ContDiff ℝ (⊤ : ℕ∞) Prod.snd from contDiff_snd⟩
noncomputable def sin (f : Smooth) : Smooth := ⟨fun p => Real.sin (f.1 p), (show ContDiff ℝ (⊤ : ℕ∞) f.1 from f.2).sin⟩
noncomputable def cos (f : Smooth) : Smooth := ⟨fun p => Real.cos (f.1 p), (show ContDiff ℝ (⊤ : ℕ∞) f.1 from f.2).cos⟩

theorem dir_sin (v : ℝ × ℝ) (f : Smooth) : dir v (sin f) = cos f * dir v f := by
  apply Subtype.ext; funext p
  show fderiv ℝ (fun p => Real.sin (f.1 p)) p v = Real.cos (f.1 p) * fderiv ℝ f.1 p v
  rw [fderiv_sin (diff f p)]; rfl

theorem dir_cos (v : ℝ × ℝ) (f : Smooth) : dir v (cos f) = -(sin f * dir v f) := by
  apply Subtype.ext; funext p
  show fderiv ℝ (fun p => Real.cos (f.1 p)) p v = -(Real.sin (f.1 p) * fderiv ℝ f.1 p v)
  rw [fderiv_cos (diff f p)]; simp

theorem dir_X (v : ℝ × ℝ) : dir v X = algebraMap ℝ Smooth v.1 := by
  apply Subtype.ext; funext p
  show fderiv ℝ Prod.fst p v = v.1
  rw [fderiv_fst]; rfl
theorem dir_Y (v : ℝ × ℝ) : dir v Y = algebraMap ℝ Smooth v.2 := by
  apply Subtype.ext; funext p
  show fderiv ℝ Prod.snd p v = v.2
  rw [fderiv_snd]; rfl

theorem dir_const (v : ℝ × ℝ) (c : ℝ) : dir v (algebraMap ℝ Smooth c) = 0 := by
  apply Subtype.ext; funext p
  show fderiv ℝ (fun _ => c) p v = 0
  simp

theorem dir_smul (v : ℝ × ℝ) (c : ℝ) (f : Smooth) : dir v (c • f) = c • dir v f := by
  rw [Algebra.smul_def, dir_mul, dir_const, zero_mul, zero_add, Algebra.smul_def]

end Smooth

end Dec
