import Verif.Lib.Mirror

set_option linter.unusedSimpArgs false
set_option linter.unusedVariables false

/-! Every array operation of the spectral part is linear. -/

namespace Dec.Sp

open Finset Real

theorem lin_toC (n : ℕ) : Lin n n toC :=
  Lin.of_tab (fun x i => (x i : ℂ)) (fun x => toC_tab n x) (fun _ _ _ _ => by push_cast; rfl)
    (fun c x i _ => by simp)

theorem lin_re (n : ℕ) : Lin n n re :=
  Lin.of_tab (fun x i => (x i).re) (fun x => re_tab n x) (fun _ _ _ _ => by simp) (fun c x i _ => by simp)

theorem lin_F (n : ℕ) : Lin n n F := by
  refine Lin.of_tab (fun x k => (n : ℂ) * coef n x k) (fun x => F_tab n x) (fun x y k _ => ?_) (fun c x k _ => ?_)
  · unfold coef; rw [← mul_add, ← add_div, ← Finset.sum_add_distrib]; simp_rw [add_mul]
  · unfold coef
    simp_rw [Complex.real_smul, mul_assoc]
    rw [← Finset.mul_sum]; ring

theorem lin_Finv (n : ℕ) : Lin n n Finv := by
  refine Lin.of_tab (fun x k => synth n x (k * hh n) / n) (fun x => Finv_tab n x) (fun x y k _ => ?_) (fun c x k _ => ?_)
  · rw [synth_add, add_div]
  · have : (fun j => c • x j) = fun j => (c : ℂ) * x j := by funext j; rw [Complex.real_smul]
    rw [this, synth_mul_left, Complex.real_smul, mul_div_assoc]

theorem lin_vmul {n : ℕ} (d : List ℂ) (hd : d.length = n) : Lin n n (fun x => vmul x d) := by
  refine Lin.of_tab (fun x k => x k * d.getD k 0) (fun x => ?_) (fun x y k _ => add_mul _ _ _) (fun c x k _ => ?_)
  · conv_lhs => rw [eq_tab' hd 0]
    rw [vmul_tab]
  · rw [smul_mul_assoc]

theorem lin_vdiv {n : ℕ} (d : List ℂ) (hd : d.length = n) : Lin n n (fun x => vdiv x d) := by
  refine Lin.of_tab (fun x k => x k / d.getD k 0) (fun x => ?_) (fun x y k _ => add_div _ _ _) (fun c x k _ => ?_)
  · conv_lhs => rw [eq_tab' hd 0]
    rw [vdiv_tab]
  · beta_reduce; rw [Complex.real_smul, Complex.real_smul, mul_div_assoc]

theorem lin_vmul_real {n : ℕ} (d : List ℝ) (hd : d.length = n) : Lin n n (fun x => vmul x d) := by
  refine Lin.of_tab (fun x k => x k * d.getD k 0) (fun x => ?_) (fun x y k _ => add_mul _ _ _) (fun c x k _ => ?_)
  · conv_lhs => rw [eq_tab' hd 0]
    rw [vmul_tab]
  · rw [smul_mul_assoc]

theorem lin_vdiv_real {n : ℕ} (d : List ℝ) (hd : d.length = n) : Lin n n (fun x => vdiv x d) := by
  refine Lin.of_tab (fun x k => x k / d.getD k 0) (fun x => ?_) (fun x y k _ => add_div _ _ _) (fun c x k _ => ?_)
  · conv_lhs => rw [eq_tab' hd 0]
    rw [vdiv_tab]
  · beta_reduce; rw [smul_eq_mul, smul_eq_mul, mul_div_assoc]

theorem lin_Hs (n : ℕ) : Lin n n Hs := by
  refine ((lin_re n).comp ((lin_Finv n).comp ((lin_vmul (I_diag n (-(hh n) / 2) (hh n / 2)) (by simp)).comp
    ((lin_F n).comp (lin_toC n))))).congr fun x hx => ?_
  unfold Hs; subst hx; rfl

theorem lin_Hinv (n : ℕ) : Lin n n Hinv := by
  refine ((lin_re n).comp ((lin_Finv n).comp ((lin_vdiv (I_diag n (-(hh n) / 2) (hh n / 2)) (by simp)).comp
    ((lin_F n).comp (lin_toC n))))).congr fun x hx => ?_
  unfold Hinv; subst hx; rfl

theorem lin_S (n : ℕ) : Lin n n S := by
  refine ((lin_re n).comp ((lin_Finv n).comp ((lin_vmul (S_diag n (hh n / 2)) (by simp)).comp
    ((lin_F n).comp (lin_toC n))))).congr fun x hx => ?_
  unfold S; subst hx; rfl

theorem lin_Sinv (n : ℕ) : Lin n n Sinv := by
  refine ((lin_re n).comp ((lin_Finv n).comp ((lin_vmul (S_diag n (-hh n / 2)) (by simp)).comp
    ((lin_F n).comp (lin_toC n))))).congr fun x hx => ?_
  unfold Sinv; subst hx; rfl

theorem lin_mirror0 {n : ℕ} (hn : 2 ≤ n) (s : ℝ) : Lin n (2 * n - 2) (fun x : List ℝ => mirror0 x s) := by
  refine Lin.of_tab _ (fun x => mirror0_tab hn x s) (fun x y k _ => ?_) (fun c x k _ => ?_)
  · beta_reduce; split_ifs <;> ring
  · beta_reduce; simp only [smul_eq_mul]; split_ifs <;> ring

theorem lin_mirror1 (n : ℕ) (s : ℝ) : Lin n (2 * n) (fun x : List ℝ => mirror1 x s) := by
  refine Lin.of_tab _ (fun x => mirror1_tab n x s) (fun x y k _ => ?_) (fun c x k _ => ?_)
  · beta_reduce; split_ifs <;> ring
  · beta_reduce; simp only [smul_eq_mul]; split_ifs <;> ring

section
variable {V : Type*} [AddCommGroup V] [Module ℝ V]
theorem lin_unmirror0 {n : ℕ} (hn : 2 ≤ n) : Lin (2 * n - 2) n (fun x : List V => unmirror0 x) :=
  Lin.of_tab _ (fun x => unmirror0_tab hn x) (fun _ _ _ _ => rfl) (fun _ _ _ _ => rfl)
theorem lin_unmirror1 (m : ℕ) : Lin (2 * m) m (fun x : List V => unmirror1 x) :=
  Lin.of_tab _ (fun x => unmirror1_tab m x) (fun _ _ _ _ => rfl) (fun _ _ _ _ => rfl)
end

end Dec.Sp
