import Verif.Model.Flows

set_option linter.unusedSimpArgs false

/-! # The example flows: C65; smooth functions as sympy expressions -/

namespace Dec.Props

open Sym Smooth

theorem rat_smul_real (c : ℚ) (f : Smooth) : c • f = (c : ℝ) • f := by
  rw [Rat.cast_smul_eq_qsmul]

theorem two_eq : (2 : Smooth) = algebraMap ℝ Smooth 2 := by rw [map_ofNat]
theorem dir_two (v : ℝ × ℝ) : dir v 2 = 0 := by rw [two_eq, dir_const]
theorem dir_four (v : ℝ × ℝ) : dir v 4 = 0 := by rw [show (4 : Smooth) = algebraMap ℝ Smooth 4 by rw [map_ofNat], dir_const]
theorem dir_five (v : ℝ × ℝ) : dir v 5 = 0 := by rw [show (5 : Smooth) = algebraMap ℝ Smooth 5 by rw [map_ofNat], dir_const]
theorem dir_one (v : ℝ × ℝ) : dir v 1 = 0 := by rw [show (1 : Smooth) = algebraMap ℝ Smooth 1 by rw [map_one], dir_const]
theorem dir_zero (v : ℝ × ℝ) : dir v 0 = 0 := by
  have := dir_const v 0
  rwa [map_zero] at this
theorem dir_neg (v : ℝ × ℝ) (f : Smooth) : dir v (-f) = -dir v f := by
  have := dir_add v f (-f); rw [add_neg_cancel, dir_zero] at this; exact (neg_eq_of_add_eq_zero_right this.symm).symm
theorem dir_sub (v : ℝ × ℝ) (f g : Smooth) : dir v (f - g) = dir v f - dir v g := by rw [sub_eq_add_neg, dir_add, dir_neg, sub_eq_add_neg]
theorem dir_rsmul (v : ℝ × ℝ) (c : ℚ) (f : Smooth) : dir v (c • f) = c • dir v f := by rw [rat_smul_real, dir_smul, rat_smul_real]

theorem coe_two (q : ℝ × ℝ) : (2 : Smooth).1 q = 2 := rfl
theorem coe_four (q : ℝ × ℝ) : (4 : Smooth).1 q = 4 := rfl
theorem coe_five (q : ℝ × ℝ) : (5 : Smooth).1 q = 5 := rfl

/-- What `residual` returns. -/
theorem residual_eq (u v q : Smooth) :
    Sym.residual (u, v) q = .ok (dx (u * dx u + v * dy u) + dy (u * dx v + v * dy v) + (dx (dx q) + dy (dy q))) := by
  unfold Sym.residual
  rw [C35_adv dx dy partials u v, (C35_grad_div_vort dx dy partials q u v).1]
  simp only [Bind.bind, Except.bind, List.getD_cons_zero, List.getD_cons_succ]
  rw [(C35_grad_div_vort dx dy partials q _ _).2.1, (C35_grad_div_vort dx dy partials q _ _).2.1]
  rfl

/-- C65: every velocity field of the table is divergence-free, and its pressure solves the pressure equation
`div(adv(V)) + div(grad(p)) = 0`. -/
theorem C65_flows (i : ℕ) (hi : i < 5) :
    ∃ Vi pi, V[i]? = some Vi ∧ p[i]? = some pi ∧ Sym.div dx dy Vi.1 Vi.2 = .ok 0 ∧ Sym.residual Vi pi = .ok 0 := by
  have key : ∀ u v q : Smooth, V[i]? = some (u, v) → p[i]? = some q → dx u + dy v = 0 →
      dx (u * dx u + v * dy u) + dy (u * dx v + v * dy v) + (dx (dx q) + dy (dy q)) = 0 →
      ∃ Vi pi, V[i]? = some Vi ∧ p[i]? = some pi ∧ Sym.div dx dy Vi.1 Vi.2 = .ok 0 ∧ Sym.residual Vi pi = .ok 0 := by
    intro u v q h1 h2 h3 h4
    refine ⟨_, _, h1, h2, ?_, ?_⟩
    · rw [(C35_grad_div_vort dx dy partials q u v).2.1, h3]
    · rw [residual_eq, h4]
  interval_cases i
  all_goals refine key _ _ _ rfl rfl ?_ ?_
  all_goals simp only [dx, dy, pow_two, dir_add, dir_mul, dir_sin, dir_cos, dir_neg, dir_sub, dir_rsmul, dir_X, dir_Y, dir_two, dir_four, dir_five, dir_one, dir_zero, map_one, map_zero,
    mul_zero, zero_mul, add_zero, zero_add, mul_one, one_mul, neg_zero, smul_zero, sub_zero, zero_sub, neg_neg]
  all_goals try exact add_zero _
  all_goals apply Subtype.ext; funext ⟨x, y⟩
  all_goals try simp only [rat_smul_real]
  all_goals simp [Smooth.sin, Smooth.cos, X, Y, coe_two, coe_four, coe_five]
  all_goals have cx : Real.cos x = 2 * Real.cos (2⁻¹ * x) ^ 2 - 1 := by rw [← Real.cos_two_mul]; ring_nf
  all_goals have cy : Real.cos y = 2 * Real.cos (2⁻¹ * y) ^ 2 - 1 := by rw [← Real.cos_two_mul]; ring_nf
  all_goals have sx : Real.sin x = 2 * Real.sin (2⁻¹ * x) * Real.cos (2⁻¹ * x) := by rw [← Real.sin_two_mul]; ring_nf
  all_goals have sy : Real.sin y = 2 * Real.sin (2⁻¹ * y) * Real.cos (2⁻¹ * y) := by rw [← Real.sin_two_mul]; ring_nf
  all_goals have px := Real.sin_sq_add_cos_sq (2⁻¹ * x)
  all_goals have py := Real.sin_sq_add_cos_sq (2⁻¹ * y)
  all_goals have c2x := Real.cos_two_mul x
  all_goals have c2y := Real.cos_two_mul y
  all_goals have s2y := Real.sin_two_mul y
  all_goals generalize Real.cos (2 * x) = A at *
  all_goals generalize Real.cos (2 * y) = B at *
  all_goals generalize Real.sin (2 * y) = E at *
  all_goals generalize Real.cos (2⁻¹ * x) = a at *
  all_goals generalize Real.cos (2⁻¹ * y) = b at *
  all_goals generalize Real.sin (2⁻¹ * x) = c at *
  all_goals generalize Real.sin (2⁻¹ * y) = d at *
  all_goals rw [cx] at c2x
  all_goals rw [cy] at c2y
  all_goals rw [sy, cy] at s2y
  all_goals simp only [cx, cy, sx, sy, c2x, c2y, s2y]
  all_goals have hc : c ^ 2 = 1 - a ^ 2 := by linarith
  all_goals have hd : d ^ 2 = 1 - b ^ 2 := by linarith
  all_goals grind

/-- C65: the flows 1, 2 and 4 are steady: the acceleration `-adv(V) - grad(p)` computed by `plot` vanishes. -/
theorem C65_steady (i : ℕ) (hi : i = 1 ∨ i = 2 ∨ i = 4) :
    ∃ Vi pi a₀ a₁ g₀ g₁, V[i]? = some Vi ∧ p[i]? = some pi ∧ adv dx dy Vi.1 Vi.2 = .ok [a₀, a₁] ∧ grad dx dy pi = .ok [g₀, g₁] ∧
      -a₀ - g₀ = 0 ∧ -a₁ - g₁ = 0 := by
  have key : ∀ u v q : Smooth, V[i]? = some (u, v) → p[i]? = some q →
      u * dx u + v * dy u + dx q = 0 → u * dx v + v * dy v + dy q = 0 →
      ∃ Vi pi a₀ a₁ g₀ g₁, V[i]? = some Vi ∧ p[i]? = some pi ∧ adv dx dy Vi.1 Vi.2 = .ok [a₀, a₁] ∧ grad dx dy pi = .ok [g₀, g₁] ∧
        -a₀ - g₀ = 0 ∧ -a₁ - g₁ = 0 := by
    intro u v q h1 h2 h3 h4
    exact ⟨_, _, _, _, _, _, h1, h2, C35_adv dx dy partials u v, (C35_grad_div_vort dx dy partials q u v).1,
      by linear_combination -h3, by linear_combination -h4⟩
  rcases hi with rfl | rfl | rfl
  all_goals refine key _ _ _ rfl rfl ?_ ?_
  all_goals simp only [dx, dy, pow_two, dir_add, dir_mul, dir_sin, dir_cos, dir_neg, dir_sub, dir_rsmul, dir_X, dir_Y, dir_two, dir_four, dir_five, dir_one, dir_zero, map_one, map_zero,
    mul_zero, zero_mul, add_zero, zero_add, mul_one, one_mul, neg_zero, smul_zero, sub_zero, zero_sub, neg_neg]
  all_goals try exact add_zero _
  all_goals apply Subtype.ext; funext ⟨x, y⟩
  all_goals try simp only [rat_smul_real]
  all_goals simp [Smooth.sin, Smooth.cos, X, Y, coe_two, coe_four, coe_five]
  all_goals have sx : Real.sin x = 2 * Real.sin (2⁻¹ * x) * Real.cos (2⁻¹ * x) := by rw [← Real.sin_two_mul]; ring_nf
  all_goals have sy : Real.sin y = 2 * Real.sin (2⁻¹ * y) * Real.cos (2⁻¹ * y) := by rw [← Real.sin_two_mul]; ring_nf
  all_goals have px := Real.sin_sq_add_cos_sq (2⁻¹ * x)
  all_goals have py := Real.sin_sq_add_cos_sq (2⁻¹ * y)
  all_goals generalize Real.cos (2⁻¹ * x) = a at *
  all_goals generalize Real.cos (2⁻¹ * y) = b at *
  all_goals generalize Real.sin (2⁻¹ * x) = c at *
  all_goals generalize Real.sin (2⁻¹ * y) = d at *
  all_goals try simp only [sx, sy]
  all_goals grind

end Dec.Props
