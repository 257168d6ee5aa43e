import Verif.Props.Flows

set_option linter.unusedSimpArgs false
set_option linter.unusedVariables false

/-! # C119: the solutions that the documentation prints for the example flows -/

namespace Dec.Props

open Dec.Sym Smooth

/-! ## Specification: what `/repo/doc/sample_advection.rst:46-124` prints -/

/-- The vorticity, as printed. -/
noncomputable def docVorticity : List (ℝ → ℝ → ℝ) :=
  [fun x y => 2 * Real.cos x * Real.cos y + Real.cos x + Real.cos y,
   fun x y => Real.cos (x / 2) * Real.cos (y / 2),
   fun x y => Real.cos x + Real.cos y,
   fun x y => Real.cos x + 2 * Real.cos (2 * y),
   fun _ _ => 0]

/-- The pressure, as printed. -/
noncomputable def docPressure : List (ℝ → ℝ → ℝ) :=
  [fun x y => 1 / 20 * (Real.cos (2 * x) * (4 * Real.cos y + 5) + 4 * Real.cos x * (5 * Real.cos y + Real.cos (2 * y) + 5) + 5 * (4 * Real.cos y + Real.cos (2 * y))),
   fun x y => -(1 / 4) * Real.cos x - 1 / 4 * Real.cos y,
   fun x y => Real.cos x * Real.cos y,
   fun x y => 4 / 5 * Real.cos x * Real.cos (2 * y),
   fun _ _ => 0]

/-- The time derivative of the velocity, as printed. -/
noncomputable def docAcceleration : List ((ℝ → ℝ → ℝ) × (ℝ → ℝ → ℝ)) :=
  [(fun x y => 1 / 5 * Real.sin x * (Real.cos x * Real.cos y - Real.cos (2 * y)), fun x y => -(1 / 5) * Real.sin y * (Real.cos (2 * x) - Real.cos x * Real.cos y)),
   (fun _ _ => 0, fun _ _ => 0),
   (fun _ _ => 0, fun _ _ => 0),
   (fun x y => 6 / 5 * Real.sin x * Real.cos (2 * y), fun x y => 1 / 5 * (-3) * Real.cos x * Real.sin (2 * y)),
   (fun _ _ => 0, fun _ _ => 0)]

/-- The velocity, as printed. -/
noncomputable def docVelocity : List ((ℝ → ℝ → ℝ) × (ℝ → ℝ → ℝ)) :=
  [(fun x y => -2 * Real.cos (x / 2) ^ 2 * Real.sin y, fun x y => 2 * Real.sin x * Real.cos (y / 2) ^ 2),
   (fun x y => -Real.sin (y / 2) * Real.cos (x / 2), fun x y => Real.sin (x / 2) * Real.cos (y / 2)),
   (fun x y => -Real.sin y, fun x y => Real.sin x),
   (fun x y => -Real.sin (2 * y), fun x y => Real.sin x),
   (fun _ _ => 1, fun _ _ => 0)]

/-- Periodic with the period `2π` in both directions. -/
def DoublyPeriodic (f : ℝ → ℝ → ℝ) : Prop := ∀ x y, f (x + 2 * Real.pi) y = f x y ∧ f x (y + 2 * Real.pi) = f x y

/-! ## The theorems -/

/-- **C119**: the printed velocities are those of the table `V`. -/
theorem C119_velocity (i : ℕ) (hi : i < 5) : ∃ Vi Di, V[i]? = some Vi ∧ docVelocity[i]? = some Di ∧ ∀ x y, Vi.1.1 (x, y) = Di.1 x y ∧ Vi.2.1 (x, y) = Di.2 x y := by
  interval_cases i
  all_goals refine ⟨_, _, rfl, rfl, fun x y => ?_⟩
  all_goals simp [rat_smul_real, Smooth.sin, Smooth.cos, X, Y, coe_two]
  · rw [show x / 2 = 2⁻¹ * x by ring, show y / 2 = 2⁻¹ * y by ring]
    exact ⟨by ring, Or.inl rfl⟩
  · rw [show x / 2 = 2⁻¹ * x by ring, show y / 2 = 2⁻¹ * y by ring]
    exact ⟨by ring, rfl⟩

/-- **C119**: the printed vorticities are what `vort` computes. -/
theorem C119_vorticity (i : ℕ) (hi : i < 5) : ∃ Vi ω D, V[i]? = some Vi ∧ vort dx dy Vi.1 Vi.2 = .ok ω ∧ docVorticity[i]? = some D ∧ ∀ x y, ω.1 (x, y) = D x y := by
  interval_cases i
  all_goals refine ⟨_, _, _, rfl, (C35_grad_div_vort dx dy partials 0 _ _).2.2.1, rfl, fun x y => ?_⟩
  all_goals simp only [dx, dy, pow_two, dir_add, dir_mul, dir_sin, dir_cos, dir_neg, dir_sub, dir_rsmul, dir_X, dir_Y, dir_two, dir_four, dir_five, dir_one, dir_zero, map_one, map_zero,
    mul_zero, zero_mul, add_zero, zero_add, mul_one, one_mul, neg_zero, smul_zero, sub_zero, zero_sub, neg_neg]
  all_goals try simp only [rat_smul_real]
  all_goals simp [Smooth.sin, Smooth.cos, X, Y, coe_two, coe_four, coe_five]
  · have cx : Real.cos x = 2 * Real.cos (2⁻¹ * x) ^ 2 - 1 := by rw [← Real.cos_two_mul]; ring_nf
    have cy : Real.cos y = 2 * Real.cos (2⁻¹ * y) ^ 2 - 1 := by rw [← Real.cos_two_mul]; ring_nf
    rw [cx, cy]; ring
  · rw [show x / 2 = 2⁻¹ * x by ring, show y / 2 = 2⁻¹ * y by ring]
    ring
  all_goals ring

/-- **C119**: the printed time derivatives are `-adv(V) - grad(p)`, with the pressures of the table `p`. -/
theorem C119_acceleration (i : ℕ) (hi : i < 5) : ∃ Vi pi a₀ a₁ g₀ g₁ D, V[i]? = some Vi ∧ p[i]? = some pi ∧ adv dx dy Vi.1 Vi.2 = .ok [a₀, a₁] ∧ grad dx dy pi = .ok [g₀, g₁] ∧
    docAcceleration[i]? = some D ∧ ∀ x y, (-a₀ - g₀).1 (x, y) = D.1 x y ∧ (-a₁ - g₁).1 (x, y) = D.2 x y := by
  interval_cases i
  all_goals refine ⟨_, _, _, _, _, _, _, rfl, rfl, C35_adv dx dy partials _ _, (C35_grad_div_vort dx dy partials _ 0 0).1, rfl, fun x y => ?_⟩
  all_goals simp only [dx, dy, pow_two, dir_add, dir_mul, dir_sin, dir_cos, dir_neg, dir_sub, dir_rsmul, dir_X, dir_Y, dir_two, dir_four, dir_five, dir_one, dir_zero, map_one, map_zero,
    mul_zero, zero_mul, add_zero, zero_add, mul_one, one_mul, neg_zero, smul_zero, sub_zero, zero_sub, neg_neg]
  all_goals try simp only [rat_smul_real]
  all_goals simp [Smooth.sin, Smooth.cos, X, Y, coe_two, coe_four, coe_five]
  all_goals have cx : Real.cos x = 2 * Real.cos (2⁻¹ * x) ^ 2 - 1 := by rw [← Real.cos_two_mul]; ring_nf
  all_goals have cy : Real.cos y = 2 * Real.cos (2⁻¹ * y) ^ 2 - 1 := by rw [← Real.cos_two_mul]; ring_nf
  all_goals have sx : Real.sin x = 2 * Real.sin (2⁻¹ * x) * Real.cos (2⁻¹ * x) := by rw [← Real.sin_two_mul]; ring_nf
  all_goals have sy : Real.sin y = 2 * Real.sin (2⁻¹ * y) * Real.cos (2⁻¹ * y) := by rw [← Real.sin_two_mul]; ring_nf
  all_goals have px := Real.sin_sq_add_cos_sq (2⁻¹ * x)
  all_goals have py := Real.sin_sq_add_cos_sq (2⁻¹ * y)
  all_goals have c2x := Real.cos_two_mul x
  all_goals have c2y := Real.cos_two_mul y
  all_goals have s2x := Real.sin_two_mul x
  all_goals have s2y := Real.sin_two_mul y
  all_goals generalize Real.cos (2 * x) = A at *
  all_goals generalize Real.cos (2 * y) = B at *
  all_goals generalize Real.sin (2 * x) = E' at *
  all_goals generalize Real.sin (2 * y) = E at *
  all_goals generalize Real.cos (2⁻¹ * x) = a at *
  all_goals generalize Real.cos (2⁻¹ * y) = b at *
  all_goals generalize Real.sin (2⁻¹ * x) = c at *
  all_goals generalize Real.sin (2⁻¹ * y) = d at *
  all_goals rw [cx] at c2x
  all_goals rw [cy] at c2y
  all_goals rw [sx, cx] at s2x
  all_goals rw [sy, cy] at s2y
  all_goals try simp only [cx, cy, sx, sy, c2x, c2y, s2y, s2x]
  all_goals have hc : c ^ 2 = 1 - a ^ 2 := by linarith
  all_goals have hd : d ^ 2 = 1 - b ^ 2 := by linarith
  all_goals try constructor
  all_goals grind

/-- **C119**: the printed pressures are those of the table `p` for the flows 1 and 4, and their negatives for the flows 0, 2 and 3. -/
theorem C119_pressure (i : ℕ) (hi : i < 5) : ∃ pi D, p[i]? = some pi ∧ docPressure[i]? = some D ∧ ∀ x y, D x y = if i = 1 ∨ i = 4 then pi.1 (x, y) else -pi.1 (x, y) := by
  interval_cases i
  all_goals refine ⟨_, _, rfl, rfl, fun x y => ?_⟩
  all_goals try simp only [rat_smul_real]
  all_goals simp [Smooth.sin, Smooth.cos, X, Y, coe_two, coe_four, coe_five]
  all_goals ring

theorem dx_neg' (f : Smooth) : dx (-f) = -dx f := dir_neg _ f
theorem dy_neg' (f : Smooth) : dy (-f) = -dy f := dir_neg _ f

/-- **C119** (defect): the printed pressures of the flows 0, 2 and 3 do not solve the pressure equation of the same page. -/
theorem C119_printed_pressure_wrong (i : ℕ) (hi : i = 0 ∨ i = 2 ∨ i = 3) (Vi : Smooth × Smooth) (D : ℝ → ℝ → ℝ) (hV : V[i]? = some Vi) (hD : docPressure[i]? = some D)
    (q : Smooth) (hq : ∀ x y, q.1 (x, y) = D x y) : Sym.residual Vi q ≠ .ok 0 := by
  have hi5 : i < 5 := by omega
  obtain ⟨Vi', pi, h1, h2, -, h3⟩ := C65_flows i hi5
  obtain rfl := Option.some.inj (hV.symm.trans h1)
  obtain ⟨pi', D', g1, g2, g3⟩ := C119_pressure i hi5
  obtain rfl := Option.some.inj (h2.symm.trans g1)
  obtain rfl := Option.some.inj (hD.symm.trans g2)
  have hneg : q = -pi := by
    apply Subtype.ext; funext ⟨x, y⟩
    rw [hq, g3, if_neg (by omega)]; rfl
  intro h
  obtain ⟨u, v⟩ := Vi
  rw [residual_eq] at h h3
  have h := Except.ok.inj h
  have h3 := Except.ok.inj h3
  subst hneg
  rw [dx_neg', dx_neg', dy_neg', dy_neg'] at h
  have hz : (2 : Smooth) * (dx (dx pi) + dy (dy pi)) = 0 := by linear_combination h3 - h
  have hz := congrArg (fun f : Smooth => f.1 (0, 0)) hz
  revert hz
  rcases hi with rfl | rfl | rfl
  all_goals obtain rfl := Option.some.inj h2
  all_goals simp only [dx, dy, dir_add, dir_mul, dir_sin, dir_cos, dir_neg, dir_sub, dir_rsmul, dir_X, dir_Y, dir_two, dir_four, dir_five, dir_one, dir_zero, map_one, map_zero,
    mul_zero, zero_mul, add_zero, zero_add, mul_one, one_mul, neg_zero, smul_zero, sub_zero, zero_sub, neg_neg]
  all_goals try simp only [rat_smul_real]
  all_goals simp [Smooth.sin, Smooth.cos, X, Y, coe_two, coe_four, coe_five]
  all_goals norm_num

/-- **C119**: the flows 0, 2, 3 and 4 are flows on the square `[-π, π] × [-π, π]` with opposite sides identified. -/
theorem C119_periodic (i : ℕ) (hi : i < 5) (hi' : i ≠ 1) : ∃ Di, docVelocity[i]? = some Di ∧ DoublyPeriodic Di.1 ∧ DoublyPeriodic Di.2 := by
  have hc : ∀ x : ℝ, Real.cos ((x + 2 * Real.pi) / 2) ^ 2 = Real.cos (x / 2) ^ 2 := fun x => by
    rw [show (x + 2 * Real.pi) / 2 = x / 2 + Real.pi by ring, Real.cos_add_pi, neg_sq]
  have h2 : ∀ x : ℝ, Real.sin (2 * (x + 2 * Real.pi)) = Real.sin (2 * x) := fun x => by
    rw [Real.sin_two_mul, Real.sin_two_mul, Real.sin_add_two_pi, Real.cos_add_two_pi]
  interval_cases i
  · refine ⟨_, rfl, fun x y => ⟨?_, ?_⟩, fun x y => ⟨?_, ?_⟩⟩ <;> simp [hc, Real.sin_add_two_pi]
  · exact absurd rfl hi'
  · refine ⟨_, rfl, fun x y => ⟨?_, ?_⟩, fun x y => ⟨?_, ?_⟩⟩ <;> simp [Real.sin_add_two_pi]
  · refine ⟨_, rfl, fun x y => ⟨?_, ?_⟩, fun x y => ⟨?_, ?_⟩⟩ <;> simp [h2, Real.sin_add_two_pi]
  · refine ⟨_, rfl, fun x y => ⟨?_, ?_⟩, fun x y => ⟨?_, ?_⟩⟩ <;> rfl

/-- **C119** (defect): flow 1 is not: its components take opposite values on opposite sides, so it has period `4π` and not `2π`. -/
theorem C119_not_periodic : ∃ Di : (ℝ → ℝ → ℝ) × (ℝ → ℝ → ℝ), docVelocity[1]? = some Di ∧ (∀ x y, Di.2 (x + 2 * Real.pi) y = -Di.2 x y ∧ Di.1 x (y + 2 * Real.pi) = -Di.1 x y) ∧
    Di.2 (-Real.pi) 0 = -1 ∧ Di.2 Real.pi 0 = 1 ∧ ¬ DoublyPeriodic Di.1 ∧ ¬ DoublyPeriodic Di.2 := by
  have h1 : ∀ x : ℝ, Real.sin ((x + 2 * Real.pi) / 2) = -Real.sin (x / 2) := fun x => by
    rw [show (x + 2 * Real.pi) / 2 = x / 2 + Real.pi by ring, Real.sin_add_pi]
  have h2 : Real.sin (-Real.pi / 2) = -1 := by rw [neg_div, Real.sin_neg, Real.sin_pi_div_two]
  refine ⟨_, rfl, fun x y => ⟨?_, ?_⟩, ?_, ?_, fun h => ?_, fun h => ?_⟩
  · show Real.sin ((x + 2 * Real.pi) / 2) * Real.cos (y / 2) = -(Real.sin (x / 2) * Real.cos (y / 2))
    rw [h1]; ring
  · show -Real.sin ((y + 2 * Real.pi) / 2) * Real.cos (x / 2) = -(-Real.sin (y / 2) * Real.cos (x / 2))
    rw [h1]; ring
  · show Real.sin (-Real.pi / 2) * Real.cos (0 / 2) = -1
    rw [h2]; simp
  · show Real.sin (Real.pi / 2) * Real.cos (0 / 2) = 1
    simp
  · have h3 : -Real.sin ((Real.pi + 2 * Real.pi) / 2) * Real.cos (0 / 2) = -Real.sin (Real.pi / 2) * Real.cos (0 / 2) := (h 0 Real.pi).2
    rw [h1] at h3
    norm_num at h3
  · have h3 : Real.sin ((Real.pi + 2 * Real.pi) / 2) * Real.cos (0 / 2) = Real.sin (Real.pi / 2) * Real.cos (0 / 2) := (h Real.pi 0).1
    rw [h1] at h3
    norm_num at h3

/-! ## The formula with Fourier transforms -/

/-- A wave with the wave numbers `k` and `l`. -/
noncomputable def wave2 (k l : ℤ) (φ : ℝ) : Smooth := Smooth.cos ((k : ℝ) • X + (l : ℝ) • Y + algebraMap ℝ Smooth φ)

theorem wave2_apply (k l : ℤ) (φ x y : ℝ) : (wave2 k l φ).1 (x, y) = Real.cos (k * x + l * y + φ) := rfl

theorem laplacian_wave2 (k l : ℤ) (φ : ℝ) : dx (dx (wave2 k l φ)) + dy (dy (wave2 k l φ)) = (-((k : ℝ) ^ 2 + (l : ℝ) ^ 2)) • wave2 k l φ := by
  unfold wave2
  simp only [dx, dy, dir_cos, dir_sin, dir_neg, dir_mul, dir_add, dir_smul, dir_const, dir_X, dir_Y, dir_one, map_one, map_zero, smul_zero, add_zero, zero_add, mul_zero]
  apply Subtype.ext; funext ⟨x, y⟩
  simp
  ring

theorem dir_sum {ι : Type*} (v : ℝ × ℝ) (S : Finset ι) (f : ι → Smooth) : dir v (∑ i ∈ S, f i) = ∑ i ∈ S, dir v (f i) := by
  classical
  induction S using Finset.induction_on with
  | empty => simp [dir_zero]
  | insert a S ha ih => rw [Finset.sum_insert ha, Finset.sum_insert ha, dir_add, ih]

/-- **C119**: the pressure equation on the torus, in Fourier space.  If `div(adv(v))` is a sum of waves, none of them constant, then division of each by `k² + l²`
(`c = 1`) gives a pressure that solves `Δp = -div(adv(v))`, and division by `-(k² + l²)` (`c = -1`), which the page prescribes
(`/repo/doc/sample_advection.rst:31-32`), gives its negative, with `Δp = +div(adv(v))`. -/
theorem C119_fourier {ι : Type*} (S : Finset ι) (k l : ι → ℤ) (a φ : ι → ℝ) (h : ∀ i ∈ S, k i ≠ 0 ∨ l i ≠ 0) (c : ℝ) :
    (let s := ∑ i ∈ S, a i • wave2 (k i) (l i) (φ i)
     let q := ∑ i ∈ S, (c / ((k i : ℝ) ^ 2 + (l i : ℝ) ^ 2)) • a i • wave2 (k i) (l i) (φ i)
     dx (dx q) + dy (dy q) = (-c) • s) := by
  show dx (dx _) + dy (dy _) = (-c) • ∑ i ∈ S, a i • wave2 (k i) (l i) (φ i)
  unfold dx dy
  rw [dir_sum, dir_sum, dir_sum, dir_sum, ← Finset.sum_add_distrib, Finset.smul_sum]
  refine Finset.sum_congr rfl fun i hi => ?_
  rw [dir_smul, dir_smul, dir_smul, dir_smul, dir_smul, dir_smul, dir_smul, dir_smul, ← smul_add, ← smul_add]
  have := laplacian_wave2 (k i) (l i) (φ i)
  unfold dx dy at this
  rw [this, smul_smul, smul_smul, smul_smul]
  congr 1
  have h0 : ((k i : ℝ) ^ 2 + (l i : ℝ) ^ 2) ≠ 0 := by
    rcases h i hi with h | h
    · have : 0 < (k i : ℝ) ^ 2 := by positivity
      positivity
    · have : 0 < (l i : ℝ) ^ 2 := by positivity
      positivity
  field_simp

/-- **C119**: with such a pressure the time derivative `-adv(v) - grad(p)` of the velocity is divergence-free, for every velocity. -/
theorem C119_divergence_free (u v q : Smooth) (h : dx (dx q) + dy (dy q) = -(dx (u * dx u + v * dy u) + dy (u * dx v + v * dy v))) :
    ∃ a₀ a₁ g₀ g₁, adv dx dy u v = .ok [a₀, a₁] ∧ grad dx dy q = .ok [g₀, g₁] ∧ Sym.div dx dy (-a₀ - g₀) (-a₁ - g₁) = .ok 0 := by
  refine ⟨_, _, _, _, C35_adv dx dy partials u v, (C35_grad_div_vort dx dy partials q u v).1, ?_⟩
  rw [(C35_grad_div_vort dx dy partials q _ _).2.1]
  congr 1
  have e1 : ∀ f g : Smooth, dx (f - g) = dx f - dx g := fun f g => dir_sub _ f g
  have e2 : ∀ f g : Smooth, dy (f - g) = dy f - dy g := fun f g => dir_sub _ f g
  rw [e1, e2, dx_neg', dy_neg']
  linear_combination -h

/-- A concrete case: `div(adv(V[3]))` is `-2 cos(x + 2y) - 2 cos(x - 2y)`; the division by `k² + l² = 5` gives the pressure `p[3]` of the table. -/
example : ∃ Vi pi a₀ a₁, V[3]? = some Vi ∧ p[3]? = some pi ∧ adv dx dy Vi.1 Vi.2 = .ok [a₀, a₁] ∧
    Sym.div dx dy a₀ a₁ = .ok (∑ i : Fin 2, (-2 : ℝ) • wave2 1 (![2, -2] i) 0) ∧
    pi = ∑ i : Fin 2, ((1 : ℝ) / (((1 : ℤ) : ℝ) ^ 2 + ((![2, -2] i : ℤ) : ℝ) ^ 2)) • (-2 : ℝ) • wave2 1 (![2, -2] i) 0 := by
  refine ⟨_, _, _, _, rfl, rfl, C35_adv dx dy partials _ _, ?_, ?_⟩
  · rw [(C35_grad_div_vort dx dy partials 0 _ _).2.1]
    congr 1
    simp only [dx, dy, pow_two, dir_add, dir_mul, dir_sin, dir_cos, dir_neg, dir_sub, dir_rsmul, dir_X, dir_Y, dir_two, dir_four, dir_five, dir_one, dir_zero, map_one, map_zero,
      mul_zero, zero_mul, add_zero, zero_add, mul_one, one_mul, neg_zero, smul_zero, sub_zero, zero_sub, neg_neg]
    apply Subtype.ext; funext ⟨x, y⟩
    simp [Smooth.sin, Smooth.cos, X, Y, coe_two, Fin.sum_univ_two, wave2]
    rw [Real.cos_add, Real.cos_add, Real.cos_neg, Real.sin_neg]
    ring
  · apply Subtype.ext; funext ⟨x, y⟩
    simp only [rat_smul_real]
    simp [Smooth.sin, Smooth.cos, X, Y, coe_two, coe_four, Fin.sum_univ_two, wave2]
    rw [Real.cos_add, Real.cos_add, Real.cos_neg, Real.sin_neg]
    ring

end Dec.Props
