import Verif.Props.AccuracyProducts2
import Verif.Props.ReconstructCalculus

set_option linter.unusedSimpArgs false
set_option linter.unusedVariables false

/-! # C123: contraction by means of the wedge product and the Hodge star -/

namespace Dec.Props

open Finset Real G2 Sp

section
variable (k : Kind) (n : ℕ) (hr : Refinable k n) (s t u : Bool) (hfit : k = .chebyshev → ¬ (s = false ∧ t = false))
include hr hfit

/-- **C123**: on every periodic grid and every Chebyshev grid with at most 927 vertices, for all arrays `a` and `b` of 1-forms (for Chebyshev grids not both dual), that represent
`f dx` and `g dx`: the contraction is the projection of the function `f g`, and `W(a, H b)` is the projection of the 1-form `f g dx`. So where the
1-form `f g dx` is one of those that the grid represents, the contraction is `H(W(a, H b))`. -/
theorem C123_contraction (a b : List ℝ) (ha : a.length = (grid₀ k n).N 1 s) (hb : b.length = (grid₀ k n).N 1 t) :
    ∃ w c, ∃ f g : ℝ → ℝ, (grid₀ k n).W = some w ∧ (grid₀ k n).C = some c ∧
      (∀ x ∈ Inside k 1, (grid₀ k n).R 1 s a x = some (f x)) ∧ (∀ x ∈ Inside k 1, (grid₀ k n).R 1 t b x = some (g x)) ∧
      ∃ sb ab, (grid₀ k n).H 1 t b = .ok sb ∧ w 1 s 0 (!t) (!u) a sb = .ok ab ∧ ab = (grid₀ k n).P 1 (!u) (fun x => f x * g x) ∧
        c s 1 t u a b = .ok ((grid₀ k n).P 0 u fun x => f x * g x) ∧
        (Determined k n 1 (!u) (fun x => f x * g x) → ∃ r, (grid₀ k n).H 1 (!u) ab = .ok r ∧ c s 1 t u a b = .ok r) := by
  obtain ⟨f, hf, pf, rf⟩ := C70_reconstruction_determined k n hr.1 1 s a ha
  obtain ⟨g, hg, pg, rg⟩ := C70_reconstruction_determined k n hr.1 1 t b hb
  have st := grid₀_star_determined k n hr.1 hr.2.2
  obtain ⟨M, pt, rx⟩ := refine_det hr
  have hfac := grid₀_factor k n hr.1
  have hg0 : Determined k n 0 (!t) g := by cases k <;> cases t <;> simpa [Determined] using hg
  have h1 := st.exact 1 t g hg
  have w1 := refExact_wedge1 rx hfac 1 0 (by decide) s (!t) (!u) hf hg0 fun _ => det_product hr 1 0 s (!t) (fun h => ⟨by simp, fun h' => hfit h ⟨h'.2.1, by simpa using h'.2.2.2⟩⟩) hf hg0
  have c1 := refExact_contraction1 rx s t u hf hg (det_product hr 1 1 s t (fun _ => by simp) hf hg)
  rw [pg] at h1 c1
  rw [pf] at w1 c1
  refine ⟨_, _, f, g, (grid₀_products hr).1, (grid₀_products hr).2, rf, rg, _, _, h1, w1, rfl, c1, fun h => ⟨_, st.exact 1 (!u) _ h, ?_⟩⟩
  rw [Bool.not_not]
  exact c1
end

/-! ## Two dimensions -/

theorem star_form {k k' : Kind} {n n' : ℕ} (hr : Refinable k n) (hr' : Refinable k' n') {d : Fin 3} {t : Bool} {σ : List (ℝ → ℝ → ℝ)}
    (h : TensorForm (fun e => Determined k n e t) (fun e => Determined k' n' e t) d σ) :
    ∃ a b, (product (grid₀ k n) (grid₀ k' n')).P d t σ = .ok a ∧ (product (grid₀ k n) (grid₀ k' n')).H d t a = .ok b ∧
      (product (grid₀ k n) (grid₀ k' n')).P (2 - d) (!t) (starComponents σ) = .ok b := by
  have hx := grid₀_factor k n hr.1
  have hy := grid₀_factor k' n' hr'.1
  have sx := grid₀_star_determined k n hr.1 hr.2.2
  have sy := grid₀_star_determined k' n' hr'.1 hr'.2.2
  rcases TensorForm.cases h with ⟨rfl, f, rfl, hf⟩ | ⟨rfl, f, g, rfl, hf, hg⟩ | ⟨rfl, f, rfl, hf⟩
  · exact star0_exact hx hy sx sy t hf
  · exact star1_exact hx hy sx sy t hf hg
  · exact star2_exact hx hy sx sy t hf

theorem determined_flip {k : Kind} {n : ℕ} {e : Fin 2} {t : Bool} {f : ℝ → ℝ} (hf : Determined k n e t f) : Determined k n (1 - e) (!t) f := by
  obtain rfl | rfl : e = 0 ∨ e = 1 := by omega
  all_goals cases k <;> cases t <;> simpa [Determined] using hf

theorem tensor_flip {k k' : Kind} {n n' : ℕ} (e e' o o' : Fin 2) (ho : 1 - e = o) (ho' : 1 - e' = o') {t : Bool} {f : ℝ → ℝ → ℝ} (h : Tensor (Determined k n e t) (Determined k' n' e' t) f) :
    Tensor (Determined k n o (!t)) (Determined k' n' o' (!t)) f := by
  subst ho ho'
  obtain ⟨m, a, b, hab, he⟩ := h
  exact ⟨m, a, b, fun j hj => ⟨determined_flip (hab j hj).1, determined_flip (hab j hj).2⟩, he⟩

theorem starComponents_flip {k k' : Kind} {n n' : ℕ} (hn : validSize k n) {d : Fin 3} {t : Bool} {σ : List (ℝ → ℝ → ℝ)}
    (h : TensorForm (fun e => Determined k n e t) (fun e => Determined k' n' e t) d σ) :
    TensorForm (fun e => Determined k n e (!t)) (fun e => Determined k' n' e (!t)) (2 - d) (starComponents σ) := by
  rcases TensorForm.cases h with ⟨rfl, f, rfl, hf⟩ | ⟨rfl, f, g, rfl, hf, hg⟩ | ⟨rfl, f, rfl, hf⟩
  · show Tensor _ _ _
    exact tensor_flip 0 0 1 1 (by decide) (by decide) hf
  · exact ⟨(tensor_flip 0 1 1 0 (by decide) (by decide) hg).neg ((spans' k n hn).space 1 (!t)), tensor_flip 1 0 0 1 (by decide) (by decide) hf⟩
  · show Tensor _ _ _
    exact tensor_flip 1 1 0 0 (by decide) (by decide) hf

theorem starComponents_wedge {V W V' W' : Fin 2 → (ℝ → ℝ) → Prop} {d : Fin 3} (hd : d ≠ 0) {α β : List (ℝ → ℝ → ℝ)} (hα : TensorForm V W 1 α) (hβ : TensorForm V' W' d β) :
    starComponents (wedgeForm 1 (2 - d).val α (starComponents β)) = contractForm d α β := by
  rcases TensorForm.cases hα with ⟨h, _⟩ | ⟨-, X, Y, rfl, -, -⟩ | ⟨h, _⟩
  · cases h
  rotate_left
  · cases h
  rcases TensorForm.cases hβ with ⟨rfl, f, rfl, -⟩ | ⟨rfl, f, g, rfl, -, -⟩ | ⟨rfl, f, rfl, -⟩
  · exact absurd rfl hd
  · show [fun x y => X x y * f x y - Y x y * -g x y] = [fun x y => X x y * f x y + Y x y * g x y]
    congr 1; funext x y; ring
  · rfl

/-- **C123**, two dimensions: on every product of periodic grids, for all arrays `a` of 1-forms and `b` of 1- or 2-forms on any sides, that represent the forms `α` and `β`: the
contraction is the projection of the contraction of `β` by the vector field with the components of `α`, and `W(a, H b)` is the projection of `α ∧ ⋆β`. Where the grid represents
the contracted form, the contraction is `H(W(a, H b))`. -/
theorem C123_contraction_2d (n n' : ℕ) (hn : 1 ≤ n) (hn' : 1 ≤ n') (s t u : Bool) (d : Fin 3) (hd : d ≠ 0) (a b : List ℝ)
    (ha : (product (grid₀ .periodic n) (grid₀ .periodic n')).N 1 s = .ok a.length) (hb : (product (grid₀ .periodic n) (grid₀ .periodic n')).N d t = .ok b.length) :
    ∃ α β r r', (product (grid₀ .periodic n) (grid₀ .periodic n')).R 1 s a = .ok r ∧ (product (grid₀ .periodic n) (grid₀ .periodic n')).R d t b = .ok r' ∧
      (∀ x ∈ Set.Ico 0 (2 * π), ∀ y ∈ Set.Ico 0 (2 * π), r x y = α.map (fun f => some (f x y)) ∧ r' x y = β.map fun f => some (f x y)) ∧
      ∃ sb ab c, (product (grid₀ .periodic n) (grid₀ .periodic n')).H d t b = .ok sb ∧
        (product (grid₀ .periodic n) (grid₀ .periodic n')).wedge 1 s (2 - d) (!t) (!u) a sb = .ok ab ∧
        (product (grid₀ .periodic n) (grid₀ .periodic n')).P (3 - d) (!u) (wedgeForm 1 (2 - d).val α (starComponents β)) = .ok ab ∧
        (product (grid₀ .periodic n) (grid₀ .periodic n')).contraction s d t u a b = .ok c ∧
        (product (grid₀ .periodic n) (grid₀ .periodic n')).P (d - 1) u (contractForm d α β) = .ok c ∧
        (TensorForm (fun e => Determined .periodic n e (!u)) (fun e => Determined .periodic n' e (!u)) (3 - d) (wedgeForm 1 (2 - d).val α (starComponents β)) →
          (product (grid₀ .periodic n) (grid₀ .periodic n')).H (3 - d) (!u) ab = .ok c) := by
  have h : Refinable .periodic n := ⟨hn, by simp, by simp⟩
  have h' : Refinable .periodic n' := ⟨hn', by simp, by simp⟩
  have hx := grid₀_factor .periodic n hn
  have hy := grid₀_factor .periodic n' hn'
  obtain ⟨α, r, hα, pα, rα, eα⟩ := C70_reconstruction_determined_2d .periodic .periodic n n' hn hn' 1 s a ha
  obtain ⟨β, r', hβ, pβ, rβ, eβ⟩ := C70_reconstruction_determined_2d .periodic .periodic n n' hn hn' d t b hb
  obtain ⟨M, p, rx⟩ := refine_det h
  obtain ⟨M', p', ry⟩ := refine_det h'
  obtain ⟨b', sb, h1, h2, h3⟩ := star_form h h' hβ
  obtain rfl : b' = b := Except.ok.inj (h1.symm.trans pβ)
  have hs := starComponents_flip (k := .periodic) (k' := .periodic) (n' := n') h.1 hβ
  have hd2 : (1 : Fin 3).val + (2 - d).val ≤ 2 := (by decide : ∀ d : Fin 3, d ≠ 0 → (1 : Fin 3).val + (2 - d).val ≤ 2) d hd
  have e2 : deg2 1 (2 - d) = 3 - d := (by decide : ∀ d : Fin 3, d ≠ 0 → deg2 1 (2 - d) = 3 - d) d hd
  have hw : TensorForm (Unrefined .periodic n) (Unrefined .periodic n') (deg2 1 (2 - d)) (wedgeForm (1 : Fin 3).val (2 - d).val α (starComponents β)) :=
    wedgeForm_tensor' (unrefined_space h.2.1 n) (fun d d' a b ha hb => det_product h d d' s (!t) (by simp) ha hb) (fun d d' a b ha hb => det_product h' d d' s (!t) (by simp) ha hb) hd2 hα hs
  have hc := contractForm_tensor' (unrefined_space h.2.1 n) (fun d d' a b ha hb => det_product h d d' s t (by simp) ha hb) (fun d d' a b ha hb => det_product h' d d' s t (by simp) ha hb) hd hα hβ
  obtain ⟨a₁, b₁, ab, w1, w2, w3, w4⟩ := wedge_exact hx hy rx ry 1 (2 - d) hd2 s (!t) (!u) α _ hα hs fun _ => hw
  obtain rfl : a = a₁ := Except.ok.inj (pα.symm.trans w1)
  obtain rfl : sb = b₁ := Except.ok.inj (h3.symm.trans w2)
  obtain ⟨a₁, b₁, c, c1, c2, c3, c4⟩ := contraction_exact hx hy rx ry d hd s t u α β hα hβ hc
  obtain rfl : a = a₁ := Except.ok.inj (pα.symm.trans c1)
  obtain rfl : b' = b₁ := Except.ok.inj (pβ.symm.trans c2)
  rw [e2] at w4
  refine ⟨α, β, r, r', rα, rβ, fun x hx y hy => ⟨eα x hx y hy, eβ x hx y hy⟩, sb, ab, c, h2, w3, w4, c3, c4, fun hD => ?_⟩
  obtain ⟨q, z, z1, z2, z3⟩ := star_form h h' hD
  obtain rfl : ab = q := Except.ok.inj (w4.symm.trans z1)
  rw [starComponents_wedge hd hα hβ, Bool.not_not, (by decide : ∀ d : Fin 3, d ≠ 0 → 2 - (3 - d) = d - 1) d hd, c4] at z3
  rw [z2, ← z3]

/-! ## Where the two differ -/

theorem integral_wave (m : ℕ) (hm : 0 < m) (A c x y : ℝ) : (∫ t in x..y, (A + c * cos (m * t))) = A * (y - x) + c / m * (sin (m * y) - sin (m * x)) := by
  have hm' : (m : ℝ) ≠ 0 := by positivity
  have hd : ∀ t, HasDerivAt (fun t => A * t + c / m * sin (m * t)) (A + c * cos (m * t)) t := fun t => by
    have h1 := (hasDerivAt_id t).const_mul A
    have h2 := ((hasDerivAt_id t).const_mul (m : ℝ)).sin.const_mul (c / m)
    refine (h1.add h2).congr_deriv ?_
    simp only [id]
    field_simp
  rw [intervalIntegral.integral_eq_sub_of_hasDerivAt (fun t _ => hd t) (Continuous.intervalIntegrable (by fun_prop) _ _)]
  ring

/-- The square of the finest wave, and what the grid makes of it. -/
theorem square_aliases (n : ℕ) (hn : 2 ≤ n) : ∃ p : ℝ → ℝ, Determined .periodic n 1 false p ∧ p 0 < 1 ∧
    (grid₀ .periodic n).P 1 false p = (grid₀ .periodic n).P 1 false fun x => cos ((n / 2 : ℕ) * x) * cos ((n / 2 : ℕ) * x) := by
  obtain ⟨m, hm⟩ : ∃ m, m = n / 2 := ⟨_, rfl⟩
  rw [← hm]
  have hm0 : 0 < m := by omega
  have hmr : (1 : ℝ) ≤ m := by exact_mod_cast hm0
  have hN : (n : ℝ) * hh n = 2 * π := mul_hh (by omega)
  have sq : (fun x => cos (m * x) * cos (m * x)) = fun x : ℝ => 1 / 2 + 1 / 2 * cos ((2 * m : ℕ) * x) := by
    funext x
    have := cos_sq (m * x)
    push_cast
    rw [show (2 * (m : ℝ)) * x = 2 * (m * x) by ring]
    linarith
  have key : ∀ (j : ℕ) (q : ℝ → ℝ) , (∫ x in (0 + j * hh n - hh n / 2)..(0 + j * hh n + hh n / 2), cos (m * x) * cos (m * x))
      = 1 / 2 * hh n + 1 / (4 * m) * (2 * (cos (2 * m * (j * hh n)) * sin (m * hh n))) := fun j q => by
    rw [sq, integral_wave (2 * m) (by omega)]
    have e1 := sin_add (2 * m * (j * hh n)) (m * hh n)
    have e2 := sin_sub (2 * m * (j * hh n)) (m * hh n)
    push_cast
    rw [show 2 * (m : ℝ) * (0 + j * hh n + hh n / 2) = 2 * m * (j * hh n) + m * hh n by ring, show 2 * (m : ℝ) * (0 + j * hh n - hh n / 2) = 2 * m * (j * hh n) - m * hh n by ring, e1, e2]
    field_simp
    ring
  rcases Nat.even_or_odd' n with ⟨l, hl | hl⟩
  · obtain rfl : m = l := by omega
    refine ⟨fun _ => 1 / 2, IsTrigAt.of_trig ((isTrig_cos_nat (m := 0) (Nat.zero_le _)).const_mul (1 / 2) |>.congr fun x => by simp), by norm_num, ?_⟩
    show (Periodic.make n).P 1 false _ = (Periodic.make n).P 1 false _
    rw [Periodic.P1d_hh, Periodic.P1d_hh]
    refine tab_congr fun j _ => ?_
    rw [key j id]
    have : (m : ℝ) * hh n = π := by rw [hl] at hN; push_cast at hN; rw [hl]; linarith
    rw [this, sin_pi, intervalIntegral.integral_const, smul_eq_mul]
    ring
  · obtain rfl : m = l := by omega
    have hnr : (n : ℝ) = 2 * m + 1 := by rw [hl]; push_cast; ring
    refine ⟨fun x => 1 / 2 + 1 / (4 * m) * cos ((1 : ℕ) * x), IsTrigAt.of_trig ?_, ?_, ?_⟩
    · exact (((isTrig_cos_nat (m := 0) (Nat.zero_le _)).const_mul (1 / 2)).add ((isTrig_cos_nat (m := 1) (by omega)).const_mul (1 / (4 * m)))).congr fun x => by simp
    · simp only [mul_zero, cos_zero, mul_one]
      have : 1 / (4 * (m : ℝ)) ≤ 1 / 4 := by
        apply one_div_le_one_div_of_le <;> linarith
      linarith
    · show (Periodic.make n).P 1 false _ = (Periodic.make n).P 1 false _
      rw [Periodic.P1d_hh, Periodic.P1d_hh]
      refine tab_congr fun j _ => ?_
      rw [key j id, integral_wave 1 one_pos]
      have e0 : (m : ℝ) * hh n = π - hh n / 2 := by rw [hnr] at hN; linarith
      have e1 : 2 * (m : ℝ) * (j * hh n) = j * (2 * π) - j * hh n := by rw [← hN, hnr]; ring
      rw [e0, sin_pi_sub, e1, cos_nat_mul_two_pi_sub]
      have e2 := sin_add (j * hh n) (hh n / 2)
      have e3 := sin_sub (j * hh n) (hh n / 2)
      simp only [Nat.cast_one, one_mul, zero_add, div_one]
      rw [e2, e3]
      ring

/-- **C123** (the limit of the rule): on every periodic grid with at least two vertices there is a 1-form `a` whose contraction with itself differs from `H(W(a, H a))`:
at the first vertex the contraction is 1 but the other value is less. -/
theorem C123_differs (n : ℕ) (hn : 2 ≤ n) : ∃ w c a sa aa r, (grid₀ .periodic n).W = some w ∧ (grid₀ .periodic n).C = some c ∧ a.length = n ∧
    (grid₀ .periodic n).H 1 false a = .ok sa ∧ w 1 false 0 true false a sa = .ok aa ∧ (grid₀ .periodic n).H 1 false aa = .ok r ∧
      ∃ e, c false 1 false true a a = .ok e ∧ e.getD 0 0 = 1 ∧ r.getD 0 0 < 1 := by
  have hr : Refinable .periodic n := ⟨show 1 ≤ n by omega, by simp, by simp⟩
  have st := grid₀_star_determined .periodic n hr.1 hr.2.2
  obtain ⟨M, pt, rx⟩ := refine_det hr
  have hfac := grid₀_factor .periodic n hr.1
  have hf : Determined .periodic n 1 false fun x => cos ((n / 2 : ℕ) * x) := by
    show IsTrigAt n 0 _
    rcases Nat.mod_two_eq_zero_or_one n with h | h
    · exact IsTrigAt.nyquist h 0 1 (IsTrig.zero _) fun x => by simp
    · exact IsTrigAt.of_trig (isTrig_cos_nat (by omega))
  have hf0 : Determined .periodic n 0 true fun x => cos ((n / 2 : ℕ) * x) := by simpa [Determined] using hf
  obtain ⟨p, hp, p0, pp⟩ := square_aliases n hn
  have h1 := st.exact 1 false _ hf
  have w1 := refExact_wedge1 rx hfac 1 0 (by decide) false true false hf hf0 fun _ => det_product hr 1 0 false true (by simp) hf hf0
  have c1 := refExact_contraction1 rx false false true hf hf (det_product hr 1 1 false false (by simp) hf hf)
  have r1 := st.exact 1 false p hp
  rw [pp] at r1
  have P0 : ∀ q : ℝ → ℝ, ((grid₀ .periodic n).P 0 true q).getD 0 0 = q 0 := fun q => by
    show ((Periodic.make n).P 0 true q).getD 0 0 = q 0
    rw [Periodic.P0, getD_tab (by omega)]; simp
  refine ⟨_, _, _, _, _, _, (grid₀_products hr).1, (grid₀_products hr).2, Periodic.length_P n 1 false _, h1, w1, r1, _, c1, ?_, ?_⟩
  · rw [P0]; simp
  · exact (P0 p).trans_lt p0

/-- A concrete case: two primal 1-forms on a Chebyshev grid with four vertices that represent forms of degree one; the product has degree two, which the grid represents. -/
example : ∃ f : ℝ → ℝ, Refinable .chebyshev 4 ∧ Determined .chebyshev 4 1 true f ∧ Determined .chebyshev 4 1 true (fun x => f x * f x) :=
  ⟨fun x => x, ⟨by norm_num [validSize], by simp, fun _ => by norm_num⟩, ⟨fun i => if i = 1 then 1 else 0, fun x => by simp [sum_range_succ]⟩, ⟨fun i => if i = 2 then 1 else 0, fun x => by simp [sum_range_succ, pow_two]⟩⟩

end Dec.Props
