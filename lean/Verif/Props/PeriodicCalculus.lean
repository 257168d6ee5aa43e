import Verif.Props.Periodic
import Verif.Props.Derivative

set_option linter.unusedSimpArgs false
set_option linter.unusedVariables false

/-!
# Calculus on periodic grids: C22, C23 (periodic), C46 (shift operators)
-/

namespace Dec

open Real Finset Dec.Sp MeasureTheory

namespace Periodic

theorem ph_not (n : ℕ) (d : Fin 2) (t : Bool) : ph n d (!t) = ph n (1 - d) t := by
  obtain rfl | rfl : d = 0 ∨ d = 1 := by omega
  all_goals cases t <;> rfl

/-- The derivative of a represented 0-form is the represented derivative. -/
theorem D_rep {n : ℕ} {p p' : ℝ → ℝ} {K : ℕ} (hp : IsTrig K p) (hd : ∀ θ, HasDerivAt p (p' θ) θ) (hc : Continuous p') (t : Bool) :
    (make n).D 0 t ((make n).P 0 t p) = some ((make n).P 1 t p') := by
  have h2 : (0 : ℝ) < 2 * π := by positivity
  cases t
  · exact Props.C08_periodic n 0 (2 * π) h2 p p' hd (fun a b => hc.intervalIntegrable a b) (by rw [sub_zero]; exact hp.periodic)
  · refine Props.C07_periodic n 0 (2 * π) h2 p p' (fun s _ => hd s) (hc.intervalIntegrable _ _) ?_
    have := hp.periodic 0
    rw [zero_add] at this; exact this.symm

/-- The interpolant of a 0-form has a derivative that is the interpolant of the derivative. -/
theorem res_deriv {n : ℕ} {p : ℝ → ℝ} (t : Bool) (hr : Res n (ph n 0 t) p) :
    ∃ p', Res n (ph n 1 t) p' ∧ ∀ θ, HasDerivAt p (p' θ) θ := by
  cases t
  · rw [ph_00] at hr
    obtain ⟨p', h1, h2⟩ := hr.deriv (s := -(hh n / 2)) (Or.inr rfl)
    rw [add_neg_cancel] at h1
    exact ⟨p', by rw [ph_10]; exact h1, h2⟩
  · rw [ph_01] at hr
    obtain ⟨p', h1, h2⟩ := hr.deriv (s := hh n / 2) (Or.inl rfl)
    rw [zero_add] at h1
    exact ⟨p', by rw [ph_11]; exact h1, h2⟩

theorem H1_rep {n : ℕ} {p : ℝ → ℝ} (t : Bool) (hr : Res n (ph n 1 t) p) :
    (make n).H 1 t ((make n).P 1 t p) = .ok ((make n).P 0 (!t) p) := by
  cases t
  · rw [ph_10] at hr
    rw [Bool.not_false, P1d_hh, P0_samp]
    exact congrArg Except.ok hr.Hinv
  · rw [ph_11] at hr
    rw [Bool.not_true, P1_hh, P0d_samp]
    exact congrArg Except.ok hr.Hinv

/-- The Laplacian of a represented 0-form is the second derivative of the interpolant. -/
theorem laplacian_rep {n : ℕ} {p : ℝ → ℝ} (t : Bool) (hr : Res n (ph n 0 t) p) :
    ∃ p' p'', (∀ θ, HasDerivAt p (p' θ) θ) ∧ (∀ θ, HasDerivAt p' (p'' θ) θ) ∧
      (make n).laplacian t ((make n).P 0 t p) = .ok ((make n).P 0 t p'') := by
  obtain ⟨p', h1, h2⟩ := res_deriv t hr
  have h1' : Res n (ph n 0 (!t)) p' := by rw [ph_not]; exact h1
  obtain ⟨p'', h3, h4⟩ := res_deriv (!t) h1'
  refine ⟨p', p'', h2, h4, ?_⟩
  have d1 := D_rep (n := n) (isTrig_of_res hr) h2 h1.continuous t
  have d2 := D_rep (n := n) (isTrig_of_res h1') h4 h3.continuous (!t)
  have e1 := H1_rep t h1
  have e2 := H1_rep (!t) h3
  rw [Bool.not_not] at e2
  unfold Grid1.laplacian Grid1.d0
  rw [d1]; simp only [bind, Except.bind]
  rw [e1]; simp only []
  rw [d2]; simp only []
  exact e2

end Periodic

namespace Props

open Periodic

/-! ## C22 -/

/-- C22: the Leibniz rule holds exactly for all 0-forms on the default periodic grid, primal and dual. -/
theorem C22_periodic_leibniz (n : ℕ) (t : Bool) (a b : List ℝ) (ha : a.length = n) (hb : b.length = n) :
    ∃ da db ab dab aDb bDa,
      (Periodic.make n).D 0 t a = some da ∧ (Periodic.make n).D 0 t b = some db ∧
      (Periodic.make n).wedge 0 t 0 t t a b = .ok ab ∧ (Periodic.make n).D 0 t ab = some dab ∧
      (Periodic.make n).wedge 0 t 1 t t a db = .ok aDb ∧ (Periodic.make n).wedge 0 t 1 t t b da = .ok bDa ∧
      dab = vadd aDb bDa := by
  obtain ⟨p, p1, p2, p3⟩ := exists_rep 0 t ha
  obtain ⟨q, q1, q2, q3⟩ := exists_rep 0 t hb
  obtain ⟨p', p4, p5⟩ := res_deriv t p2
  obtain ⟨q', q4, q5⟩ := res_deriv t q2
  have hle : n / 2 + n / 2 ≤ n := by omega
  have hpq : IsTrig n fun θ => p θ * q θ := (p1.mul q1).mono hle
  refine ⟨(Periodic.make n).P 1 t p', (Periodic.make n).P 1 t q', (Periodic.make n).P 0 t (fun θ => p θ * q θ),
    (Periodic.make n).P 1 t (fun θ => p' θ * q θ + p θ * q' θ), (Periodic.make n).P 1 t (fun θ => p θ * q' θ),
    (Periodic.make n).P 1 t (fun θ => q θ * p' θ), ?_, ?_, ?_, ?_, ?_, ?_, ?_⟩
  · rw [p3]; exact D_rep p1 p5 p4.continuous t
  · rw [q3]; exact D_rep q1 q5 q4.continuous t
  · rw [p3, q3]; exact wedge_rep p1 q1 hle 0 0 t t t (by decide) p2 q2
  · exact D_rep (p' := fun θ => p' θ * q θ + p θ * q' θ) hpq (fun θ => (p5 θ).mul (q5 θ))
      ((p4.continuous.mul q1.continuous).add (p1.continuous.mul q4.continuous)) t
  · rw [p3]; exact wedge_rep p1 (isTrig_of_res q4) hle 0 1 t t t (by decide) p2 q4
  · rw [q3]; exact wedge_rep q1 (isTrig_of_res p4) hle 0 1 t t t (by decide) q2 p4
  · have hadd : ∀ (f g : ℝ → ℝ), Continuous f → Continuous g →
        (Periodic.make n).P 1 t (fun θ => f θ + g θ) = vadd ((Periodic.make n).P 1 t g) ((Periodic.make n).P 1 t f) := by
      intro f g hf hg
      cases t
      · rw [P1d_hh, P1d_hh, P1d_hh, vadd_tab]
        apply tab_congr; intro i _
        rw [intervalIntegral.integral_add (hf.intervalIntegrable _ _) (hg.intervalIntegrable _ _), add_comm]
      · rw [P1_hh, P1_hh, P1_hh, vadd_tab]
        apply tab_congr; intro i _
        rw [intervalIntegral.integral_add (hf.intervalIntegrable _ _) (hg.intervalIntegrable _ _), add_comm]
    have := hadd (fun θ => q θ * p' θ) (fun θ => p θ * q' θ) (q1.continuous.mul p4.continuous) (p1.continuous.mul q4.continuous)
    rw [show (fun θ => p' θ * q θ + p θ * q' θ) = fun θ => q θ * p' θ + p θ * q' θ by funext θ; ring]
    exact this

example : ([1, 0, 2, 5] : List ℝ).length = 4 := by simp

/-! ## C23 (periodic) -/

/-- C23 (periodic): the Laplacian of the samples of a trigonometric polynomial of degree less than `n/2` is the array of samples of
its second derivative, on primal and on dual vertices. -/
theorem C23_periodic_laplacian_exact (n K : ℕ) (hK : 2 * K < n) (f f' f'' : ℝ → ℝ) (hf : IsTrig K f)
    (h1 : ∀ θ, HasDerivAt f (f' θ) θ) (h2 : ∀ θ, HasDerivAt f' (f'' θ) θ) (t : Bool) :
    (Periodic.make n).laplacian t ((Periodic.make n).P 0 t f) = .ok ((Periodic.make n).P 0 t f'') := by
  obtain ⟨p', p'', h3, h4, h5⟩ := laplacian_rep t (Res_of_isTrig hK hf (ph n 0 t))
  have e1 : p' = f' := funext fun θ => (h3 θ).unique (h1 θ)
  subst e1
  have e2 : p'' = f'' := funext fun θ => (h4 θ).unique (h2 θ)
  subst e2
  exact h5

/-- C23 (periodic): for every array, the Laplacian returns the samples of the second derivative of the interpolating trigonometric
polynomial. -/
theorem C23_periodic_laplacian_interpolant (n : ℕ) (t : Bool) (a : List ℝ) (ha : a.length = n) :
    ∃ p p' p'', IsTrig (n / 2) p ∧ a = (Periodic.make n).P 0 t p ∧ (∀ θ, HasDerivAt p (p' θ) θ) ∧ (∀ θ, HasDerivAt p' (p'' θ) θ) ∧
      (Periodic.make n).laplacian t a = .ok ((Periodic.make n).P 0 t p'') := by
  obtain ⟨p, p1, p2, p3⟩ := exists_rep 0 t ha
  obtain ⟨p', p'', h3, h4, h5⟩ := laplacian_rep t p2
  exact ⟨p, p', p'', p1, p3, h3, h4, by rw [p3]; exact h5⟩

theorem Hs_const (n : ℕ) (c : ℝ) : Hs (List.replicate n c) = List.replicate n (c * hh n) := by
  rcases Nat.eq_zero_or_pos n with rfl | hn
  · have := Hs_tab 0 (fun _ => (0 : ℝ)); simpa using this
  have h : Res n 0 (fun _ => c) := Res_of_isTrig (K := 0) (by omega) (isTrig_const 0 c) 0
  have := h.Hs
  unfold samp at this
  rw [replicate_tab, this, replicate_tab]
  apply tab_congr; intro i _
  rw [intervalIntegral.integral_const, smul_eq_mul]; ring

theorem Hinv_const (n : ℕ) (c : ℝ) : Hinv (List.replicate n (c * hh n)) = List.replicate n c := by
  rw [← Hs_const, Hinv_Hs]

theorem make_D (n : ℕ) (a b : ℝ) (t : Bool) (f : List ℝ) :
    (Periodic.make n a b).D 0 t f = some (if t then Periodic.D0 f else Periodic.D0d f) := by
  cases t <;> simp only [Periodic.make] <;> rfl

/-- C23 (periodic): on every periodic grid exactly the constants have Laplacian zero. -/
theorem C23_periodic_laplacian_kernel (n : ℕ) (xmin xmax : ℝ) (t : Bool) (a : List ℝ) (ha : a.length = n) :
    (Periodic.make n xmin xmax).laplacian t a = .ok (List.replicate n 0) ↔ ∃ c, a = List.replicate n c := by
  have hD : ∀ s b, (Periodic.make n xmin xmax).d0 s b = .ok (if s then Periodic.D0 b else Periodic.D0d b) := by
    intro s b; unfold Grid1.d0; rw [make_D]
  have hH : ∀ s b, (Periodic.make n xmin xmax).H 1 s b = .ok (Hinv b) := by
    intro s b; cases s <;> simp only [Periodic.make, wrapTable]
  have hlap : (Periodic.make n xmin xmax).laplacian t a
      = .ok (Hinv (if !t then Periodic.D0 (Hinv (if t then Periodic.D0 a else Periodic.D0d a)) else Periodic.D0d (Hinv (if t then Periodic.D0 a else Periodic.D0d a)))) := by
    unfold Grid1.laplacian
    rw [hD]; simp only [bind, Except.bind]
    rw [hH]; simp only []
    rw [hD]; simp only []
    rw [hH]
  rw [hlap, Except.ok.injEq]
  set y := if t then Periodic.D0 a else Periodic.D0d a with hy
  have hylen : y.length = n := by
    rw [hy, eq_tab' ha 0]; split_ifs <;> simp [D0_tab, D0d_tab]
  have hker := C10_periodic_kernel n xmin xmax t a ha
  have hDy : (Periodic.make n xmin xmax).D 0 t a = some y := by rw [hy, make_D]
  have hst : y.sum = 0 := by
    obtain ⟨da, e1, e2⟩ := C10_periodic_stokes n xmin xmax t a ha
    rw [hDy, Option.some.injEq] at e1; rw [e1]; exact e2
  have hzlen : (Hinv y).length = n := by rw [eq_tab' hylen 0, Hinv_tab]; simp
  have hker2 := C10_periodic_kernel n xmin xmax (!t) (Hinv y) hzlen
  have hDz : (Periodic.make n xmin xmax).D 0 (!t) (Hinv y) = some (if !t then Periodic.D0 (Hinv y) else Periodic.D0d (Hinv y)) := make_D ..
  rw [hDz, Option.some.injEq] at hker2
  rw [hDy, Option.some.injEq] at hker
  have hHz : ∀ z : List ℝ, Hinv z = List.replicate n 0 ↔ z = List.replicate n 0 := by
    intro z
    constructor
    · intro h
      rw [← Hs_Hinv z, h, Hs_const, zero_mul]
    · intro h
      have := Hinv_const n 0
      rw [zero_mul] at this; rw [h, this]
  rw [hHz, hker2, ← hker]
  constructor
  · rintro ⟨c, hc⟩
    have hyc : y = List.replicate n (c * hh n) := by rw [← Hs_const, ← hc, Hs_Hinv]
    rw [hyc] at hst ⊢
    rw [List.sum_replicate, nsmul_eq_mul] at hst
    rcases Nat.eq_zero_or_pos n with rfl | hn
    · simp
    · have hp := hh_pos hn
      have hn' : (n : ℝ) ≠ 0 := by positivity
      rcases mul_eq_zero.1 hst with h | h
      · exact absurd h hn'
      · rw [h]
  · intro h
    exact ⟨0, by rw [h]; exact (hHz _).2 rfl⟩

/-- Non-vacuity: `cos 2x` with its derivatives. -/
example : IsTrig 2 (fun x => cos ((2 : ℕ) * x)) ∧ (∀ θ, HasDerivAt (fun x => cos ((2 : ℕ) * x)) (-2 * sin (2 * θ)) θ) ∧
    (∀ θ : ℝ, HasDerivAt (fun x => -2 * sin (2 * x)) (-4 * cos (2 * θ)) θ) := by
  refine ⟨isTrig_cos_nat le_rfl, fun θ => ?_, fun θ => ?_⟩
  · have h : HasDerivAt (fun x : ℝ => ((2 : ℕ) : ℝ) * x) 2 θ := by simpa using (hasDerivAt_id θ).const_mul (((2 : ℕ) : ℝ))
    exact h.cos.congr_deriv (by push_cast; ring)
  · have h : HasDerivAt (fun x : ℝ => 2 * x) 2 θ := by simpa using (hasDerivAt_id θ).const_mul (2 : ℝ)
    exact (h.sin.const_mul (-2)).congr_deriv (by ring)

/-! ## C46 (shift operators) -/

/-- C46: for odd lengths `S` and `Sinv` are inverse to each other. -/
theorem C46_shift_inverse_odd (a : List ℝ) (hodd : a.length % 2 = 1) : Sinv (S a) = a ∧ S (Sinv a) = a := by
  obtain ⟨p, p1, p2, p3⟩ := exists_isTrig a.length 0 a rfl
  have hr : ∀ φ, Res a.length φ p := fun φ => Res_of_isTrig (by omega) p1 φ
  generalize a.length = n at *
  subst p3
  refine ⟨?_, ?_⟩
  · rw [(hr 0).S, (hr _).Sinv, zero_add, sub_self]
  · rw [(hr 0).Sinv, (hr _).S, zero_sub, neg_add_cancel]

/-- C46: for resolvable functions `S` returns the samples half a cell further, `Sinv` half a cell back (any base point). -/
theorem C46_shift_exact (n K : ℕ) (hK : 2 * K < n) (f : ℝ → ℝ) (hf : IsTrig K f) (x₀ : ℝ) :
    S (tab n fun j => f (x₀ + j * (2 * π / n))) = (tab n fun j => f (x₀ + j * (2 * π / n) + π / n)) ∧
    Sinv (tab n fun j => f (x₀ + j * (2 * π / n))) = (tab n fun j => f (x₀ + j * (2 * π / n) - π / n)) := by
  have hr := Res_of_isTrig hK hf x₀
  have e1 := hr.S; have e2 := hr.Sinv
  unfold samp at e1 e2
  have hc : (tab n fun j => f (x₀ + j * (2 * π / n))) = tab n fun j => f (x₀ + j * hh n) := rfl
  rw [hc, e1, e2]
  refine ⟨?_, ?_⟩
  · apply tab_congr; intro j _; beta_reduce
    rw [show x₀ + hh n / 2 + j * hh n = x₀ + j * (2 * π / n) + π / n by unfold hh; ring]
  · apply tab_congr; intro j _; beta_reduce
    rw [show x₀ - hh n / 2 + j * hh n = x₀ + j * (2 * π / n) - π / n by unfold hh; ring]

theorem coef_ofReal_re {N : ℕ} {d : ℕ → ℂ} (hd : RealEven N d) (y : ℕ → ℂ) (j : ℕ) :
    (synth N (fun k => coef N (fun i => ((y i).re : ℂ)) k * d k) (j * hh N)).re
      = (synth N (fun k => coef N y k * d k) (j * hh N)).re := by
  have hy : ∀ k, coef N y k = coef N (fun i => ((y i).re : ℂ)) k + Complex.I * coef N (fun i => ((y i).im : ℂ)) k := by
    intro k
    unfold coef
    rw [← mul_div_assoc, ← add_div, Finset.mul_sum, ← Finset.sum_add_distrib]
    congr 1
    refine Finset.sum_congr rfl fun i _ => ?_
    conv_lhs => rw [← Complex.re_add_im (y i)]
    ring
  have h0 := im_synth_zero (N := N) (x := fun i => ((y i).im : ℂ)) (fun i _ => by simp) hd j
  have e : synth N (fun k => coef N y k * d k) (j * hh N)
      = synth N (fun k => coef N (fun i => ((y i).re : ℂ)) k * d k) (j * hh N)
        + Complex.I * synth N (fun k => coef N (fun i => ((y i).im : ℂ)) k * d k) (j * hh N) := by
    rw [← synth_mul_left, ← synth_add]
    exact synth_congr (fun k _ => by rw [hy]; ring) _
  rw [e, Complex.add_re, Complex.mul_re]
  push_cast at h0
  rw [h0]; simp

/-- Applying a Hermitian multiplier and a shift commute. -/
theorem shift_comm (N : ℕ) (d : ℕ → ℂ) (hd : RealEven N d) (s : ℝ) (x : ℕ → ℝ) :
    (tab N fun j => (synth N (fun k => coef N (fun i => (((synth N (coef N fun i => (x i : ℂ)) (i * hh N + s)).re : ℝ) : ℂ)) k * d k) (j * hh N)).re)
      = tab N fun j => (synth N (coef N fun i => (((synth N (fun k => coef N (fun i => (x i : ℂ)) k * d k) (i * hh N)).re : ℝ) : ℂ)) (j * hh N + s)).re := by
  apply tab_congr; intro j _
  rw [coef_ofReal_re hd (fun i => synth N (coef N fun i => (x i : ℂ)) (i * hh N + s)) j]
  congr 1
  have e1 : ∀ i : ℕ, (((synth N (fun k => coef N (fun i => (x i : ℂ)) k * d k) (i * hh N)).re : ℝ) : ℂ)
      = synth N (fun k => coef N (fun i => (x i : ℂ)) k * d k) (i * hh N) := by
    intro i
    have := im_synth_zero (N := N) (x := fun i => (x i : ℂ)) (fun i _ => by simp) hd i
    push_cast at this
    exact Complex.ext (by simp) (by simp [this])
  simp_rw [e1]
  rw [← synth_shift]
  apply synth_congr
  intro k hk
  rw [coef_synth _ hk]
  have e2 : ∀ i : ℕ, synth N (coef N fun i => (x i : ℂ)) (i * hh N + s) = synth N (fun k => coef N (fun i => (x i : ℂ)) k * E (fr N k) s) (i * hh N) := fun i => by
    rw [synth_shift]
  simp_rw [e2]
  rw [coef_synth _ hk]; ring

/-- C46: the shifts commute with the Hodge star and its inverse, for every array. -/
theorem C46_shift_commutes_with_hodge (a : List ℝ) :
    S (Hs a) = Hs (S a) ∧ Sinv (Hs a) = Hs (Sinv a) ∧ S (Hinv a) = Hinv (S a) ∧ Sinv (Hinv a) = Hinv (Sinv a) := by
  rw [eq_tab a 0]
  generalize a.length = N
  generalize (fun i => a.getD i 0) = x
  have h1 := realEven_Id N (hh N / 2)
  have h2 := realEven_inv h1
  refine ⟨?_, ?_, ?_, ?_⟩
  · rw [Hs_tab, S_tab, S_tab, Hs_tab]; exact (shift_comm N _ h1 _ x).symm
  · rw [Hs_tab, Sinv_tab, Sinv_tab, Hs_tab]; exact (shift_comm N _ h1 _ x).symm
  · rw [Hinv_tab, S_tab, S_tab, Hinv_tab]; simp only [div_eq_mul_inv (coef _ _ _)]; exact (shift_comm N _ h2 _ x).symm
  · rw [Hinv_tab, Sinv_tab, Sinv_tab, Hinv_tab]; simp only [div_eq_mul_inv (coef _ _ _)]; exact (shift_comm N _ h2 _ x).symm

/-- C46: the two shifts and the two Hodge stars commute with each other. -/
theorem C46_shifts_commute (a : List ℝ) : S (Sinv a) = Sinv (S a) ∧ Hs (Hinv a) = Hinv (Hs a) := by
  refine ⟨?_, by rw [Hs_Hinv, Hinv_Hs]⟩
  rcases Nat.mod_two_eq_zero_or_one a.length with h | h
  · obtain ⟨m, hm⟩ : ∃ m, a.length = 2 * m := ⟨a.length / 2, by omega⟩
    rcases Nat.eq_zero_or_pos m with rfl | hpos
    · have : a = [] := List.eq_nil_of_length_eq_zero (by omega)
      subst this
      have e1 : S [] = [] := by have := S_tab 0 (fun _ => 0); simpa using this
      have e2 : Sinv [] = [] := by have := Sinv_tab 0 (fun _ => 0); simpa using this
      rw [e1, e2, e1]
    · obtain ⟨p, p1, p2, p3⟩ := exists_isTrig (2 * m) 0 a hm
      rw [show 2 * m / 2 = m by omega] at p1
      obtain ⟨q, c, d, hq, h⟩ := p1.split hpos
      have hr : ∀ φ, Res (2 * m) φ q := fun φ => Res_of_isTrig (by omega) hq φ
      obtain ⟨e1, e2⟩ := Periodic.shifted_samp hpos hq h
      rw [p3, e1, e2, (hr _).S, (hr _).Sinv, neg_add_cancel, sub_self]
  · rw [(C46_shift_inverse_odd a h).1, (C46_shift_inverse_odd a h).2]

/-- C46, the restriction to odd lengths is necessary: for even lengths the alternating array is annihilated. -/
theorem C46_even_not_invertible (m : ℕ) (hm : 0 < m) :
    S (tab (2 * m) fun j => (-1) ^ j) = List.replicate (2 * m) 0 ∧
    Sinv (S (tab (2 * m) fun j => (-1) ^ j)) ≠ (tab (2 * m) fun j => (-1 : ℝ) ^ j) := by
  have e0 : (tab (2 * m) fun j => (-1 : ℝ) ^ j) = samp (2 * m) 0 (fun θ => 0 + 1 * cos (m * θ) + 0 * sin (m * θ)) := by
    unfold samp; apply tab_congr; intro j _; beta_reduce
    rw [show (m : ℝ) * (0 + j * hh (2 * m)) = j * (m * hh (2 * m)) by ring, Periodic.n_hh hm, cos_nat_mul_pi]; simp
  have e1 := (Periodic.shifted_samp hm (IsTrig.zero (m - 1)) (p := fun θ => 0 + 1 * cos (m * θ) + 0 * sin (m * θ)) (a := 1) (b := 0) (fun θ => rfl)).1
  have e2 : S (tab (2 * m) fun j => (-1) ^ j) = List.replicate (2 * m) 0 := by
    rw [e0, e1, replicate_tab]; rfl
  refine ⟨e2, ?_⟩
  rw [e2]
  intro h
  have e3 := (Res.zero (2 * m) 0).Sinv
  have e4 : samp (2 * m) 0 (fun _ => (0 : ℝ)) = List.replicate (2 * m) 0 := by rw [replicate_tab]; rfl
  rw [e4] at e3
  rw [e3] at h
  have := (tab_inj.1 h) 0 (by omega)
  simp at this

example : ([1, 2, 3] : List ℝ).length % 2 = 1 := by simp

end Props

end Dec
