import Verif.Props.Residual
import Verif.Props.PoissonConverge
import Verif.Props.AccuracyLaplace

set_option linter.unusedSimpArgs false
set_option linter.unusedVariables false

/-!
# C112: the residuals of the example on the torus (`/repo/doc/plot/cheb/poisson2d_periodic.py`), for 0-forms and for 1-forms
-/

namespace Dec.Props

open Real Finset Dec.G2 Dec.Sp

/-! ## The circle -/

theorem circle_d0 (n : ℕ) (t : Bool) (f f' : ℝ → ℝ) (hd : ∀ s, HasDerivAt f (f' s) s) (hi : Continuous f') (hp : Function.Periodic f (2 * π)) :
    (Periodic.make n).d0 t ((Periodic.make n).P 0 t f) = .ok ((Periodic.make n).P 1 t f') := by
  have h2 : (0 : ℝ) < 2 * π := by positivity
  have hp' : Function.Periodic f (2 * π - 0) := by rw [sub_zero]; exact hp
  unfold Grid1.d0
  cases t
  · rw [C08_periodic n 0 (2 * π) h2 f f' hd (fun a b => hi.intervalIntegrable a b) hp']
  · rw [C07_periodic n 0 (2 * π) h2 f f' (fun s _ => hd s) (hi.intervalIntegrable _ _) (periodic_ends hp')]

theorem circle_d0_close (n : ℕ) (t : Bool) (a b : List ℝ) (ha : a.length = n) (hb : b.length = n) (E : ℝ) (h : ∀ i < n, |a.getD i 0 - b.getD i 0| ≤ E) (a' b' : List ℝ)
    (ha' : (Periodic.make n).d0 t a = .ok a') (hb' : (Periodic.make n).d0 t b = .ok b') (i : ℕ) (hi : i < n) : |a'.getD i 0 - b'.getD i 0| ≤ 2 * E := by
  obtain ⟨f, rfl⟩ : ∃ f, a = tab n f := ⟨_, eq_tab' ha 0⟩
  obtain ⟨g, rfl⟩ : ∃ g, b = tab n g := ⟨_, eq_tab' hb 0⟩
  have h' : ∀ i < n, |f i - g i| ≤ E := fun i hi => by have := h i hi; rwa [getD_tab hi, getD_tab hi] at this
  have hn : 0 < n := by omega
  cases t
  · have e : ∀ x, (Periodic.make n).d0 false (tab n x) = .ok (tab n fun i => x i - x ((i + n - 1) % n)) := fun x => by
      show Except.ok (Periodic.D0d (tab n x)) = _
      rw [D0d_tab]
    rw [e] at ha' hb'
    obtain rfl := Except.ok.inj ha'
    obtain rfl := Except.ok.inj hb'
    rw [getD_tab hi, getD_tab hi]
    have h1 := abs_le.1 (h' i hi)
    have h2 := abs_le.1 (h' _ (Nat.mod_lt (i + n - 1) hn))
    rw [abs_le]; constructor <;> linarith [h1.1, h1.2, h2.1, h2.2]
  · have e : ∀ x, (Periodic.make n).d0 true (tab n x) = .ok (tab n fun i => x ((i + 1) % n) - x i) := fun x => by
      show Except.ok (Periodic.D0 (tab n x)) = _
      rw [D0_tab]
    rw [e] at ha' hb'
    obtain rfl := Except.ok.inj ha'
    obtain rfl := Except.ok.inj hb'
    rw [getD_tab hi, getD_tab hi]
    have h1 := abs_le.1 (h' i hi)
    have h2 := abs_le.1 (h' _ (Nat.mod_lt (i + 1) hn))
    rw [abs_le]; constructor <;> linarith [h1.1, h1.2, h2.1, h2.2]

/-- Sums of cosines and sines are periodic. -/
theorem Expansion.periodic {c s : ℕ → ℝ} {f : ℝ → ℝ} (h : Expansion .periodic c s f) : Function.Periodic f (2 * π) := fun x => by
  refine (h.2 (x + 2 * π) trivial).unique ((h.2 x trivial).congr_fun fun m => ?_)
  show c m * cos (m * (x + 2 * π)) + s m * sin (m * (x + 2 * π)) = c m * cos (m * x) + s m * sin (m * x)
  rw [mul_add, cos_add_nat_mul_two_pi, sin_add_nat_mul_two_pi]

theorem periodic_deriv' {f f' : ℝ → ℝ} {p : ℝ} (h : Function.Periodic f p) (hd : ∀ x, HasDerivAt f (f' x) x) : Function.Periodic f' p := fun x => by
  have h1 : HasDerivAt (fun y => f (y + p)) (f' (x + p)) x := (hd (x + p)).comp_add_const x p
  rw [show (fun y => f (y + p)) = f from funext h] at h1
  exact h1.unique (hd x)

/-- A primitive of the sum of a trigonometric series, up to the constant term. -/
theorem Expansion.primitive {c s : ℕ → ℝ} {f : ℝ → ℝ} (h : Expansion .periodic c s f) :
    ∃ F, Expansion .periodic (fun m => -s m / m) (fun m => c m / m) F ∧ ∀ x, HasDerivAt F (f x - c 0) x := by
  have hle : ∀ m, amplitude .periodic (fun m => -s m / m) (fun m => c m / m) m ≤ amplitude .periodic c s m := fun m => by
    show |-s m / m| + |c m / m| ≤ |c m| + |s m|
    rw [abs_div, abs_div, abs_neg, Nat.abs_cast]
    rcases Nat.eq_zero_or_pos m with rfl | hm
    · simp; positivity
    · have : (1 : ℝ) ≤ m := by exact_mod_cast hm
      have h1 := div_le_self (abs_nonneg (s m)) this
      have h2 := div_le_self (abs_nonneg (c m)) this
      linarith
  have ham : ∀ (c s : ℕ → ℝ) m x, |term .periodic c s m x| ≤ amplitude .periodic c s m := fun c s m x => by
    show |c m * cos (m * x) + s m * sin (m * x)| ≤ |c m| + |s m|
    refine (abs_add_le _ _).trans (add_le_add ?_ ?_)
    · rw [abs_mul]; exact mul_le_of_le_one_right (abs_nonneg _) (abs_cos_le_one _)
    · rw [abs_mul]; exact mul_le_of_le_one_right (abs_nonneg _) (abs_sin_le_one _)
  have hs : Summable (amplitude .periodic (fun m => -s m / m) (fun m => c m / m)) :=
    Summable.of_nonneg_of_le (fun m => (abs_nonneg _).trans (ham _ _ m 0)) hle h.1
  have hsum : ∀ x, Summable fun m => term .periodic (fun m => -s m / m) (fun m => c m / m) m x := fun x =>
    Summable.of_norm_bounded hs fun m => ham _ _ m x
  refine ⟨fun x => ∑' m, term .periodic (fun m => -s m / m) (fun m => c m / m) m x, ⟨hs, fun x _ => (hsum x).hasSum⟩, fun x => ?_⟩
  have hd : ∀ (m : ℕ) (y : ℝ), HasDerivAt (fun x => term .periodic (fun m => -s m / m) (fun m => c m / m) m x) (if m = 0 then 0 else term .periodic c s m y) y := fun m y => by
    by_cases hm : m = 0
    · subst hm
      rw [if_pos rfl]
      have : (fun x => term .periodic (fun m => -s m / m) (fun m => c m / m) 0 x) = fun _ => 0 := by
        funext x
        show -s 0 / ((0 : ℕ) : ℝ) * cos _ + c 0 / ((0 : ℕ) : ℝ) * sin _ = 0
        simp
      rw [this]; exact hasDerivAt_const _ _
    · rw [if_neg hm]
      have hm' : (m : ℝ) ≠ 0 := Nat.cast_ne_zero.2 hm
      have e : HasDerivAt (fun x : ℝ => (m : ℝ) * x) m y := by simpa using (hasDerivAt_id y).const_mul (m : ℝ)
      show HasDerivAt (fun x => -s m / m * cos (m * x) + c m / m * sin (m * x)) (c m * cos (m * y) + s m * sin (m * y)) y
      refine ((e.cos.const_mul (-s m / m)).add (e.sin.const_mul (c m / m))).congr_deriv ?_
      field_simp
      ring
  have key := hasDerivAt_tsum (u := amplitude .periodic c s) (g := fun m x => term .periodic (fun m => -s m / m) (fun m => c m / m) m x)
    (g' := fun m y => if m = 0 then 0 else term .periodic c s m y) h.1 hd (fun m y => by
      by_cases hm : m = 0
      · simp only [hm, if_true, norm_zero]; exact (abs_nonneg _).trans (ham c s 0 0)
      · simp only [hm, if_false]; exact ham c s m y) (hsum 0) x
  refine key.congr_deriv ?_
  have h1 := (h.2 x trivial)
  have h2 : HasSum (fun m => if m = 0 then 0 else term .periodic c s m x) (f x - c 0) := by
    have h3 := h1.sub (hasSum_ite_eq 0 (c 0))
    refine h3.congr_fun fun m => ?_
    by_cases hm : m = 0
    · subst hm
      show _ = (c 0 * cos (((0 : ℕ) : ℝ) * x) + s 0 * sin (((0 : ℕ) : ℝ) * x)) - _
      simp
    · simp [hm]
  exact h2.tsum_eq

theorem lapEdge_ok {g : Grid1} {t : Bool} {a b c d e : List ℝ} (h1 : g.H 1 t a = .ok b) (h2 : g.d0 (!t) b = .ok c) (h3 : g.H 1 (!t) c = .ok d) (h4 : g.d0 t d = .ok e) : lapEdge g t a = .ok e := by
  unfold lapEdge
  simp only [h1, h2, h3, h4, Bind.bind, Except.bind]

/-- **C112** (the circle, 1-forms): `D0(H1d(D0d(H1(P1 f))))`, compared with the integrals of `f''` over the edges: the error on every edge is at most four times the sum of `m` times the amplitudes
of the terms that the grid does not resolve. -/
theorem C112_edge (n : ℕ) (hn : 0 < n) (t : Bool) (c s : ℕ → ℝ) (hs : Summable fun m : ℕ => (m : ℝ) * amplitude .periodic c s m) (f f' f'' : ℝ → ℝ) (hf : Expansion .periodic c s f)
    (h1 : ∀ θ, HasDerivAt f (f' θ) θ) (h2 : ∀ θ, HasDerivAt f' (f'' θ) θ) (hc : Continuous f'') :
    ∃ b, lapEdge (Periodic.make n) t ((Periodic.make n).P 1 t f) = .ok b ∧ b.length = n ∧
      ∀ i < n, |b.getD i 0 - ((Periodic.make n).P 1 t f'').getD i 0| ≤ 4 * ∑' m : ℕ, ((m + (n + 1) / 2 : ℕ) : ℝ) * amplitude .periodic c s (m + (n + 1) / 2) := by
  obtain ⟨F, hF, hF'⟩ := hf.primitive
  have hv : validSize .periodic n := hn
  have FF : Factor (Periodic.make n) := grid_factor .periodic n hv 0 (2 * π)
  have SS : Stars (Periodic.make n) := grid_stars .periodic n hv (fun h => by cases h) 0 (2 * π)
  have hN : ∀ d t, (Periodic.make n).N d t = n := fun _ _ => rfl
  have hl : ∀ d t f, ((Periodic.make n).P d t f).length = n := fun d t f => C11_projection .periodic n hv 0 (2 * π) d t f
  have hcf : Continuous f := continuous_iff_continuousAt.2 fun x => (h1 x).continuousAt
  have hcf' : Continuous f' := continuous_iff_continuousAt.2 fun x => (h2 x).continuousAt
  have hamp : ∀ m : ℕ, (m : ℝ) ^ 2 * amplitude .periodic (fun m => -s m / m) (fun m => c m / m) m = m * amplitude .periodic c s m := fun m => by
    show (m : ℝ) ^ 2 * (|-s m / m| + |c m / m|) = m * (|c m| + |s m|)
    rw [abs_div, abs_div, abs_neg, Nat.abs_cast]
    rcases Nat.eq_zero_or_pos m with rfl | hm
    · simp
    · have : (m : ℝ) ≠ 0 := by positivity
      field_simp
      ring
  obtain ⟨b, e1, e2, e3⟩ := C80_laplacian_error n hn t _ _ (by simp only [hamp]; exact hs) F (fun x => f x - c 0) f' hF hF' (fun θ => (h1 θ).sub_const (c 0))
  simp only [hamp] at e3
  obtain ⟨δ, η, δ', η', l1, l2, l3, l4, g1, g2, g3, g4, g5⟩ := lap_maps FF SS t
  simp only [hN] at l1 l2 l3 l4 g1 g2 g3 g4 g5
  -- the derivative of the primitive
  have d1 : δ ((Periodic.make n).P 0 t F) = (Periodic.make n).P 1 t fun x => f x - c 0 :=
    Except.ok.inj ((g1 _ (hl _ _ _)).symm.trans (circle_d0 n t F _ hF' (hcf.sub continuous_const) hF.periodic))
  have d2 : δ ((Periodic.make n).P 0 t f') = (Periodic.make n).P 1 t f'' :=
    Except.ok.inj ((g1 _ (hl _ _ _)).symm.trans (circle_d0 n t f' _ h2 hc (periodic_deriv' hf.periodic h1)))
  -- the constant
  have d3 : δ' (η ((Periodic.make n).P 1 t fun _ => c 0)) = List.replicate n 0 := by
    have k1 : IsTrig 0 (fun _ => c 0) := ⟨fun _ => c 0, fun _ => 0, fun θ => by simp⟩
    have k2 := (C02_periodic_hodge_exact n 0 (by omega) (fun _ => c 0) k1 t).2
    rw [g2 _ (hl _ _ _)] at k2
    rw [Except.ok.inj k2]
    have k3 := circle_d0 n (!t) (fun _ => c 0) (fun _ => 0) (fun _ => hasDerivAt_const _ _) continuous_const (fun _ => rfl)
    rw [g3 _ (hl _ _ _)] at k3
    rw [Except.ok.inj k3, P1_tab FF]
    simp only [intervalIntegral.integral_zero]
    exact (replicate_tab _ _).symm
  have d4 : (Periodic.make n).P 1 t f = vadd ((Periodic.make n).P 1 t fun x => f x - c 0) ((Periodic.make n).P 1 t fun _ => c 0) := by
    rw [P1_tab FF, P1_tab FF, P1_tab FF, vadd_tab]
    refine tab_congr fun i _ => ?_
    rw [intervalIntegral.integral_sub (hcf.intervalIntegrable _ _) (continuous_const.intervalIntegrable _ _)]
    ring
  have d5 : b = η' (δ' (η (δ ((Periodic.make n).P 0 t F)))) := Except.ok.inj (e1.symm.trans (g5 _ (hl _ _ _)))
  have d6 : η' (δ' (η ((Periodic.make n).P 1 t f))) = b := by
    rw [d4, l2.add _ _ (hl _ _ _) (hl _ _ _), l3.add _ _ (l2.len _ (hl _ _ _)) (l2.len _ (hl _ _ _)), d3, vadd_zero_right (l3.len _ (l2.len _ (hl _ _ _))), d5, d1]
  refine ⟨δ b, ?_, l1.len _ e2, fun i hi => ?_⟩
  · have m1 := hl 1 t f
    have m2 := l2.len _ m1
    have m3 := l3.len _ m2
    rw [← d6]
    exact lapEdge_ok (g2 _ m1) (g3 _ m2) (g4 _ m3) (g1 _ (l4.len _ m3))
  · have := circle_d0_close n t b ((Periodic.make n).P 0 t f') e2 (hl _ _ _) _ e3 _ _ (g1 _ e2) (g1 _ (hl _ _ _)) i hi
    rw [d2] at this
    refine this.trans (le_of_eq ?_)
    ring

theorem circle_lap_const (n : ℕ) (hn : 0 < n) (t : Bool) (κ : ℝ) : (Periodic.make n).laplacian t (tab n fun _ => κ) = .ok (List.replicate n 0) := by
  have hv : validSize .periodic n := hn
  have FF : Factor (Periodic.make n) := grid_factor .periodic n hv 0 (2 * π)
  have SS : Stars (Periodic.make n) := grid_stars .periodic n hv (fun h => by cases h) 0 (2 * π)
  have hN : ∀ d t, (Periodic.make n).N d t = n := fun _ _ => rfl
  obtain ⟨δ, η, δ', η', l1, l2, l3, l4, g1, g2, g3, g4, g5⟩ := lap_maps FF SS t
  simp only [hN] at l1 l2 l3 l4 g1 g2 g3 g4 g5
  rw [g5 _ (length_tab _ _)]
  have k3 := circle_d0 n t (fun _ => κ) (fun _ => 0) (fun _ => hasDerivAt_const _ _) continuous_const (fun _ => rfl)
  have e0 : (Periodic.make n).P 0 t (fun _ => κ) = tab n fun _ => κ := P0_tab FF t _
  have e1 : (Periodic.make n).P 1 t (fun _ => 0) = List.replicate n 0 := by
    rw [P1_tab FF]
    simp only [intervalIntegral.integral_zero]
    exact (replicate_tab _ _).symm
  rw [e0, e1, g1 _ (length_tab _ _)] at k3
  rw [Except.ok.inj k3, G2.lin_zero l2, G2.lin_zero l3, G2.lin_zero l4]

theorem getD_take {x : List ℝ} {m i : ℕ} (h : i < m) : (x.take m).getD i 0 = x.getD i 0 := by
  rw [List.getD_eq_getElem?_getD, List.getD_eq_getElem?_getD, List.getElem?_take_of_lt h]

theorem getD_drop (x : List ℝ) (m i : ℕ) : (x.drop m).getD i 0 = x.getD (m + i) 0 := by
  rw [List.getD_eq_getElem?_getD, List.getD_eq_getElem?_getD, List.getElem?_drop]

/-! ## The torus -/

theorem tail_le_pow {a A : ℕ → ℝ} {p : ℕ} (h : ∀ m, a m ≤ A m) (sa : Summable fun m : ℕ => (m : ℝ) ^ p * a m) (sA : Summable fun m : ℕ => (m : ℝ) ^ p * A m) (M : ℕ) :
    ∑' m : ℕ, ((m + M : ℕ) : ℝ) ^ p * a (m + M) ≤ ∑' m : ℕ, ((m + M : ℕ) : ℝ) ^ p * A (m + M) :=
  ((summable_nat_add_iff M).2 sa).tsum_le_tsum (fun m => mul_le_mul_of_nonneg_left (h _) (by positivity)) ((summable_nat_add_iff M).2 sA)

theorem amplitude_nonneg' (k : Kind) (c s : ℕ → ℝ) (m : ℕ) : 0 ≤ amplitude k c s m := by
  cases k
  · exact add_nonneg (abs_nonneg _) (abs_nonneg _)
  · exact abs_nonneg _
  · exact abs_nonneg _

section
variable (n n' : ℕ) (hn : 0 < n) (hn' : 0 < n') (t : Bool)
local notation "gx" => Periodic.make n
local notation "gy" => Periodic.make n'
local notation "𝔾" => product gx gy
include hn hn'

/-- **C112** (the torus, 0-forms): `f` with the second derivatives `fxx`, `fyy` such that the restrictions to the lines are trigonometric series with amplitudes at most `A m`, `B m`: the Laplacian
of the samples of `f` differs from the samples of `fxx + fyy` by at most twice the sum of `m² A m` over `m ≥ n/2` plus twice the sum of `m² B m` over `m ≥ n'/2`. -/
theorem C112_zero (f : ℝ → ℝ → ℝ) (c s d e : ℝ → ℕ → ℝ) (A B : ℕ → ℝ) (fx fxx fy fyy : ℝ → ℝ → ℝ)
    (ha : ∀ y, Expansion .periodic (c y) (s y) fun x => f x y) (hb : ∀ x, Expansion .periodic (d x) (e x) fun y => f x y)
    (hA : ∀ y m, amplitude .periodic (c y) (s y) m ≤ A m) (hB : ∀ x m, amplitude .periodic (d x) (e x) m ≤ B m)
    (hx1 : ∀ x y, HasDerivAt (fun x => f x y) (fx x y) x) (hx2 : ∀ x y, HasDerivAt (fun x => fx x y) (fxx x y) x)
    (hy1 : ∀ x y, HasDerivAt (fun y => f x y) (fy x y) y) (hy2 : ∀ x y, HasDerivAt (fun y => fy x y) (fyy x y) y)
    (sA : Summable fun m : ℕ => (m : ℝ) ^ 2 * A m) (sB : Summable fun m : ℕ => (m : ℝ) ^ 2 * B m) :
    ∃ p L q, (𝔾).P 0 t [f] = .ok p ∧ lap2 𝔾 t p = .ok L ∧ (𝔾).P 0 t [fun x y => fxx x y + fyy x y] = .ok q ∧ L.length = n' * n ∧ q.length = n' * n ∧
      ∀ i < n' * n, |L.getD i 0 - q.getD i 0| ≤
        2 * (∑' m : ℕ, ((m + (n + 1) / 2 : ℕ) : ℝ) ^ 2 * A (m + (n + 1) / 2)) + 2 * ∑' m : ℕ, ((m + (n' + 1) / 2 : ℕ) : ℝ) ^ 2 * B (m + (n' + 1) / 2) := by
  have hv : validSize .periodic n := hn
  have hv' : validSize .periodic n' := hn'
  have Fx : Factor gx := grid_factor .periodic n hv 0 (2 * π)
  have Fy : Factor gy := grid_factor .periodic n' hv' 0 (2 * π)
  have Sx : Stars gx := grid_stars .periodic n hv (fun h => by cases h) 0 (2 * π)
  have Sy : Stars gy := grid_stars .periodic n' hv' (fun h => by cases h) 0 (2 * π)
  have Nx : ∀ d t, (gx).N d t = n := fun _ _ => rfl
  have Ny : ∀ d t, (gy).N d t = n' := fun _ _ => rfl
  have sa : ∀ y, Summable fun m : ℕ => (m : ℝ) ^ 2 * amplitude .periodic (c y) (s y) m := fun y =>
    Summable.of_nonneg_of_le (fun m => mul_nonneg (by positivity) (amplitude_nonneg' _ _ _ _)) (fun m => mul_le_mul_of_nonneg_left (hA y m) (by positivity)) sA
  have sb : ∀ x, Summable fun m : ℕ => (m : ℝ) ^ 2 * amplitude .periodic (d x) (e x) m := fun x =>
    Summable.of_nonneg_of_le (fun m => mul_nonneg (by positivity) (amplitude_nonneg' _ _ _ _)) (fun m => mul_le_mul_of_nonneg_left (hB x m) (by positivity)) sB
  obtain ⟨L, e1, e2, e3⟩ := lines_0 Fx Fy Sx Sy t (mtab ((gy).N 0 t) ((gx).N 0 t) fun j i => f (vx gx t i) (vx gy t j)).data (by rw [N_eq Fx Fy, length_data]; rfl)
  rw [length_data] at e2
  obtain ⟨q, q1, q2, q3⟩ := residual_2d Fx Fy t (z := L) (fxx := fxx) (fyy := fyy) (δ := 2 * ∑' m : ℕ, ((m + (n + 1) / 2 : ℕ) : ℝ) ^ 2 * A (m + (n + 1) / 2))
    (ε := 2 * ∑' m : ℕ, ((m + (n' + 1) / 2 : ℕ) : ℝ) ^ 2 * B (m + (n' + 1) / 2)) fun j hj i hi => by
      obtain ⟨u, u', g1, g2, g3⟩ := e3 j hj i hi
      rw [line_data _ hj, ← P0_tab Fx t fun x => f x (vx gy t j)] at g1
      rw [column_data _ hi, ← P0_tab Fy t fun y => f (vx gx t i) y] at g2
      obtain ⟨v, k1, -, k2⟩ := C80_laplacian_error n hn t _ _ (sa _) _ _ _ (ha (vx gy t j)) (fun x => hx1 x _) (fun x => hx2 x _)
      obtain ⟨v', k3, -, k4⟩ := C80_laplacian_error n' hn' t _ _ (sb _) _ _ _ (hb (vx gx t i)) (fun y => hy1 _ y) (fun y => hy2 _ y)
      obtain rfl := Except.ok.inj (g1.symm.trans k1)
      obtain rfl := Except.ok.inj (g2.symm.trans k3)
      have k2 := k2 i hi
      have k4 := k4 j hj
      rw [P0_tab Fx, getD_tab hi] at k2
      rw [P0_tab Fy, getD_tab hj] at k4
      exact ⟨u, u', g3, k2.trans (mul_le_mul_of_nonneg_left (tail_le_pow (hA _) (sa _) sA _) (by norm_num)),
        k4.trans (mul_le_mul_of_nonneg_left (tail_le_pow (hB _) (sb _) sB _) (by norm_num))⟩
  exact ⟨_, L, q, P0_mtab Fx Fy t f, e1, q1, e2, q2, q3⟩

/-- **C112** (the torus, 1-forms): for the 1-form `a(x) dx + b(y) dy`, as in the example, the Laplacian of its projection differs from the projection of `a''(x) dx + b''(y) dy` by at most four times the
sum of `m` times the amplitudes that the grid does not resolve, on each edge in the direction of `x` for `a` and of `y` for `b`. -/
theorem C112_one (a a' a'' b b' b'' : ℝ → ℝ) (c s d e : ℕ → ℝ) (ha : Expansion .periodic c s a) (hb : Expansion .periodic d e b)
    (sa : Summable fun m : ℕ => (m : ℝ) * amplitude .periodic c s m) (sb : Summable fun m : ℕ => (m : ℝ) * amplitude .periodic d e m)
    (ha1 : ∀ x, HasDerivAt a (a' x) x) (ha2 : ∀ x, HasDerivAt a' (a'' x) x) (hac : Continuous a'') (hb1 : ∀ x, HasDerivAt b (b' x) x) (hb2 : ∀ x, HasDerivAt b' (b'' x) x) (hbc : Continuous b'') :
    ∃ p L q, (𝔾).P 1 t [fun x _ => a x, fun _ y => b y] = .ok p ∧ lapOne 𝔾 t p = .ok L ∧ (𝔾).P 1 t [fun x _ => a'' x, fun _ y => b'' y] = .ok q ∧ L.length = 2 * (n' * n) ∧ q.length = 2 * (n' * n) ∧
      (∀ i < n' * n, |L.getD i 0 - q.getD i 0| ≤ 4 * ∑' m : ℕ, ((m + (n + 1) / 2 : ℕ) : ℝ) * amplitude .periodic c s (m + (n + 1) / 2)) ∧
      (∀ i < n' * n, |L.getD (n' * n + i) 0 - q.getD (n' * n + i) 0| ≤ 4 * ∑' m : ℕ, ((m + (n' + 1) / 2 : ℕ) : ℝ) * amplitude .periodic d e (m + (n' + 1) / 2)) := by
  have hv : validSize .periodic n := hn
  have hv' : validSize .periodic n' := hn'
  have Fx : Factor gx := grid_factor .periodic n hv 0 (2 * π)
  have Fy : Factor gy := grid_factor .periodic n' hv' 0 (2 * π)
  have Sx : Stars gx := grid_stars .periodic n hv (fun h => by cases h) 0 (2 * π)
  have Sy : Stars gy := grid_stars .periodic n' hv' (fun h => by cases h) 0 (2 * π)
  have Nx : ∀ d t, (gx).N d t = n := fun _ _ => rfl
  have Ny : ∀ d t, (gy).N d t = n' := fun _ _ => rfl
  obtain ⟨L, e1, e2, e3, e4⟩ := lines_1 Fx Fy Sx Sy t ((mtab ((gy).N 0 t) ((gx).N 1 t) fun j i => Integrate.P1x (fun x _ => a x) (lo gx t i) (hi gx t i) (vx gy t j)).data
      ++ (mtab ((gy).N 1 t) ((gx).N 0 t) fun j i => Integrate.P1y (fun _ y => b y) (vx gx t i) (lo gy t j) (hi gy t j)).data) (by
    rw [N_eq Fx Fy, List.length_append, length_data, length_data]; rfl)
  rw [List.length_append, length_data, length_data] at e2
  rw [List.take_left' (length_data _ _ _)] at e3
  rw [List.drop_left' (length_data _ _ _)] at e4
  simp only [Nx, Ny] at e2 e3 e4
  refine ⟨_, L, _, P1_mtab Fx Fy t _ _, e1, P1_mtab Fx Fy t _ _, by rw [e2]; ring, by rw [List.length_append, length_data, length_data, Nx, Ny, Nx, Ny]; ring, fun k hk => ?_, fun k hk => ?_⟩
  · have hj : k / n < n' := Nat.div_lt_of_lt_mul (by rwa [mul_comm])
    have hi : k % n < n := Nat.mod_lt _ hn
    have ek : k / n * n + k % n = k := Nat.div_add_mod' k _
    obtain ⟨u, v, g1, g2, g3⟩ := e3 _ hj _ hi
    rw [line_data _ hj] at g1
    rw [column_data _ hi] at g2
    rw [ek, getD_take hk] at g3
    have g1' : lapEdge gx t ((gx).P 1 t a) = .ok u := by rw [P1_tab Fx]; exact g1
    obtain ⟨u₁, k1, -, k2⟩ := C112_edge n hn t c s sa a a' a'' ha ha1 ha2 hac
    obtain rfl := Except.ok.inj (g1'.symm.trans k1)
    have hvz : v = List.replicate n' 0 := Except.ok.inj (g2.symm.trans (circle_lap_const n' hn' t (∫ x in (lo gx t (k % n))..(G2.hi gx t (k % n)), a x)))
    have k2 := k2 _ hi
    rw [P1_tab Fx, getD_tab (show k % n < (gx).N 1 t from hi)] at k2
    rw [List.getD_append _ _ _ _ (by rw [length_data]; exact hk), g3, hvz, List.getD_replicate _ hj, add_zero]
    have e5 := getD_data (F := fun j i => Integrate.P1x (fun x _ => a'' x) (lo gx t i) (G2.hi gx t i) (vx gy t j)) (r := (gy).N 0 t) (c := (gx).N 1 t) hj hi
    rw [show k / n * (gx).N 1 t + k % n = k from ek] at e5
    rw [e5]
    exact k2
  · have hj : k / n < n' := Nat.div_lt_of_lt_mul (by rwa [mul_comm])
    have hi : k % n < n := Nat.mod_lt _ hn
    have ek : k / n * n + k % n = k := Nat.div_add_mod' k _
    obtain ⟨u, v, g1, g2, g3⟩ := e4 _ hj _ hi
    rw [line_data _ hj] at g1
    rw [column_data _ hi] at g2
    rw [ek, getD_drop] at g3
    have g2' : lapEdge gy t ((gy).P 1 t b) = .ok v := by rw [P1_tab Fy]; exact g2
    obtain ⟨v₁, k1, -, k2⟩ := C112_edge n' hn' t d e sb b b' b'' hb hb1 hb2 hbc
    obtain rfl := Except.ok.inj (g2'.symm.trans k1)
    have huz : u = List.replicate n 0 := Except.ok.inj (g1.symm.trans (circle_lap_const n hn t (∫ x in (lo gy t (k / n))..(G2.hi gy t (k / n)), b x)))
    have k2 := k2 _ hj
    rw [P1_tab Fy, getD_tab (show k / n < (gy).N 1 t from hj)] at k2
    rw [List.getD_append_right _ _ _ _ (by rw [length_data]; show n' * n ≤ _; omega), length_data, show n' * n + k - (gy).N 0 t * (gx).N 1 t = k from Nat.add_sub_cancel_left _ _, g3, huz,
      List.getD_replicate _ hi, zero_add]
    have e5 := getD_data (F := fun j i => Integrate.P1y (fun _ y => b'' y) (vx gx t i) (lo gy t j) (G2.hi gy t j)) (r := (gy).N 1 t) (c := (gx).N 0 t) hj hi
    rw [show k / n * (gx).N 0 t + k % n = k from ek] at e5
    rw [e5]
    exact k2

end

/-! ## The example -/

/-- The trigonometric series of `exp (sin x)`: its amplitudes, weighted with `m` or `m²`, have rests at most those of the series of `m/m!` and `m²/m!`. -/
theorem exp_sin_expansion : ∃ c s : ℕ → ℝ, Expansion .periodic c s (fun x => exp (sin x)) ∧ ∀ p, 1 ≤ p → p ≤ 2 → (Summable fun m : ℕ => (m : ℝ) ^ p * amplitude .periodic c s m) ∧
    ∀ K : ℕ, ∑' m : ℕ, ((m + K : ℕ) : ℝ) ^ p * amplitude .periodic c s (m + K) ≤ ∑' m : ℕ, ((m + K : ℕ) : ℝ) ^ p / (m + K).factorial := by
  have ha' : Summable fun k : ℕ => |(1 : ℝ) / k.factorial| := by
    have h := Real.summable_pow_div_factorial 1
    refine h.congr fun k => ?_
    rw [one_pow, abs_of_nonneg (by positivity)]
  obtain ⟨c, hc, ht⟩ := power_series_chebyshev (fun k => (1 : ℝ) / k.factorial) exp ha' exp_power_series.2
  have hc1 : Summable fun m => |c m| := hc.1
  have hamp : ∀ m, amplitude .periodic (fun m => c m * cos (m * (π / 2))) (fun m => c m * sin (m * (π / 2))) m = |c m| := fun m => by
    show |_| + |_| = _
    rw [abs_mul, abs_mul, ← mul_add, quarter_abs, mul_one]
  refine ⟨fun m => c m * cos (m * (π / 2)), fun m => c m * sin (m * (π / 2)), ⟨?_, fun x _ => ?_⟩, fun p hp hp2 => ?_⟩
  · rw [show amplitude .periodic _ _ = fun m => |c m| from funext hamp]; exact hc1
  · have := hc.2 (sin x) ⟨neg_one_le_sin x, sin_le_one x⟩
    refine this.congr_fun fun m => ?_
    show _ = c m * (Polynomial.Chebyshev.T ℝ m).eval (sin x)
    rw [T_eval_sin]
    show c m * cos (m * (π / 2)) * cos (m * x) + c m * sin (m * (π / 2)) * sin (m * x) = _
    ring
  · have hs : Summable fun k : ℕ => (k : ℝ) ^ p * |(1 : ℝ) / k.factorial| := by
      rw [← summable_nat_add_iff 2]
      have h := (Real.summable_pow_div_factorial 1).mul_left 4
      refine Summable.of_nonneg_of_le (fun k => by positivity) (fun k => ?_) h
      rw [abs_of_nonneg (by positivity), one_pow, mul_one_div, mul_one_div, Nat.factorial_succ, Nat.factorial_succ]
      have hf : (0 : ℝ) < k.factorial := by positivity
      push_cast
      rw [div_le_div_iff₀ (by positivity) hf]
      have hk : (0 : ℝ) ≤ k := Nat.cast_nonneg k
      have h2 : ((k : ℝ) + 2) ^ p ≤ (k + 2) ^ 2 := pow_le_pow_right₀ (by linarith) hp2
      have : ((k : ℝ) + 2) ^ 2 ≤ 4 * ((k + 1 + 1) * (k + 1)) := by nlinarith
      calc ((k : ℝ) + 2) ^ p * k.factorial ≤ 4 * ((k + 1 + 1) * (k + 1)) * k.factorial := mul_le_mul_of_nonneg_right (h2.trans this) hf.le
        _ = _ := by ring
    have hw := weighted_tail (u := fun m => |c m|) (v := fun m : ℕ => |(1 : ℝ) / m.factorial|) (w := fun m : ℕ => (m : ℝ) ^ p) (fun _ => abs_nonneg _) (fun _ => abs_nonneg _) (fun _ => by positivity)
      (fun i j h => pow_le_pow_left₀ (Nat.cast_nonneg i) (Nat.cast_le.2 h) p) hc1 ha' hs ht
    simp only [hamp]
    refine ⟨(hw 0).1, fun K => (hw K).2.trans (le_of_eq (tsum_congr fun k => ?_))⟩
    rw [abs_of_nonneg (by positivity), mul_one_div]

theorem exp_sin_derivs : (∀ x, HasDerivAt (fun x => exp (sin x)) (exp (sin x) * cos x) x) ∧ (∀ x, HasDerivAt (fun x => exp (sin x) * cos x) (exp (sin x) * (cos x ^ 2 - sin x)) x) ∧
    Continuous fun x => exp (sin x) * (cos x ^ 2 - sin x) :=
  ⟨fun θ => (hasDerivAt_sin θ).exp, fun θ => ((hasDerivAt_sin θ).exp.mul (hasDerivAt_cos θ)).congr_deriv (by ring), by fun_prop⟩

/-- Adding a constant to a trigonometric series. -/
theorem Expansion.add_const {c s : ℕ → ℝ} {f : ℝ → ℝ} (h : Expansion .periodic c s f) (κ : ℝ) : Expansion .periodic (fun m => c m + if m = 0 then κ else 0) s fun x => f x + κ := by
  refine ⟨?_, fun x hx => ?_⟩
  · rw [← summable_nat_add_iff 1]
    exact ((summable_nat_add_iff 1).2 h.1).congr fun m => by
      show |c (m + 1)| + |s (m + 1)| = |c (m + 1) + if m + 1 = 0 then κ else 0| + |s (m + 1)|
      rw [if_neg (by omega), add_zero]
  · refine ((h.2 x hx).add (hasSum_ite_eq 0 κ)).congr_fun fun m => ?_
    show (c m + if m = 0 then κ else 0) * cos (m * x) + s m * sin (m * x) = (c m * cos (m * x) + s m * sin (m * x)) + if m = 0 then κ else 0
    by_cases hm : m = 0
    · subst hm; simp
    · simp [hm]

/-- **C112** (the example, 0-forms): `f = exp (sin x) + exp (sin y)` on a grid of `n` by `n'` points, `q` as in the script: the largest error the script plots, primal or dual, is at most twice the sums
of `m²/m!` over `m ≥ n/2` and over `m ≥ n'/2`. -/
theorem C112_example_zero (n n' : ℕ) (hn : 0 < n) (hn' : 0 < n') (t : Bool) :
    ∃ p L q, (product (Periodic.make n) (Periodic.make n')).P 0 t [fun x y => exp (sin x) + exp (sin y)] = .ok p ∧ lap2 (product (Periodic.make n) (Periodic.make n')) t p = .ok L ∧
      (product (Periodic.make n) (Periodic.make n')).P 0 t [fun x y => exp (sin x) * (cos x ^ 2 - sin x) + exp (sin y) * (cos y ^ 2 - sin y)] = .ok q ∧ L.length = n' * n ∧ q.length = n' * n ∧
      ∀ i < n' * n, |L.getD i 0 - q.getD i 0| ≤
        2 * (∑' m : ℕ, ((m + (n + 1) / 2 : ℕ) : ℝ) ^ 2 / (m + (n + 1) / 2).factorial) + 2 * ∑' m : ℕ, ((m + (n' + 1) / 2 : ℕ) : ℝ) ^ 2 / (m + (n' + 1) / 2).factorial := by
  obtain ⟨c, s, hE, hp⟩ := exp_sin_expansion
  obtain ⟨h1, h2⟩ := hp 2 (by norm_num) le_rfl
  obtain ⟨d1, d2, -⟩ := exp_sin_derivs
  have hs : Summable fun m : ℕ => (m : ℝ) ^ 2 * (amplitude .periodic c s m + if m = 0 then exp 1 else 0) := h1.congr fun m => by
    by_cases hm : m = 0
    · simp [hm]
    · simp [hm]
  have hle : ∀ y m, amplitude .periodic (fun m => c m + if m = 0 then exp (sin y) else 0) s m ≤ amplitude .periodic c s m + if m = 0 then exp 1 else 0 := fun y m => by
    show |c m + if m = 0 then exp (sin y) else 0| + |s m| ≤ |c m| + |s m| + if m = 0 then exp 1 else 0
    have h3 : exp (sin y) ≤ exp 1 := exp_le_exp.2 (sin_le_one y)
    by_cases hm : m = 0
    · simp only [hm, if_true]
      have := abs_add_le (c 0) (exp (sin y))
      rw [abs_of_pos (exp_pos (sin y))] at this
      linarith
    · simp [hm]
  obtain ⟨p, L, q, e1, e2, e3, e4, e5, e6⟩ := C112_zero n n' hn hn' t (fun x y => exp (sin x) + exp (sin y)) (fun y m => c m + if m = 0 then exp (sin y) else 0) (fun _ => s)
    (fun x m => c m + if m = 0 then exp (sin x) else 0) (fun _ => s) (fun m => amplitude .periodic c s m + if m = 0 then exp 1 else 0) (fun m => amplitude .periodic c s m + if m = 0 then exp 1 else 0)
    (fun x _ => exp (sin x) * cos x) (fun x _ => exp (sin x) * (cos x ^ 2 - sin x)) (fun _ y => exp (sin y) * cos y) (fun _ y => exp (sin y) * (cos y ^ 2 - sin y))
    (fun y => hE.add_const _) (fun x => by simp only [add_comm (exp (sin x))]; exact hE.add_const _) hle hle (fun x y => (d1 x).add_const _) (fun x y => d2 x)
    (fun x y => (d1 y).const_add _) (fun x y => d2 y) hs hs
  refine ⟨p, L, q, e1, e2, e3, e4, e5, fun i hi => (e6 i hi).trans ?_⟩
  have e : ∀ M : ℕ, 0 < M → ∑' m : ℕ, ((m + (M + 1) / 2 : ℕ) : ℝ) ^ 2 * (amplitude .periodic c s (m + (M + 1) / 2) + if m + (M + 1) / 2 = 0 then exp 1 else 0) ≤
      ∑' m : ℕ, ((m + (M + 1) / 2 : ℕ) : ℝ) ^ 2 / (m + (M + 1) / 2).factorial := fun M hM => by
    refine le_trans (le_of_eq (tsum_congr fun m => ?_)) (h2 ((M + 1) / 2))
    rw [if_neg (by omega), add_zero]
  linarith [e n hn, e n' hn']

/-- **C112** (the example, 1-forms): the largest error the script plots, on the edges in either direction, primal or dual. -/
theorem C112_example_one (n n' : ℕ) (hn : 0 < n) (hn' : 0 < n') (t : Bool) :
    ∃ p L q, (product (Periodic.make n) (Periodic.make n')).P 1 t [fun x _ => exp (sin x), fun _ y => exp (sin y)] = .ok p ∧ lapOne (product (Periodic.make n) (Periodic.make n')) t p = .ok L ∧
      (product (Periodic.make n) (Periodic.make n')).P 1 t [fun x _ => exp (sin x) * (cos x ^ 2 - sin x), fun _ y => exp (sin y) * (cos y ^ 2 - sin y)] = .ok q ∧ L.length = 2 * (n' * n) ∧ q.length = 2 * (n' * n) ∧
      (∀ i < n' * n, |L.getD i 0 - q.getD i 0| ≤ 4 * ∑' m : ℕ, ((m + (n + 1) / 2 : ℕ) : ℝ) / (m + (n + 1) / 2).factorial) ∧
      (∀ i < n' * n, |L.getD (n' * n + i) 0 - q.getD (n' * n + i) 0| ≤ 4 * ∑' m : ℕ, ((m + (n' + 1) / 2 : ℕ) : ℝ) / (m + (n' + 1) / 2).factorial) := by
  obtain ⟨c, s, hE, hp⟩ := exp_sin_expansion
  obtain ⟨h1, h2⟩ := hp 1 le_rfl (by norm_num)
  obtain ⟨d1, d2, d3⟩ := exp_sin_derivs
  simp only [pow_one] at h1 h2
  obtain ⟨p, L, q, e1, e2, e3, e4, e5, e6, e7⟩ := C112_one n n' hn hn' t _ _ _ _ _ _ c s c s hE hE h1 h1 d1 d2 d3 d1 d2 d3
  exact ⟨p, L, q, e1, e2, e3, e4, e5, fun i hi => (e6 i hi).trans (mul_le_mul_of_nonneg_left (h2 _) (by norm_num)), fun i hi => (e7 i hi).trans (mul_le_mul_of_nonneg_left (h2 _) (by norm_num))⟩

-- the hypotheses are met by `exp (sin x)`, whose series does not end, and by the grid of the smallest size in the script
example := C112_example_zero 3 3 (by norm_num) (by norm_num) true
example : ∃ c s : ℕ → ℝ, Expansion .periodic c s (fun x => exp (sin x)) ∧ Summable fun m : ℕ => (m : ℝ) * amplitude .periodic c s m := by
  obtain ⟨c, s, h, hp⟩ := exp_sin_expansion
  exact ⟨c, s, h, by simpa using (hp 1 le_rfl (by norm_num)).1⟩

end Dec.Props
