import Verif.Props.Quadrature
import Verif.Props.Integrate
import Verif.Props.Accuracy
import Verif.Lib.PowerSeries
import Verif.Lib.LagrangePoly
import Mathlib.Analysis.Calculus.Taylor

set_option linter.unusedSimpArgs false
set_option linter.unusedVariables false

/-!
# C92: the size of the errors of the quadrature rules
-/

namespace Dec.Props

open Real Finset Dec.Sp Dec.Integrate G2

/-! ## Simpson and Boole -/

theorem int_close {f p : ℝ → ℝ} {a b ε : ℝ} (hab : a ≤ b) (hf : ContinuousOn f (Set.Icc a b)) (hp : Continuous p) (h : ∀ x ∈ Set.Icc a b, |f x - p x| ≤ ε) :
    |(∫ x in a..b, f x) - ∫ x in a..b, p x| ≤ ε * (b - a) := by
  have h1 : IntervalIntegrable f MeasureTheory.volume a b := (by rwa [← Set.uIcc_of_le hab] at hf : ContinuousOn f (Set.uIcc a b)).intervalIntegrable
  rw [← intervalIntegral.integral_sub h1 (hp.intervalIntegrable _ _)]
  have := intervalIntegral.norm_integral_le_of_norm_le_const (f := fun x => f x - p x) (a := a) (b := b) (C := ε) fun x hx => by
    rw [Set.uIoc_of_le hab] at hx
    exact h x ⟨hx.1.le, hx.2⟩
  rwa [Real.norm_eq_abs, abs_of_nonneg (by linarith : (0 : ℝ) ≤ b - a)] at this

theorem C92_simpson (a b ε : ℝ) (hab : a ≤ b) (f p : ℝ → ℝ) (hf : ContinuousOn f (Set.Icc a b)) (hp : IsPoly 4 p) (h : ∀ x ∈ Set.Icc a b, |f x - p x| ≤ ε) :
    |simpson a b f - ∫ x in a..b, f x| ≤ 2 * ε * (b - a) := by
  have h1 := int_close hab hf hp.continuous h
  rw [← C42_simpson a b p hp] at h1
  have ha := abs_le.1 (h a ⟨le_rfl, hab⟩)
  have hb := abs_le.1 (h b ⟨hab, le_rfl⟩)
  have hm := abs_le.1 (h ((a + b) / 2) ⟨by linarith, by linarith⟩)
  have h2 : |simpson a b f - simpson a b p| ≤ ε * (b - a) := by
    unfold simpson
    rw [← mul_sub, abs_mul, abs_of_nonneg (by linarith : (0 : ℝ) ≤ (b - a) / 6)]
    have : |f a + 4 * f ((a + b) / 2) + f b - (p a + 4 * p ((a + b) / 2) + p b)| ≤ 6 * ε := abs_le.2 ⟨by linarith, by linarith⟩
    calc _ ≤ (b - a) / 6 * (6 * ε) := mul_le_mul_of_nonneg_left this (by linarith)
      _ = _ := by ring
  have h3 := abs_le.1 h1
  have h4 := abs_le.1 h2
  exact abs_le.2 ⟨by linarith, by linarith⟩

theorem C92_boole (a b ε : ℝ) (hab : a ≤ b) (f p : ℝ → ℝ) (hf : ContinuousOn f (Set.Icc a b)) (hp : IsPoly 6 p) (h : ∀ x ∈ Set.Icc a b, |f x - p x| ≤ ε) :
    |boole a b f - ∫ x in a..b, f x| ≤ 2 * ε * (b - a) := by
  have h1 := int_close hab hf hp.continuous h
  rw [← C42_boole a b p hp] at h1
  have ha := abs_le.1 (h a ⟨le_rfl, hab⟩)
  have hb := abs_le.1 (h b ⟨hab, le_rfl⟩)
  have hm1 := abs_le.1 (h (a + (b - a) / 4) ⟨by linarith, by linarith⟩)
  have hm2 := abs_le.1 (h (a + 2 * ((b - a) / 4)) ⟨by linarith, by linarith⟩)
  have hm3 := abs_le.1 (h (a + 3 * ((b - a) / 4)) ⟨by linarith, by linarith⟩)
  have h2 : |boole a b f - boole a b p| ≤ ε * (b - a) := by
    unfold boole
    dsimp only
    rw [← mul_sub, abs_mul, abs_of_nonneg (by linarith : (0 : ℝ) ≤ 2 * ((b - a) / 4) / 45)]
    have : |7 * f a + 32 * f (a + (b - a) / 4) + 12 * f (a + 2 * ((b - a) / 4)) + 32 * f (a + 3 * ((b - a) / 4)) + 7 * f b
        - (7 * p a + 32 * p (a + (b - a) / 4) + 12 * p (a + 2 * ((b - a) / 4)) + 32 * p (a + 3 * ((b - a) / 4)) + 7 * p b)| ≤ 90 * ε := abs_le.2 ⟨by linarith, by linarith⟩
    calc _ ≤ 2 * ((b - a) / 4) / 45 * (90 * ε) := mul_le_mul_of_nonneg_left this (by linarith)
      _ = _ := by ring
  have h3 := abs_le.1 h1
  have h4 := abs_le.1 h2
  exact abs_le.2 ⟨by linarith, by linarith⟩

/-- The Taylor polynomial. -/
theorem taylor_close (n : ℕ) (f : ℝ → ℝ) (hf : ContDiff ℝ (n + 1) f) (a b M : ℝ) (hab : a < b) (hM : ∀ x ∈ Set.Icc a b, |iteratedDeriv (n + 1) f x| ≤ M) :
    ∃ p, IsPoly (n + 1) p ∧ ∀ x ∈ Set.Icc a b, |f x - p x| ≤ M * (b - a) ^ (n + 1) / n.factorial := by
  refine ⟨taylorWithinEval f n (Set.Icc a b) a, ?_, fun x hx => ?_⟩
  · let Q : Polynomial ℝ := ∑ k ∈ range (n + 1), Polynomial.C ((k.factorial : ℝ)⁻¹ * iteratedDerivWithin k f (Set.Icc a b) a) * (Polynomial.X - Polynomial.C a) ^ k
    have hQ : Q.natDegree < n + 1 := by
      refine Nat.lt_succ_of_le (Polynomial.natDegree_sum_le_of_forall_le _ _ fun k hk => ?_)
      refine (Polynomial.natDegree_C_mul_le _ _).trans ?_
      rw [Polynomial.natDegree_pow, Polynomial.natDegree_X_sub_C]
      simp at hk; omega
    have e : taylorWithinEval f n (Set.Icc a b) a = fun y => Q.eval y := by
      funext y
      rw [taylor_within_apply, Polynomial.eval_finsetSum]
      refine Finset.sum_congr rfl fun k _ => ?_
      simp; ring
    rw [e]
    exact isPoly_eval hQ
  · have h := taylor_mean_remainder_bound (C := M) hab.le hf.contDiffOn hx fun y hy => by
      rw [iteratedDerivWithin_eq_iteratedDeriv (uniqueDiffOn_Icc hab) (by exact_mod_cast hf.contDiffAt) hy]
      exact hM y hy
    rw [Real.norm_eq_abs] at h
    refine h.trans ?_
    have hM0 : 0 ≤ M := (abs_nonneg _).trans (hM a ⟨le_rfl, hab.le⟩)
    have : (x - a) ^ (n + 1) ≤ (b - a) ^ (n + 1) := pow_le_pow_left₀ (by linarith [hx.1]) (by linarith [hx.2]) _
    gcongr

/-- **C92**: the error of `integrate_simpson` on an interval of length `h` is of order `h^5`. -/
theorem C92_simpson_order (a b M : ℝ) (hab : a < b) (f : ℝ → ℝ) (hf : ContDiff ℝ 4 f) (hM : ∀ x ∈ Set.Icc a b, |iteratedDeriv 4 f x| ≤ M) :
    |simpson a b f - ∫ x in a..b, f x| ≤ M / 3 * (b - a) ^ 5 := by
  obtain ⟨p, h1, h2⟩ := taylor_close 3 f (by exact_mod_cast hf) a b M hab hM
  refine (C92_simpson a b _ hab.le f p hf.continuous.continuousOn h1 h2).trans (le_of_eq ?_)
  norm_num [Nat.factorial]; ring

/-- **C92**: the error of `integrate_boole` on an interval of length `h` is of order `h^7`. -/
theorem C92_boole_order (a b M : ℝ) (hab : a < b) (f : ℝ → ℝ) (hf : ContDiff ℝ 6 f) (hM : ∀ x ∈ Set.Icc a b, |iteratedDeriv 6 f x| ≤ M) :
    |boole a b f - ∫ x in a..b, f x| ≤ M / 60 * (b - a) ^ 7 := by
  obtain ⟨p, h1, h2⟩ := taylor_close 5 f (by exact_mod_cast hf) a b M hab hM
  refine (C92_boole a b _ hab.le f p hf.continuous.continuousOn h1 h2).trans (le_of_eq ?_)
  norm_num [Nat.factorial]; ring

/-- **C92**: the errors of `integrate_boole1` on a list of increasing points. -/
theorem C92_boole1_order (x : List ℝ) (M : ℝ) (f : ℝ → ℝ) (hf : ContDiff ℝ 6 f) (hM : ∀ t, |iteratedDeriv 6 f t| ≤ M) (hx : ∀ i, i + 1 < x.length → x.getD i 0 < x.getD (i + 1) 0) :
    (boole1 x f).length = x.length - 1 ∧ ∀ i < x.length - 1,
      |(boole1 x f).getD i 0 - ∫ t in (x.getD i 0)..(x.getD (i + 1) 0), f t| ≤ M / 60 * (x.getD (i + 1) 0 - x.getD i 0) ^ 7 := by
  have e : boole1 x f = tab (x.length - 1) fun i => boole (x.getD i 0) (x.getD (i + 1) 0) f := by
    unfold boole1
    conv_lhs => rw [eq_tab x 0, dropLast_tab, tail_tab, zipWith_tab]
  rw [e]
  refine ⟨length_tab _ _, fun i hi => ?_⟩
  rw [getD_tab hi]
  exact C92_boole_order _ _ M (hx i (by omega)) f hf fun t _ => hM t

/-- The exponential function on the points 0, 1, 2: all derivatives are at most `e²`. -/
example : |boole 0 1 exp - ∫ x in (0 : ℝ)..1, exp x| ≤ exp 1 / 60 * (1 - 0) ^ 7 := by
  refine C92_boole_order 0 1 (exp 1) (by norm_num) exp contDiff_exp fun x hx => ?_
  rw [iteratedDeriv_eq_iterate, Real.iter_deriv_exp, abs_of_pos (exp_pos x)]
  exact exp_le_exp.2 hx.2


/-! ## The spectral integrators -/

theorem coarse_tab (N : ℕ) (x0 : ℝ) (f : ℝ → ℝ) : integrate_spectral_coarse (circlePoints N x0) f = Hs (samp N (hh N / 2) fun x => f (x0 + x)) := by
  unfold integrate_spectral_coarse circlePoints
  rw [midpoints_tab, map_tab]
  unfold samp hh
  congr 1
  refine tab_congr fun i _ => ?_
  congr 1; ring

/-- **C92**: the error of `integrate_spectral_coarse` on a full period of `N` cells: at most twice the sum of the amplitudes of the terms that `N` samples do not
resolve, times the length of a cell. -/
theorem C92_coarse (N : ℕ) (hN : 0 < N) (x0 : ℝ) (c s : ℕ → ℝ) (f : ℝ → ℝ) (hf : Expansion .periodic c s fun x => f (x0 + x)) :
    (integrate_spectral_coarse (circlePoints N x0) f).length = N ∧ ∀ i < N,
      |(integrate_spectral_coarse (circlePoints N x0) f).getD i 0 - ∫ x in (x0 + i * (2 * π / N))..(x0 + (i + 1) * (2 * π / N)), f x| ≤ 2 * tail .periodic c s N * (2 * π / N) := by
  obtain ⟨b, h1, h2, h3⟩ := C80_star_error .periodic N hN 0 false (fun h => by cases h) c s _ hf
  have e1 : (grid₀ .periodic N).H 0 false ((grid₀ .periodic N).P 0 false fun x => f (x0 + x)) = .ok (Hs (samp N (hh N / 2) fun x => f (x0 + x))) := by
    show (Periodic.make N).H 0 false ((Periodic.make N).P 0 false fun x => f (x0 + x)) = _
    rw [Periodic.P0d_samp]; rfl
  rw [e1] at h1
  have h1' : Hs (samp N (hh N / 2) fun x => f (x0 + x)) = b := by injection h1
  rw [coarse_tab, h1']
  refine ⟨h2, fun i hi => ?_⟩
  have := h3 i hi
  have e2 : ∀ g : ℝ → ℝ, (((grid₀ .periodic N).P (1 - 0) (!false)) g).getD i 0 = ∫ t in (hh N / 2 + i * hh N - hh N / 2)..(hh N / 2 + i * hh N + hh N / 2), g t := fun g => by
    show ((Periodic.make N).P 1 true g).getD i 0 = _
    rw [Periodic.P1_hh, getD_tab hi]
  rw [e2, e2, intervalIntegral.integral_comp_add_left] at this
  rw [intervalIntegral.integral_const, smul_eq_mul, mul_one] at this
  have e3 : x0 + (hh N / 2 + i * hh N - hh N / 2) = x0 + i * (2 * π / N) := by unfold hh; ring
  have e4 : x0 + (hh N / 2 + i * hh N + hh N / 2) = x0 + (i + 1) * (2 * π / N) := by unfold hh; ring
  have e5 : hh N / 2 + i * hh N + hh N / 2 - (hh N / 2 + i * hh N - hh N / 2) = 2 * π / N := by unfold hh; ring
  rw [e3, e4, e5] at this
  exact this

theorem expansion_continuousOn {k : Kind} {c s : ℕ → ℝ} {f : ℝ → ℝ} (hf : Expansion k c s f) : ContinuousOn f (Whole k) := by
  have h := continuousOn_tsum (f := fun m x => term k c s m x) (u := amplitude k c s) (s := Whole k) (fun m => (term_cont k c s m).continuousOn) hf.1
    fun m x hx => by rw [Real.norm_eq_abs]; exact term_bound k c s m hx
  exact h.congr fun x hx => ((hf.2 x hx).tsum_eq).symm

theorem periodic_continuous {c s : ℕ → ℝ} {f : ℝ → ℝ} {x0 : ℝ} (hf : Expansion .periodic c s fun x => f (x0 + x)) : Continuous f := by
  have h : Continuous fun x => f (x0 + x) := continuousOn_univ.1 (expansion_continuousOn hf)
  have e : f = fun x => f (x0 + (x - x0)) := funext fun x => by rw [add_sub_cancel]
  rw [e]
  exact h.comp (continuous_id.sub continuous_const)

/-- **C92**: the error of `integrate_spectral`: it resolves eight times as many terms. -/
theorem C92_spectral (N : ℕ) (hN : 0 < N) (x0 : ℝ) (c s : ℕ → ℝ) (f : ℝ → ℝ) (hf : Expansion .periodic c s fun x => f (x0 + x)) :
    (integrate_spectral (circlePoints N x0) f).length = N ∧ ∀ i < N,
      |(integrate_spectral (circlePoints N x0) f).getD i 0 - ∫ x in (x0 + i * (2 * π / N))..(x0 + (i + 1) * (2 * π / N)), f x| ≤ 2 * tail .periodic c s (8 * N) * (2 * π / N) := by
  obtain ⟨h1, h2⟩ := C92_coarse (8 * N) (by omega) x0 c s f hf
  rw [spectral_of_coarse N hN x0 f _ (eq_tab' h1 0)]
  refine ⟨length_tab _ _, fun i hi => ?_⟩
  rw [getD_tab hi, ← sum_eighths N hN x0 f (periodic_continuous hf) i, ← Finset.sum_sub_distrib]
  refine (Finset.abs_sum_le_sum_abs _ _).trans ?_
  refine (Finset.sum_le_sum fun k hk => h2 (8 * i + k) (by simp at hk; omega)).trans ?_
  rw [Finset.sum_const, card_range, nsmul_eq_mul]
  refine le_of_eq ?_
  have : (N : ℝ) ≠ 0 := by positivity
  push_cast; field_simp

/-! ## The Chebyshev integrators -/

theorem integral_subst_on {f : ℝ → ℝ} (hf : ContinuousOn f (Set.Icc (-1) 1)) (a b : ℝ) : ∫ x in (-cos a)..(-cos b), f x = ∫ ξ in a..b, f (-cos ξ) * sin ξ := by
  have h11 : (-1 : ℝ) ≤ 1 := by norm_num
  let g : ℝ → ℝ := Set.IccExtend h11 ((Set.Icc (-1 : ℝ) 1).domRestrict f)
  have hg : Continuous g := (continuousOn_iff_continuous_domRestrict.1 hf).Icc_extend'
  have e : ∀ x ∈ Set.Icc (-1 : ℝ) 1, g x = f x := fun x hx => Set.IccExtend_of_mem h11 _ hx
  have hc : ∀ t, -cos t ∈ Set.Icc (-1 : ℝ) 1 := fun t => ⟨by linarith [cos_le_one t], by linarith [neg_one_le_cos t]⟩
  have h := Chebyshev.integral_subst hg a b
  rw [intervalIntegral.integral_congr (g := f) fun x hx => e x (Set.OrdConnected.uIcc_subset Set.ordConnected_Icc (hc a) (hc b) hx)] at h
  rw [h]
  exact intervalIntegral.integral_congr fun t _ => by
    show g (-cos t) * sin t = _
    rw [e _ (hc t)]

/-- The coefficients of the sine series of `f (-cos θ) sin θ`. -/
noncomputable def sineOf (c : ℕ → ℝ) (j : ℕ) : ℝ :=
  (if j = 0 then 0 else (-1) ^ (j - 1) * c (j - 1) / 2) - (-1) ^ (j + 1) * c (j + 1) / 2 + if j = 1 then c 0 / 2 else 0

theorem T_eval_neg_cos (m : ℕ) (θ : ℝ) : (Polynomial.Chebyshev.T ℝ m).eval (-cos θ) = (-1) ^ m * cos (m * θ) := by
  have h := Polynomial.Chebyshev.T_real_cos (θ + π) m
  rw [cos_add_pi] at h
  rw [h]
  push_cast
  rw [mul_add, cos_add_nat_mul_pi]

theorem cos_mul_sin (m : ℕ) (θ : ℝ) : cos (m * θ) * sin θ = (sin ((m + 1 : ℕ) * θ) - sin (((m : ℝ) - 1) * θ)) / 2 := by
  have h1 := sin_add (m * θ) θ
  have h2 := sin_sub (m * θ) θ
  push_cast
  rw [show ((m : ℝ) + 1) * θ = m * θ + θ by ring, show ((m : ℝ) - 1) * θ = m * θ - θ by ring, h1, h2]; ring

theorem sineOf_abs (c : ℕ → ℝ) (j : ℕ) (hj : 2 ≤ j) : |sineOf c j| ≤ (|c (j - 1)| + |c (j + 1)|) / 2 := by
  unfold sineOf
  rw [if_neg (by omega), if_neg (by omega), add_zero]
  refine (abs_sub _ _).trans ?_
  rw [abs_div, abs_div, abs_mul, abs_mul, abs_pow, abs_pow]
  simp
  linarith

theorem _root_.HasSum.congr_val {u : ℕ → ℝ} {x y : ℝ} (h : HasSum u x) (e : y = x) : HasSum u y := e ▸ h

theorem circle_expansion {c s : ℕ → ℝ} {f : ℝ → ℝ} (hf : Expansion .chebyshev c s f) :
    Expansion .periodic (fun _ => 0) (sineOf c) (fun θ => f (-cos θ) * sin θ) := by
  have hs : Summable fun m => |c m| := hf.1
  have hs2 : Summable fun m => |sineOf c m| := by
    rw [← summable_nat_add_iff 2]
    have h1 := (summable_nat_add_iff 1).2 hs
    have h3 := (summable_nat_add_iff 3).2 hs
    refine Summable.of_nonneg_of_le (fun _ => abs_nonneg _) (fun m => sineOf_abs c (m + 2) (by omega)) ?_
    exact (h1.add h3).div_const 2
  refine ⟨?_, fun θ _ => ?_⟩
  · refine hs2.congr fun m => ?_
    show _ = |(0 : ℝ)| + |sineOf c m|
    rw [abs_zero, zero_add]
  · have hx : -cos θ ∈ Whole .chebyshev := ⟨by linarith [cos_le_one θ], by linarith [neg_one_le_cos θ]⟩
    have h0 := (hf.2 _ hx).mul_right (sin θ)
    have e0 : (fun m => term .chebyshev c s m (-cos θ) * sin θ) = fun m : ℕ => (-1) ^ m * c m / 2 * sin ((m + 1 : ℕ) * θ) - (-1) ^ m * c m / 2 * sin (((m : ℝ) - 1) * θ) := by
      funext m
      show c m * (Polynomial.Chebyshev.T ℝ m).eval (-cos θ) * sin θ = _
      rw [T_eval_neg_cos, mul_assoc, mul_assoc, cos_mul_sin]; ring
    rw [e0] at h0
    have hb : ∀ u : ℕ → ℝ, (∀ m, |u m| ≤ 1) → Summable fun m : ℕ => (-1 : ℝ) ^ m * c m / 2 * u m := fun u hu => by
      refine Summable.of_norm_bounded hs fun m => ?_
      rw [Real.norm_eq_abs, abs_mul, abs_div, abs_mul, abs_pow]
      simp
      have := mul_le_mul_of_nonneg_left (hu m) (abs_nonneg (c m))
      nlinarith [abs_nonneg (c m)]
    have hA : HasSum (fun m : ℕ => (-1 : ℝ) ^ m * c m / 2 * sin ((m + 1 : ℕ) * θ)) _ := (hb (fun m => sin ((m + 1 : ℕ) * θ)) fun m => abs_sin_le_one _).hasSum
    have hB : HasSum (fun m : ℕ => (-1 : ℝ) ^ m * c m / 2 * sin (((m : ℝ) - 1) * θ)) _ := (hb (fun m => sin (((m : ℝ) - 1) * θ)) fun m => abs_sin_le_one _).hasSum
    have hA' := (hasSum_nat_add_iff (f := fun j : ℕ => (if j = 0 then 0 else (-1 : ℝ) ^ (j - 1) * c (j - 1) / 2) * sin (j * θ)) 1).1
      (by simpa using hA)
    have hB' := (hasSum_nat_add_iff' 1).2 hB
    have hD : HasSum (fun j : ℕ => (if j = 1 then c 0 / 2 else 0) * sin (j * θ)) (c 0 / 2 * sin θ) := by
      have := hasSum_single (f := fun j : ℕ => (if j = 1 then c 0 / 2 else 0) * sin (j * θ)) 1 fun j hj => by simp [hj]
      simpa using this
    have h := (hA'.sub hB').add hD
    have hval := h0.unique (hA.sub hB)
    have e1 : (fun m => term .periodic (fun _ => 0) (sineOf c) m θ) = fun b : ℕ => (if b = 0 then 0 else (-1 : ℝ) ^ (b - 1) * c (b - 1) / 2) * sin (b * θ) -
          (-1) ^ (b + 1) * c (b + 1) / 2 * sin ((((b + 1 : ℕ) : ℝ) - 1) * θ) + (if b = 1 then c 0 / 2 else 0) * sin (b * θ) := by
      funext j
      show 0 * cos (j * θ) + sineOf c j * sin (j * θ) = _
      unfold sineOf
      rw [show (((j + 1 : ℕ) : ℝ) - 1) = j by push_cast; ring]
      ring
    rw [e1]
    refine HasSum.congr_val h ?_
    beta_reduce
    rw [hval]
    simp
    ring

/-- The sum of the coefficients from `J` on. -/
noncomputable def rest (c : ℕ → ℝ) (J : ℕ) : ℝ := ∑' j, |c (j + J)|

theorem rest_mono {c : ℕ → ℝ} (hc : Summable fun j => |c j|) {J K : ℕ} (h : J ≤ K) : rest c K ≤ rest c J := by
  obtain ⟨d, rfl⟩ := Nat.exists_eq_add_of_le h
  unfold rest
  have hs : Summable fun j => |c (j + J)| := (summable_nat_add_iff (f := fun j => |c j|) J).2 hc
  have h1 := hs.sum_add_tsum_nat_add d
  have h2 : 0 ≤ ∑ i ∈ range d, |c (i + J)| := Finset.sum_nonneg fun _ _ => abs_nonneg _
  have e : ∑' j, |c (j + (J + d))| = ∑' j, |c (j + d + J)| := tsum_congr fun j => by rw [show j + (J + d) = j + d + J by ring]
  rw [e]; linarith

theorem amplitude_sineOf (c : ℕ → ℝ) (J j : ℕ) : amplitude .periodic (fun _ => 0) (sineOf c) (j + (J + 2)) ≤ (|c (j + (J + 1))| + |c (j + (J + 3))|) / 2 := by
  have h := sineOf_abs c (j + (J + 2)) (by omega)
  rw [show j + (J + 2) - 1 = j + (J + 1) by omega, show j + (J + 2) + 1 = j + (J + 3) by omega] at h
  have e : amplitude .periodic (fun _ => 0) (sineOf c) (j + (J + 2)) = |(0 : ℝ)| + |sineOf c (j + (J + 2))| := rfl
  rw [e, abs_zero, zero_add]
  exact h

theorem termsOf_double (J : ℕ) : termsOf .periodic (2 * J) = J := by
  have : termsOf .periodic (2 * J) = (2 * J + 1) / 2 := rfl
  omega

theorem tail_sineOf' {c : ℕ → ℝ} (hc : Summable fun j => |c j|) (J : ℕ) : tail .periodic (fun _ => 0) (sineOf c) (2 * (J + 2)) ≤ rest c (J + 1) := by
  have h1 : Summable fun j => |c (j + (J + 1))| := (summable_nat_add_iff (f := fun j => |c j|) (J + 1)).2 hc
  have h3 : Summable fun j => |c (j + (J + 3))| := (summable_nat_add_iff (f := fun j => |c j|) (J + 3)).2 hc
  have hS : Summable fun j => (|c (j + (J + 1))| + |c (j + (J + 3))|) / 2 := (h1.add h3).div_const 2
  have hA : Summable fun j => amplitude .periodic (fun _ => 0) (sineOf c) (j + (J + 2)) :=
    Summable.of_nonneg_of_le (g := fun j => amplitude .periodic (fun _ => 0) (sineOf c) (j + (J + 2))) (f := fun j => (|c (j + (J + 1))| + |c (j + (J + 3))|) / 2)
      (fun j => amplitude_nonneg .periodic (fun _ => 0) (sineOf c) (j + (J + 2))) (amplitude_sineOf c J) hS
  have h := Summable.tsum_le_tsum (f := fun j => amplitude .periodic (fun _ => 0) (sineOf c) (j + (J + 2))) (g := fun j => (|c (j + (J + 1))| + |c (j + (J + 3))|) / 2)
    (amplitude_sineOf c J) hA hS
  have h4 := rest_mono hc (show J + 1 ≤ J + 3 by omega)
  unfold rest at h4
  rw [tsum_div_const, h1.tsum_add h3] at h
  unfold tail rest
  rw [termsOf_double]
  refine h.trans ?_
  linarith

theorem tail_sineOf {c : ℕ → ℝ} (hc : Summable fun j => |c j|) (M : ℕ) (hM : 2 ≤ M) : tail .periodic (fun _ => 0) (sineOf c) (2 * M) ≤ rest c (M - 1) := by
  have h := tail_sineOf' hc (M - 2)
  rw [show M - 2 + 2 = M by omega, show M - 2 + 1 = M - 1 by omega] at h
  exact h

/-- **C92**: the error of `integrate_chebyshev` on the `m + 1` points `-cos (i π/m)`: at most twice the sum of the coefficients of the Chebyshev series from
`8 m - 1` on, times `π/m`. -/
theorem C92_chebyshev (m : ℕ) (hm : 0 < m) (c s : ℕ → ℝ) (f : ℝ → ℝ) (hf : Expansion .chebyshev c s f) :
    (integrate_chebyshev (chebPoints m) f).length = m ∧ ∀ i < m,
      |(integrate_chebyshev (chebPoints m) f).getD i 0 - ∫ x in (-cos (i * (π / m)))..(-cos ((i + 1) * (π / m))), f x| ≤ 2 * (∑' j, |c (j + (8 * m - 1))|) * (π / m) := by
  have hm' : (m : ℝ) ≠ 0 := by positivity
  have hG := circle_expansion hf
  have hG' : Expansion .periodic (fun _ => 0) (sineOf c) (fun θ => (fun θ => f (-cos θ) * sin θ) (0 + θ)) := by
    have e : (fun θ => (fun θ => f (-cos θ) * sin θ) (0 + θ)) = fun θ => f (-cos θ) * sin θ := by funext θ; simp
    rw [e]; exact hG
  obtain ⟨h1, h2⟩ := C92_spectral (2 * m) (by omega) 0 _ _ (fun θ => f (-cos θ) * sin θ) hG'
  rw [chebyshev_of_spectral m hm f _ (eq_tab' h1 0)]
  refine ⟨length_tab _ _, fun i hi => ?_⟩
  have h3 := h2 i (by omega)
  rw [getD_tab hi, integral_subst_on (expansion_continuousOn hf)]
  have e : ∀ j : ℝ, 0 + j * (2 * π / (2 * m : ℕ)) = j * (π / m) := fun j => by push_cast; field_simp; ring
  rw [e, e] at h3
  refine h3.trans ?_
  have e2 : 2 * π / ((2 * m : ℕ) : ℝ) = π / m := by push_cast; field_simp
  rw [e2]
  have h4 := tail_sineOf (show Summable fun j => |c j| from hf.1) (8 * m) (by omega)
  rw [show 2 * (8 * m) = 8 * (2 * m) by ring] at h4
  have : 0 ≤ π / m := by positivity
  exact mul_le_mul_of_nonneg_right (mul_le_mul_of_nonneg_left h4 (by norm_num)) this

/-- **C92**: the error of `integrate_chebyshev_dual` on the dual points of a Chebyshev grid with both ends. -/
theorem C92_chebyshev_dual (m : ℕ) (hm : 0 < m) (c s : ℕ → ℝ) (f : ℝ → ℝ) (hf : Expansion .chebyshev c s f) :
    (integrate_chebyshev_dual (chebDualPoints m) f).length = m + 1 ∧ ∀ i < m + 1,
      |(integrate_chebyshev_dual (chebDualPoints m) f).getD i 0
        - ∫ x in (if i = 0 then -1 else -cos ((i - 1 / 2) * (π / m)))..(if i = m then 1 else -cos ((i + 1 / 2) * (π / m))), f x| ≤ 2 * (∑' j, |c (j + (16 * m - 1))|) * (π / m) := by
  have hm' : (m : ℝ) ≠ 0 := by positivity
  obtain ⟨h1, h2⟩ := C92_chebyshev (2 * m) (by omega) c s f hf
  rw [dual_of_primal m hm f _ (eq_tab' h1 0)]
  refine ⟨length_tab _ _, fun i hi => ?_⟩
  rw [getD_tab hi]
  have hcos : ∀ t, -cos t ∈ Set.Icc (-1 : ℝ) 1 := fun t => ⟨by linarith [cos_le_one t], by linarith [neg_one_le_cos t]⟩
  have hint : ∀ a b : ℝ, IntervalIntegrable f MeasureTheory.volume (-cos a) (-cos b) := fun a b =>
    ((expansion_continuousOn hf).mono (Set.OrdConnected.uIcc_subset Set.ordConnected_Icc (hcos a) (hcos b))).intervalIntegrable
  have hc : ((2 * m : ℕ) : ℝ) = 2 * m := by push_cast; rfl
  rw [show 8 * (2 * m) = 16 * m by ring] at h2
  set R := ∑' j, |c (j + (16 * m - 1))| with hR
  have hR0 : 0 ≤ R := tsum_nonneg fun _ => abs_nonneg _
  have ew : π / ((2 * m : ℕ) : ℝ) = π / m / 2 := by rw [hc]; field_simp
  have hp : 0 ≤ R * (π / m) := by positivity
  by_cases h0 : i = 0
  · subst h0
    have h3 := h2 0 (by omega)
    rw [if_pos rfl, if_neg (by omega), if_pos rfl, if_neg (by omega), zero_add]
    have ea : -cos (((0 : ℕ) : ℝ) * (π / ((2 * m : ℕ) : ℝ))) = -1 := by simp
    have eb : -cos ((((0 : ℕ) : ℝ) + 1) * (π / ((2 * m : ℕ) : ℝ))) = -cos ((((0 : ℕ) : ℝ) + 1 / 2) * (π / m)) := by congr 2; rw [hc]; push_cast; field_simp; try ring
    rw [ea, eb, ew] at h3
    refine h3.trans ?_
    nlinarith
  by_cases h1 : i = m
  · subst h1
    have h3 := h2 (2 * i - 1) (by omega)
    rw [if_neg h0, if_pos rfl, if_neg h0, if_pos rfl, add_zero]
    have ea : -cos (((2 * i - 1 : ℕ) : ℝ) * (π / ((2 * i : ℕ) : ℝ))) = -cos (((i : ℝ) - 1 / 2) * (π / i)) := by
      congr 2; rw [Nat.cast_sub (by omega), hc]; push_cast; field_simp; try ring
    have eb : -cos ((((2 * i - 1 : ℕ) : ℝ) + 1) * (π / ((2 * i : ℕ) : ℝ))) = 1 := by
      rw [Nat.cast_sub (by omega), hc]; push_cast
      rw [show (2 * (i : ℝ) - 1 + 1) * (π / (2 * i)) = π by field_simp; ring, cos_pi, neg_neg]
    rw [ea, eb, ew] at h3
    refine h3.trans ?_
    nlinarith
  · rw [if_neg h0, if_neg h1, if_neg h0, if_neg h1]
    have h3 := h2 (2 * i - 1) (by omega)
    have h4 := h2 (2 * i) (by omega)
    have ea : -cos (((2 * i - 1 : ℕ) : ℝ) * (π / ((2 * m : ℕ) : ℝ))) = -cos (((i : ℝ) - 1 / 2) * (π / m)) := by
      congr 2; rw [Nat.cast_sub (by omega), hc]; push_cast; field_simp; try ring
    have eb : -cos ((((2 * i - 1 : ℕ) : ℝ) + 1) * (π / ((2 * m : ℕ) : ℝ))) = -cos ((i : ℝ) * (π / m)) := by
      congr 2; rw [Nat.cast_sub (by omega), hc]; push_cast; field_simp; ring
    have ec : -cos (((2 * i : ℕ) : ℝ) * (π / ((2 * m : ℕ) : ℝ))) = -cos ((i : ℝ) * (π / m)) := by
      congr 2; rw [hc]; push_cast; field_simp; try ring
    have ed : -cos ((((2 * i : ℕ) : ℝ) + 1) * (π / ((2 * m : ℕ) : ℝ))) = -cos (((i : ℝ) + 1 / 2) * (π / m)) := by
      congr 2; rw [hc]; push_cast; field_simp; try ring
    rw [ea, eb, ew] at h3
    rw [ec, ed, ew] at h4
    have hadj := intervalIntegral.integral_add_adjacent_intervals (hint ((i - 1 / 2) * (π / m)) (i * (π / m))) (hint (i * (π / m)) ((i + 1 / 2) * (π / m)))
    rw [← hadj]
    have h5 := abs_le.1 h3
    have h6 := abs_le.1 h4
    exact abs_le.2 ⟨by nlinarith [h5.1, h6.1], by nlinarith [h5.2, h6.2]⟩

/-! ## Convergence -/

theorem rest_tendsto (c : ℕ → ℝ) {ε : ℝ} (hε : 0 < ε) : ∃ n₀, ∀ J ≥ n₀, 2 * rest c J < ε := by
  have h : Filter.Tendsto (fun J => 2 * rest c J) Filter.atTop (nhds (2 * 0)) := (tendsto_sum_nat_add fun j => |c j|).const_mul 2
  rw [mul_zero] at h
  have := (h.eventually (gt_mem_nhds hε))
  exact Filter.eventually_atTop.1 this

/-- **C92**: the four spectral integrators converge: the errors, divided by the length of the cells (on the circle), become arbitrarily small. -/
theorem C92_convergence (ε : ℝ) (hε : 0 < ε) :
    (∀ (x0 : ℝ) (c s : ℕ → ℝ) (f : ℝ → ℝ), Expansion .periodic c s (fun x => f (x0 + x)) → ∃ n₀, ∀ N ≥ n₀, 0 < N → ∀ i < N,
      |(integrate_spectral_coarse (circlePoints N x0) f).getD i 0 - ∫ x in (x0 + i * (2 * π / N))..(x0 + (i + 1) * (2 * π / N)), f x| ≤ ε * (2 * π / N) ∧
      |(integrate_spectral (circlePoints N x0) f).getD i 0 - ∫ x in (x0 + i * (2 * π / N))..(x0 + (i + 1) * (2 * π / N)), f x| ≤ ε * (2 * π / N)) ∧
    (∀ (c s : ℕ → ℝ) (f : ℝ → ℝ), Expansion .chebyshev c s f → ∃ n₀, ∀ m ≥ n₀, 0 < m →
      (∀ i < m, |(integrate_chebyshev (chebPoints m) f).getD i 0 - ∫ x in (-cos (i * (π / m)))..(-cos ((i + 1) * (π / m))), f x| ≤ ε * (π / m)) ∧
      (∀ i < m + 1, |(integrate_chebyshev_dual (chebDualPoints m) f).getD i 0
        - ∫ x in (if i = 0 then -1 else -cos ((i - 1 / 2) * (π / m)))..(if i = m then 1 else -cos ((i + 1 / 2) * (π / m))), f x| ≤ ε * (π / m))) := by
  constructor
  · intro x0 c s f hf
    obtain ⟨n₀, h⟩ := tail_tendsto .periodic c s hε
    refine ⟨n₀, fun N hN h0 i hi => ⟨((C92_coarse N h0 x0 c s f hf).2 i hi).trans ?_, ((C92_spectral N h0 x0 c s f hf).2 i hi).trans ?_⟩⟩
    · exact mul_le_mul_of_nonneg_right (h N hN N (by omega)).le (by positivity)
    · exact mul_le_mul_of_nonneg_right (h N hN (8 * N) (by omega)).le (by positivity)
  · intro c s f hf
    obtain ⟨n₀, h⟩ := rest_tendsto c hε
    refine ⟨n₀, fun m hm h0 => ⟨fun i hi => ((C92_chebyshev m h0 c s f hf).2 i hi).trans ?_, fun i hi => ((C92_chebyshev_dual m h0 c s f hf).2 i hi).trans ?_⟩⟩
    · exact mul_le_mul_of_nonneg_right (h (8 * m - 1) (by omega)).le (by positivity)
    · exact mul_le_mul_of_nonneg_right (h (16 * m - 1) (by omega)).le (by positivity)

/-! ## Power series -/

/-- **C92**: for a power series that converges absolutely at 1 the errors of the integrators are bounded by the rest of the series. -/
theorem C92_power_series (a : ℕ → ℝ) (f : ℝ → ℝ) (ha : Summable fun k => |a k|) (hf : ∀ x ∈ Set.Icc (-1 : ℝ) 1, HasSum (fun k => a k * x ^ k) (f x)) (m : ℕ) (hm : 0 < m) :
    (∀ i < m, |(integrate_chebyshev (chebPoints m) f).getD i 0 - ∫ x in (-cos (i * (π / m)))..(-cos ((i + 1) * (π / m))), f x| ≤ 2 * (∑' j, |a (j + (8 * m - 1))|) * (π / m)) ∧
    (∀ i < m + 1, |(integrate_chebyshev_dual (chebDualPoints m) f).getD i 0
        - ∫ x in (if i = 0 then -1 else -cos ((i - 1 / 2) * (π / m)))..(if i = m then 1 else -cos ((i + 1 / 2) * (π / m))), f x| ≤ 2 * (∑' j, |a (j + (16 * m - 1))|) * (π / m)) := by
  obtain ⟨c, h1, h2⟩ := power_series_chebyshev a f ha hf
  have h0 : 0 ≤ π / m := by positivity
  refine ⟨fun i hi => ((C92_chebyshev m hm c _ f h1).2 i hi).trans ?_, fun i hi => ((C92_chebyshev_dual m hm c _ f h1).2 i hi).trans ?_⟩
  · exact mul_le_mul_of_nonneg_right (mul_le_mul_of_nonneg_left (h2 _) (by norm_num)) h0
  · exact mul_le_mul_of_nonneg_right (mul_le_mul_of_nonneg_left (h2 _) (by norm_num)) h0

/-- **C92**: the same for the Hodge star of 0-forms and the reconstruction on a Chebyshev grid. -/
theorem C92_power_series_grid (a : ℕ → ℝ) (f : ℝ → ℝ) (ha : Summable fun k => |a k|) (hf : ∀ x ∈ Set.Icc (-1 : ℝ) 1, HasSum (fun k => a k * x ^ k) (f x)) (n : ℕ) (hn : 2 ≤ n) (t : Bool) :
    (∃ b, (Chebyshev.make n).H 0 t ((Chebyshev.make n).P 0 t f) = .ok b ∧ ∀ i < (Chebyshev.make n).N 1 (!t),
      |b.getD i 0 - ((Chebyshev.make n).P 1 (!t) f).getD i 0| ≤ 2 * (∑' j, |a (j + (Chebyshev.make n).N 0 t)|) * ((Chebyshev.make n).P 1 (!t) fun _ => 1).getD i 0) ∧
    ∀ x ∈ Set.Icc (-1 : ℝ) 1, ∃ y, (Chebyshev.make n).R 0 t ((Chebyshev.make n).P 0 t f) x = some y ∧ |y - f x| ≤ 2 * ∑' j, |a (j + (Chebyshev.make n).N 0 t)| := by
  obtain ⟨c, h1, h2⟩ := power_series_chebyshev a f ha hf
  have hv : validSize .chebyshev n := hn
  constructor
  · obtain ⟨b, g1, g2, g3⟩ := C80_star_error .chebyshev n hv 0 t (fun _ => rfl) c _ f h1
    refine ⟨b, g1, fun i hi => (g3 i hi).trans ?_⟩
    refine mul_le_mul_of_nonneg_right (mul_le_mul_of_nonneg_left (h2 _) (by norm_num)) ?_
    have := P_bound (spans' .chebyshev n hv).factor 1 (!t) (cells_in .chebyshev n hv 1 (!t)) continuous_const continuous_const (u := fun _ => (0 : ℝ)) (q := fun _ => 0) (c := 1) (by simp) hi
    rw [one_mul] at this
    exact (abs_nonneg _).trans this
  · intro x hx
    obtain ⟨y, g1, g2⟩ := C80_reconstruction_error .chebyshev n hv 0 t (fun _ => rfl) c _ f h1 x hx
    exact ⟨y, g1, g2.trans (mul_le_mul_of_nonneg_left (h2 _) (by norm_num))⟩

/-- The exponential function meets the hypotheses. -/
theorem exp_power_series : (Summable fun k : ℕ => |(1 : ℝ) / k.factorial|) ∧ ∀ x ∈ Set.Icc (-1 : ℝ) 1, HasSum (fun k : ℕ => (1 : ℝ) / k.factorial * x ^ k) (exp x) := by
  constructor
  · have h := Real.summable_pow_div_factorial 1
    refine h.congr fun k => ?_
    rw [abs_of_nonneg (by positivity), one_pow]
  · intro x _
    have h := NormedSpace.expSeries_div_hasSum_exp (𝔸 := ℝ) x
    rw [← Real.exp_eq_exp_ℝ] at h
    rw [show (fun k : ℕ => (1 : ℝ) / k.factorial * x ^ k) = fun k : ℕ => x ^ k / k.factorial from funext fun k => by ring]
    exact h

example : ∀ i < 3, |(integrate_chebyshev (chebPoints 3) exp).getD i 0 - ∫ x in (-cos (i * (π / (3 : ℕ))))..(-cos ((i + 1) * (π / (3 : ℕ)))), exp x|
    ≤ 2 * (∑' j : ℕ, |(1 : ℝ) / (j + 23).factorial|) * (π / (3 : ℕ)) :=
  (C92_power_series _ exp exp_power_series.1 exp_power_series.2 3 (by norm_num)).1

/-- A function that no grid resolves, on four cells starting at 0. -/
example : (integrate_spectral (circlePoints 4 0) fun x => ∑' m : ℕ, (1 / 2 : ℝ) ^ m * cos (m * x)).length = 4 :=
  (C92_spectral 4 (by norm_num) 0 _ _ _ (by simpa using expansion_example)).1

end Dec.Props
