import Verif.Props.Accuracy
import Verif.Props.PeriodicCalculus
import Mathlib.Analysis.Calculus.SmoothSeries

set_option linter.unusedSimpArgs false
set_option linter.unusedVariables false

/-! # C80, the Laplacian -/

namespace Dec.Props

open Finset Real G2 Sp

/-- The Laplacian of determined samples, with any second derivative. -/
theorem lap_determined {n : ℕ} (hn : 0 < n) (t : Bool) {p p' p'' : ℝ → ℝ} (hp : Determined .periodic n 0 t p) (h1 : ∀ θ, HasDerivAt p (p' θ) θ) (h2 : ∀ θ, HasDerivAt p' (p'' θ) θ) :
    (Periodic.make n).laplacian t ((Periodic.make n).P 0 t p) = .ok ((Periodic.make n).P 0 t p'') := by
  obtain ⟨q', q'', h3, h4, h5⟩ := Periodic.laplacian_rep t (IsTrigAt.res hn ((determined_iff .periodic n hn 0 t p).1 hp))
  have e1 : q' = p' := funext fun θ => (h3 θ).unique (h1 θ)
  subst e1
  have e2 : q'' = p'' := funext fun θ => (h4 θ).unique (h2 θ)
  subst e2
  exact h5

theorem lap_exists {n : ℕ} (hn : 0 < n) (t : Bool) {p : ℝ → ℝ} (hp : Determined .periodic n 0 t p) :
    ∃ p' p'' : ℝ → ℝ, (∀ θ, HasDerivAt p (p' θ) θ) ∧ ∀ θ, HasDerivAt p' (p'' θ) θ := by
  obtain ⟨q', q'', h3, h4, _⟩ := Periodic.laplacian_rep t (IsTrigAt.res hn ((determined_iff .periodic n hn 0 t p).1 hp))
  exact ⟨q', q'', h3, h4⟩

theorem wave_deriv (ρ κ β θ : ℝ) : HasDerivAt (fun θ => ρ * cos (κ * θ + β)) (κ * (ρ * -sin (κ * θ + β))) θ ∧
    HasDerivAt (fun θ => κ * (ρ * -sin (κ * θ + β))) (-(κ ^ 2 * (ρ * cos (κ * θ + β)))) θ := by
  have h0 : HasDerivAt (fun θ => κ * θ + β) κ θ := by simpa using ((hasDerivAt_id θ).const_mul κ).add_const β
  constructor
  · refine (h0.cos.const_mul ρ).congr_deriv ?_; ring
  · refine ((h0.sin.neg.const_mul ρ).const_mul κ).congr_deriv ?_; ring

/-- The alias of a term, with its second derivative. -/
theorem lap_alias {n : ℕ} (hn : 0 < n) (t : Bool) (c s : ℕ → ℝ) (m : ℕ) :
    ∃ q q' q'' : ℝ → ℝ, Determined .periodic n 0 t q ∧ (Periodic.make n).P 0 t q = (Periodic.make n).P 0 t (term .periodic c s m) ∧
      (∀ θ, HasDerivAt q (q' θ) θ) ∧ (∀ θ, HasDerivAt q' (q'' θ) θ) ∧ (∀ x, |q'' x| ≤ (m : ℝ) ^ 2 * amplitude .periodic c s m) ∧
      (2 * m < n → ∀ x, q'' x = -((m : ℝ) ^ 2 * term .periodic c s m x)) := by
  obtain ⟨m₁, ρ₁, β₁, h1, h2, h3, h4, _, h6⟩ := periodic_alias hn 0 t m 0
  obtain ⟨m₂, ρ₂, β₂, k1, k2, k3, k4, _, k6⟩ := periodic_alias hn 0 t m (-(π / 2))
  have hsin : ∀ θ, cos ((m : ℝ) * θ + -(π / 2)) = sin (m * θ) := fun θ => by rw [← sub_eq_add_neg, cos_sub_pi_div_two]
  simp only [add_zero] at h4 h6
  simp only [hsin] at k4 k6
  have hd : ∀ θ, HasDerivAt (fun θ => c m * (ρ₁ * cos (m₁ * θ + β₁)) + s m * (ρ₂ * cos (m₂ * θ + β₂)))
      (c m * (m₁ * (ρ₁ * -sin (m₁ * θ + β₁))) + s m * (m₂ * (ρ₂ * -sin (m₂ * θ + β₂)))) θ := fun θ =>
    ((wave_deriv ρ₁ m₁ β₁ θ).1.const_mul (c m)).add ((wave_deriv ρ₂ m₂ β₂ θ).1.const_mul (s m))
  have hd2 : ∀ θ, HasDerivAt (fun θ => c m * (m₁ * (ρ₁ * -sin (m₁ * θ + β₁))) + s m * (m₂ * (ρ₂ * -sin (m₂ * θ + β₂))))
      (c m * -((m₁ : ℝ) ^ 2 * (ρ₁ * cos (m₁ * θ + β₁))) + s m * -((m₂ : ℝ) ^ 2 * (ρ₂ * cos (m₂ * θ + β₂)))) θ := fun θ =>
    ((wave_deriv ρ₁ m₁ β₁ θ).2.const_mul (c m)).add ((wave_deriv ρ₂ m₂ β₂ θ).2.const_mul (s m))
  have key : ∀ (κ : ℤ) (ρ x a : ℝ), |κ| ≤ m → |ρ| ≤ 1 → |a * -((κ : ℝ) ^ 2 * (ρ * cos x))| ≤ (m : ℝ) ^ 2 * |a| := fun κ ρ x a hκ hρ => by
    have e1 : |(κ : ℝ)| ≤ m := by exact_mod_cast hκ
    have e2 : (κ : ℝ) ^ 2 ≤ (m : ℝ) ^ 2 := by rw [← sq_abs]; exact pow_le_pow_left₀ (abs_nonneg _) e1 2
    rw [abs_mul, abs_neg, abs_mul, abs_of_nonneg (sq_nonneg (κ : ℝ)), mul_comm]
    refine mul_le_mul_of_nonneg_right ?_ (abs_nonneg _)
    exact (mul_le_of_le_one_right (sq_nonneg _) (mul_cos_le hρ)).trans e2
  refine ⟨_, _, _, ?_, ?_, hd, hd2, fun x => ?_, fun hm x => ?_⟩
  · have sp := space_trigAt n (if ((0 : Fin 2) = 0) = (t = true) then 0 else π / n)
    exact sp.add _ _ (sp.smul (c m) _ h3) (sp.smul (s m) _ k3)
  · refine periodic_P_congr 0 t (fun h j => ?_) fun h j => absurd h (by decide)
    show c m * _ + s m * _ = c m * cos _ + s m * sin _
    rw [h4 trivial j, k4 trivial j]
  · show _ ≤ (m : ℝ) ^ 2 * (|c m| + |s m|)
    rw [mul_add]
    exact (abs_add_le _ _).trans (add_le_add (key m₁ ρ₁ _ _ h1 h2) (key m₂ ρ₂ _ _ k1 k2))
  · -- both are second derivatives of the same function
    have e : (fun θ => c m * (ρ₁ * cos (m₁ * θ + β₁)) + s m * (ρ₂ * cos (m₂ * θ + β₂))) = fun θ => c m * (1 * cos (m * θ + 0)) + s m * (1 * cos (m * θ + -(π / 2))) := by
      funext θ; rw [h6 hm, k6 hm, one_mul, one_mul, add_zero, hsin]
    have hd' := hd
    rw [e] at hd'
    have e' : (fun θ => c m * (m₁ * (ρ₁ * -sin (m₁ * θ + β₁))) + s m * (m₂ * (ρ₂ * -sin (m₂ * θ + β₂))))
        = fun θ => c m * ((m : ℝ) * (1 * -sin (m * θ + 0))) + s m * ((m : ℝ) * (1 * -sin (m * θ + -(π / 2)))) := funext fun θ =>
      (hd' θ).unique (((wave_deriv 1 m 0 θ).1.const_mul (c m)).add ((wave_deriv 1 m (-(π / 2)) θ).1.const_mul (s m)))
    have hd2' := hd2 x
    rw [e'] at hd2'
    refine (hd2'.unique (((wave_deriv 1 m 0 x).2.const_mul (c m)).add ((wave_deriv 1 m (-(π / 2)) x).2.const_mul (s m)))).trans ?_
    show _ = -((m : ℝ) ^ 2 * (c m * cos (m * x) + s m * sin (m * x)))
    rw [add_zero, hsin]; ring

/-- The second derivative of a series. -/
theorem series_second_deriv (c s : ℕ → ℝ) (hs : Summable fun m : ℕ => (m : ℝ) ^ 2 * amplitude .periodic c s m) (f f' f'' : ℝ → ℝ) (hf : Expansion .periodic c s f)
    (h1 : ∀ θ, HasDerivAt f (f' θ) θ) (h2 : ∀ θ, HasDerivAt f' (f'' θ) θ) (x : ℝ) : HasSum (fun m : ℕ => -((m : ℝ) ^ 2 * term .periodic c s m x)) (f'' x) := by
  have hA := amplitude_nonneg .periodic c s
  have d1 : ∀ (m : ℕ) (y : ℝ), HasDerivAt (term .periodic c s m) ((m : ℝ) * (s m * cos (m * y) - c m * sin (m * y))) y := fun m y => by
    have h0 : HasDerivAt (fun θ => (m : ℝ) * θ) m y := by simpa using (hasDerivAt_id y).const_mul (m : ℝ)
    refine ((h0.cos.const_mul (c m)).add (h0.sin.const_mul (s m))).congr_deriv ?_; ring
  have d2 : ∀ (m : ℕ) (y : ℝ), HasDerivAt (fun y => (m : ℝ) * (s m * cos (m * y) - c m * sin (m * y))) (-((m : ℝ) ^ 2 * term .periodic c s m y)) y := fun m y => by
    have h0 : HasDerivAt (fun θ => (m : ℝ) * θ) m y := by simpa using (hasDerivAt_id y).const_mul (m : ℝ)
    refine (((h0.cos.const_mul (s m)).sub (h0.sin.const_mul (c m))).const_mul (m : ℝ)).congr_deriv ?_
    show _ = -((m : ℝ) ^ 2 * (c m * cos (m * y) + s m * sin (m * y)))
    ring
  have b1 : ∀ (m : ℕ) (y : ℝ), ‖(m : ℝ) * (s m * cos (m * y) - c m * sin (m * y))‖ ≤ (m : ℝ) ^ 2 * amplitude .periodic c s m := fun m y => by
    rw [Real.norm_eq_abs, abs_mul, abs_of_nonneg (Nat.cast_nonneg m)]
    have e1 : |s m * cos (m * y) - c m * sin (m * y)| ≤ amplitude .periodic c s m := by
      refine (abs_sub _ _).trans ?_
      show _ ≤ |c m| + |s m|
      rw [abs_mul, abs_mul, add_comm]
      exact add_le_add (mul_le_of_le_one_right (abs_nonneg _) (abs_sin_le_one _)) (mul_le_of_le_one_right (abs_nonneg _) (abs_cos_le_one _))
    have e2 : (m : ℝ) ≤ (m : ℝ) ^ 2 := by
      rcases Nat.eq_zero_or_pos m with rfl | hm
      · simp
      · have : (1 : ℝ) ≤ m := by exact_mod_cast hm
        nlinarith
    exact mul_le_mul e2 e1 (abs_nonneg _) (by positivity)
  have b2 : ∀ (m : ℕ) (y : ℝ), ‖-((m : ℝ) ^ 2 * term .periodic c s m y)‖ ≤ (m : ℝ) ^ 2 * amplitude .periodic c s m := fun m y => by
    rw [Real.norm_eq_abs, abs_neg, abs_mul, abs_of_nonneg (by positivity : (0 : ℝ) ≤ (m : ℝ) ^ 2)]
    exact mul_le_mul_of_nonneg_left (term_bound .periodic c s m (Set.mem_univ y)) (by positivity)
  have e0 : f = fun y => ∑' m, term .periodic c s m y := funext fun y => ((hf.2 y (Set.mem_univ y)).tsum_eq).symm
  have e1 : f' = fun y => ∑' m : ℕ, (m : ℝ) * (s m * cos (m * y) - c m * sin (m * y)) := funext fun y => by
    have := h1 y
    rw [e0] at this
    exact this.unique (hasDerivAt_tsum hs d1 b1 ((hf.2 0 (Set.mem_univ 0)).summable) y)
  have e2 : f'' x = ∑' m : ℕ, -((m : ℝ) ^ 2 * term .periodic c s m x) := by
    have := h2 x
    rw [e1] at this
    exact this.unique (hasDerivAt_tsum hs d2 b2 (Summable.of_norm_bounded hs fun m => b1 m 0) x)
  rw [e2]
  exact (Summable.of_norm_bounded hs fun m => b2 m x).hasSum

/-- **C80**: the Laplacian of a discretised function, compared with the samples of the second derivative of the function, on a periodic grid, at every
primal or dual vertex: the error is at most twice the sum of the `m²` times the amplitudes of the terms that the grid does not resolve. -/
theorem C80_laplacian_error (n : ℕ) (hn : 0 < n) (t : Bool) (c s : ℕ → ℝ) (hs : Summable fun m : ℕ => (m : ℝ) ^ 2 * amplitude .periodic c s m) (f f' f'' : ℝ → ℝ)
    (hf : Expansion .periodic c s f) (h1 : ∀ θ, HasDerivAt f (f' θ) θ) (h2 : ∀ θ, HasDerivAt f' (f'' θ) θ) :
    ∃ b, (Periodic.make n).laplacian t ((Periodic.make n).P 0 t f) = .ok b ∧ b.length = n ∧
      ∀ i < n, |b.getD i 0 - ((Periodic.make n).P 0 t f'').getD i 0| ≤ 2 * ∑' m : ℕ, ((m + (n + 1) / 2 : ℕ) : ℝ) ^ 2 * amplitude .periodic c s (m + (n + 1) / 2) := by
  have sp := spans' .periodic n hn
  obtain ⟨b, hb, hB, hr⟩ := spans_reps sp 0 t
  have hN : ∀ d t, (grid₀ .periodic n).N d t = n := fun _ _ => rfl
  have hlen : ∀ f, ((Periodic.make n).P 0 t f).length = n := fun f => by
    have := P0_tab sp.factor t f
    show ((grid₀ .periodic n).P 0 t f).length = n
    rw [this, length_tab, hN]
  have hder : ∀ j < n, ∃ p' p'' : ℝ → ℝ, (∀ θ, HasDerivAt (b j) (p' θ) θ) ∧ ∀ θ, HasDerivAt p' (p'' θ) θ := fun j hj => lap_exists hn t (hb j hj)
  choose! b' b'' hb1 hb2 using hder
  have hsum : ∀ (g g' : ℕ → ℝ → ℝ) (a : ℕ → ℝ), (∀ j < n, ∀ θ, HasDerivAt (g j) (g' j θ) θ) → ∀ θ, HasDerivAt (fun x => ∑ j ∈ range n, a j * g j x) (∑ j ∈ range n, a j * g' j θ) θ :=
    fun g g' a h θ => HasDerivAt.fun_sum fun j hj => (h j (mem_range.1 hj) θ).const_mul (a j)
  have hmat : ∀ f : ℝ → ℝ, ∃ c, (Periodic.make n).laplacian t ((Periodic.make n).P 0 t f) = .ok c ∧ c.length = n ∧
      ∀ i < n, c.getD i 0 = ∑ j ∈ range n, pe (grid₀ .periodic n) 0 t f j * b'' j (vx (grid₀ .periodic n) t i) := fun f => by
    obtain ⟨e1, e2⟩ := hr ((Periodic.make n).P 0 t f) (hlen f)
    refine ⟨(Periodic.make n).P 0 t fun x => ∑ j ∈ range n, ((Periodic.make n).P 0 t f).getD j 0 * b'' j x, ?_, hlen _, fun i hi => ?_⟩
    · have := lap_determined hn t e1 (hsum b b' _ hb1) (hsum b' b'' _ hb2)
      rw [show (Periodic.make n).P 0 t _ = _ from e2] at this
      exact this
    · exact pe0 sp.factor t _ (show i < (grid₀ .periodic n).N 0 t from hi)
  have hal := lap_alias hn t c s
  choose q q' q'' q1 q2 q3 q4 q5 q6 using hal
  obtain ⟨r, r1, r2, r3⟩ := hmat f
  refine ⟨r, r1, r2, fun i hi => ?_⟩
  have hi' : i < (grid₀ .periodic n).N 0 t := hi
  have hf2 := series_second_deriv c s hs f f' f'' hf h1 h2
  have h5 : HasSum (fun m => q'' m (vx (grid₀ .periodic n) t i)) (r.getD i 0) := by
    rw [r3 i hi]
    have e : (fun m => q'' m (vx (grid₀ .periodic n) t i)) = fun m => ∑ j ∈ range n, pe (grid₀ .periodic n) 0 t (term .periodic c s m) j * b'' j (vx (grid₀ .periodic n) t i) := by
      funext m
      obtain ⟨r', r1', _, r3'⟩ := hmat (q m)
      rw [lap_determined hn t (q1 m) (q3 m) (q4 m)] at r1'
      injection r1' with r1'
      have := r3' i hi
      rw [← r1'] at this
      refine ((pe0 sp.factor t (q'' m) hi').symm.trans this).trans (sum_congr rfl fun j _ => ?_)
      have hq : (grid₀ .periodic n).P 0 t (q m) = (grid₀ .periodic n).P 0 t (term .periodic c s m) := q2 m
      unfold pe
      rw [hq]
    rw [e]
    exact hasSum_sum fun j hj => (P_hasSum sp.factor 0 t (cells_in .periodic n hn 0 t) (term_cont .periodic c s) hf.1 (fun m x hx => term_bound .periodic c s m hx) hf.2
      (show j < (grid₀ .periodic n).N 0 t from mem_range.1 hj)).mul_right _
  have h6 := h5.sub (hf2 (vx (grid₀ .periodic n) t i))
  have h7 := series_error ((n + 1) / 2) (hs.mul_left (2 : ℝ)) h6 (fun m hm => by rw [q6 m (by omega), sub_self]) (fun m => by
    have e1 := q5 m (vx (grid₀ .periodic n) t i)
    have e2 : |(-((m : ℝ) ^ 2 * term .periodic c s m (vx (grid₀ .periodic n) t i)))| ≤ (m : ℝ) ^ 2 * amplitude .periodic c s m := by
      rw [abs_neg, abs_mul, abs_of_nonneg (by positivity : (0 : ℝ) ≤ (m : ℝ) ^ 2)]
      exact mul_le_mul_of_nonneg_left (term_bound .periodic c s m (Set.mem_univ _)) (by positivity)
    have e3 := abs_sub (q'' m (vx (grid₀ .periodic n) t i)) (-((m : ℝ) ^ 2 * term .periodic c s m (vx (grid₀ .periodic n) t i)))
    linarith)
  rw [tsum_mul_left] at h7
  have e4 : ((Periodic.make n).P 0 t f'').getD i 0 = f'' (vx (grid₀ .periodic n) t i) := pe0 sp.factor t f'' hi'
  rw [e4]
  exact h7

/-- The hypotheses can be met: a function with infinitely many frequencies. -/
example : ∃ f f' f'' : ℝ → ℝ, (Summable fun m : ℕ => (m : ℝ) ^ 2 * amplitude .periodic (fun m => (1 / 2) ^ m) (fun _ => 0) m) ∧
    Expansion .periodic (fun m => (1 / 2) ^ m) (fun _ => 0) f ∧ (∀ θ, HasDerivAt f (f' θ) θ) ∧ ∀ θ, HasDerivAt f' (f'' θ) θ := by
  have hs : Summable fun m : ℕ => (m : ℝ) ^ 2 * (1 / 2 : ℝ) ^ m := summable_pow_mul_geometric_of_norm_lt_one 2 (by norm_num)
  have d1 : ∀ (m : ℕ) (y : ℝ), HasDerivAt (fun x => (1 / 2 : ℝ) ^ m * cos (m * x)) ((m : ℝ) * ((1 / 2 : ℝ) ^ m * -sin (m * y))) y := fun m y => by
    simpa using (wave_deriv ((1 / 2 : ℝ) ^ m) m 0 y).1
  have d2 : ∀ (m : ℕ) (y : ℝ), HasDerivAt (fun y => (m : ℝ) * ((1 / 2 : ℝ) ^ m * -sin (m * y))) (-((m : ℝ) ^ 2 * ((1 / 2 : ℝ) ^ m * cos (m * y)))) y := fun m y => by
    simpa using (wave_deriv ((1 / 2 : ℝ) ^ m) m 0 y).2
  have hp : ∀ m : ℕ, (0 : ℝ) ≤ (1 / 2) ^ m := fun m => by positivity
  have b1 : ∀ (m : ℕ) (y : ℝ), ‖(m : ℝ) * ((1 / 2 : ℝ) ^ m * -sin (m * y))‖ ≤ (m : ℝ) ^ 2 * (1 / 2 : ℝ) ^ m := fun m y => by
    rw [Real.norm_eq_abs, abs_mul, abs_mul, abs_neg, abs_of_nonneg (Nat.cast_nonneg m), abs_of_nonneg (hp m)]
    have e2 : (m : ℝ) ≤ (m : ℝ) ^ 2 := by
      rcases Nat.eq_zero_or_pos m with rfl | hm
      · simp
      · have : (1 : ℝ) ≤ m := by exact_mod_cast hm
        nlinarith
    exact mul_le_mul e2 (mul_le_of_le_one_right (hp m) (abs_sin_le_one _)) (by positivity) (by positivity)
  have b2 : ∀ (m : ℕ) (y : ℝ), ‖-((m : ℝ) ^ 2 * ((1 / 2 : ℝ) ^ m * cos (m * y)))‖ ≤ (m : ℝ) ^ 2 * (1 / 2 : ℝ) ^ m := fun m y => by
    rw [Real.norm_eq_abs, abs_neg, abs_mul, abs_mul, abs_of_nonneg (by positivity : (0 : ℝ) ≤ (m : ℝ) ^ 2), abs_of_nonneg (hp m)]
    exact mul_le_mul_of_nonneg_left (mul_le_of_le_one_right (hp m) (abs_cos_le_one _)) (by positivity)
  refine ⟨_, _, _, ?_, expansion_example, fun θ => hasDerivAt_tsum (y₀ := 0) hs d1 b1 ?_ θ, fun θ => hasDerivAt_tsum hs d2 b2 (Summable.of_norm_bounded hs fun m => b1 m 0) θ⟩
  · refine hs.congr fun m => ?_
    show _ = (m : ℝ) ^ 2 * (|(1 / 2 : ℝ) ^ m| + |(0 : ℝ)|)
    rw [abs_of_nonneg (hp m), abs_zero, add_zero]
  · have := (expansion_example.2 0 (Set.mem_univ 0)).summable
    refine this.congr fun m => ?_
    show _ * _ + 0 * _ = _
    ring

end Dec.Props
