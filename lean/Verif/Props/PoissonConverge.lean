import Verif.Props.AccuracyLaplace
import Verif.Lib.Energy
import Verif.Props.Poisson
import Verif.Props.QuadratureError
import Mathlib.NumberTheory.ZetaValues

set_option linter.unusedSimpArgs false
set_option linter.unusedVariables false

/-! # C94: the periodic Poisson example converges (`/repo/doc/plot/cheb/poisson1d_periodic.py`) -/

namespace Dec.Props

open Finset Real Sp G2

theorem int_square_sum (s : Finset ℤ) : ∑ m ∈ s, (1 : ℝ) / (m : ℝ) ^ 2 ≤ π ^ 2 / 3 := by
  have h1 : HasSum (fun n : ℕ => (1 : ℝ) / (((n : ℕ) : ℤ) : ℝ) ^ 2) (π ^ 2 / 6) := by simpa using hasSum_zeta_two
  have h2 : HasSum (fun n : ℕ => (1 : ℝ) / ((-((n : ℤ) + 1) : ℤ) : ℝ) ^ 2) (π ^ 2 / 6) := by
    have := (hasSum_nat_add_iff' (f := fun n : ℕ => (1 : ℝ) / (n : ℝ) ^ 2) 1).2 hasSum_zeta_two
    simp only [sum_range_one, Nat.cast_zero] at this
    rw [show π ^ 2 / 6 - 1 / (0 : ℝ) ^ 2 = π ^ 2 / 6 by norm_num] at this
    rw [show (fun n : ℕ => (1 : ℝ) / ((-((n : ℤ) + 1) : ℤ) : ℝ) ^ 2) = fun n : ℕ => (1 : ℝ) / ((n + 1 : ℕ) : ℝ) ^ 2 from
      funext fun n => by push_cast; congr 1; ring]
    exact this
  have h3 := HasSum.of_nat_of_neg_add_one (f := fun m : ℤ => (1 : ℝ) / (m : ℝ) ^ 2) h1 h2
  have := sum_le_hasSum s (fun m _ => by positivity) h3
  linarith

/-- The Laplacian multiplies the Fourier coefficients by `-m²`. -/
theorem lap_coef {n : ℕ} (hn : 0 < n) (t : Bool) (x : ℕ → ℝ) :
    ∃ y : ℕ → ℝ, (Periodic.make n).laplacian t (tab n x) = .ok (tab n y) ∧
      ∀ k < n, coef n (fun i => (y i : ℂ)) k = coef n (fun i => (x i : ℂ)) k * (-((fr n k : ℝ) ^ 2 : ℝ) : ℂ) := by
  set φ := Periodic.ph n 0 t with hφ
  set c := coef n (fun i => (x i : ℂ)) with hc
  set d : ℕ → ℂ := fun k => (-((fr n k : ℝ) ^ 2 : ℝ) : ℂ) with hd
  have hre : RealEven n d := by
    intro k hk
    simp only [hd, map_neg, Complex.conj_ofReal]
    rcases fr_sig hk with h1 | ⟨_, h2, h3⟩
    · rw [h1]; push_cast; ring
    · rw [h3, h2]
  have hi : ∀ j < n, (synth n c (j * hh n)).im = 0 := fun j hj => by rw [hc, synth_coef _ hj]; simp
  have hres : Res n φ fun θ => (synth n c (θ - φ)).re := ⟨c, fun θ => by simp, hi⟩
  obtain ⟨p', p'', h1, h2, h3⟩ := Periodic.laplacian_rep t hres
  have ders : ∀ (e : ℕ → ℂ) (θ : ℝ), HasDerivAt (fun θ => (synth n e (θ - φ)).re) (synth n (fun k => e k * (Complex.I * fr n k)) (θ - φ)).re θ := by
    intro e θ
    have h : HasDerivAt (fun θ : ℝ => synth n e θ) (synth n (fun k => e k * (Complex.I * fr n k)) (θ - φ)) (θ - φ) := by
      unfold synth
      refine HasDerivAt.congr_deriv (HasDerivAt.fun_sum fun k _ => (hasDerivAt_E (fr n k) (θ - φ)).const_mul (e k)) ?_
      exact sum_congr rfl fun k _ => by ring
    have h' := h.comp_sub_const θ φ
    exact (Complex.reCLM.hasFDerivAt.comp_hasDerivAt θ h')
  have e1 : p' = fun θ => (synth n (fun k => c k * (Complex.I * fr n k)) (θ - φ)).re := funext fun θ => (h1 θ).unique (ders c θ)
  subst e1
  have e2 : p'' = fun θ => (synth n (fun k => c k * d k) (θ - φ)).re := funext fun θ => by
    rw [(h2 θ).unique (ders _ θ)]
    congr 1
    refine synth_congr (fun k _ => ?_) _
    simp only [hd]
    push_cast
    linear_combination (c k * (fr n k : ℂ) ^ 2) * Complex.I_sq
  subst e2
  have hs : ∀ e : ℕ → ℂ, (Periodic.make n).P 0 t (fun θ => (synth n e (θ - φ)).re) = tab n fun j => (synth n e (j * hh n)).re := by
    intro e
    have : (Periodic.make n).P 0 t (fun θ => (synth n e (θ - φ)).re) = samp n φ fun θ => (synth n e (θ - φ)).re := by
      cases t
      · rw [hφ, Periodic.ph_00, Periodic.P0d_samp]
      · rw [hφ, Periodic.ph_01, Periodic.P0_samp]
    rw [this]; unfold samp
    exact tab_congr fun j _ => by simp
  refine ⟨fun j => (synth n (fun k => c k * d k) (j * hh n)).re, ?_, ?_⟩
  · rw [hs, hs] at h3
    rw [← h3]
    congr 1
    exact tab_congr fun j hj => by rw [hc, synth_coef _ hj]; simp
  · intro k hk
    rw [← coef_synth (fun k => c k * d k) hk]
    refine coef_congr (fun j hj => ?_) k
    have := im_synth_zero (N := n) (x := fun i => (x i : ℂ)) (d := d) (fun j _ => by simp) hre (j : ℤ)
    rw [Int.cast_natCast] at this
    exact Complex.ext (by simp [hc]) (by simpa [hc] using this.symm)

theorem coef_bound {n : ℕ} (hn : 0 < n) (y : ℕ → ℝ) (k : ℕ) : ‖coef n (fun i => (y i : ℂ)) k‖ ≤ (∑ j ∈ range n, |y j|) / n := by
  unfold coef
  rw [norm_div, Complex.norm_natCast]
  gcongr
  refine (norm_sum_le _ _).trans (sum_le_sum fun j _ => ?_)
  rw [norm_mul, norm_E, mul_one, Complex.norm_real, Real.norm_eq_abs]

theorem fr_zero {n k : ℕ} : fr n k = 0 ↔ k = n / 2 := by unfold fr; omega

theorem coef_mean {n : ℕ} (x : ℕ → ℝ) : coef n (fun i => (x i : ℂ)) (n / 2) = (((∑ j ∈ range n, x j) / n : ℝ) : ℂ) := by
  unfold coef
  rw [fr_zero.2 rfl]
  simp [E_zero']

/-- **C94** (stability): the Laplacian of a periodic grid controls the deviation of an array from its mean, with a constant that does not depend on the number of vertices: for every array `a`, on
primal and dual vertices, each number differs from the mean by at most `π²/3` times the mean absolute value of the Laplacian. -/
theorem C94_stability (n : ℕ) (hn : 0 < n) (t : Bool) (a b : List ℝ) (ha : a.length = n) (hb : (Periodic.make n).laplacian t a = .ok b) (i : ℕ) (hi : i < n) :
    |a.getD i 0 - a.sum / n| ≤ π ^ 2 / 3 * ((b.map (|·|)).sum / n) := by
  rw [eq_tab' ha 0] at hb ⊢
  set x : ℕ → ℝ := fun i => a.getD i 0
  obtain ⟨y, h1, h2⟩ := lap_coef hn t x
  rw [h1] at hb
  obtain rfl := Except.ok.inj hb
  rw [map_tab, sum_tab, sum_tab, getD_tab hi 0]
  set M := (∑ j ∈ range n, |y j|) / (n : ℝ) with hM
  have hx := synth_coef (N := n) (fun i => (x i : ℂ)) hi
  have hk0 : n / 2 < n := Nat.div_lt_self hn (by norm_num)
  unfold synth at hx
  rw [← Finset.add_sum_erase _ _ (mem_range.2 hk0), coef_mean, fr_zero.2 rfl, E_zero', mul_one] at hx
  have hx' : ((x i - (∑ j ∈ range n, x j) / n : ℝ) : ℂ) = ∑ k ∈ (range n).erase (n / 2), coef n (fun i => (x i : ℂ)) k * E (fr n k) (i * hh n) := by
    rw [Complex.ofReal_sub, ← hx]; ring
  rw [← Real.norm_eq_abs, ← Complex.norm_real, hx']
  have hMn : 0 ≤ M := by positivity
  calc _ ≤ ∑ k ∈ (range n).erase (n / 2), M * (1 / (fr n k : ℝ) ^ 2) := by
        refine (norm_sum_le _ _).trans (sum_le_sum fun k hk => ?_)
        simp only [mem_erase, mem_range] at hk
        rw [norm_mul, norm_E, mul_one]
        have h3 := coef_bound hn y k
        rw [h2 k hk.2, norm_mul, norm_neg, Complex.norm_real, Real.norm_eq_abs, abs_of_nonneg (by positivity)] at h3
        have h4 : (0 : ℝ) < (fr n k : ℝ) ^ 2 := by
          have : (fr n k : ℝ) ≠ 0 := by
            have := mt fr_zero.1 hk.1
            exact_mod_cast this
          positivity
        rw [mul_one_div, le_div_iff₀ h4]
        exact h3
    _ ≤ ∑ k ∈ range n, M * (1 / (fr n k : ℝ) ^ 2) := sum_le_sum_of_subset_of_nonneg (erase_subset _ _) fun k _ _ => by positivity
    _ = M * ∑ m ∈ Finset.Ico (-((n / 2 : ℕ) : ℤ)) (n - (n / 2 : ℕ)), 1 / (m : ℝ) ^ 2 := by rw [sum_Ico_fr n (fun m : ℤ => 1 / (m : ℝ) ^ 2), mul_sum]
    _ ≤ M * (π ^ 2 / 3) := by gcongr; exact int_square_sum _
    _ = _ := by ring


/-- **C94** (stability in the mean square): the deviations of an array from its mean have at most the mean square of the Laplacian. -/
theorem C94_stability_l2 (n : ℕ) (hn : 0 < n) (t : Bool) (a b : List ℝ) (ha : a.length = n) (hb : (Periodic.make n).laplacian t a = .ok b) :
    (a.map fun x => (x - a.sum / n) ^ 2).sum ≤ (b.map (· ^ 2)).sum := by
  rw [eq_tab' ha 0] at hb ⊢
  set x : ℕ → ℝ := fun i => a.getD i 0
  obtain ⟨y, h1, h2⟩ := lap_coef hn t x
  rw [h1] at hb
  obtain rfl := Except.ok.inj hb
  rw [map_tab, map_tab, sum_tab, sum_tab, sum_tab]
  have hk0 : n / 2 < n := Nat.div_lt_self hn (by norm_num)
  have pars : ∀ z : ℕ → ℝ, ∑ j ∈ range n, z j ^ 2 = n * ∑ k ∈ range n, ‖coef n (fun i => (z i : ℂ)) k‖ ^ 2 := fun z => by
    have h := parseval hn z z fun _ => 1
    simp only [mul_one] at h
    rw [show (∑ j ∈ range n, z j ^ 2) = ∑ j ∈ range n, z j * (synth n (fun k => coef n (fun i => (z i : ℂ)) k) (j * hh n)).re from
      sum_congr rfl fun j hj => by
        have := synth_coef (N := n) (fun i => (z i : ℂ)) (mem_range.1 hj)
        have e := congrArg Complex.re this
        rw [Complex.ofReal_re] at e
        rw [sq]
        exact congrArg (z j * ·) e.symm, h]
    congr 1
    refine sum_congr rfl fun k _ => ?_
    rw [← Complex.normSq_eq_norm_sq, ← Complex.normSq_eq_conj_mul_self, Complex.ofReal_re]
  rw [pars y, pars fun j => x j - (∑ i ∈ range n, x i) / n]
  refine mul_le_mul_of_nonneg_left (sum_le_sum fun k hk => ?_) (by positivity)
  have hk := mem_range.1 hk
  have hlin : coef n (fun i => ((x i - (∑ i ∈ range n, x i) / n : ℝ) : ℂ)) k
      = coef n (fun i => (x i : ℂ)) k - coef n (fun i => (((∑ i ∈ range n, x i) / n : ℝ) : ℂ)) k := by
    unfold coef
    rw [← sub_div, ← sum_sub_distrib]
    congr 1
    exact sum_congr rfl fun j _ => by push_cast; ring
  by_cases h0 : k = n / 2
  · subst h0
    have e : coef n (fun i => ((x i - (∑ i ∈ range n, x i) / n : ℝ) : ℂ)) (n / 2) = 0 := by
      rw [coef_mean, sum_sub_distrib, sum_const, card_range, nsmul_eq_mul]
      have : (n : ℝ) ≠ 0 := by positivity
      rw [mul_div_cancel₀ _ this, sub_self, zero_div, Complex.ofReal_zero]
    rw [e, norm_zero, zero_pow two_ne_zero]
    exact sq_nonneg _
  · have hz : coef n (fun _ => (((∑ i ∈ range n, x i) / n : ℝ) : ℂ)) k = 0 := by
      unfold coef
      rw [← mul_sum, sum_E hn, if_neg, mul_zero, zero_div]
      intro hd
      have := (fr_dvd hk hk0).1 (by rw [fr_zero.2 rfl, sub_zero]; exact (Int.dvd_neg).1 hd)
      exact h0 this
    rw [hlin, hz, sub_zero, h2 k hk, norm_mul, norm_neg, Complex.norm_real, Real.norm_eq_abs, abs_of_nonneg (by positivity), mul_pow]
    have h4 : (1 : ℝ) ≤ (fr n k : ℝ) ^ 2 := by
      have : fr n k ≠ 0 := mt fr_zero.1 h0
      have : (1 : ℤ) ≤ fr n k ^ 2 := by have h5 := sq_nonneg (fr n k); have h6 := pow_ne_zero 2 this; omega
      exact_mod_cast this
    nlinarith [sq_nonneg ‖coef n (fun i => (x i : ℂ)) k‖, one_le_pow₀ h4 (n := 2)]

/-! ## Least squares -/

/-- What the least-squares solution of the overdetermined system of the example minimises: the square of the deviation of the first number from the prescribed one plus the sum of the squares of the
deviations of the Laplacian from the right-hand side. -/
noncomputable def misfit (c : ℝ) (q z y : List ℝ) : ℝ := (z.getD 0 0 - c) ^ 2 + ((vsub y q).map (· ^ 2)).sum

/-- `z` is a least-squares solution of "the first number is `c` and `L z = q`": what `dot(linalg.pinv(vstack((one, L))), concatenate(([c], q)))` returns in exact arithmetic
(doc/plot/cheb/poisson1d_periodic.py:19-23, 30-34). -/
def LeastSquares (L : List ℝ → Except Err (List ℝ)) (c : ℝ) (q z : List ℝ) : Prop :=
  z.length = q.length ∧ ∃ y, L z = .ok y ∧ ∀ w v, w.length = q.length → L w = .ok v → misfit c q z y ≤ misfit c q w v

theorem lap_sum_zero {n : ℕ} (hn : 0 < n) (t : Bool) (a b : List ℝ) (ha : a.length = n) (hb : (Periodic.make n).laplacian t a = .ok b) : b.length = n ∧ b.sum = 0 := by
  rw [eq_tab' ha 0] at hb
  obtain ⟨y, h1, h2⟩ := lap_coef hn t fun i => a.getD i 0
  rw [h1] at hb
  obtain rfl := Except.ok.inj hb
  refine ⟨length_tab _ _, ?_⟩
  rw [sum_tab]
  have h := h2 (n / 2) (Nat.div_lt_self hn (by norm_num))
  rw [fr_zero.2 rfl, coef_mean] at h
  simp only [Int.cast_zero, ne_eq, OfNat.ofNat_ne_zero, not_false_eq_true, zero_pow, Complex.ofReal_zero, neg_zero, mul_zero] at h
  have h3 : (∑ j ∈ range n, y j) / (n : ℝ) = 0 := by exact_mod_cast h
  rcases div_eq_zero_iff.1 h3 with h4 | h4
  · exact h4
  · exact absurd h4 (by positivity)

theorem sum_Hs {n : ℕ} (hn : 0 < n) (b : List ℝ) (hb : b.length = n) : (Hs b).sum = hh n * b.sum := by
  have h := (Hs_spd hn).symm (List.replicate n 1) b (by simp) hb
  rw [Hs_const] at h
  have hl : (Hs b).length = n := by rw [eq_tab' hb 0, Hs_tab]; simp
  have e1 : dot (List.replicate n 1) (Hs b) = (Hs b).sum := by
    conv_lhs => rw [eq_tab' hl 0, replicate_tab, dot_tab]
    conv_rhs => rw [eq_tab' hl 0, sum_tab]
    simp
  have e2 : dot b (List.replicate n (1 * hh n)) = hh n * b.sum := by
    conv_lhs => rw [eq_tab' hb 0, replicate_tab, dot_tab]
    conv_rhs => rw [eq_tab' hb 0, sum_tab, mul_sum]
    exact sum_congr rfl fun i _ => by ring
  rw [← e1, h, e2]

/-- The Poisson problem with a zero-mean right-hand side and a prescribed first number has exactly one solution. -/
theorem lap_solve {n : ℕ} (hn : 0 < n) (t : Bool) (b : List ℝ) (hb : b.length = n) (h0 : b.sum = 0) (c : ℝ) :
    ∃! a, a.length = n ∧ a.getD 0 0 = c ∧ (Periodic.make n).laplacian t a = .ok b := by
  have h := (C67_solvable .periodic n hn (by simp) 0 (2 * π) (by positivity) t (.inl rfl) b hb).2
  have hH : (grid .periodic n 0 (2 * π)).H 0 t b = .ok (Hs b) := by
    show (Periodic.make n 0 (2 * π)).H 0 t b = _
    cases t <;> simp only [Periodic.make, wrapTable]
  obtain ⟨a, ⟨h1, h2, h3⟩, h4⟩ := h ⟨_, hH, by rw [sum_Hs hn b hb, h0, mul_zero]⟩ c
  have e : ∀ a : List ℝ, a.length = n → (a.getD 0 0 = c ↔ a.head? = some c) := fun a ha => by
    cases a with
    | nil => simp at ha; omega
    | cons x l => simp
  exact ⟨a, ⟨h1, (e a h1).2 h2, h3⟩, fun z ⟨g1, g2, g3⟩ => h4 z ⟨g1, (e z g1).1 g2, g3⟩⟩

/-- **C94** (least squares): the least-squares solution of the overdetermined system of the example exists, is unique, takes the prescribed first value exactly, and its Laplacian is the right-hand side
minus its mean. -/
theorem C94_least_squares (n : ℕ) (hn : 0 < n) (t : Bool) (c : ℝ) (q : List ℝ) (hq : q.length = n) :
    (∃! z, LeastSquares ((Periodic.make n).laplacian t) c q z) ∧
    ∀ z, LeastSquares ((Periodic.make n).laplacian t) c q z ↔ z.length = n ∧ z.getD 0 0 = c ∧ (Periodic.make n).laplacian t z = .ok (q.map (· - q.sum / n)) := by
  set m := q.sum / (n : ℝ) with hm
  have hn' : (n : ℝ) ≠ 0 := by positivity
  set r := q.map (· - m) with hr
  have hrl : r.length = n := by rw [hr, List.length_map, hq]
  have hqs : q.sum = ∑ i ∈ range n, q.getD i 0 := by conv_lhs => rw [eq_tab' hq 0, sum_tab]
  have hr0 : r.sum = 0 := by
    rw [hr, eq_tab' hq 0, map_tab, sum_tab, sum_sub_distrib, sum_const, card_range, nsmul_eq_mul, ← hqs, hm]
    field_simp; ring
  have key : ∀ z y : List ℝ, z.length = n → (Periodic.make n).laplacian t z = .ok y →
      misfit c q z y = (z.getD 0 0 - c) ^ 2 + (∑ i ∈ range n, (y.getD i 0 - r.getD i 0) ^ 2 + n * m ^ 2) := by
    intro z y hz hy
    obtain ⟨h1, h2⟩ := lap_sum_zero hn t z y hz hy
    unfold misfit
    congr 1
    have e : ∀ i ∈ range n, r.getD i 0 = q.getD i 0 - m := fun i hi => by
      rw [hr, eq_tab' hq 0, map_tab, getD_tab (mem_range.1 hi), getD_tab (mem_range.1 hi)]
    rw [sum_congr rfl fun i hi => by rw [e i hi]]
    have e1 : ((vsub y q).map (· ^ 2)).sum = ∑ i ∈ range n, (y.getD i 0 - q.getD i 0) ^ 2 := by
      conv_lhs => rw [eq_tab' h1 0, eq_tab' hq 0, vsub_tab, map_tab, sum_tab]
    rw [e1]
    have hs : ∑ i ∈ range n, y.getD i 0 = 0 := by
      have h3 : y.sum = ∑ i ∈ range n, y.getD i 0 := by conv_lhs => rw [eq_tab' h1 0, sum_tab]
      rw [← h3, h2]
    have e2 : ∑ i ∈ range n, (y.getD i 0 - (q.getD i 0 - m)) ^ 2
        = ∑ i ∈ range n, (y.getD i 0 - q.getD i 0) ^ 2 + 2 * m * (∑ i ∈ range n, y.getD i 0 - ∑ i ∈ range n, q.getD i 0) + n * m ^ 2 := by
      rw [← sum_sub_distrib, mul_sum, ← sum_add_distrib]
      rw [show (n : ℝ) * m ^ 2 = ∑ i ∈ range n, m ^ 2 by rw [sum_const, card_range, nsmul_eq_mul], ← sum_add_distrib]
      exact sum_congr rfl fun i _ => by ring
    rw [e2, hs, ← hqs, show q.sum = n * m by rw [hm]; field_simp]
    ring
  have iff : ∀ z, LeastSquares ((Periodic.make n).laplacian t) c q z ↔ z.length = n ∧ z.getD 0 0 = c ∧ (Periodic.make n).laplacian t z = .ok r := by
    intro z
    constructor
    · rintro ⟨hz, y, hy, hmin⟩
      rw [hq] at hz
      obtain ⟨a, ⟨a1, a2, a3⟩, _⟩ := lap_solve hn t r hrl hr0 c
      have h := hmin a r (by rw [a1, hq]) a3
      rw [key z y hz hy, key a r a1 a3, a2] at h
      simp only [sub_self, ne_eq, OfNat.ofNat_ne_zero, not_false_eq_true, zero_pow, sum_const_zero, zero_add] at h
      have hs : 0 ≤ ∑ i ∈ range n, (y.getD i 0 - r.getD i 0) ^ 2 := sum_nonneg fun i _ => sq_nonneg _
      have hz0 : (z.getD 0 0 - c) ^ 2 = 0 := by nlinarith [sq_nonneg (z.getD 0 0 - c)]
      have hs0 : ∑ i ∈ range n, (y.getD i 0 - r.getD i 0) ^ 2 = 0 := by nlinarith [sq_nonneg (z.getD 0 0 - c)]
      refine ⟨hz, by have := pow_eq_zero_iff (two_ne_zero) |>.1 hz0; linarith, ?_⟩
      rw [hy]
      congr 1
      obtain ⟨hyl, _⟩ := lap_sum_zero hn t z y hz hy
      rw [eq_tab' hyl 0, eq_tab' hrl 0]
      refine tab_congr fun i hi => ?_
      have := (sum_eq_zero_iff_of_nonneg fun i _ => sq_nonneg _).1 hs0 i (mem_range.2 hi)
      have := pow_eq_zero_iff (two_ne_zero) |>.1 this
      linarith
    · rintro ⟨h1, h2, h3⟩
      refine ⟨by rw [h1, hq], r, h3, fun w v hw hv => ?_⟩
      rw [hq] at hw
      rw [key z r h1 h3, key w v hw hv, h2]
      simp only [sub_self, ne_eq, OfNat.ofNat_ne_zero, not_false_eq_true, zero_pow, sum_const_zero, zero_add]
      have hs : 0 ≤ ∑ i ∈ range n, (v.getD i 0 - r.getD i 0) ^ 2 := sum_nonneg fun i _ => sq_nonneg _
      nlinarith [sq_nonneg (w.getD 0 0 - c)]
  refine ⟨?_, iff⟩
  obtain ⟨a, h1, h2⟩ := lap_solve hn t r hrl hr0 c
  exact ⟨a, (iff a).2 h1, fun z hz => h2 z ((iff z).1 hz)⟩


/-! ## Convergence -/

theorem lap_sub {n : ℕ} (hn : 0 < n) (t : Bool) {a a' b b' : List ℝ} (ha : a.length = n) (ha' : a'.length = n) (h : (Periodic.make n).laplacian t a = .ok b)
    (h' : (Periodic.make n).laplacian t a' = .ok b') : (Periodic.make n).laplacian t (vsub a a') = .ok (vsub b b') := by
  have hF := grid_factor .periodic n hn 0 (2 * π)
  have hS := grid_stars .periodic n hn (by simp) 0 (2 * π)
  obtain ⟨L, hL, eL⟩ := lap_elin hF hS t
  have hN : (grid .periodic n 0 (2 * π)).N 0 t = n := rfl
  rw [hN] at hL eL
  have eL' : ∀ x : List ℝ, x.length = n → (Periodic.make n).laplacian t x = .ok (L x) := eL
  rw [eL' _ ha] at h
  rw [eL' _ ha'] at h'
  rw [eL' _ (by simp [ha, ha']), lin_sub hL ha ha', Except.ok.inj h, Except.ok.inj h']

/-- **C94** (the error of the example): let `f` be the sum of a Fourier series whose amplitudes, multiplied by `m²`, are summable, with second derivative `f''`. The least-squares solution of the system
of the example — the value of `f` at the first vertex and the samples of `f''` as right-hand side — differs from the samples of `f`, at every vertex, by at most `8 π²/3` times the sum of `m²` times the
amplitudes of the terms that the grid does not resolve. On the primal and on the dual side. -/
theorem C94_error (n : ℕ) (hn : 0 < n) (t : Bool) (c s : ℕ → ℝ) (hs : Summable fun m : ℕ => (m : ℝ) ^ 2 * amplitude .periodic c s m) (f f' f'' : ℝ → ℝ)
    (hf : Expansion .periodic c s f) (h1 : ∀ θ, HasDerivAt f (f' θ) θ) (h2 : ∀ θ, HasDerivAt f' (f'' θ) θ) (x₀ : ℝ) (hx : ((Periodic.make n).cells.v t).head? = some x₀)
    (z : List ℝ) (hz : LeastSquares ((Periodic.make n).laplacian t) (f x₀) ((Periodic.make n).P 0 t f'') z) (i : ℕ) (hi : i < n) :
    |z.getD i 0 - ((Periodic.make n).P 0 t f).getD i 0|
      ≤ 8 * π ^ 2 / 3 * ∑' m : ℕ, ((m + (n + 1) / 2 : ℕ) : ℝ) ^ 2 * amplitude .periodic c s (m + (n + 1) / 2) := by
  have hn' : (0 : ℝ) < n := by exact_mod_cast hn
  have hl : ∀ q, ((Periodic.make n).P 0 t q).length = n := fun q => C11_projection .periodic n hn 0 (2 * π) 0 t q
  obtain ⟨z1, z2, z3⟩ := ((C94_least_squares n hn t _ _ (hl f'')).2 z).1 hz
  obtain ⟨b, b1, b2, b3⟩ := C80_laplacian_error n hn t c s hs f f' f'' hf h1 h2
  set T := ∑' m : ℕ, ((m + (n + 1) / 2 : ℕ) : ℝ) ^ 2 * amplitude .periodic c s (m + (n + 1) / 2) with hT
  set q := (Periodic.make n).P 0 t f'' with hq
  have hql : q.length = n := hl f''
  have hbs := (lap_sum_zero hn t _ b (hl f) b1).2
  have hsub := lap_sub hn t z1 (hl f) z3 b1
  have hT0 : 0 ≤ T := tsum_nonneg fun m => mul_nonneg (by positivity) (amplitude_nonneg _ _ _ _)
  set m := q.sum / (n : ℝ) with hm
  have hqs : q.sum = ∑ i ∈ range n, q.getD i 0 := by conv_lhs => rw [eq_tab' hql 0, sum_tab]
  have hbs' : b.sum = ∑ i ∈ range n, b.getD i 0 := by conv_lhs => rw [eq_tab' b2 0, sum_tab]
  have hm' : |m| ≤ 2 * T := by
    rw [hm, abs_div, Nat.abs_cast, div_le_iff₀ hn']
    rw [show q.sum = -(∑ i ∈ range n, (b.getD i 0 - q.getD i 0)) by rw [sum_sub_distrib, ← hqs, ← hbs', hbs]; ring, abs_neg]
    refine (abs_sum_le_sum_abs _ _).trans ((sum_le_sum fun i hi => b3 i (mem_range.1 hi)).trans (le_of_eq ?_))
    rw [sum_const, card_range, nsmul_eq_mul, mul_comm]
  set w := vsub z ((Periodic.make n).P 0 t f) with hw
  have hwl : w.length = n := by simp [hw, z1, hl]
  have hwi : ∀ i < n, w.getD i 0 = z.getD i 0 - ((Periodic.make n).P 0 t f).getD i 0 := fun i hi => by
    rw [hw, eq_tab' z1 0, eq_tab' (hl f) 0, vsub_tab, getD_tab hi, getD_tab hi, getD_tab hi]
  have hmean : ((vsub (q.map (· - m)) b).map (|·|)).sum / (n : ℝ) ≤ 4 * T := by
    rw [div_le_iff₀ hn', eq_tab' hql 0, eq_tab' b2 0, map_tab, vsub_tab, map_tab, sum_tab]
    calc _ ≤ ∑ i ∈ range n, 4 * T := sum_le_sum fun i hi => by
          have h3 := b3 i (mem_range.1 hi)
          rw [abs_le] at h3 hm' ⊢
          constructor <;> linarith [h3.1, h3.2, hm'.1, hm'.2]
      _ = _ := by rw [sum_const, card_range, nsmul_eq_mul, mul_comm]
  have stab := fun i hi => (C94_stability n hn t w _ hwl hsub i hi).trans (mul_le_mul_of_nonneg_left hmean (by positivity))
  have hw0 : w.getD 0 0 = 0 := by
    rw [hwi 0 hn, z2]
    have : ((Periodic.make n).P 0 t f).getD 0 0 = f x₀ := by
      show (((Periodic.make n).cells.v t).map f).getD 0 0 = _
      generalize (Periodic.make n).cells.v t = l at hx
      cases l with
      | nil => simp at hx
      | cons x l => simp at hx; simp [hx]
    rw [this, sub_self]
  have s0 := stab 0 hn
  have si := stab i hi
  rw [hw0] at s0
  rw [← hwi i hi]
  rw [abs_le] at s0 si ⊢
  have e : 8 * π ^ 2 / 3 * T = 2 * (π ^ 2 / 3 * (4 * T)) := by ring
  rw [e]
  constructor <;> linarith [s0.1, s0.2, si.1, si.2]

/-- **C94** (convergence): the error of the example, at every vertex, becomes arbitrarily small. -/
theorem C94_convergence (t : Bool) (c s : ℕ → ℝ) (hs : Summable fun m : ℕ => (m : ℝ) ^ 2 * amplitude .periodic c s m) (f f' f'' : ℝ → ℝ)
    (hf : Expansion .periodic c s f) (h1 : ∀ θ, HasDerivAt f (f' θ) θ) (h2 : ∀ θ, HasDerivAt f' (f'' θ) θ) (ε : ℝ) (hε : 0 < ε) :
    ∃ n₀, ∀ n ≥ n₀, 0 < n → ∀ x₀, ((Periodic.make n).cells.v t).head? = some x₀ → ∀ z, LeastSquares ((Periodic.make n).laplacian t) (f x₀) ((Periodic.make n).P 0 t f'') z →
      ∀ i < n, |z.getD i 0 - ((Periodic.make n).P 0 t f).getD i 0| < ε := by
  have h := tendsto_sum_nat_add (fun m : ℕ => (m : ℝ) ^ 2 * amplitude .periodic c s m)
  have hp : (0 : ℝ) < 8 * π ^ 2 / 3 := by positivity
  obtain ⟨K, hK⟩ := (Metric.tendsto_atTop.1 h) (ε / (8 * π ^ 2 / 3)) (by positivity)
  refine ⟨2 * K, fun n hn h0 x₀ hx z hz i hi => (C94_error n h0 t c s hs f f' f'' hf h1 h2 x₀ hx z hz i hi).trans_lt ?_⟩
  have h3 := hK ((n + 1) / 2) (by omega)
  rw [Real.dist_eq, sub_zero] at h3
  rw [mul_comm, ← lt_div_iff₀ hp]
  exact (le_abs_self _).trans_lt h3

/-! ## Functions of the sine -/

/-- Sequences with smaller tails have smaller weighted tails. -/
theorem weighted_tail {u v w : ℕ → ℝ} (hu0 : ∀ m, 0 ≤ u m) (hv0 : ∀ m, 0 ≤ v m) (hw0 : ∀ m, 0 ≤ w m) (hw : Monotone w) (hu : Summable u) (hv : Summable v)
    (hwv : Summable fun m => w m * v m) (h : ∀ J, ∑' m, u (m + J) ≤ ∑' m, v (m + J)) (K : ℕ) :
    (Summable fun m => w m * u m) ∧ ∑' m, w (m + K) * u (m + K) ≤ ∑' m, w (m + K) * v (m + K) := by
  have step : ∀ {x : ℕ → ℝ}, Summable x → ∀ J, ∑' m, x (m + J) = x J + ∑' m, x (m + (J + 1)) := fun {x} hx J => by
    have := ((summable_nat_add_iff J).2 hx).sum_add_tsum_nat_add 1
    simp only [sum_range_one, zero_add] at this
    rw [← this]
    congr 1
    exact tsum_congr fun m => by rw [add_right_comm, add_assoc]
  have abel : ∀ {x : ℕ → ℝ}, Summable x → ∀ K M, w K * ∑' m, x (m + K) + ∑ j ∈ range M, (w (K + j + 1) - w (K + j)) * ∑' m, x (m + (K + j + 1))
      = ∑ m ∈ range M, w (m + K) * x (m + K) + w (K + M) * ∑' m, x (m + (K + M)) := fun {x} hx K M => by
    induction M with
    | zero => simp
    | succ M ih =>
      rw [sum_range_succ, sum_range_succ, ← add_assoc, ih, step hx (K + M), ← add_assoc K M 1, add_comm M K]
      ring
  have fin : ∀ K M, ∑ m ∈ range M, w (m + K) * u (m + K) ≤ ∑' m, w (m + K) * v (m + K) := fun K M => by
    have e1 := abel hu K M
    have e2 := abel hv K M
    have t0 : 0 ≤ w (K + M) * ∑' m, u (m + (K + M)) := mul_nonneg (hw0 _) (tsum_nonneg fun _ => hu0 _)
    have t1 : w K * ∑' m, u (m + K) ≤ w K * ∑' m, v (m + K) := mul_le_mul_of_nonneg_left (h K) (hw0 K)
    have t2 : ∑ j ∈ range M, (w (K + j + 1) - w (K + j)) * ∑' m, u (m + (K + j + 1)) ≤ ∑ j ∈ range M, (w (K + j + 1) - w (K + j)) * ∑' m, v (m + (K + j + 1)) :=
      sum_le_sum fun j _ => mul_le_mul_of_nonneg_left (h _) (sub_nonneg.2 (hw (Nat.le_succ _)))
    have hwvK : Summable fun m => w (m + K) * v (m + K) := (summable_nat_add_iff (f := fun m => w m * v m) K).2 hwv
    have t3 : w (K + M) * ∑' m, v (m + (K + M)) ≤ ∑' m, w (m + M + K) * v (m + M + K) := by
      rw [← tsum_mul_left]
      have hvK : Summable fun m => w (K + M) * v (m + (K + M)) := ((summable_nat_add_iff (K + M)).2 hv).mul_left _
      have hs2 : Summable fun m => w (m + M + K) * v (m + M + K) := (summable_nat_add_iff (f := fun m => w (m + K) * v (m + K)) M).2 hwvK
      refine hvK.tsum_le_tsum (fun m => ?_) hs2
      rw [show m + M + K = m + (K + M) by ring]
      exact mul_le_mul_of_nonneg_right (hw (by omega)) (hv0 _)
    have t4 := hwvK.sum_add_tsum_nat_add M
    linarith
  refine ⟨summable_of_sum_range_le (fun m => mul_nonneg (hw0 m) (hu0 m)) fun M => (by simpa using fin 0 M), ?_⟩
  exact Real.tsum_le_of_sum_range_le (fun m => mul_nonneg (hw0 _) (hu0 _)) fun M => fin K M

open Polynomial.Chebyshev in
theorem T_eval_sin (m : ℕ) (θ : ℝ) : (T ℝ m).eval (sin θ) = cos (m * (π / 2)) * cos (m * θ) + sin (m * (π / 2)) * sin (m * θ) := by
  rw [← cos_sub, ← mul_sub, ← cos_pi_div_two_sub]
  have := T_real_cos (π / 2 - θ) m
  simpa using this

theorem quarter_abs (m : ℕ) : |cos (m * (π / 2))| + |sin (m * (π / 2))| = 1 := by
  have h : |cos (m * (π / 2))| * |sin (m * (π / 2))| = 0 := by
    have h2 : 2 * (sin (m * (π / 2)) * cos (m * (π / 2))) = 0 := by
      have := sin_two_mul (m * (π / 2))
      rw [show 2 * (m * (π / 2)) = m * π by ring, sin_nat_mul_pi] at this
      linarith
    rw [← abs_mul, abs_eq_zero]; linarith
  have h1 : (|cos (m * (π / 2))| + |sin (m * (π / 2))|) ^ 2 = 1 := by
    rw [add_sq, sq_abs, sq_abs, mul_assoc, h]
    linarith [sin_sq_add_cos_sq (m * (π / 2))]
  have h3 := abs_nonneg (cos (m * (π / 2)))
  have h4 := abs_nonneg (sin (m * (π / 2)))
  nlinarith

/-- **C94** (power series in the sine): for `f(x) = g(sin x)`, `g` a power series with coefficients `a_k` and `Σ k² |a_k|` finite, the error of the example is at most `8 π²/3` times the rest
`Σ k² |a_k|` over `k ≥ n/2`. -/
theorem C94_sine_series (n : ℕ) (hn : 0 < n) (t : Bool) (a : ℕ → ℝ) (g : ℝ → ℝ) (ha : Summable fun k : ℕ => (k : ℝ) ^ 2 * |a k|)
    (hg : ∀ x ∈ Set.Icc (-1 : ℝ) 1, HasSum (fun k => a k * x ^ k) (g x)) (f' f'' : ℝ → ℝ) (h1 : ∀ θ, HasDerivAt (fun x => g (sin x)) (f' θ) θ)
    (h2 : ∀ θ, HasDerivAt f' (f'' θ) θ) (x₀ : ℝ) (hx : ((Periodic.make n).cells.v t).head? = some x₀)
    (z : List ℝ) (hz : LeastSquares ((Periodic.make n).laplacian t) (g (sin x₀)) ((Periodic.make n).P 0 t f'') z) (i : ℕ) (hi : i < n) :
    |z.getD i 0 - ((Periodic.make n).P 0 t fun x => g (sin x)).getD i 0| ≤ 8 * π ^ 2 / 3 * ∑' k : ℕ, ((k + (n + 1) / 2 : ℕ) : ℝ) ^ 2 * |a (k + (n + 1) / 2)| := by
  have ha' : Summable fun k => |a k| := by
    rw [← summable_nat_add_iff 1]
    refine Summable.of_nonneg_of_le (fun _ => abs_nonneg _) (fun k => ?_) ((summable_nat_add_iff 1).2 ha)
    have : (1 : ℝ) ≤ ((k + 1 : ℕ) : ℝ) ^ 2 := one_le_pow₀ (by exact_mod_cast Nat.succ_pos k)
    exact le_mul_of_one_le_left (abs_nonneg _) this
  obtain ⟨c, hc, ht⟩ := power_series_chebyshev a g ha' hg
  have hc1 : Summable fun m => |c m| := hc.1
  have hw := weighted_tail (u := fun m => |c m|) (v := fun m => |a m|) (w := fun m : ℕ => (m : ℝ) ^ 2) (fun _ => abs_nonneg _) (fun _ => abs_nonneg _) (fun _ => by positivity)
    (fun i j h => pow_le_pow_left₀ (Nat.cast_nonneg i) (Nat.cast_le.2 h) 2) hc1 ha' ha ht
  have hamp : ∀ m, amplitude .periodic (fun m => c m * cos (m * (π / 2))) (fun m => c m * sin (m * (π / 2))) m = |c m| := fun m => by
    show |_| + |_| = _
    rw [abs_mul, abs_mul, ← mul_add, quarter_abs, mul_one]
  have hE : Expansion .periodic (fun m => c m * cos (m * (π / 2))) (fun m => c m * sin (m * (π / 2))) fun x => g (sin x) := by
    refine ⟨?_, fun x _ => ?_⟩
    · rw [show amplitude .periodic _ _ = fun m => |c m| from funext hamp]; exact hc1
    · have := hc.2 (sin x) ⟨neg_one_le_sin x, sin_le_one x⟩
      refine this.congr_fun fun m => ?_
      show _ = c m * (Polynomial.Chebyshev.T ℝ m).eval (sin x)
      rw [T_eval_sin]
      show c m * cos (m * (π / 2)) * cos (m * x) + c m * sin (m * (π / 2)) * sin (m * x) = _
      ring
  have h := C94_error n hn t _ _ (by simp only [hamp]; exact (hw 0).1) _ f' f'' hE h1 h2 x₀ hx z hz i hi
  simp only [hamp] at h
  exact h.trans (mul_le_mul_of_nonneg_left (hw _).2 (by positivity))

/-- **C94** (the example itself, `f = exp(sin x)`, `q = f (cos² x - sin x)`): the error at every vertex is at most `8 π²/3` times the sum of `k²/k!` over `k ≥ n/2`. -/
theorem C94_example (n : ℕ) (hn : 0 < n) (t : Bool) (x₀ : ℝ) (hx : ((Periodic.make n).cells.v t).head? = some x₀) (z : List ℝ)
    (hz : LeastSquares ((Periodic.make n).laplacian t) (exp (sin x₀)) ((Periodic.make n).P 0 t fun x => exp (sin x) * (cos x ^ 2 - sin x)) z) (i : ℕ) (hi : i < n) :
    |z.getD i 0 - ((Periodic.make n).P 0 t fun x => exp (sin x)).getD i 0| ≤ 8 * π ^ 2 / 3 * ∑' k : ℕ, ((k + (n + 1) / 2 : ℕ) : ℝ) ^ 2 / (k + (n + 1) / 2).factorial := by
  have hs : Summable fun k : ℕ => (k : ℝ) ^ 2 * |(1 : ℝ) / k.factorial| := by
    rw [← summable_nat_add_iff 2]
    have h := (Real.summable_pow_div_factorial 1).mul_left 4
    refine Summable.of_nonneg_of_le (fun k => by positivity) (fun k => ?_) h
    rw [abs_of_nonneg (by positivity), one_pow, mul_one_div, mul_one_div, Nat.factorial_succ, Nat.factorial_succ]
    have hf : (0 : ℝ) < k.factorial := by positivity
    push_cast
    rw [div_le_div_iff₀ (by positivity) hf]
    have hk : (0 : ℝ) ≤ k := Nat.cast_nonneg k
    have : ((k : ℝ) + 2) ^ 2 ≤ 4 * ((k + 1 + 1) * (k + 1)) := by nlinarith
    calc ((k : ℝ) + 2) ^ 2 * k.factorial ≤ 4 * ((k + 1 + 1) * (k + 1)) * k.factorial := mul_le_mul_of_nonneg_right this hf.le
      _ = _ := by ring
  have h1 : ∀ θ, HasDerivAt (fun x => exp (sin x)) (exp (sin θ) * cos θ) θ := fun θ => (hasDerivAt_sin θ).exp
  have h2 : ∀ θ, HasDerivAt (fun θ => exp (sin θ) * cos θ) (exp (sin θ) * (cos θ ^ 2 - sin θ)) θ := fun θ =>
    ((h1 θ).mul (hasDerivAt_cos θ)).congr_deriv (by ring)
  have h := C94_sine_series n hn t _ exp hs exp_power_series.2 _ _ h1 h2 x₀ hx z hz i hi
  refine h.trans (le_of_eq ?_)
  congr 1
  refine tsum_congr fun k => ?_
  rw [abs_of_nonneg (by positivity), mul_one_div]

example : ∃ z, LeastSquares ((Periodic.make 5).laplacian true) (exp (sin 0)) ((Periodic.make 5).P 0 true fun x => exp (sin x) * (cos x ^ 2 - sin x)) z :=
  (C94_least_squares 5 (by norm_num) true _ _ (C11_projection .periodic 5 (show 1 ≤ 5 by norm_num) 0 (2 * π) 0 true _)).1.exists

example : ((Periodic.make 5).cells.v true).head? = some 0 := by
  have : (Periodic.make 5).cells.v true = tab 5 fun i => (0 : ℝ) + i * ((2 * π - 0) / (5 : ℕ)) := Periodic.verts_tab 5 0 (2 * π)
  rw [this]; simp [tab, List.range_succ]

end Dec.Props
