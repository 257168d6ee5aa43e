import Verif.Lib.PeriodicGrid

set_option linter.unusedSimpArgs false
set_option linter.unusedVariables false

/-! Refinement, unrefinement and derivative of resolved functions on the periodic grid. -/

namespace Dec

open Real Finset

namespace Sp

/-- The derivative of a resolvable function is resolvable half a cell further. -/
theorem Res.deriv {N : ℕ} {φ : ℝ} {p : ℝ → ℝ} (h : Res N φ p) {s : ℝ} (hs : s = hh N / 2 ∨ s = -(hh N / 2)) :
    ∃ q, Res N (φ + s) q ∧ ∀ θ, HasDerivAt p (q θ) θ := by
  obtain ⟨c, hc, hi⟩ := h
  refine ⟨fun θ => (synth N (fun k => c k * (Complex.I * fr N k)) (θ - φ)).re, ⟨fun k => c k * ((Complex.I * fr N k) * E (fr N k) s), fun θ => ?_, fun j hj => ?_⟩, fun θ => ?_⟩
  · show (synth N _ (φ + s + θ - φ)).re = _
    simp_rw [← mul_assoc]
    rw [synth_shift]; congr 2 <;> ring
  · have hN : 0 < N := by omega
    have he : RealEven N (fun k => (Complex.I * fr N k) * E (fr N k) s) := by
      intro k hk
      show _ * _ = _
      rw [map_mul, map_mul, Complex.conj_I, E_conj]
      rcases fr_sig hk with h1 | ⟨h1, h2, h3⟩
      · rw [h1]; push_cast; simp
      · rw [h3, h2]
        have e0 : fr N 0 = -((N / 2 : ℕ) : ℤ) := by simp [fr]
        have e1 : ∀ m : ℤ, E m s = Complex.exp ((m * s : ℝ) * Complex.I) := by
          intro m; unfold E; congr 1; push_cast; ring
        have e2 : ((N / 2 : ℕ) : ℝ) * hh N = π := by
          have h4 : (N : ℝ) = 2 * (N / 2 : ℕ) := by exact_mod_cast (by omega : N = 2 * (N / 2))
          have := mul_hh hN; rw [h4] at this; linarith
        have e3 : E (fr N 0) s = -E (-fr N 0) s := by
          rw [e1, e1, e0]
          rcases hs with rfl | rfl
          · have a1 : ((-((N / 2 : ℕ) : ℤ) : ℤ) : ℝ) * (hh N / 2) = -(π / 2) := by
              rw [Int.cast_neg, Int.cast_natCast]; linarith
            have a2 : ((-(-((N / 2 : ℕ) : ℤ)) : ℤ) : ℝ) * (hh N / 2) = π / 2 := by
              rw [Int.cast_neg, Int.cast_neg, Int.cast_natCast]; linarith
            rw [a1, a2]; push_cast; rw [Complex.exp_pi_div_two_mul_I, show -((π : ℂ) / 2) * Complex.I = -(π / 2 * Complex.I) by ring, Complex.exp_neg, Complex.exp_pi_div_two_mul_I]; simp
          · have a1 : ((-((N / 2 : ℕ) : ℤ) : ℤ) : ℝ) * -(hh N / 2) = (π / 2) := by
              rw [Int.cast_neg, Int.cast_natCast]; linarith
            have a2 : ((-(-((N / 2 : ℕ) : ℤ)) : ℤ) : ℝ) * -(hh N / 2) = -(π / 2) := by
              rw [Int.cast_neg, Int.cast_neg, Int.cast_natCast]; linarith
            rw [a1, a2]; push_cast; rw [Complex.exp_pi_div_two_mul_I, show -((π : ℂ) / 2) * Complex.I = -(π / 2 * Complex.I) by ring, Complex.exp_neg, Complex.exp_pi_div_two_mul_I]; simp
        rw [e3]; simp
    have := im_synth_zero (N := N) (x := fun j => ((p (φ + j * hh N) : ℝ) : ℂ)) (fun j _ => by simp) he j
    rw [← this]
    congr 1
    exact synth_congr (fun k hk => by rw [Res.coef hc hi hk]) _
  · have hp : p = fun θ => (synth N c (θ - φ)).re := by
      funext θ; rw [← hc]; congr 1; ring
    have h1 : HasDerivAt (fun θ : ℝ => synth N c (θ - φ)) (synth N (fun k => c k * (Complex.I * fr N k)) (θ - φ)) θ := by
      unfold synth
      apply HasDerivAt.fun_sum
      intro k _
      have h2 : HasDerivAt (fun θ : ℝ => E (fr N k) (θ - φ)) (Complex.I * fr N k * E (fr N k) (θ - φ)) θ := by
        have := HasDerivAt.scomp θ (hasDerivAt_E (fr N k) (θ - φ)) ((hasDerivAt_id θ).sub_const φ)
        simpa [Function.comp_def] using this
      have := h2.const_mul (c k)
      rwa [← mul_assoc] at this
    rw [hp]
    have := Complex.reCLM.hasFDerivAt.comp_hasDerivAt θ h1
    simpa [Function.comp_def] using this

end Sp

theorem IsTrig.split {n : ℕ} (hn : 0 < n) {p : ℝ → ℝ} (hp : IsTrig n p) :
    ∃ q a b, IsTrig (n - 1) q ∧ ∀ θ, p θ = q θ + a * cos (n * θ) + b * sin (n * θ) := by
  obtain ⟨a, b, h⟩ := hp
  refine ⟨fun θ => ∑ k ∈ range (n - 1 + 1), (a k * cos (k * θ) + b k * sin (k * θ)), a n, b n, ⟨a, b, fun θ => rfl⟩, fun θ => ?_⟩
  rw [h, Finset.sum_range_succ, show n - 1 + 1 = n by omega]; ring

theorem intervalIntegral_cos_period {n : ℕ} (hn : 0 < n) (x α : ℝ) :
    ∫ t in x..(x + 2 * π / n), cos (n * t + α) = 0 := by
  have hn' : (n : ℝ) ≠ 0 := by positivity
  have : ∀ t, HasDerivAt (fun t => sin (n * t + α) / n) (cos (n * t + α)) t := by
    intro t
    have h1 : HasDerivAt (fun t : ℝ => (n : ℝ) * t + α) n t := by
      simpa using ((hasDerivAt_id t).const_mul (n : ℝ)).add_const α
    have := h1.sin.div_const (n : ℝ)
    rwa [mul_div_assoc, div_self hn', mul_one] at this
  rw [intervalIntegral.integral_eq_sub_of_hasDerivAt (fun t _ => this t)
    ((by fun_prop : Continuous fun t => cos (n * t + α)).intervalIntegrable _ _)]
  have : (n : ℝ) * (x + 2 * π / n) + α = n * x + α + 2 * π := by field_simp; ring
  rw [this, sin_add_two_pi]; ring

/-- Over whole periods of the highest harmonic only the lower harmonics contribute. -/
theorem IsTrig.integral_split {n : ℕ} (hn : 0 < n) {p q : ℝ → ℝ} {a b : ℝ} (hq : Continuous q)
    (h : ∀ θ, p θ = q θ + a * cos (n * θ) + b * sin (n * θ)) (x y : ℝ) (hy : y = x + 2 * π / n) :
    ∫ t in x..y, p t = ∫ t in x..y, q t := by
  have h1 : p = fun θ => q θ + (a * cos (n * θ + 0) + (-b) * cos (n * θ + π / 2)) := by
    funext θ; rw [h, cos_add_pi_div_two]; simp; ring
  rw [h1, intervalIntegral.integral_add, intervalIntegral.integral_add, intervalIntegral.integral_const_mul,
    intervalIntegral.integral_const_mul, hy, intervalIntegral_cos_period hn, intervalIntegral_cos_period hn]
  · ring
  all_goals exact Continuous.intervalIntegrable (by fun_prop) _ _

namespace Periodic

open Sp

theorem bop_pair (n : ℕ) (f : ℕ → ℝ) :
    bop (· + ·) (stride2 (tab (2 * n) f)) (stride2' (tab (2 * n) f)) = .ok (tab n fun i => f (2 * i) + f (2 * i + 1)) := by
  rw [stride2_tab, stride2'_tab, show (2 * n + 1) / 2 = n by omega, show 2 * n / 2 = n by omega]
  unfold bop
  rw [if_pos (by simp), zipWith_tab]

/-- Two half cells make a cell. -/
theorem pair_sum {n : ℕ} {φ : ℝ} {p : ℝ → ℝ} (hp : Res (2 * n) φ p) :
    bop (· + ·) (stride2 (Hs (samp (2 * n) φ p))) (stride2' (Hs (samp (2 * n) φ p)))
      = .ok (tab n fun j => ∫ t in (φ - hh n / 4 + j * hh n)..(φ - hh n / 4 + j * hh n + hh n), p t) := by
  rw [hp.Hs, bop_pair]
  congr 1; apply tab_congr; intro j _
  have hc := hp.continuous
  rw [hh_two_mul]
  have e1 : φ + ((2 * j : ℕ) : ℝ) * (hh n / 2) - hh n / 2 / 2 = φ - hh n / 4 + j * hh n := by push_cast; ring
  have e2 : φ + ((2 * j : ℕ) : ℝ) * (hh n / 2) + hh n / 2 / 2 = φ + ((2 * j + 1 : ℕ) : ℝ) * (hh n / 2) - hh n / 2 / 2 := by push_cast; ring
  have e3 : φ + ((2 * j + 1 : ℕ) : ℝ) * (hh n / 2) + hh n / 2 / 2 = φ - hh n / 4 + j * hh n + hh n := by push_cast; ring
  rw [e1, e2, e3, intervalIntegral.integral_add_adjacent_intervals (hc.intervalIntegrable _ _) (hc.intervalIntegrable _ _)]

theorem samp_add (N : ℕ) (φ : ℝ) (p q : ℝ → ℝ) (h : ∀ j : ℕ, j < N → q (φ + j * hh N) = 0) :
    samp N φ (fun θ => p θ + q θ) = samp N φ p := by
  unfold samp; exact tab_congr fun j hj => by beta_reduce; rw [h j hj, add_zero]

theorem n_hh {n : ℕ} (hn : 0 < n) : (n : ℝ) * hh (2 * n) = π := by
  rw [hh_two_mul]; have := mul_hh hn; linarith

/-- The samples of a trigonometric polynomial of degree `n` on `2n` points, moved by half a step, give
the lower part only. -/
theorem shifted_samp {n : ℕ} (hn : 0 < n) {p q : ℝ → ℝ} {a b : ℝ} (hq : IsTrig (n - 1) q)
    (h : ∀ θ, p θ = q θ + a * cos (n * θ) + b * sin (n * θ)) :
    S (samp (2 * n) 0 p) = samp (2 * n) (hh (2 * n) / 2) q ∧
    Sinv (samp (2 * n) 0 p) = samp (2 * n) (-(hh (2 * n) / 2)) q := by
  have hr : Res (2 * n) 0 (fun θ => q θ + a * cos (n * (θ - 0))) :=
    (Res_of_isTrig (by omega) hq 0).add ((Res.cos_nyquist hn 0).const_mul a)
  have h1 : samp (2 * n) 0 p = samp (2 * n) 0 (fun θ => q θ + a * cos (n * (θ - 0))) := by
    have : p = fun θ => (q θ + a * cos (n * (θ - 0))) + b * sin (n * θ) := by funext θ; rw [h]; simp
    rw [this, samp_add]
    intro j _
    rw [show (n : ℝ) * (0 + j * hh (2 * n)) = j * (n * hh (2 * n)) by ring, n_hh hn, sin_nat_mul_pi, mul_zero]
  rw [h1, hr.S, hr.Sinv]
  constructor
  · rw [samp_add, zero_add]
    intro j _
    have : (n : ℝ) * (0 + hh (2 * n) / 2 + j * hh (2 * n) - 0) = π / 2 + j * π := by
      have := n_hh hn; linear_combination (1 / 2 + j) * this
    rw [this, cos_add_nat_mul_pi]; simp
  · rw [samp_add, zero_sub]
    intro j _
    have : (n : ℝ) * (0 - hh (2 * n) / 2 + j * hh (2 * n) - 0) = -(π / 2) + j * π := by
      have := n_hh hn; linear_combination (-1 / 2 + j) * this
    rw [this, cos_add_nat_mul_pi]; simp

theorem U1_exact {n : ℕ} {p : ℝ → ℝ} (hp : IsTrig n p) : U1 (samp (2 * n) 0 p) = .ok ((make n).P 1 true p) := by
  rcases Nat.eq_zero_or_pos n with rfl | hn
  · simp [U1, P1_hh, samp, S, Hs, F, Finv, fft, ifft, fftshift, ifftshift, roll, stride2, stride2', bop, toC, re, S_diag, I_diag, vmul]
  obtain ⟨q, a, b, hq, h⟩ := hp.split hn
  have hr : Res (2 * n) (hh (2 * n) / 2) q := Res_of_isTrig (by omega) hq _
  unfold U1
  simp only [(shifted_samp hn hq h).1]
  rw [pair_sum hr, P1_hh]
  congr 1; apply tab_congr; intro j _
  rw [hh_two_mul, IsTrig.integral_split hn hq.continuous h _ _ (by unfold hh; ring)]
  congr 1 <;> ring

theorem U1d_exact {n : ℕ} {p : ℝ → ℝ} (hp : IsTrig n p) : U1d (samp (2 * n) 0 p) = .ok ((make n).P 1 false p) := by
  rcases Nat.eq_zero_or_pos n with rfl | hn
  · simp [U1d, P1d_hh, samp, Sinv, Hs, F, Finv, fft, ifft, fftshift, ifftshift, roll, stride2, stride2', bop, toC, re, S_diag, I_diag, vmul]
  obtain ⟨q, a, b, hq, h⟩ := hp.split hn
  have hr : Res (2 * n) (-(hh (2 * n) / 2)) q := Res_of_isTrig (by omega) hq _
  unfold U1d
  simp only [(shifted_samp hn hq h).2]
  rw [pair_sum hr, P1d_hh]
  congr 1; apply tab_congr; intro j _
  rw [hh_two_mul, IsTrig.integral_split hn hq.continuous h _ _ (by unfold hh; ring)]
  congr 1 <;> ring

theorem make_U (n : ℕ) (a b : ℝ) : (make n a b).U = U := rfl
theorem make_T (n : ℕ) (a b : ℝ) : (make n a b).T = T := rfl
theorem U_00 : U 0 false = U0d := by simp only [U, wrapTable]
theorem U_01 : U 0 true = U0 := by simp only [U, wrapTable]
theorem U_10 : U 1 false = U1d := by simp only [U, wrapTable]
theorem U_11 : U 1 true = U1 := by simp only [U, wrapTable]
theorem T_00 : T 0 false = T0d := by simp only [T, wrapTable]
theorem T_01 : T 0 true = T0 := by simp only [T, wrapTable]
theorem T_10 : T 1 false = T1d := by simp only [T, wrapTable]
theorem T_11 : T 1 true = T1 := by simp only [T, wrapTable]

/-- The point of the first cell around which a form is represented. -/
noncomputable def ph (n : ℕ) (d : Fin 2) (t : Bool) : ℝ :=
  match d, t with
  | 0, true => 0
  | 1, true => hh n / 2
  | 0, false => hh n / 2
  | 1, false => 0

theorem ph_00 (n : ℕ) : ph n 0 false = hh n / 2 := rfl
theorem ph_01 (n : ℕ) : ph n 0 true = 0 := rfl
theorem ph_10 (n : ℕ) : ph n 1 false = 0 := rfl
theorem ph_11 (n : ℕ) : ph n 1 true = hh n / 2 := rfl

theorem U_exact {n : ℕ} {p : ℝ → ℝ} (hp : IsTrig n p) (d : Fin 2) (t : Bool) :
    U d t (samp (2 * n) 0 p) = .ok ((make n).P d t p) := by
  obtain rfl | rfl : d = 0 ∨ d = 1 := by omega
  all_goals cases t
  · rw [U_00, P0d_samp]; unfold U0d; rw [stride2'_samp, zero_add]
  · rw [U_01, P0_samp]; unfold U0; rw [stride2_samp]
  · rw [U_10]; exact U1d_exact hp
  · rw [U_11]; exact U1_exact hp

theorem T_exact {n : ℕ} {p : ℝ → ℝ} (d : Fin 2) (t : Bool) (hp : Res n (ph n d t) p) :
    T d t ((make n).P d t p) = .ok (samp (2 * n) 0 p) := by
  have hd : Res n (hh n / 2) p → T0d (samp n (hh n / 2) p) = .ok (samp (2 * n) 0 p) := fun hp => by
    unfold T0d
    rw [hp.Sinv, sub_self, ← interweave_samp, zero_add]
  have h0 : Res n 0 p → T0 (samp n 0 p) = .ok (samp (2 * n) 0 p) := fun hp => by
    unfold T0
    rw [hp.S, ← interweave_samp]
  obtain rfl | rfl : d = 0 ∨ d = 1 := by omega
  all_goals cases t
  · rw [T_00, P0d_samp]; exact hd hp
  · rw [T_01, P0_samp]; exact h0 hp
  · rw [ph_10] at hp
    rw [T_10, P1d_hh]; unfold T1d; rw [hp.Hinv]; exact h0 hp
  · rw [ph_11] at hp
    rw [T_11, P1_hh]; unfold T1; rw [hp.Hinv]; exact hd hp

/-- Every form is the projection of its interpolant. -/
theorem exists_rep {n : ℕ} (d : Fin 2) (t : Bool) {a : List ℝ} (ha : a.length = n) :
    ∃ p, IsTrig (n / 2) p ∧ Res n (ph n d t) p ∧ a = (make n).P d t p := by
  have hH : (Sp.Hinv a).length = n := by
    rw [eq_tab' ha 0, Hinv_tab]; simp
  obtain rfl | rfl : d = 0 ∨ d = 1 := by omega
  all_goals cases t
  · obtain ⟨p, h1, h2, h3⟩ := exists_isTrig n (hh n / 2) a ha
    exact ⟨p, h1, h2, by rw [h3]; exact (P0d_samp n p).symm⟩
  · obtain ⟨p, h1, h2, h3⟩ := exists_isTrig n 0 a ha
    exact ⟨p, h1, h2, by rw [h3]; exact (P0_samp n p).symm⟩
  · obtain ⟨p, h1, h2, h3⟩ := exists_isTrig n 0 (Sp.Hinv a) hH
    refine ⟨p, h1, h2, ?_⟩
    rw [P1d_hh, ← h2.Hs, ← h3, Hs_Hinv]
  · obtain ⟨p, h1, h2, h3⟩ := exists_isTrig n (hh n / 2) (Sp.Hinv a) hH
    refine ⟨p, h1, h2, ?_⟩
    rw [P1_hh, ← h2.Hs, ← h3, Hs_Hinv]

@[simp] theorem length_P (n : ℕ) (d : Fin 2) (t : Bool) (f : ℝ → ℝ) : ((make n).P d t f).length = n := by
  obtain rfl | rfl : d = 0 ∨ d = 1 := by omega
  all_goals cases t
  · rw [P0d, length_tab]
  · rw [P0, length_tab]
  · rw [P1d_hh, length_tab]
  · rw [P1, length_tab]

theorem bop_samp (op : ℝ → ℝ → ℝ) (N : ℕ) (φ : ℝ) (p q : ℝ → ℝ) :
    bop op (samp N φ p) (samp N φ q) = .ok (samp N φ fun θ => op (p θ) (q θ)) := by
  unfold bop samp; rw [if_pos (by simp), zipWith_tab]

/-- The wedge product of two represented forms is the projection of the product of the interpolants. -/
theorem wedge_rep {n : ℕ} {p q : ℝ → ℝ} {K L : ℕ} (hp : IsTrig K p) (hq : IsTrig L q) (hKL : K + L ≤ n)
    (k l : Fin 2) (s t u : Bool) (hkl : k.val + l.val ≤ 1)
    (hp' : Res n (ph n k s) p) (hq' : Res n (ph n l t) q) :
    wedge1 T U k s l t u ((make n).P k s p) ((make n).P l t q)
      = .ok ((make n).P (Fin.ofNat 2 (k.val + l.val)) u fun x => p x * q x) := by
  have hpq : IsTrig n (fun θ => p θ * q θ) := (hp.mul hq).mono hKL
  have hT1 := T_exact k s hp'
  have hT2 := T_exact l t hq'
  have hU := U_exact hpq (Fin.ofNat 2 (k.val + l.val)) u
  unfold wedge1
  rw [if_neg (by omega)]
  split_ifs with h
  · obtain ⟨rfl, rfl, rfl, rfl⟩ := h
    cases s
    · rw [show (Fin.ofNat 2 ((0 : Fin 2).val + (0 : Fin 2).val)) = 0 from rfl, P0d_samp, P0d_samp, bop_samp, P0d_samp]
    · rw [show (Fin.ofNat 2 ((0 : Fin 2).val + (0 : Fin 2).val)) = 0 from rfl, P0_samp, P0_samp, bop_samp, P0_samp]
  · have hT1' : T k s ((make n).P k s p) = .ok (samp (2 * n) 0 p) := hT1
    have hT2' : T l t ((make n).P l t q) = .ok (samp (2 * n) 0 q) := hT2
    have hw : ∃ w : List ℝ → List ℝ → List ℝ, Sym.wedge_1d k.val l.val = some w ∧ ∀ x y : ℝ, (w [x] [y]).getD 0 0 = x * y := by
      obtain rfl | rfl : k = 0 ∨ k = 1 := by omega
      all_goals obtain rfl | rfl : l = 0 ∨ l = 1 := by omega
      all_goals simp [Sym.wedge_1d, Sym.antisymmetrize, Sym.wedge_1d_base] at hkl ⊢
      intro x y; ring
    obtain ⟨w, hw1, hw2⟩ := hw
    rw [hT1', hT2']
    simp only [bind, Except.bind, hw1, hw2]
    rw [bop_samp]
    exact hU

/-- The contraction of two represented 1-forms is the projection of the product. -/
theorem contraction_rep {n : ℕ} {p q : ℝ → ℝ} {K L : ℕ} (hp : IsTrig K p) (hq : IsTrig L q) (hKL : K + L ≤ n)
    (s t u : Bool) (hp' : Res n (ph n 1 s) p) (hq' : Res n (ph n 1 t) q) :
    contraction1 T U s 1 t u ((make n).P 1 s p) ((make n).P 1 t q)
      = .ok ((make n).P 0 u fun x => p x * q x) := by
  have hpq : IsTrig n (fun θ => p θ * q θ) := (hp.mul hq).mono hKL
  have hU := U_exact hpq 0 u
  have hT1' : T 1 s ((make n).P 1 s p) = .ok (samp (2 * n) 0 p) := T_exact 1 s hp'
  have hT2' : T 1 t ((make n).P 1 t q) = .ok (samp (2 * n) 0 q) := T_exact 1 t hq'
  unfold contraction1
  rw [if_neg (by decide), hT1', hT2']
  simp only [bind, Except.bind, Sym.contraction_1d]
  simp only [Option.getD_some, List.getD_cons_zero]
  rw [bop_samp]
  exact hU

end Periodic

end Dec
