import Verif.Lib.Fourier

set_option linter.unusedSimpArgs false
set_option linter.unusedVariables false

/-! Real arrays, resolvable functions, and the action of `S`, `Sinv`, `H`, `Hinv` on them. -/

namespace Dec.Sp

open Finset Real

/-- Reflection of the frequency index. -/
def sig (N k : ℕ) : ℕ := if N % 2 = 0 then (N - k) % N else N - 1 - k

theorem sig_lt {N k : ℕ} (h : k < N) : sig N k < N := by
  unfold sig; split_ifs
  · exact Nat.mod_lt _ (by omega)
  · omega

theorem sig_sig {N k : ℕ} (h : k < N) : sig N (sig N k) = k := by
  unfold sig
  split_ifs with h2
  · rcases Nat.eq_zero_or_pos k with rfl | hk
    · simp
    · rw [Nat.mod_eq_of_lt (show N - k < N by omega), show N - (N - k) = k by omega,
        Nat.mod_eq_of_lt h]
  · omega

theorem fr_sig {N k : ℕ} (h : k < N) :
    fr N (sig N k) = -fr N k ∨ (N % 2 = 0 ∧ k = 0 ∧ sig N k = 0) := by
  unfold sig fr
  split_ifs with h2
  · rcases Nat.eq_zero_or_pos k with rfl | hk
    · right; simp [h2]
    · left; rw [Nat.mod_eq_of_lt (show N - k < N by omega)]; omega
  · left; omega

theorem fr_sig_dvd {N k : ℕ} (h : k < N) : (N : ℤ) ∣ fr N (sig N k) - (-fr N k) := by
  rcases fr_sig h with h1 | ⟨h1, h2, h3⟩
  · rw [h1]; simp
  · rw [h3, h2]; unfold fr
    refine ⟨-1, ?_⟩
    omega

theorem sum_sig {M : Type*} [AddCommMonoid M] (N : ℕ) (g : ℕ → M) :
    ∑ k ∈ range N, g (sig N k) = ∑ k ∈ range N, g k :=
  Finset.sum_nbij' (sig N) (sig N) (fun k hk => by simpa using sig_lt (by simpa using hk))
    (fun k hk => by simpa using sig_lt (by simpa using hk))
    (fun k hk => sig_sig (by simpa using hk)) (fun k hk => sig_sig (by simpa using hk))
    (fun k hk => rfl)

/-- A multiplier that is real and even. -/
def RealEven (N : ℕ) (d : ℕ → ℂ) : Prop :=
  ∀ k < N, d (sig N k) = (starRingEnd ℂ) (d k)

/-- Hermitian multipliers map real arrays to real arrays. -/
theorem im_synth_zero {N : ℕ} {x : ℕ → ℂ} {d : ℕ → ℂ} (hx : ∀ j < N, (x j).im = 0)
    (hd : RealEven N d) (j : ℤ) :
    (synth N (fun k => coef N x k * d k) (j * hh N)).im = 0 := by
  rcases Nat.eq_zero_or_pos N with rfl | hN
  · simp [synth]
  rw [← Complex.conj_eq_iff_im]
  unfold synth
  rw [map_sum, ← sum_sig N (fun k => coef N x k * d k * E (fr N k) (j * hh N))]
  apply Finset.sum_congr rfl
  intro k hk
  simp only [Finset.mem_range] at hk
  rw [map_mul, map_mul, E_conj, hd k hk, E_alias_of_dvd hN (fr_sig_dvd hk)]
  congr 1
  congr 1
  unfold coef
  rw [map_div₀, map_sum, Complex.conj_natCast]
  congr 1
  apply Finset.sum_congr rfl
  intro i hi
  simp only [Finset.mem_range] at hi
  rw [map_mul, E_conj, Complex.conj_eq_iff_im.2 (hx i hi), neg_neg]
  congr 1
  rw [E_neg, show ((i : ℕ) : ℝ) = ((i : ℤ) : ℝ) by simp, E_alias_of_dvd hN (fr_sig_dvd hk), E_neg, inv_inv]

theorem tab_im_zero {N : ℕ} {y : ℕ → ℂ} (h : ∀ j < N, (y j).im = 0) :
    toC (re (tab N y)) = tab N y := by
  rw [re_tab, toC_tab]
  exact tab_congr fun j hj => Complex.ext (by simp) (by simp [h j hj])

theorem Id_symm (n : ℤ) (b : ℝ) : Id n (-b) b = if n = 0 then ((2 * b : ℝ) : ℂ) else ((2 * sin (n * b) / n : ℝ) : ℂ) := by
  unfold Id
  split_ifs with h
  · push_cast; ring
  · have hn : (n : ℂ) ≠ 0 := by exact_mod_cast h
    rw [E_neg', ← E_neg]
    have h1 : E n b = cos (n * b) + sin (n * b) * Complex.I := by
      apply Complex.ext
      · simp [E_re, ← Complex.ofReal_cos, ← Complex.ofReal_sin]
      · simp [E_im, ← Complex.ofReal_cos, ← Complex.ofReal_sin]
    have h2 : E (-n) b = cos (n * b) - sin (n * b) * Complex.I := by
      rw [← E_conj, h1, map_add, map_mul, Complex.conj_ofReal, Complex.conj_ofReal, Complex.conj_I]; ring
    rw [h1, h2]
    push_cast
    have hI : Complex.I ≠ 0 := Complex.I_ne_zero
    field_simp
    ring_nf

theorem Id_symm_neg (n : ℤ) (b : ℝ) : Id (-n) (-b) b = Id n (-b) b := by
  rw [Id_symm, Id_symm]
  simp only [neg_eq_zero]
  split_ifs with h
  · rfl
  · congr 1; push_cast; rw [neg_mul, Real.sin_neg, mul_neg, neg_div_neg_eq]

theorem fr_abs_le {N k : ℕ} (h : k < N) : 2 * |fr N k| ≤ N := by
  unfold fr
  rcases abs_cases ((k : ℤ) - ((N / 2 : ℕ) : ℤ)) with ⟨h1, _⟩ | ⟨h1, _⟩ <;> rw [h1] <;> omega

/-- The half-cell integral does not annihilate any resolved frequency. -/
theorem Id_ne_zero {N k : ℕ} (hk : k < N) : Id (fr N k) (-(hh N / 2)) (hh N / 2) ≠ 0 := by
  have hN : 0 < N := by omega
  have hp := hh_pos hN
  rw [Id_symm]
  split_ifs with h
  · exact_mod_cast (by positivity)
  · have hn : (fr N k : ℝ) ≠ 0 := by exact_mod_cast h
    have hs : sin ((fr N k : ℝ) * (hh N / 2)) ≠ 0 := by
      have hb : |(fr N k : ℝ) * (hh N / 2)| ≤ π / 2 := by
        rw [abs_mul, abs_of_pos (by positivity : 0 < hh N / 2)]
        have h2 : 2 * |(fr N k : ℝ)| ≤ N := by exact_mod_cast fr_abs_le hk
        have h3 := mul_hh hN
        have : 2 * |(fr N k : ℝ)| * hh N ≤ N * hh N := by gcongr
        linarith
      have hne : (fr N k : ℝ) * (hh N / 2) ≠ 0 := by positivity
      have hpi := Real.pi_pos
      rw [abs_le] at hb
      rcases lt_or_gt_of_ne hne with hlt | hgt
      · exact (Real.sin_neg_of_neg_of_neg_pi_lt hlt (by linarith)).ne
      · exact (Real.sin_pos_of_pos_of_lt_pi hgt (by linarith)).ne'
    have : (2 * sin ((fr N k : ℝ) * (hh N / 2)) / (fr N k : ℝ)) ≠ 0 :=
      div_ne_zero (mul_ne_zero two_ne_zero hs) hn
    exact_mod_cast this

theorem realEven_Id (N : ℕ) (b : ℝ) : RealEven N (fun k => Id (fr N k) (-b) b) := by
  intro k hk
  have hreal : ∀ n, (starRingEnd ℂ) (Id n (-b) b) = Id n (-b) b := by
    intro n; rw [Id_symm]; split_ifs <;> exact Complex.conj_ofReal _
  show Id _ _ _ = _
  rw [hreal]
  rcases fr_sig hk with h1 | ⟨_, h2, h3⟩
  · rw [h1, Id_symm_neg]
  · rw [h3, h2]

theorem realEven_inv {N : ℕ} {d : ℕ → ℂ} (hd : RealEven N d) : RealEven N (fun k => (d k)⁻¹) := by
  intro k hk; show (d (sig N k))⁻¹ = _; rw [hd k hk, map_inv₀]

theorem half_step (N : ℕ) : 2 * π / (N : ℝ) / 2 = hh N / 2 := rfl
theorem neg_half_step (N : ℕ) : -(2 * π / (N : ℝ)) / 2 = -(hh N / 2) := by unfold hh; ring

/-! ### Arrays in normal form -/

theorem Hs_tab (N : ℕ) (x : ℕ → ℝ) :
    Hs (tab N x) = tab N (fun j =>
      (synth N (fun k => coef N (fun i => (x i : ℂ)) k * Id (fr N k) (-(hh N / 2)) (hh N / 2)) (j * hh N)).re) := by
  unfold Hs
  simp only [length_tab, toC_tab]
  rw [neg_half_step, half_step, I_diag_tab, diag_mul, re_tab]

theorem Hinv_tab (N : ℕ) (x : ℕ → ℝ) :
    Hinv (tab N x) = tab N (fun j =>
      (synth N (fun k => coef N (fun i => (x i : ℂ)) k / Id (fr N k) (-(hh N / 2)) (hh N / 2)) (j * hh N)).re) := by
  unfold Hinv
  simp only [length_tab, toC_tab]
  rw [neg_half_step, half_step, I_diag_tab, diag_div, re_tab]

theorem S_tab (N : ℕ) (x : ℕ → ℝ) :
    S (tab N x) = tab N (fun j => (synth N (coef N (fun i => (x i : ℂ))) (j * hh N + hh N / 2)).re) := by
  unfold S
  simp only [length_tab, toC_tab]
  rw [half_step, S_diag_tab, diag_mul, re_tab]
  exact tab_congr fun j _ => by rw [synth_shift]

theorem Sinv_tab (N : ℕ) (x : ℕ → ℝ) :
    Sinv (tab N x) = tab N (fun j => (synth N (coef N (fun i => (x i : ℂ))) (j * hh N - hh N / 2)).re) := by
  unfold Sinv
  simp only [length_tab, toC_tab]
  rw [neg_half_step, S_diag_tab, diag_mul, re_tab]
  exact tab_congr fun j _ => by rw [synth_shift, sub_eq_add_neg]

@[simp] theorem length_Hs (a : List ℝ) : (Hs a).length = a.length := by simp [Hs]
@[simp] theorem length_Hinv (a : List ℝ) : (Hinv a).length = a.length := by simp [Hinv]
@[simp] theorem length_S (a : List ℝ) : (S a).length = a.length := by simp [S]
@[simp] theorem length_Sinv (a : List ℝ) : (Sinv a).length = a.length := by simp [Sinv]

theorem coef_congr {N : ℕ} {x y : ℕ → ℂ} (h : ∀ j < N, x j = y j) (k : ℕ) : coef N x k = coef N y k := by
  unfold coef; congr 1
  exact Finset.sum_congr rfl fun j hj => by rw [h j (by simpa using hj)]

/-- `Hinv` undoes `H`, for every real array. -/
theorem Hinv_Hs (a : List ℝ) : Hinv (Hs a) = a := by
  rw [eq_tab a 0]
  generalize a.length = N
  generalize (fun i => a.getD i 0) = x
  rw [Hs_tab, Hinv_tab]
  apply tab_congr; intro j hj
  set d : ℕ → ℂ := fun k => Id (fr N k) (-(hh N / 2)) (hh N / 2) with hd
  set c := coef N (fun i => (x i : ℂ)) with hc
  have h1 : ∀ k < N, coef N (fun i => (((synth N (fun k => c k * d k) (i * hh N)).re : ℝ) : ℂ)) k = c k * d k := by
    intro k hk
    rw [← coef_synth (fun k => c k * d k) hk]
    apply coef_congr; intro i hi
    apply Complex.ext
    · simp
    · have := im_synth_zero (N := N) (x := fun i => (x i : ℂ)) (d := d) (by simp)
        (realEven_Id N (hh N / 2)) i
      simp only [Complex.ofReal_im]; rw [← this]; simp [hc]
  rw [synth_congr (d := c)]
  · rw [hc, synth_coef _ hj]; simp
  · intro k hk
    rw [h1 k hk, mul_div_cancel_right₀ _ (Id_ne_zero hk)]

/-- `H` undoes `Hinv`, for every real array. -/
theorem Hs_Hinv (a : List ℝ) : Hs (Hinv a) = a := by
  rw [eq_tab a 0]
  generalize a.length = N
  generalize (fun i => a.getD i 0) = x
  rw [Hinv_tab, Hs_tab]
  apply tab_congr; intro j hj
  set d : ℕ → ℂ := fun k => Id (fr N k) (-(hh N / 2)) (hh N / 2) with hd
  set c := coef N (fun i => (x i : ℂ)) with hc
  have h1 : ∀ k < N, coef N (fun i => (((synth N (fun k => c k / d k) (i * hh N)).re : ℝ) : ℂ)) k = c k / d k := by
    intro k hk
    rw [← coef_synth (fun k => c k / d k) hk]
    apply coef_congr; intro i hi
    apply Complex.ext
    · simp
    · have := im_synth_zero (N := N) (x := fun i => (x i : ℂ)) (d := fun k => (d k)⁻¹) (by simp)
        (realEven_inv (realEven_Id N (hh N / 2))) i
      simp only [Complex.ofReal_im]; rw [← this]; simp [hc, div_eq_mul_inv]
  rw [synth_congr (d := c)]
  · rw [hc, synth_coef _ hj]; simp
  · intro k hk
    rw [h1 k hk, div_mul_cancel₀ _ (Id_ne_zero hk)]

/-! ### Resolvable functions -/

/-- Samples of `p` at `φ + j 2π/N`. -/
noncomputable def samp (N : ℕ) (φ : ℝ) (p : ℝ → ℝ) : List ℝ := tab N (fun j => p (φ + j * hh N))

@[simp] theorem length_samp (N : ℕ) (φ : ℝ) (p : ℝ → ℝ) : (samp N φ p).length = N := by simp [samp]

/-- Functions that are the trigonometric interpolant of their samples at `φ + j 2π/N`. -/
def Res (N : ℕ) (φ : ℝ) (p : ℝ → ℝ) : Prop :=
  ∃ c : ℕ → ℂ, (∀ θ, p (φ + θ) = (synth N c θ).re) ∧ ∀ j < N, (synth N c (j * hh N)).im = 0

theorem Res.continuous {N : ℕ} {φ : ℝ} {p : ℝ → ℝ} (h : Res N φ p) : Continuous p := by
  obtain ⟨c, hc, _⟩ := h
  have : p = fun θ => (synth N c (θ - φ)).re := by
    funext θ; rw [← hc]; congr 1; ring
  rw [this]
  exact Complex.continuous_re.comp ((continuous_synth N c).comp (continuous_id.sub continuous_const))

theorem Res.coef {N : ℕ} {φ : ℝ} {p : ℝ → ℝ} {c : ℕ → ℂ} (hc : ∀ θ, p (φ + θ) = (synth N c θ).re)
    (hi : ∀ j < N, (synth N c (j * hh N)).im = 0) {k : ℕ} (hk : k < N) :
    coef N (fun j => ((p (φ + j * hh N) : ℝ) : ℂ)) k = c k := by
  rw [← coef_synth c hk]
  apply coef_congr; intro j hj
  apply Complex.ext
  · simp [hc]
  · simp [hi j hj]

theorem Res.Hs {N : ℕ} {φ : ℝ} {p : ℝ → ℝ} (h : Res N φ p) :
    Hs (samp N φ p) = tab N (fun j => ∫ ξ in (φ + j * hh N - hh N / 2)..(φ + j * hh N + hh N / 2), p ξ) := by
  obtain ⟨c, hc, hi⟩ := h
  unfold samp
  rw [Hs_tab]
  apply tab_congr; intro j hj
  rw [synth_congr (d := fun k => c k * Id (fr N k) (-(hh N / 2)) (hh N / 2)), synth_integral,
    re_integral (continuous_synth N c)]
  · simp_rw [← hc]
    rw [intervalIntegral.integral_comp_add_left (fun x => p x)]
    congr 1 <;> ring
  · intro k hk; rw [Res.coef hc hi hk]

theorem Res.S {N : ℕ} {φ : ℝ} {p : ℝ → ℝ} (h : Res N φ p) :
    S (samp N φ p) = samp N (φ + hh N / 2) p := by
  obtain ⟨c, hc, hi⟩ := h
  unfold samp
  rw [S_tab]
  apply tab_congr; intro j hj
  rw [synth_congr (d := c) (fun k hk => Res.coef hc hi hk), ← hc]
  congr 1; ring

theorem Res.Sinv {N : ℕ} {φ : ℝ} {p : ℝ → ℝ} (h : Res N φ p) :
    Sinv (samp N φ p) = samp N (φ - hh N / 2) p := by
  obtain ⟨c, hc, hi⟩ := h
  unfold samp
  rw [Sinv_tab]
  apply tab_congr; intro j hj
  rw [synth_congr (d := c) (fun k hk => Res.coef hc hi hk), ← hc]
  congr 1; ring

theorem Res.Hinv {N : ℕ} {φ : ℝ} {p : ℝ → ℝ} (h : Res N φ p) :
    Hinv (tab N (fun j => ∫ ξ in (φ + j * hh N - hh N / 2)..(φ + j * hh N + hh N / 2), p ξ)) = samp N φ p := by
  rw [← h.Hs, Hinv_Hs]

/-- Every real array is the array of samples of a resolvable function. -/
theorem exists_res (N : ℕ) (φ : ℝ) (x : ℕ → ℝ) : ∃ p, Res N φ p ∧ samp N φ p = tab N x := by
  let c := Sp.coef N (fun i => (x i : ℂ))
  refine ⟨fun θ => (synth N c (θ - φ)).re, ⟨c, fun θ => by simp, ?_⟩, ?_⟩
  · intro j hj; rw [synth_coef _ hj]; simp
  · unfold samp; apply tab_congr; intro j hj
    simp only [add_sub_cancel_left]
    rw [synth_coef _ hj]; simp

theorem Res.add {N : ℕ} {φ : ℝ} {p q : ℝ → ℝ} (hp : Res N φ p) (hq : Res N φ q) :
    Res N φ (fun θ => p θ + q θ) := by
  obtain ⟨c, hc, hi⟩ := hp
  obtain ⟨d, hd, hj⟩ := hq
  refine ⟨fun k => c k + d k, fun θ => ?_, fun j hjN => ?_⟩
  · simp only [hc, hd]; rw [synth_add, Complex.add_re]
  · rw [synth_add, Complex.add_im, hi j hjN, hj j hjN, add_zero]

theorem Res.const_mul {N : ℕ} {φ : ℝ} {p : ℝ → ℝ} (hp : Res N φ p) (a : ℝ) :
    Res N φ (fun θ => a * p θ) := by
  obtain ⟨c, hc, hi⟩ := hp
  refine ⟨fun k => (a : ℂ) * c k, fun θ => ?_, fun j hjN => ?_⟩
  · show a * p (φ + θ) = _
    rw [synth_mul_left, Complex.re_ofReal_mul, hc]
  · rw [synth_mul_left, Complex.im_ofReal_mul, hi j hjN, mul_zero]

theorem Res.zero (N : ℕ) (φ : ℝ) : Res N φ (fun _ => 0) :=
  ⟨fun _ => 0, by simp [synth], by simp [synth]⟩

theorem Res.sum {N : ℕ} {φ : ℝ} {ι : Type*} (s : Finset ι) {p : ι → ℝ → ℝ} (hp : ∀ i ∈ s, Res N φ (p i)) :
    Res N φ (fun θ => ∑ i ∈ s, p i θ) := by
  classical
  induction s using Finset.induction with
  | empty => simpa using Res.zero N φ
  | insert a s ha ih =>
    simp_rw [Finset.sum_insert ha]
    exact (hp a (by simp)).add (ih fun i hi => hp i (by simp [hi]))

theorem Res.sub {N : ℕ} {φ : ℝ} {p q : ℝ → ℝ} (hp : Res N φ p) (hq : Res N φ q) :
    Res N φ (fun θ => p θ - q θ) := by
  have := hp.add (hq.const_mul (-1))
  convert this using 2; ring

/-- Changing the base point of the samples. -/
theorem Res.comp_add {N : ℕ} {φ : ℝ} {p : ℝ → ℝ} (hp : Res N φ p) (a : ℝ) :
    Res N (φ - a) (fun θ => p (θ + a)) := by
  obtain ⟨c, hc, hi⟩ := hp
  exact ⟨c, fun θ => by rw [← hc]; show p _ = p _; congr 1; ring, hi⟩

theorem synth_single {N k : ℕ} (hk : k < N) (a : ℂ) (θ : ℝ) :
    synth N (fun l => if l = k then a else 0) θ = a * E (fr N k) θ := by
  unfold synth; simp [hk]

/-- Frequencies strictly below the Nyquist frequency are resolved, with any phase, at any base point. -/
theorem Res.cos_lt {N : ℕ} {m : ℤ} (hm : 2 * |m| < N) (φ α : ℝ) :
    Res N φ (fun θ => cos (m * θ + α)) := by
  have h0 := abs_nonneg m
  have h1 := abs_lt.1 (show |m| < ((N - 1) / 2 : ℕ) + 1 by omega)
  obtain ⟨k, hk, hkm⟩ : ∃ k < N, fr N k = m := ⟨(m + (N / 2 : ℕ)).toNat, by omega, by unfold fr; omega⟩
  obtain ⟨l, hl, hlm⟩ : ∃ k < N, fr N k = -m := ⟨(-m + (N / 2 : ℕ)).toNat, by omega, by unfold fr; omega⟩
  let A : ℂ := Complex.exp (Complex.I * (m * φ + α : ℝ))
  have key : ∀ θ, synth N (fun i => (if i = k then A / 2 else 0) + (if i = l then (starRingEnd ℂ) A / 2 else 0)) θ
      = ((cos (m * (φ + θ) + α) : ℝ) : ℂ) := by
    intro θ
    rw [synth_add, synth_single hk, synth_single hl, hkm, hlm]
    have h2 : (starRingEnd ℂ) A / 2 * E (-m) θ = (starRingEnd ℂ) (A / 2 * E m θ) := by
      rw [map_mul, E_conj, map_div₀, Complex.conj_ofNat]
    rw [h2, Complex.add_conj]
    have h3 : A / 2 * E m θ = Complex.exp (((m * (φ + θ) + α : ℝ) : ℂ) * Complex.I) / 2 := by
      simp only [A, E]; rw [div_mul_eq_mul_div, ← Complex.exp_add]; congr 2; push_cast; ring
    rw [h3]
    congr 1
    have : (Complex.exp (((m * (φ + θ) + α : ℝ) : ℂ) * Complex.I) / 2).re
        = (Complex.exp (((m * (φ + θ) + α : ℝ) : ℂ) * Complex.I)).re / 2 := by
      simp
    rw [this, Complex.exp_ofReal_mul_I_re]; ring
  refine ⟨fun i => (if i = k then A / 2 else 0) + (if i = l then (starRingEnd ℂ) A / 2 else 0),
    fun θ => ?_, fun j _ => ?_⟩
  · rw [key, Complex.ofReal_re]
  · rw [key]; exact Complex.ofReal_im _

/-- The Nyquist cosine is resolved at its own base point. -/
theorem Res.cos_nyquist {m : ℕ} (hm : 0 < m) (φ : ℝ) :
    Res (2 * m) φ (fun θ => cos (m * (θ - φ))) := by
  refine ⟨fun l => if l = 0 then 1 else 0, fun θ => ?_, fun j _ => ?_⟩
  · rw [synth_single (by omega), one_mul, E_re]
    unfold fr
    simp only [Nat.mul_div_cancel_left m (show 0 < 2 by norm_num), Nat.cast_zero, zero_sub]
    rw [add_sub_cancel_left]; push_cast; rw [neg_mul, Real.cos_neg]
  · rw [synth_single (by omega), one_mul, E_im]
    unfold fr hh
    simp only [Nat.mul_div_cancel_left m (show 0 < 2 by norm_num), Nat.cast_zero, zero_sub]
    have hm' : (m : ℝ) ≠ 0 := by exact_mod_cast hm.ne'
    have : ((-(m : ℤ) : ℤ) : ℝ) * (j * (2 * π / ((2 * m : ℕ) : ℝ))) = -(j * π) := by
      push_cast; field_simp
    rw [this, Real.sin_neg, Real.sin_nat_mul_pi, neg_zero]

end Dec.Sp
