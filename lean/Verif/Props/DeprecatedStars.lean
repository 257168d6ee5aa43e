import Verif.Props.Transforms
import Verif.Lib.ChebyshevStar
import Verif.Lib.ChebyshevAccept

set_option linter.unusedSimpArgs false
set_option linter.unusedVariables false

/-! # C69: the integral transforms and Chebyshev stars of `/repo/dec/deprecated/spectral.py` -/

namespace Dec.Props

open Finset Real Dec.Sp
open Dec.Regular (toC_vdiv)

/-- Rolling the coefficients multiplies the samples by an exponential. -/
theorem Finv_roll_one {N : ℕ} (hN : 0 < N) (c : ℕ → ℂ) :
    Finv (roll (tab N fun k => (N : ℂ) * c k) 1) = tab N fun j => ∑ k ∈ range N, c k * E (fr N k + 1) (j * hh N) := by
  rw [roll_one_tab, show (tab N fun i => (N : ℂ) * c ((i + N - 1) % N)) = tab N fun i => (N : ℂ) * (fun i => c ((i + N - 1) % N)) i from rfl, Finv_smul]
  refine tab_congr fun j _ => ?_
  obtain ⟨M, rfl⟩ : ∃ M, N = M + 1 := ⟨N - 1, by omega⟩
  unfold synth
  rw [Finset.sum_range_succ', Finset.sum_range_succ]
  beta_reduce
  congr 1
  · refine Finset.sum_congr rfl fun k hk => ?_
    rw [Finset.mem_range] at hk
    rw [show k + 1 + (M + 1) - 1 = k + (M + 1) by omega, Nat.add_mod_right, Nat.mod_eq_of_lt (by omega)]
    congr 2; unfold fr; push_cast; ring
  · rw [show 0 + (M + 1) - 1 = M by omega, Nat.mod_eq_of_lt (by omega)]
    congr 1
    have := E_alias_of_dvd hN (n := fr (M + 1) 0) (m := fr (M + 1) M + 1) ⟨-1, by unfold fr; push_cast; ring⟩ (j : ℤ)
    exact_mod_cast this

theorem Finv_roll_neg_one {N : ℕ} (hN : 0 < N) (c : ℕ → ℂ) :
    Finv (roll (tab N fun k => (N : ℂ) * c k) (-1)) = tab N fun j => ∑ k ∈ range N, c k * E (fr N k - 1) (j * hh N) := by
  rw [roll_neg_one_tab, show (tab N fun i => (N : ℂ) * c ((i + 1) % N)) = tab N fun i => (N : ℂ) * (fun i => c ((i + 1) % N)) i from rfl, Finv_smul]
  refine tab_congr fun j _ => ?_
  obtain ⟨M, rfl⟩ : ∃ M, N = M + 1 := ⟨N - 1, by omega⟩
  unfold synth
  conv_rhs => rw [Finset.sum_range_succ']
  rw [Finset.sum_range_succ]
  beta_reduce
  congr 1
  · refine Finset.sum_congr rfl fun k hk => ?_
    rw [Finset.mem_range] at hk
    rw [Nat.mod_eq_of_lt (by omega)]
    congr 2; unfold fr; push_cast; ring
  · rw [Nat.mod_self]
    congr 1
    have := E_alias_of_dvd hN (n := fr (M + 1) M) (m := fr (M + 1) 0 - 1) ⟨1, by unfold fr; push_cast; ring⟩ (j : ℤ)
    exact_mod_cast this

/-- Integrals of a synthesised function against an exponential. -/
theorem integral_synth_E (N : ℕ) (c : ℕ → ℂ) (r : ℤ) (θ a b : ℝ) :
    ∫ ξ in (θ + a)..(θ + b), synth N c ξ * E r ξ = ∑ k ∈ range N, c k * Id (fr N k + r) a b * E (fr N k + r) θ := by
  have e : ∀ ξ, synth N c ξ * E r ξ = ∑ k ∈ range N, c k * E (fr N k + r) ξ := by
    intro ξ; unfold synth; rw [Finset.sum_mul]
    exact Finset.sum_congr rfl fun k _ => by rw [E_add']; ring
  simp_rw [e]
  rw [intervalIntegral.integral_finsetSum]
  · refine Finset.sum_congr rfl fun k _ => ?_
    rw [intervalIntegral.integral_const_mul, integral_E, mul_assoc]
  · intro k _; exact (continuous_const.mul (continuous_E _)).intervalIntegrable _ _

theorem E_one (ξ : ℝ) : E 1 ξ = Complex.exp (Complex.I * ξ) := by unfold E; congr 1; push_cast; ring

theorem drop_two_I_diag (N : ℕ) (a b : ℝ) : (I_diag (N + 2) a b).drop 2 = tab N fun k => Id (fr N k + 1) a b := by
  rw [I_diag_tab, drop_tab]
  refine tab_congr' (by omega) fun k _ => ?_
  congr 1; unfold fr; push_cast; omega

theorem drop_last_I_diag (N : ℕ) (a b : ℝ) : (I_diag (N + 2) a b).dropLast.dropLast = tab N fun k => Id (fr N k - 1) a b := by
  rw [I_diag_tab, dropLast_tab, dropLast_tab]
  refine tab_congr' (by omega) fun k _ => ?_
  congr 1; unfold fr; push_cast; omega


/-- The Fourier-space products of `H_exp`, `H_sin`, `H_sin_dual`. -/
theorem roll_up {N : ℕ} (hN : 0 < N) (c : ℕ → ℂ) (a b : ℝ) :
    Finv (roll (vmul ((I_diag (N + 2) a b).drop 2) (F (csamp N c))) 1) = tab N fun j => ∫ ξ in (j * hh N + a)..(j * hh N + b), synth N c ξ * E 1 ξ := by
  rw [drop_two_I_diag, F_csamp, vmul_tab]
  rw [show (tab N fun i => Id (fr N i + 1) a b * ((N : ℂ) * c i)) = tab N fun i => (N : ℂ) * (c i * Id (fr N i + 1) a b) from tab_congr fun k _ => by ring, Finv_roll_one hN]
  exact tab_congr fun j _ => (integral_synth_E N c 1 _ a b).symm

theorem roll_down {N : ℕ} (hN : 0 < N) (c : ℕ → ℂ) (a b : ℝ) :
    Finv (roll (vmul ((I_diag (N + 2) a b).dropLast.dropLast) (F (csamp N c))) (-1)) = tab N fun j => ∫ ξ in (j * hh N + a)..(j * hh N + b), synth N c ξ * E (-1) ξ := by
  rw [drop_last_I_diag, F_csamp, vmul_tab]
  rw [show (tab N fun i => Id (fr N i - 1) a b * ((N : ℂ) * c i)) = tab N fun i => (N : ℂ) * (c i * Id (fr N i - 1) a b) from tab_congr fun k _ => by ring, Finv_roll_neg_one hN]
  exact tab_congr fun j _ => (integral_synth_E N c (-1) _ a b).symm


theorem Finv_comb {N : ℕ} (X Y : List ℂ) (hX : X.length = N) (hY : Y.length = N) (α β : ℂ) (f g : ℕ → ℂ) (hf : Finv X = tab N f) (hg : Finv Y = tab N g) :
    Finv (tab N fun k => α * X.getD k 0 + β * Y.getD k 0) = tab N fun j => α * f j + β * g j := by
  rw [eq_tab' hX 0, Finv_tab] at hf
  rw [eq_tab' hY 0, Finv_tab] at hg
  rw [Finv_tab]
  refine tab_congr fun j hj => ?_
  rw [← tab_inj.1 hf j hj, ← tab_inj.1 hg j hj, synth_add, synth_mul_left, synth_mul_left]
  ring

theorem comb_list {N : ℕ} (X Y : List ℂ) (hX : X.length = N) (hY : Y.length = N) (s w : ℂ) :
    (vsub (X.map (· * s)) (Y.map (· / s))).map (· / w) = tab N fun k => (s / w) * X.getD k 0 + (-(1 / s / w)) * Y.getD k 0 := by
  obtain ⟨f, rfl⟩ : ∃ f, X = tab N f := ⟨_, eq_tab' hX 0⟩
  obtain ⟨g, rfl⟩ : ∃ f, Y = tab N f := ⟨_, eq_tab' hY 0⟩
  rw [map_tab, map_tab, vsub_tab, map_tab]
  exact tab_congr fun k hk => by rw [getD_tab hk, getD_tab hk]; ring

theorem sin_E' (ξ h : ℝ) : ((sin (ξ + h) : ℝ) : ℂ) = Complex.exp (Complex.I * h) / (2 * Complex.I) * E 1 ξ + -(1 / Complex.exp (Complex.I * h) / (2 * Complex.I)) * E (-1) ξ := by
  rw [sin_E, E_add, E_add, E_neg 1 h, E_one h]
  ring

theorem length_roll_up (N : ℕ) (c : ℕ → ℂ) (a b : ℝ) : (roll (vmul ((I_diag (N + 2) a b).drop 2) (F (csamp N c))) 1).length = N := by
  rw [drop_two_I_diag, F_csamp, vmul_tab, length_roll, length_tab]

theorem length_roll_down (N : ℕ) (c : ℕ → ℂ) (a b : ℝ) : (roll (vmul ((I_diag (N + 2) a b).dropLast.dropLast) (F (csamp N c))) (-1)).length = N := by
  rw [drop_last_I_diag, F_csamp, vmul_tab, length_roll, length_tab]

/-- C69: the transforms by multiplication in Fourier space are exact on the interpolant. -/
theorem C69_transforms (N : ℕ) (p : ℝ → ℂ) (hp : IsExp N p) (a b : ℝ) :
    Deprecated.H_exp (circle N 0 p) = circle N 0 (fun x => ∫ ξ in (x - π / N)..(x + π / N), p ξ * Complex.exp (Complex.I * ξ)) ∧
    Deprecated.H_sin (circle N 0 p) = circle N 0 (fun x => ∫ ξ in (x - π / N)..(x + π / N), p ξ * (sin ξ : ℝ)) ∧
    Deprecated.H_sin_dual (circle N 0 p) = circle N 0 (fun x => ∫ ξ in (x - π / N)..(x + π / N), p ξ * (sin (ξ + π / N) : ℝ)) ∧
    Deprecated.I_sin a b (circle N 0 p) = circle N 0 (fun x => (sin x : ℝ) * ∫ ξ in (x + a)..(x + b), p ξ) := by
  rcases Nat.eq_zero_or_pos N with rfl | hN
  · simp [circle, Deprecated.H_exp, Deprecated.H_sin, Deprecated.H_sin_dual, Deprecated.I_sin, F, fftshift, fft, Finv, ifftshift, ifft, roll, vmul, vsub]
  obtain ⟨c, hc⟩ := hp.rep 0
  have hpc : ∀ θ, p θ = synth N c θ := fun θ => by rw [← hc, zero_add]
  have h1 : -(2 * π / N) / 2 = -(π / (N : ℝ)) := by ring
  have h2 : 2 * π / N / 2 = π / (N : ℝ) := by ring
  have key : ∀ s : ℝ, Finv (((vsub ((roll (vmul ((I_diag (N + 2) (-(π / N)) (π / N)).drop 2) (F (csamp N c))) 1).map (· * Complex.exp (Complex.I * s)))
      ((roll (vmul ((I_diag (N + 2) (-(π / N)) (π / N)).dropLast.dropLast) (F (csamp N c))) (-1)).map (· / Complex.exp (Complex.I * s)))).map (· / (2 * Complex.I))))
      = tab N fun j => ∫ ξ in ((j : ℝ) * hh N - π / N)..(j * hh N + π / N), p ξ * (sin (ξ + s) : ℝ) := by
    intro s
    rw [comb_list _ _ (length_roll_up N c _ _) (length_roll_down N c _ _),
      Finv_comb _ _ (length_roll_up N c _ _) (length_roll_down N c _ _) _ _ _ _ (roll_up hN c _ _) (roll_down hN c _ _)]
    refine tab_congr fun j _ => ?_
    have hcs := continuous_synth N c
    have i1 : IntervalIntegrable (fun ξ => synth N c ξ * E 1 ξ) MeasureTheory.volume ((j : ℝ) * hh N + -(π / N)) (j * hh N + π / N) :=
      (hcs.mul (continuous_E 1)).intervalIntegrable _ _
    have i2 : IntervalIntegrable (fun ξ => synth N c ξ * E (-1) ξ) MeasureTheory.volume ((j : ℝ) * hh N + -(π / N)) (j * hh N + π / N) :=
      (hcs.mul (continuous_E (-1))).intervalIntegrable _ _
    rw [← intervalIntegral.integral_const_mul, ← intervalIntegral.integral_const_mul, ← intervalIntegral.integral_add (i1.const_mul _) (i2.const_mul _), ← sub_eq_add_neg]
    congr 1; funext ξ
    rw [hpc, sin_E']; ring
  refine ⟨?_, ?_, ?_, ?_⟩
  · rw [circle_csamp hc]
    unfold Deprecated.H_exp
    simp only [length_csamp]
    rw [h1, h2, roll_up hN, circle_tab]
    refine tab_congr fun j _ => ?_
    rw [zero_add, ← sub_eq_add_neg]
    congr 1; funext ξ; rw [hpc, E_one]
  · rw [circle_csamp hc]
    unfold Deprecated.H_sin
    simp only [length_csamp]
    have := key 0
    simp only [Complex.ofReal_zero, mul_zero, Complex.exp_zero, mul_one, div_one, List.map_id', add_zero] at this
    rw [h1, h2, this, circle_tab]
    exact tab_congr fun j _ => by rw [zero_add]
  · rw [circle_csamp hc]
    unfold Deprecated.H_sin_dual
    simp only [length_csamp]
    have h3 : Complex.I * ((2 * π / N : ℝ) : ℂ) / 2 = Complex.I * ((π / N : ℝ) : ℂ) := by push_cast; ring
    rw [h1, h2, h3, key, circle_tab]
    exact tab_congr fun j _ => by rw [zero_add]
  · rw [circle_csamp hc]
    unfold Deprecated.I_sin
    simp only [length_csamp, length_F]
    have hv : vmul (I_diag N a b) (F (csamp N c)) = tab N fun k => (N : ℂ) * (c k * Id (fr N k) a b) := by
      rw [F_csamp, I_diag_tab, vmul_tab]; exact tab_congr fun k _ => by ring
    have hl1 : (roll (vmul (I_diag N a b) (F (csamp N c))) 1).length = N := by rw [hv, length_roll, length_tab]
    have hl2 : (roll (vmul (I_diag N a b) (F (csamp N c))) (-1)).length = N := by rw [hv, length_roll, length_tab]
    have := comb_list _ _ hl1 hl2 1 (2 * Complex.I)
    simp only [mul_one, div_one, List.map_id'] at this
    rw [this, Finv_comb _ _ hl1 hl2 _ _ _ _ (by rw [hv]; exact Finv_roll_one hN _) (by rw [hv]; exact Finv_roll_neg_one hN _), circle_tab]
    refine tab_congr fun j _ => ?_
    rw [zero_add]
    have e : ∀ r : ℤ, ∑ k ∈ range N, c k * Id (fr N k) a b * E (fr N k + r) (j * hh N) = (∫ ξ in ((j : ℝ) * hh N + a)..(j * hh N + b), p ξ) * E r (j * hh N) := by
      intro r
      rw [show (∫ ξ in ((j : ℝ) * hh N + a)..(j * hh N + b), p ξ) = ∫ ξ in ((j : ℝ) * hh N + a)..(j * hh N + b), synth N c ξ by congr 1; funext ξ; exact hpc ξ,
        ← synth_integral, synth, Finset.sum_mul]
      exact Finset.sum_congr rfl fun k _ => by rw [E_add']; ring
    rw [e 1]
    have e' := e (-1)
    simp only [← sub_eq_add_neg] at e'
    rw [e', sin_E]; ring

/-- C69: `H_exp`, documented as singular, is injective on arrays of two or more entries (and not on arrays of one entry). -/
theorem C69_H_exp_injective (N : ℕ) (hN : 0 < N) :
    (∀ x y : List ℂ, x.length = N → y.length = N → Deprecated.H_exp x = Deprecated.H_exp y → x = y) ↔ 2 ≤ N := by
  have h1 : -(2 * π / N) / 2 = -(π / (N : ℝ)) := by ring
  have h2 : 2 * π / N / 2 = π / (N : ℝ) := by ring
  have hv : ∀ c : ℕ → ℂ, Deprecated.H_exp (csamp N c) = tab N fun j => synth N (fun k => c k * Id (fr N k + 1) (-(π / N)) (π / N)) (j * hh N) * E 1 (j * hh N) := by
    intro c
    unfold Deprecated.H_exp
    simp only [length_csamp]
    rw [h1, h2, roll_up hN]
    refine tab_congr fun j _ => ?_
    rw [integral_synth_E, synth, Finset.sum_mul]
    exact Finset.sum_congr rfl fun k _ => by rw [E_add']; ring
  have hpi : π / (N : ℝ) - -(π / N) = 2 * π / N := by ring
  have hN' : (N : ℝ) ≠ 0 := by exact_mod_cast hN.ne'
  constructor
  · intro h
    by_contra hlt
    obtain rfl : N = 1 := by omega
    have := h (csamp 1 fun _ => 1) (csamp 1 fun _ => 0) (by simp) (by simp) (by
      rw [hv, hv]
      refine tab_congr fun j _ => ?_
      congr 1
      refine synth_congr (fun k hk => ?_) _
      have : Id (fr 1 k + 1) (-(π / ((1 : ℕ) : ℝ))) (π / ((1 : ℕ) : ℝ)) = 0 := by
        rw [Id_eq_zero_iff]
        right
        obtain rfl : k = 0 := by omega
        exact ⟨by simp [fr], 1, by simp [fr]; ring⟩
      rw [this]; ring)
    have := csamp_inj.1 this 0 (by omega)
    exact one_ne_zero this
  · intro h2N x y hx hy h
    have ex := csamp_coef x
    have ey := csamp_coef y
    rw [hx] at ex
    rw [hy] at ey
    rw [ex, ey, hv, hv, tab_inj] at h
    rw [ex, ey]
    refine csamp_congr fun k hk => ?_
    have h' : csamp N (fun k => coef N (fun i => x.getD i 0) k * Id (fr N k + 1) (-(π / N)) (π / N)) = csamp N (fun k => coef N (fun i => y.getD i 0) k * Id (fr N k + 1) (-(π / N)) (π / N)) :=
      tab_congr fun j hj => mul_right_cancel₀ (E_ne_zero _ _) (h j hj)
    have := csamp_inj.1 h' k hk
    refine mul_right_cancel₀ ?_ this
    rw [ne_eq, Id_eq_zero_iff, hpi]
    rintro (⟨-, h0⟩ | ⟨h0, l, hl⟩)
    · have : 0 < π / (N : ℝ) := by positivity
      linarith
    · have e : ((fr N k + 1 : ℤ) : ℝ) = ((N * l : ℤ) : ℝ) := by
        field_simp at hl
        push_cast at hl ⊢
        have := pi_pos
        nlinarith [hl]
      have e' : fr N k + 1 = N * l := by exact_mod_cast e
      have hb1 : fr N k + 1 < N := by unfold fr; omega
      have hb2 : -(N : ℤ) < fr N k + 1 := by unfold fr; omega
      rcases lt_trichotomy l 0 with hl0 | rfl | hl0
      · nlinarith
      · exact h0 (by simpa using e')
      · nlinarith

/-- The two sine transforms in terms of `K_space`. -/
theorem H_sin_K (N : ℕ) (x : List ℂ) (hx : x.length = N) : Deprecated.H_sin x = K_space (-(π / N)) (π / N) x := by
  obtain ⟨p, ⟨hp, hpx⟩, -⟩ := C68_interpolant 0 x
  rw [hx] at hp hpx
  rw [← hpx, (C69_transforms N p hp 0 0).2.1, C68_sine_integral N _ _ p hp]
  simp only [sub_eq_add_neg]

theorem H_sin_dual_K (N : ℕ) (x : List ℂ) (hx : x.length = N) : Deprecated.H_sin_dual x = K_space 0 (2 * π / N) (T_space (-(π / N)) x) := by
  obtain ⟨p, ⟨hp, hpx⟩, -⟩ := C68_interpolant 0 x
  rw [hx] at hp hpx
  have hp' := hp.comp_add (-(π / N))
  have e : circle N (0 + -(π / N)) p = circle N 0 (fun θ => p (θ + -(π / N))) := by
    rw [circle_tab, circle_tab]; exact tab_congr fun j _ => by congr 1; ring
  rw [← hpx, (C69_transforms N p hp 0 0).2.2.1, (C68_shift N 0 (-(π / N)) p hp).1, e, C68_sine_integral N _ _ _ hp', circle_tab, circle_tab]
  refine tab_congr fun j _ => ?_
  have := intervalIntegral.integral_comp_add_right (a := 0 + (j : ℝ) * hh N - π / N) (b := 0 + (j : ℝ) * hh N + π / N)
    (fun η => p (η + -(π / N)) * (sin η : ℝ)) (π / N)
  simp only [neg_add_cancel_right, add_neg_cancel_right] at this
  rw [this]
  congr 1 <;> ring

/-- A kernel element from a cosine polynomial with equal values at the ends of all cells. -/
theorem K_space_kernel {N K : ℕ} (hN : 0 < N) (hK : 0 < K) (hKN : 2 * (K - 1) < N) (α β a b x₁ x₂ : ℝ)
    (Q : ℝ → ℝ) (hQ : Q = fun θ => α * cos ((K : ℕ) * θ) + β * cos ((K - 1 : ℕ) * θ))
    (hcell : ∀ j : ℕ, Q (j * hh N + a) = Q (j * hh N + b)) (hne : Q x₁ ≠ Q x₂) :
    ∃ x : List ℂ, x.length = N ∧ x ≠ List.replicate N 0 ∧ K_space a b x = List.replicate N 0 := by
  let u : ℝ → ℝ := fun θ => α * K * sin ((K : ℕ) * θ) + β * (K - 1 : ℕ) * sin ((K - 1 : ℕ) * θ)
  have hd : ∀ θ, HasDerivAt Q (-u θ) θ := by
    intro θ
    rw [hQ]
    have d : ∀ m : ℕ, HasDerivAt (fun θ : ℝ => cos (m * θ)) (-sin (m * θ) * m) θ := fun m => by
      simpa using ((hasDerivAt_id θ).const_mul (m : ℝ)).cos
    have := ((d K).const_mul α).add ((d (K - 1)).const_mul β)
    refine this.congr_deriv ?_
    simp only [u]; ring
  have hu : IsSin K u := by
    have h1 := ((isTrig_sin_nat (m := K) (K := K) le_rfl).const_mul (α * K)).add ((isTrig_sin_nat (m := K - 1) (K := K) (by omega)).const_mul (β * (K - 1 : ℕ)))
    exact h1.isSin fun θ => by simp only [mul_neg, sin_neg]; ring
  obtain ⟨v, hv, huv⟩ := hu.div
  have hvE := isExp_ofReal hKN hv.isTrig
  refine ⟨circle N 0 fun θ => (v θ : ℂ), by rw [circle_tab, length_tab], ?_, ?_⟩
  · intro h0
    have hz : IsExp N (fun _ : ℝ => (0 : ℂ)) := ⟨fun _ => 0, fun θ => by simp⟩
    have e0 : circle N 0 (fun _ : ℝ => (0 : ℂ)) = List.replicate N 0 := by rw [circle_tab, replicate_tab]
    obtain ⟨q, hq, huniq⟩ := C68_interpolant 0 (List.replicate N (0 : ℂ))
    rw [List.length_replicate] at huniq
    have e : (fun θ => (v θ : ℂ)) = fun _ => 0 := (huniq _ ⟨hvE, h0⟩).trans (huniq _ ⟨hz, e0⟩).symm
    have hv0 : ∀ θ, v θ = 0 := fun θ => by exact_mod_cast congrFun e θ
    have hu0 : ∀ θ, u θ = 0 := fun θ => by rw [huv, hv0, zero_mul]
    exact hne (is_const_of_deriv_eq_zero (fun θ => (hd θ).differentiableAt) (fun θ => by rw [(hd θ).deriv, hu0, neg_zero]) x₁ x₂)
  · rw [C68_sine_integral N a b _ hvE, circle_tab, replicate_tab]
    refine tab_congr fun j _ => ?_
    have hc : Continuous u := by simp only [u]; fun_prop
    have h1 : ∫ ξ in (0 + (j : ℝ) * hh N + a)..(0 + (j : ℝ) * hh N + b), u ξ = 0 := by
      have := intervalIntegral.integral_eq_sub_of_hasDerivAt (f := fun θ => -Q θ) (f' := u) (a := 0 + (j : ℝ) * hh N + a) (b := 0 + (j : ℝ) * hh N + b)
        (fun θ _ => by have := (hd θ).neg; rw [neg_neg] at this; exact this) (hc.intervalIntegrable _ _)
      rw [this, zero_add, hcell]; ring
    have h2 : ∀ ξ, (v ξ : ℂ) * ((sin ξ : ℝ) : ℂ) = ((u ξ : ℝ) : ℂ) := fun ξ => by rw [huv]; push_cast; rfl
    simp only [h2]
    rw [intervalIntegral.integral_ofReal, h1, Complex.ofReal_zero]

/-- C69: `H_sin` is singular for every size, as documented. -/
theorem C69_H_sin_singular (N : ℕ) (hN : 0 < N) :
    ∃ x : List ℂ, x.length = N ∧ x ≠ List.replicate N 0 ∧ Deprecated.H_sin x = List.replicate N 0 := by
  have hN' : (N : ℝ) ≠ 0 := by exact_mod_cast hN.ne'
  have hhN : hh N = 2 * π / N := rfl
  have hz : ∀ (m : ℤ), cos (N * ((m : ℝ) * hh N + π / N) / 2) = 0 := by
    intro m
    rw [cos_eq_zero_iff]
    exact ⟨m, by rw [hhN]; field_simp⟩
  have hzj : ∀ j : ℕ, cos (N * ((j : ℝ) * hh N + π / N) / 2) = 0 := fun j => by exact_mod_cast hz j
  have hzj' : ∀ j : ℕ, cos (N * ((j : ℝ) * hh N + -(π / N)) / 2) = 0 := fun j => by
    have := hz ((j : ℤ) - 1)
    rw [← this]; congr 1; rw [hhN]; push_cast; field_simp; ring
  suffices h : ∃ x : List ℂ, x.length = N ∧ x ≠ List.replicate N 0 ∧ K_space (-(π / N)) (π / N) x = List.replicate N 0 by
    obtain ⟨x, h1, h2, h3⟩ := h
    exact ⟨x, h1, h2, by rw [H_sin_K N x h1, h3]⟩
  rcases Nat.even_or_odd' N with ⟨m, hm | hm⟩
  · have e : ∀ θ : ℝ, 1 * cos ((m : ℕ) * θ) + 0 * cos ((m - 1 : ℕ) * θ) = cos (N * θ / 2) := fun θ => by
      rw [hm, one_mul, zero_mul, add_zero]; congr 1; push_cast; ring
    refine K_space_kernel hN (K := m) (by omega) (by omega) 1 0 _ _ 0 (π / N) _ rfl (fun j => ?_) ?_
    · beta_reduce; rw [e, e, hzj, hzj']
    · rw [e, e]
      have := hzj 0
      simp only [Nat.cast_zero, zero_mul, zero_add] at this
      rw [this]; simp
  · have e : ∀ θ : ℝ, 1 * cos ((m + 1 : ℕ) * θ) + 1 * cos ((m + 1 - 1 : ℕ) * θ) = 2 * cos (N * θ / 2) * cos (θ / 2) := fun θ => by
      rw [one_mul, one_mul, cos_add_cos, hm]
      congr 2
      · push_cast; ring_nf
      · push_cast; congr 1; ring
    refine K_space_kernel hN (K := m + 1) (by omega) (by omega) 1 1 _ _ 0 (π / N) _ rfl (fun j => ?_) ?_
    · beta_reduce; rw [e, e, hzj, hzj']; ring
    · rw [e, e]
      have := hzj 0
      simp only [Nat.cast_zero, zero_mul, zero_add] at this
      rw [this]; simp

theorem fourier_K_inj_double (m : ℕ) (hm : 0 < m) (x x' : List ℂ) (hx : x.length = 2 * m) (hx' : x'.length = 2 * m)
    (h : fourier_K x 0 (2 * π / (2 * m : ℕ)) = fourier_K x' 0 (2 * π / (2 * m : ℕ))) : x = x' := by
  by_cases h927 : 927 ≤ m
  · exact (C38_rejects_invertible m h927).2.1 x x' hx hx' h
  · have hw := Chebyshev.weightsOk hm
    have hacc := Chebyshev.accepts hm (by omega)
    have h1 := fourier_K_inv_K (by omega) hw hacc (fun i => x.getD i 0)
    have h2 := fourier_K_inv_K (by omega) hw hacc (fun i => x'.getD i 0)
    rw [← eq_tab' hx 0] at h1
    rw [← eq_tab' hx' 0] at h2
    have h' : fourier_K x 0 (hh (2 * m)) = fourier_K x' 0 (hh (2 * m)) := h
    rw [h', h2] at h1
    exact (Except.ok.inj h1).symm

/-- C69: `H_sin_dual`, documented as singular, is injective exactly for even sizes. -/
theorem C69_H_sin_dual_injective (N : ℕ) (hN : 0 < N) :
    (∀ x y : List ℂ, x.length = N → y.length = N → Deprecated.H_sin_dual x = Deprecated.H_sin_dual y → x = y) ↔ Even N := by
  have hN' : (N : ℝ) ≠ 0 := by exact_mod_cast hN.ne'
  have hhN : hh N = 2 * π / N := rfl
  constructor
  · intro h
    by_contra hodd
    rw [Nat.not_even_iff_odd] at hodd
    obtain ⟨m, hm⟩ := hodd
    have hz : ∀ j : ℤ, sin (N * ((j : ℝ) * hh N) / 2) = 0 := by
      intro j
      rw [sin_eq_zero_iff]
      exact ⟨j, by rw [hhN]; field_simp⟩
    have hzj : ∀ j : ℕ, sin (N * ((j : ℝ) * hh N + 0) / 2) = 0 := fun j => by have := hz j; rw [add_zero]; exact_mod_cast this
    have hzj' : ∀ j : ℕ, sin (N * ((j : ℝ) * hh N + 2 * π / N) / 2) = 0 := fun j => by
      have := hz ((j : ℤ) + 1)
      rw [← this]; congr 1; rw [hhN]; push_cast; field_simp
    have e : ∀ θ : ℝ, 1 * cos ((m + 1 : ℕ) * θ) + -1 * cos ((m + 1 - 1 : ℕ) * θ) = -2 * sin (N * θ / 2) * sin (θ / 2) := fun θ => by
      rw [one_mul, neg_one_mul, ← sub_eq_add_neg, cos_sub_cos, hm]
      congr 2
      · push_cast; ring_nf
      · push_cast; congr 1; ring
    obtain ⟨x, h1, h2, h3⟩ := K_space_kernel hN (K := m + 1) (by omega) (by omega) 1 (-1) 0 (2 * π / N) 0 (π / N) _ rfl
      (fun j => by beta_reduce; rw [e, e, hzj, hzj']; ring) (by
        rw [e, e]
        have s1 : sin ((N : ℝ) * (π / N) / 2) = 1 := by
          rw [show (N : ℝ) * (π / N) / 2 = π / 2 by field_simp]; exact sin_pi_div_two
        have s2 : 0 < sin (π / (N : ℝ) / 2) := by
          have : (1 : ℝ) ≤ N := by exact_mod_cast hN
          refine sin_pos_of_pos_of_lt_pi (by positivity) ?_
          have : π / (N : ℝ) ≤ π := div_le_self pi_pos.le this
          linarith [pi_pos]
        rw [s1]
        simp only [mul_zero, zero_div, sin_zero]
        linarith)
    have hx' : (T_space_inv (-(π / N)) x).length = N := by
      have := csamp_coef x
      rw [this, T_space_inv_csamp, length_csamp, h1]
    have hl := (C68_laws (-(π / N)) 0 0 x).2.2.2.1
    have hz0 : (List.replicate N (0 : ℂ)).length = N := by simp
    have hzero : ∀ w : List ℂ, w.length = N → w = List.replicate N 0 → K_space 0 (2 * π / N) (T_space (-(π / N)) w) = List.replicate N 0 := by
      intro w hw hw0
      have e0 : List.replicate N (0 : ℂ) = csamp N fun _ => 0 := by rw [csamp, replicate_tab]; exact tab_congr fun j _ => by simp [synth]
      rw [hw0, e0, T_space_csamp]
      have : (csamp N fun k => 0 * E (fr N k) (-(π / N))) = csamp N fun _ => 0 := csamp_congr fun k _ => by ring
      rw [this]
      unfold K_space
      rw [F_csamp, Finv_fourier_K hN, csamp]
      exact tab_congr fun j _ => by simp [synth]
    have := h (T_space_inv (-(π / N)) x) (List.replicate N 0) hx' hz0 (by
      rw [H_sin_dual_K N _ hx', H_sin_dual_K N _ hz0, hl, h3, hzero _ hz0 rfl])
    apply h2
    rw [← hl, this]
    have e0 : List.replicate N (0 : ℂ) = csamp N fun _ => 0 := by rw [csamp, replicate_tab]; exact tab_congr fun j _ => by simp [synth]
    rw [e0, T_space_csamp]
    exact csamp_congr fun k _ => by ring
  · rintro ⟨m, hm⟩ x y hx hy h
    obtain rfl : N = 2 * m := by omega
    rw [H_sin_dual_K _ x hx, H_sin_dual_K _ y hy] at h
    have hT : ∀ z : List ℂ, (T_space (-(π / (2 * m : ℕ))) z).length = z.length := fun z => by
      have := csamp_coef z
      conv_lhs => rw [this]
      rw [T_space_csamp, length_csamp]
    have h' := congrArg F h
    unfold K_space at h'
    rw [F_Finv, F_Finv] at h'
    have h2 := congrArg Finv (fourier_K_inj_double m (by omega) _ _ (by rw [length_F, hT, hx]) (by rw [length_F, hT, hy]) h')
    rw [Finv_F, Finv_F] at h2
    have := congrArg (T_space_inv (-(π / (2 * m : ℕ)))) h2
    rwa [(C68_laws _ 0 0 x).2.2.1, (C68_laws _ 0 0 y).2.2.1] at this

/-! ## The Chebyshev stars -/

/-- The product with the sine is resolved on the midpoints, also at the highest frequency. -/
theorem res_mul_sin {m : ℕ} (hm : 0 < m) {p : ℝ → ℝ} (hp : IsCos (m - 1) p) : Res (2 * m) (hh (2 * m) / 2) (fun θ => p θ * sin θ) := by
  obtain ⟨b, hb⟩ := Chebyshev.IsCos.mul_sin hp
  rw [show m - 1 + 1 = m by omega] at hb
  refine (Res.sum (range (m + 1)) (p := fun k θ => b k * sin (k * θ)) fun k hk => Res.const_mul ?_ _).congr hb
  rw [mem_range] at hk
  by_cases h : 2 * k < 2 * m
  · exact (Res.cos_lt (N := 2 * m) (m := k) (by rw [Nat.abs_cast]; omega) _ (-(π / 2))).congr fun θ => by
      rw [← sub_eq_add_neg, cos_sub_pi_div_two]; simp
  · obtain rfl : k = m := by omega
    refine (Res.cos_nyquist (m := k) hm (hh (2 * k) / 2)).congr fun θ => ?_
    rw [mul_sub, show (k : ℝ) * (hh (2 * k) / 2) = π / 2 by rw [← mul_hh_half hm]; ring, cos_sub_pi_div_two]

theorem H0d_dep {m : ℕ} (hm : 0 < m) (x : List ℝ) (hx : x.length = m) : Deprecated.H0d_cheb x = Chebyshev.H0d x := by
  obtain ⟨f, rfl⟩ : ∃ f, x = tab m f := ⟨_, eq_tab' hx 0⟩
  obtain ⟨p, hp, hv⟩ := exists_cos1 hm f
  have e : tab m f = tab m fun j => p (hh (2 * m) / 2 + j * hh (2 * m)) := tab_congr fun j hj => (hv j hj).symm
  rw [e, Chebyshev.H0d_exact hm hp]
  have hr := res_mul_sin hm hp
  unfold Deprecated.H0d_cheb
  simp only []
  rw [mirror1_samp hm hp.isTrig.periodic hp.even, length_samp]
  have e1 : vmul (samp (2 * m) (hh (2 * m) / 2) p) (Omega_d (2 * m)) = samp (2 * m) (hh (2 * m) / 2) (fun θ => p θ * sin θ) := by
    unfold samp Omega_d
    rw [vmul_tab]
    refine tab_congr fun j _ => ?_
    rw [show ((j : ℝ) + 1 / 2) * (2 * π / (2 * m : ℕ)) = hh (2 * m) / 2 + j * hh (2 * m) by unfold hh; ring]
  have e2 := I_space_real (samp (2 * m) (hh (2 * m) / 2) fun θ => p θ * sin θ)
  rw [length_samp] at e2
  rw [e1, e2, hr.Hs, toC_tab, unmirror1_tab, re_tab]
  refine tab_congr fun j _ => ?_
  rw [Complex.ofReal_re, show hh (2 * m) / 2 + (j : ℝ) * hh (2 * m) - hh (2 * m) / 2 = j * hh (2 * m) by ring,
    show hh (2 * m) / 2 + (j : ℝ) * hh (2 * m) + hh (2 * m) / 2 = (j + 1) * hh (2 * m) by ring]

theorem H1_dep {m : ℕ} (hm : 0 < m) (x : List ℝ) (hx : x.length = m) : Deprecated.H1_cheb (Chebyshev.H0d x) = x := by
  obtain ⟨f, rfl⟩ : ∃ f, x = tab m f := ⟨_, eq_tab' hx 0⟩
  obtain ⟨p, hp, hv⟩ := exists_cos1 hm f
  have e : tab m f = tab m fun j => p (hh (2 * m) / 2 + j * hh (2 * m)) := tab_congr fun j hj => (hv j hj).symm
  rw [e, Chebyshev.H0d_exact hm hp]
  have hr := res_mul_sin hm hp
  have hs := Chebyshev.IsCos.mul_sin hp
  have e0 : mirror1 (tab m fun j => ∫ ξ in ((j : ℝ) * hh (2 * m))..((j + 1) * hh (2 * m)), p ξ * sin ξ) (-1)
      = tab (2 * m) fun j => ∫ ξ in (hh (2 * m) / 2 + j * hh (2 * m) - hh (2 * m) / 2)..(hh (2 * m) / 2 + j * hh (2 * m) + hh (2 * m) / 2), p ξ * sin ξ := by
    rw [mirror1_tab]
    refine tab_congr fun j hj => ?_
    rw [show hh (2 * m) / 2 + (j : ℝ) * hh (2 * m) - hh (2 * m) / 2 = j * hh (2 * m) by ring, show hh (2 * m) / 2 + (j : ℝ) * hh (2 * m) + hh (2 * m) / 2 = (j + 1) * hh (2 * m) by ring]
    by_cases h : j < m
    · rw [if_pos h]
    · rw [if_neg h]
      have h2 := mul_hh (show 0 < 2 * m by omega)
      have e1 : (j : ℝ) * hh (2 * m) = 2 * π - (((2 * m - 1 - j : ℕ) : ℝ) + 1) * hh (2 * m) := by
        rw [show ((2 * m - 1 - j : ℕ) : ℝ) = (2 * m : ℕ) - 1 - j by
          rw [Nat.sub_sub, Nat.cast_sub (by omega)]; push_cast; ring]
        linear_combination h2
      have e2 : ((j : ℝ) + 1) * hh (2 * m) = 2 * π - ((2 * m - 1 - j : ℕ) : ℝ) * hh (2 * m) := by
        linear_combination e1
      rw [e2, e1, Chebyshev.odd_integral hs.isTrig.periodic hs.odd]; ring
  unfold Deprecated.H1_cheb
  simp only []
  rw [e0, length_tab]
  have e2 := I_space_inv_real (tab (2 * m) fun j => ∫ ξ in (hh (2 * m) / 2 + j * hh (2 * m) - hh (2 * m) / 2)..(hh (2 * m) / 2 + j * hh (2 * m) + hh (2 * m) / 2), p ξ * sin ξ)
  rw [length_tab] at e2
  rw [e2, hr.Hinv, toC_vdiv]
  unfold samp Omega_d
  rw [vdiv_tab, toC_tab, unmirror1_tab, re_tab]
  refine tab_congr fun j _ => ?_
  rw [Complex.ofReal_re, show ((j : ℝ) + 1 / 2) * (2 * π / (2 * m : ℕ)) = hh (2 * m) / 2 + j * hh (2 * m) by unfold hh; ring]
  refine mul_div_cancel_right₀ _ ?_
  have := Chebyshev.sin_mid_ne (n := m + 1) (by omega) j
  rw [show 2 * (m + 1) - 2 = 2 * m by omega] at this
  rwa [show hh (2 * m) / 2 + (j : ℝ) * hh (2 * m) = (j + 1 / 2) * hh (2 * m) by ring]

/-- C69: the earlier stars between the primal edges and the dual vertices.  The one on dual 0-forms is the present one, and the one on primal 1-forms is its inverse for every size, also for
those (`n ≥ 928`) where the present one raises. -/
theorem C69_dual_stars (n : ℕ) (hn : 2 ≤ n) (a : List ℝ) (ha : a.length = n - 1) :
    (Chebyshev.make n).H 0 false a = .ok (Deprecated.H0d_cheb a) ∧
    Deprecated.H1_cheb (Deprecated.H0d_cheb a) = a ∧ Deprecated.H0d_cheb (Deprecated.H1_cheb a) = a ∧ (Deprecated.H1_cheb a).length = n - 1 ∧
    (n ≤ 927 → (Chebyshev.make n).H 1 true a = .ok (Deprecated.H1_cheb a)) := by
  have hm : 0 < n - 1 := by omega
  have hlen : ∀ y : List ℝ, y.length = n - 1 → (Deprecated.H1_cheb y).length = n - 1 := by
    intro y hy
    obtain ⟨f, rfl⟩ : ∃ f, y = tab (n - 1) f := ⟨_, eq_tab' hy 0⟩
    unfold Deprecated.H1_cheb
    simp only []
    rw [mirror1_tab, length_tab]
    have e2 := fun g => I_space_inv_real (tab (2 * (n - 1)) g)
    simp only [length_tab] at e2
    rw [e2, toC_vdiv]
    obtain ⟨h, hh⟩ : ∃ h, Hinv (tab (2 * (n - 1)) fun j => if j < n - 1 then f j else -1 * f (2 * (n - 1) - 1 - j)) = tab (2 * (n - 1)) h :=
      ⟨_, eq_tab' (by simp [Hinv]) 0⟩
    rw [hh]
    unfold Omega_d
    rw [vdiv_tab, toC_tab, unmirror1_tab, re_tab, length_tab]
  have hH1 : Deprecated.H1_cheb (Chebyshev.H0d a) = a := H1_dep hm a ha
  have hH0 : ∀ y : List ℝ, y.length = n - 1 → Chebyshev.H0d (Deprecated.H1_cheb y) = y := fun y hy =>
    Lin.inverse (Chebyshev.lin_H0d hm) (fun x hx => H1_dep hm x hx) y hy
  refine ⟨?_, ?_, ?_, hlen a ha, fun h927 => ?_⟩
  · rw [H0d_dep hm a ha]; rfl
  · rw [H0d_dep hm a ha, hH1]
  · rw [H0d_dep hm _ (hlen a ha), hH0 a ha]
  · have := Chebyshev.H1_H0d hm (Chebyshev.weightsOk hm) (Chebyshev.accepts hm (by omega)) (Deprecated.H1_cheb a) (hlen a ha)
    rw [hH0 a ha] at this
    exact this

theorem isExp_mul_sin {N : ℕ} {p : ℝ → ℂ} (h : IsExp N p) : IsExp (N + 2) fun θ => p θ * (sin θ : ℝ) := by
  obtain ⟨c, hc⟩ := isExp_iff.1 h
  refine isExp_iff.2 ⟨fun k => dif N c k * (1 / (2 * Complex.I)), fun θ => ?_⟩
  rw [hc, ← synth_sin]; rfl

theorem isExp_pad {N : ℕ} {p : ℝ → ℂ} (h : IsExp N p) (n : ℕ) : IsExp (N + 2 * n) p := by
  obtain ⟨c, hc⟩ := isExp_iff.1 h
  exact isExp_iff.2 ⟨_, fun θ => by rw [hc, ← synth_pad N n c θ]⟩

/-- Every array of vertex values: a cosine polynomial, and the interpolant of its mirror image. -/
theorem cos0_exp {n : ℕ} (hn : 2 ≤ n) {p : ℝ → ℝ} (hp : IsCos (n - 1) p) :
    ∃ P : ℝ → ℂ, IsExp (2 * n - 2) P ∧ toC (samp (2 * n - 2) 0 p) = circle (2 * n - 2) 0 P ∧ ∀ a b, (∫ ξ in a..b, P ξ * ((sin ξ : ℝ) : ℂ)).re = ∫ ξ in a..b, p ξ * sin ξ := by
  obtain ⟨c, hc, hi'⟩ := res_of_cos0 hn hp
  refine ⟨synth (2 * n - 2) c, isExp_synth _ _, ?_, fun a b => ?_⟩
  · unfold samp
    rw [toC_tab, circle_tab]
    refine tab_congr fun j hj => ?_
    have h1 := hc (j * hh (2 * n - 2))
    have h2 := hi' j hj
    rw [zero_add] at h1 ⊢
    exact Complex.ext (by simpa using h1) (by simpa using h2.symm)
  · have hcs := continuous_synth (2 * n - 2) c
    rw [re_integral (by fun_prop)]
    congr 1; funext ξ
    have := hc ξ
    rw [zero_add] at this
    rw [this, Complex.mul_re, Complex.ofReal_re, Complex.ofReal_im, mul_zero, sub_zero]

theorem circle_mul_Omega (N : ℕ) (p : ℝ → ℂ) : vmul (circle N 0 p) (toC (Omega N)) = circle N 0 fun θ => p θ * (sin θ : ℝ) := by
  unfold Omega
  rw [circle_tab, circle_tab, toC_tab, vmul_tab]
  exact tab_congr fun j _ => by rw [zero_add]; rfl

theorem matA_tab {n : ℕ} (hn : 2 ≤ n) (g : ℕ → ℂ) :
    matA (tab (2 * (n - 1)) g) = .ok (tab n fun j => if j = 0 then g 0 else if j = n - 1 then g (2 * n - 3) else g (2 * j - 1) + g (2 * j)) := by
  unfold matA
  rw [tail_tab, dropLast_tab, drop_tab, dropLast_tab, stride2_tab, stride2_tab, length_tab, getD_tab (by omega), getD_tab (by omega)]
  have e1 : (2 * (n - 1) - 1 - 1 + 1) / 2 = n - 2 := by omega
  have e2 : (2 * (n - 1) - 2 - 1 + 1) / 2 = n - 2 := by omega
  rw [e1, e2]
  unfold bop
  rw [if_pos (by simp), zipWith_tab]
  show Except.ok _ = Except.ok _
  congr 1
  rw [List.singleton_append, cons_tab, append_singleton_tab]
  refine tab_congr' (by omega) fun j hj => ?_
  by_cases h0 : j = 0
  · subst h0; rw [if_pos (by omega)]; simp
  · by_cases h1 : j = n - 1
    · rw [if_neg (by omega), if_neg h0, if_pos h1]; congr 1; omega
    · rw [if_neg h0, if_neg h1, if_pos (by omega), if_neg h0]
      congr 2 <;> omega

theorem set_tab {α : Type*} (n i : ℕ) (f : ℕ → α) (v : α) : (tab n f).set i v = tab n fun j => if j = i then v else f j := by
  apply List.ext_getElem
  · simp
  · intro j h1 h2
    rw [List.getElem_set, getElem_tab, getElem_tab]
    by_cases h : j = i
    · rw [if_pos h, if_pos h.symm]
    · rw [if_neg h, if_neg (Ne.symm h)]

/-- C69: both earlier stars on primal 0-forms are the present one. -/
theorem C69_primal_star (n : ℕ) (hn : 2 ≤ n) (a : List ℝ) (ha : a.length = n) :
    (Chebyshev.make n).H 0 true a = Deprecated.H0_cheb a ∧ (Chebyshev.make n).H 0 true a = Deprecated.H0_cheb_alternate a := by
  obtain ⟨f, rfl⟩ : ∃ f, a = tab n f := ⟨_, eq_tab' ha 0⟩
  obtain ⟨p, hp, hv⟩ := exists_cos0 hn f
  have e : tab n f = tab n fun j => p (j * hh (2 * n - 2)) := tab_congr fun j hj => (hv j hj).symm
  have hmain : (Chebyshev.make n).H 0 true (tab n f) = .ok (tab n fun j => ∫ ξ in (Regular.lo (hh (2 * n - 2)) j)..(Regular.hi n (hh (2 * n - 2)) j), p ξ * sin ξ) := by
    rw [e, Chebyshev.make_H0, Chebyshev.H0_exact hn hp]
  rw [hmain, e]
  obtain ⟨P, hP, hPs, hPi⟩ := cos0_exp hn hp
  have hpos : 0 < 2 * n - 2 := by omega
  have hn1 : ((n - 1 : ℕ) : ℝ) = n - 1 := by rw [Nat.cast_sub (by omega)]; simp
  have hne : (n : ℝ) - 1 ≠ 0 := by rw [← hn1]; exact_mod_cast (by omega : n - 1 ≠ 0)
  have hpi : ((n - 1 : ℕ) : ℝ) * hh (2 * n - 2) = π := by
    have := mul_hh_half (m := n - 1) (by omega)
    rwa [show 2 * (n - 1) = 2 * n - 2 by omega] at this
  constructor
  · have hh2 : π / ((n : ℝ) - 1) = hh (2 * n - 2) := by rw [← hpi, hn1]; field_simp
    have hM : 2 * n - 2 + 2 * (n - 1) = 2 * (2 * (n - 1)) := by omega
    have hfine : hh (2 * (2 * (n - 1))) = hh (2 * n - 2) / 2 := by
      unfold hh; rw [show 2 * n - 2 = 2 * (n - 1) by omega]; push_cast; ring
    have hPE : IsExp (2 * (2 * (n - 1))) fun θ => P θ * (sin θ : ℝ) := by
      have := isExp_pad (isExp_mul_sin hP) (n - 2)
      rwa [show 2 * n - 2 + 2 + 2 * (n - 2) = 2 * (2 * (n - 1)) by omega] at this
    unfold Deprecated.H0_cheb
    simp only [length_tab]
    rw [mirror0_samp hn hp.isTrig.periodic hp.even, hPs, (C68_refine _ (n - 1) hpos 0 P hP).1, hM]
    have hl : (circle (2 * (2 * (n - 1))) 0 P).length = 2 * (2 * (n - 1)) := by rw [circle_tab, length_tab]
    rw [hl, circle_mul_Omega, (C68_integral _ 0 0 _ _ hPE).1, circle_tab, unmirror1_tab, matA_tab hn]
    show Except.ok _ = Except.ok _
    congr 1
    rw [re_tab]
    refine tab_congr fun j hj => ?_
    rw [hh2, hfine]
    by_cases h0 : j = 0
    · subst h0
      rw [if_pos rfl, hPi, Chebyshev.hi_eq (n := n) _ (by omega)]
      simp [Regular.lo]
    · rw [if_neg h0, Chebyshev.lo_eq (n := n) _ h0]
      by_cases h1 : j = n - 1
      · rw [if_pos h1, hPi, Regular.hi, if_neg (by omega)]
        have hc : ((2 * n - 3 : ℕ) : ℝ) = 2 * (n - 1 : ℕ) - 1 := by rw [hn1, Nat.cast_sub (by omega)]; push_cast; ring
        rw [hc, h1]
        congr 1
        · ring
        · linear_combination -hpi
      · rw [if_neg h1, Complex.add_re, hPi, hPi, Chebyshev.hi_eq (n := n) _ (by omega)]
        have hc : ((2 * j - 1 : ℕ) : ℝ) = 2 * j - 1 := by rw [Nat.cast_sub (by omega)]; push_cast; ring
        have hcs : Continuous fun ξ => p ξ * sin ξ := (Chebyshev.IsCos.mul_sin hp).isTrig.continuous
        rw [hc, show 0 + (2 * (j : ℝ) - 1) * (hh (2 * n - 2) / 2) + 0 = j * hh (2 * n - 2) - hh (2 * n - 2) / 2 by ring,
          show 0 + (2 * (j : ℝ) - 1) * (hh (2 * n - 2) / 2) + hh (2 * n - 2) / 2 = j * hh (2 * n - 2) by ring]
        push_cast
        rw [show 0 + 2 * (j : ℝ) * (hh (2 * n - 2) / 2) + 0 = j * hh (2 * n - 2) by ring,
          show 0 + 2 * (j : ℝ) * (hh (2 * n - 2) / 2) + hh (2 * n - 2) / 2 = j * hh (2 * n - 2) + hh (2 * n - 2) / 2 by ring,
          intervalIntegral.integral_add_adjacent_intervals (hcs.intervalIntegrable _ _) (hcs.intervalIntegrable _ _)]
  · have hM : 2 * n - 2 + 2 * 1 = 2 * n := by omega
    have hPE : IsExp (2 * n) fun θ => P θ * (sin θ : ℝ) := by
      have := isExp_mul_sin hP
      rwa [show 2 * n - 2 + 2 = 2 * n by omega] at this
    unfold Deprecated.H0_cheb_alternate
    simp only [length_tab]
    rw [mirror0_samp hn hp.isTrig.periodic hp.even, hPs, (C68_refine _ 1 hpos 0 P hP).1, hM]
    have hl : (circle (2 * n) 0 P).length = 2 * n := by rw [circle_tab, length_tab]
    have hl' : (circle (2 * n - 2) 0 P).length = 2 * n - 2 := by rw [circle_tab, length_tab]
    rw [hl, hl', circle_mul_Omega, (C68_integral _ 0 _ 0 _ hPE).1, (C68_integral _ 0 0 _ _ hPE).1,
      C68_coarsen _ 1 le_rfl (by omega) 0 _ (hPE.integral _ _), C68_coarsen _ 1 le_rfl (by omega) 0 _ (hPE.integral _ _)]
    simp only [Bind.bind, Except.bind, Pure.pure, Except.pure]
    congr 1
    rw [show 2 * n - 2 * 1 = 2 * n - 2 by omega, circle_tab, circle_tab, set_tab, set_tab, vadd_tab, unmirror0_tab hn, re_tab]
    refine tab_congr fun j hj => ?_
    have hh1 : (2 * π / ((2 * n - 2 : ℕ) : ℝ)) = hh (2 * n - 2) := rfl
    rw [Complex.add_re, hh1]
    have hcs : Continuous fun ξ => p ξ * sin ξ := (Chebyshev.IsCos.mul_sin hp).isTrig.continuous
    have a1 : 0 + (j : ℝ) * hh (2 * n - 2) + -hh (2 * n - 2) / 2 = j * hh (2 * n - 2) - hh (2 * n - 2) / 2 := by ring
    have a2 : 0 + (j : ℝ) * hh (2 * n - 2) + 0 = j * hh (2 * n - 2) := by ring
    have a3 : 0 + (j : ℝ) * hh (2 * n - 2) + hh (2 * n - 2) / 2 = j * hh (2 * n - 2) + hh (2 * n - 2) / 2 := by ring
    rw [a1, a2, a3]
    by_cases h0 : j = 0
    · subst h0
      rw [if_pos rfl, if_neg (by omega), hPi, Chebyshev.hi_eq (n := n) _ (by omega)]
      simp [Regular.lo]
    · rw [if_neg h0, hPi, Chebyshev.lo_eq (n := n) _ h0]
      by_cases h1 : j = n - 1
      · rw [if_pos h1, Regular.hi, if_neg (by omega), h1, hpi]; simp
      · rw [if_neg h1, hPi, Chebyshev.hi_eq (n := n) _ (by omega),
          intervalIntegral.integral_add_adjacent_intervals (hcs.intervalIntegrable _ _) (hcs.intervalIntegrable _ _)]

/-- C69: the earlier star on dual 1-forms, which does not take the real part, is real and is the present one. -/
theorem C69_dual_one_star (n : ℕ) (hn : 2 ≤ n) (a : List ℝ) (ha : a.length = n) :
    ∃ y : List ℝ, (Chebyshev.make n).H 1 false a = .ok y ∧ Deprecated.H1d_cheb a = toC y := by
  obtain ⟨f, rfl⟩ : ∃ f, a = tab n f := ⟨_, eq_tab' ha 0⟩
  obtain ⟨w, -, hw, -⟩ := Chebyshev.H1d_spec' hn f
  have hh2 : π / (((tab n f).length : ℝ) - 1) = hh (2 * n - 2) := by
    rw [length_tab, hh_double hn, Nat.cast_sub (by omega)]; simp
  refine ⟨_, Chebyshev.make_H1d _ _ _ _, ?_⟩
  have h1 : Deprecated.H1d_cheb (tab n f) = vadd (Chebyshev.midpoints (hh (2 * n - 2)) (tab n f)) (Chebyshev.endpoints (hh (2 * n - 2)) (tab n f)) := by
    unfold Deprecated.H1d_cheb
    simp only []
    rw [hh2]; rfl
  unfold Chebyshev.H1d
  simp only []
  rw [h1, hh2, hw, toC_tab, re_tab, toC_tab]
  exact tab_congr fun j _ => by simp

/-! ## Non-vacuity -/

/-- The function of the doctests: `sin 2x` on five points. -/
example : IsExp 5 (fun θ => ((sin ((2 : ℕ) * θ) : ℝ) : ℂ)) := C68_real 5 2 (by norm_num) _ (isTrig_sin_nat (m := 2) le_rfl)

example : ([3, 1, 2] : List ℝ).length = 3 ∧ ([3, 1] : List ℝ).length = 3 - 1 ∧ (2 ≤ 3) := by norm_num

end Dec.Props
