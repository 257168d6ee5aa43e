import Verif.Lib.Exp
import Verif.Props.Arrays
import Verif.Props.Chebyshev

set_option linter.unusedSimpArgs false
set_option linter.unusedVariables false

/-!
# C68: the transforms in Fourier space act on the trigonometric interpolant (`/repo/dec/spectral.py:397-564, 974-985, 1058-1086`, `/repo/dec/spectral_test.py`, `/repo/doc/plot/cheb/resample.py`)
-/

namespace Dec.Props

open Real Finset Dec.Sp

/-- C68: every array is the array of values of exactly one combination of the exponentials of its length. -/
theorem C68_interpolant (x₀ : ℝ) (a : List ℂ) : ∃! p : ℝ → ℂ, IsExp a.length p ∧ circle a.length x₀ p = a := by
  refine ⟨fun θ => synth a.length (coef a.length fun i => a.getD i 0) (θ - x₀), ⟨?_, ?_⟩, ?_⟩
  · have := (isExp_synth a.length (coef a.length fun i => a.getD i 0)).comp_add (-x₀)
    simpa [sub_eq_add_neg] using this
  · rw [circle_csamp (c := coef a.length fun i => a.getD i 0) (fun θ => by simp)]
    exact (csamp_coef a).symm
  · rintro q ⟨hq, hqa⟩
    obtain ⟨c, hc⟩ := hq.rep x₀
    rw [circle_csamp hc] at hqa
    have h1 : csamp a.length c = csamp a.length (coef a.length fun i => a.getD i 0) := by
      rw [hqa]; exact csamp_coef a
    funext θ
    have h2 := hc (θ - x₀)
    rw [add_sub_cancel] at h2
    rw [h2]
    exact synth_congr (csamp_inj.1 h1) _

/-- C68: real trigonometric polynomials of degree less than `N/2` are such combinations. -/
theorem C68_real (N K : ℕ) (hK : 2 * K < N) (p : ℝ → ℝ) (hp : IsTrig K p) : IsExp N fun θ => (p θ : ℂ) := isExp_ofReal hK hp

/-- C68 (`S_space`, `T_space`, `fourier_S`, `fourier_T` and their inverses): shifting the samples is sampling the shifted function. -/
theorem C68_shift (N : ℕ) (x₀ a : ℝ) (p : ℝ → ℂ) (hp : IsExp N p) :
    T_space a (circle N x₀ p) = circle N (x₀ + a) p ∧ S_space a (circle N x₀ p) = circle N (x₀ + a) p ∧
    method_in_fourier_space (fourier_S · a) (circle N x₀ p) = circle N (x₀ + a) p ∧ method_in_fourier_space (fourier_T · a) (circle N x₀ p) = circle N (x₀ + a) p ∧
    T_space_inv a (circle N x₀ p) = circle N (x₀ - a) p ∧ S_space_inv a (circle N x₀ p) = circle N (x₀ - a) p ∧
    method_in_fourier_space (fourier_S_inv · a) (circle N x₀ p) = circle N (x₀ - a) p := by
  obtain ⟨c, hc⟩ := hp.rep x₀
  have e : ∀ b : ℝ, circle N (x₀ + b) p = csamp N fun k => c k * E (fr N k) b := by
    intro b
    rw [csamp_shift, circle_tab]
    exact tab_congr fun j _ => by rw [← hc]; congr 1; ring
  have hfS : ∀ b, fourier_S (F (csamp N c)) b = vmul (F (csamp N c)) (S_diag N b) := by
    intro b; unfold fourier_S S_diag; rw [length_F, length_csamp]
  have hfT : fourier_T (F (csamp N c)) a = vmul (F (csamp N c)) (S_diag N a) := by
    unfold fourier_T S_diag; rw [length_F, length_csamp]
  have hfI : fourier_S_inv (F (csamp N c)) a = vmul (F (csamp N c)) (S_diag N (-a)) := by
    unfold fourier_S_inv S_diag; rw [length_F, length_csamp]
    congr 2; funext n; congr 1; push_cast; ring
  rw [circle_csamp hc, sub_eq_add_neg, e, e]
  refine ⟨T_space_csamp _ _ _, T_space_csamp _ _ _, ?_, ?_, T_space_inv_csamp _ _ _, T_space_inv_csamp _ _ _, ?_⟩
  · unfold method_in_fourier_space; beta_reduce; rw [hfS, S_diag_tab, mul_csamp]
  · unfold method_in_fourier_space; beta_reduce; rw [hfT, S_diag_tab, mul_csamp]
  · unfold method_in_fourier_space; beta_reduce; rw [hfI, S_diag_tab, mul_csamp]

/-- C68 (`I`, `I_space`, `fourier_I`): the integrals of the interpolant from `x + a` to `x + b`. -/
theorem C68_integral (N : ℕ) (x₀ a b : ℝ) (p : ℝ → ℂ) (hp : IsExp N p) :
    I_space a b (circle N x₀ p) = circle N x₀ (fun x => ∫ ξ in (x + a)..(x + b), p ξ) ∧
    Iop (circle N x₀ p) a b = circle N x₀ (fun x => ∫ ξ in (x + a)..(x + b), p ξ) ∧
    method_in_fourier_space (fourier_I · a b) (circle N x₀ p) = circle N x₀ (fun x => ∫ ξ in (x + a)..(x + b), p ξ) := by
  obtain ⟨c, hc⟩ := hp.rep x₀
  have e : circle N x₀ (fun x => ∫ ξ in (x + a)..(x + b), p ξ) = csamp N fun k => c k * Id (fr N k) a b := by
    rw [csamp_integral, circle_tab]
    refine tab_congr fun j _ => ?_
    rw [show synth N c = fun θ => p (x₀ + θ) from funext fun θ => (hc θ).symm, intervalIntegral.integral_comp_add_left]
    congr 1 <;> ring
  have h1 : I_space a b (csamp N c) = csamp N fun k => c k * Id (fr N k) a b := I_space_csamp _ _ _ _
  rw [circle_csamp hc, e]
  refine ⟨h1, ?_, ?_⟩
  · rw [← h1]; unfold Iop I_space; rw [vmul_comm']
  · rw [← h1]; unfold method_in_fourier_space fourier_I I_space; beta_reduce; rw [length_F]

/-- C68: integrals of a derivative are differences of values. -/
theorem C68_antiderivative (N : ℕ) (x₀ a b : ℝ) (p p' : ℝ → ℂ) (hp : ∀ x, HasDerivAt p (p' x) x) (hp' : IsExp N p') :
    Iop (circle N x₀ p') a b = circle N x₀ fun x => p (x + b) - p (x + a) := by
  rw [(C68_integral N x₀ a b p' hp').2.1, circle_tab, circle_tab]
  exact tab_congr fun j _ => intervalIntegral.integral_eq_sub_of_hasDerivAt (fun x _ => hp x) (hp'.continuous.intervalIntegrable _ _)

/-- The step `b - a` is not a period of any of the exponentials of an array of length `N` (other than the constant), nor zero. -/
def NoPeriod (N : ℕ) (a b : ℝ) : Prop :=
  a ≠ b ∧ ∀ m : ℤ, m ≠ 0 → -((N / 2 : ℕ) : ℤ) ≤ m → m < N - (N / 2 : ℕ) → ∀ l : ℤ, m * (b - a) ≠ 2 * π * l

theorem Id_eq_zero_iff (m : ℤ) (a b : ℝ) : Id m a b = 0 ↔ (m = 0 ∧ a = b) ∨ (m ≠ 0 ∧ ∃ l : ℤ, m * (b - a) = 2 * π * l) := by
  unfold Sp.Id
  by_cases h : m = 0
  · subst h
    simp only [if_true, true_and, ne_eq, not_true, false_and, or_false]
    rw [Complex.ofReal_eq_zero, sub_eq_zero]; exact eq_comm
  · rw [if_neg h]
    simp only [h, false_and, ne_eq, not_false_eq_true, true_and, false_or]
    rw [div_eq_zero_iff, or_iff_left (by simp [h]), sub_eq_zero]
    unfold E
    rw [Complex.exp_eq_exp_iff_exists_int]
    constructor
    · rintro ⟨l, hl⟩
      refine ⟨l, ?_⟩
      have := congrArg Complex.im hl
      simp at this
      linarith
    · rintro ⟨l, hl⟩
      refine ⟨l, ?_⟩
      have : ((m * (b - a) : ℝ) : ℂ) = ((2 * π * l : ℝ) : ℂ) := by rw [hl]
      push_cast at this
      linear_combination Complex.I * this

theorem noPeriod_iff {N : ℕ} (hN : 0 < N) (a b : ℝ) : NoPeriod N a b ↔ ∀ k < N, Id (fr N k) a b ≠ 0 := by
  constructor
  · rintro ⟨h1, h2⟩ k hk h0
    rcases (Id_eq_zero_iff _ _ _).1 h0 with ⟨-, h⟩ | ⟨h3, l, hl⟩
    · exact h1 h
    · exact h2 _ h3 (by unfold fr; omega) (by unfold fr; omega) l hl
  · intro h
    refine ⟨fun hab => h (N / 2) (by omega) ((Id_eq_zero_iff _ _ _).2 (.inl ⟨by unfold fr; omega, hab⟩)), fun m h0 h1 h2 l hl => ?_⟩
    have hf : fr N (m + (N / 2 : ℕ)).toNat = m := by unfold fr; omega
    exact h (m + (N / 2 : ℕ)).toNat (by omega) (by rw [hf]; exact (Id_eq_zero_iff _ _ _).2 (.inr ⟨h0, l, hl⟩))

/-- C68 (`Iinv`, `I_space_inv`, `fourier_I_inv`): when the step is no period, the inverse operators undo the integration, in both orders. -/
theorem C68_integral_inverse (a b : ℝ) (x : List ℂ) (h : NoPeriod x.length a b) :
    Iinv (Iop x a b) a b = x ∧ Iop (Iinv x a b) a b = x ∧ I_space_inv a b (I_space a b x) = x ∧ I_space a b (I_space_inv a b x) = x ∧
    fourier_I_inv (fourier_I x a b) a b = x ∧ fourier_I (fourier_I_inv x a b) a b = x := by
  have hI : ∀ y, Iop y a b = I_space a b y := fun y => by unfold Iop I_space; rw [vmul_comm']
  have hJ : ∀ y, Iinv y a b = I_space_inv a b y := fun y => rfl
  have hz : ∀ k < x.length, Id (fr x.length k) a b ≠ 0 := by
    rcases Nat.eq_zero_or_pos x.length with h0 | h0
    · intro k hk; omega
    · exact (noPeriod_iff h0 a b).1 h
  have e1 : I_space_inv a b (I_space a b x) = x := by
    conv_rhs => rw [csamp_coef x]
    conv_lhs => rw [csamp_coef x]
    rw [I_space_csamp, I_space_inv_csamp]
    exact csamp_congr fun k hk => mul_div_cancel_right₀ _ (hz k hk)
  have e2 : I_space a b (I_space_inv a b x) = x := by
    conv_rhs => rw [csamp_coef x]
    conv_lhs => rw [csamp_coef x]
    rw [I_space_inv_csamp, I_space_csamp]
    exact csamp_congr fun k hk => div_mul_cancel₀ _ (hz k hk)
  refine ⟨by rw [hI, hJ, e1], by rw [hI, hJ, e2], e1, e2, ?_, ?_⟩
  · conv_rhs => rw [eq_tab x 0]
    unfold fourier_I_inv fourier_I
    rw [I_diag_tab]
    conv_lhs => rw [eq_tab x 0]
    simp only [length_tab]
    rw [vmul_tab, length_tab, I_diag_tab, vdiv_tab]
    exact tab_congr fun k hk => mul_div_cancel_right₀ _ (hz k hk)
  · conv_rhs => rw [eq_tab x 0]
    unfold fourier_I_inv fourier_I
    rw [I_diag_tab]
    conv_lhs => rw [eq_tab x 0]
    simp only [length_tab]
    rw [vdiv_tab, length_tab, I_diag_tab, vmul_tab]
    exact tab_congr fun k hk => div_mul_cancel₀ _ (hz k hk)

/-- C68: and the condition is sharp: integration over a period of one of the exponentials identifies different arrays. -/
theorem C68_integral_injective_iff (N : ℕ) (hN : 0 < N) (a b : ℝ) :
    (∀ x y : List ℂ, x.length = N → y.length = N → Iop x a b = Iop y a b → x = y) ↔ NoPeriod N a b := by
  have hI : ∀ y, Iop y a b = I_space a b y := fun y => by unfold Iop I_space; rw [vmul_comm']
  constructor
  · intro h
    rw [noPeriod_iff hN]
    intro k hk h0
    have := h (csamp N fun i => if i = k then 1 else 0) (csamp N fun _ => 0) (by simp) (by simp) (by
      rw [hI, hI, I_space_csamp, I_space_csamp]
      refine csamp_congr fun i hi => ?_
      by_cases hik : i = k
      · subst hik; rw [h0]; simp
      · simp [hik])
    have := csamp_inj.1 this k hk
    simp at this
  · intro h x y hx hy hxy
    have e1 := (C68_integral_inverse a b x (by rw [hx]; exact h)).1
    have e2 := (C68_integral_inverse a b y (by rw [hy]; exact h)).1
    rw [← e1, ← e2, hxy]

/-- C68: a step shorter than two grid cells is never a period; in particular the inverses used by the stars are. -/
theorem C68_short_step (N : ℕ) (a b : ℝ) (h1 : a < b) (h2 : N * (b - a) < 4 * π) : NoPeriod N a b := by
  refine ⟨h1.ne, fun m h0 h3 h4 l hl => ?_⟩
  have hp := Real.pi_pos
  have h5 : 2 * |m| ≤ N := by rcases abs_cases m with ⟨h, -⟩ | ⟨h, -⟩ <;> rw [h] <;> omega
  have h5' : 2 * |(m : ℝ)| ≤ N := by exact_mod_cast h5
  have h6 : |(m : ℝ) * (b - a)| < 2 * π := by
    rw [abs_mul, abs_of_pos (sub_pos.2 h1)]
    have := sub_pos.2 h1
    nlinarith
  rw [hl, abs_mul, abs_of_pos (by positivity)] at h6
  have h7 : |(l : ℝ)| < 1 := by
    by_contra h; push Not at h; nlinarith
  have h8 : l = 0 := by
    have : |l| < 1 := by exact_mod_cast h7
    exact Int.abs_lt_one_iff.1 this
  rw [h8, Int.cast_zero, mul_zero] at hl
  rcases mul_eq_zero.1 hl with h | h
  · exact h0 (by exact_mod_cast h)
  · linarith

/-- C68: the inverse recovers a derivative from differences, as in `test_transforms`. -/
theorem C68_derivative_from_differences (N : ℕ) (x₀ a b : ℝ) (p p' : ℝ → ℂ) (hp : ∀ x, HasDerivAt p (p' x) x) (hp' : IsExp N p') (h : NoPeriod N a b) :
    Iinv (circle N x₀ fun x => p (x + b) - p (x + a)) a b = circle N x₀ p' := by
  rw [← C68_antiderivative N x₀ a b p p' hp hp']
  exact (C68_integral_inverse a b _ (by rw [circle_tab, length_tab]; exact h)).1

/-- C68 (`K_space`): integrals against the sine. -/
theorem C68_sine_integral (N : ℕ) (a b : ℝ) (p : ℝ → ℂ) (hp : IsExp N p) :
    K_space a b (circle N 0 p) = circle N 0 (fun x => ∫ ξ in (x + a)..(x + b), p ξ * (sin ξ : ℝ)) := by
  rcases Nat.eq_zero_or_pos N with rfl | hN
  · simp [K_space, circle, F, fftshift, fft, fourier_K, roll, Finv, ifftshift, ifft]
  obtain ⟨c, hc⟩ := hp.rep 0
  rw [circle_csamp hc]
  unfold K_space
  rw [F_csamp, Finv_fourier_K hN, circle_tab]
  refine tab_congr fun j _ => ?_
  rw [zero_add]
  congr 1; funext ξ; rw [← hc, zero_add]

/-- C68 (`K_space_inv`): it undoes `K_space`, or raises. -/
theorem C68_sine_integral_inverse (a b : ℝ) (x y : List ℂ) (hw : NoZeroWeight x.length a b) :
    (K_space_inv a b (K_space a b x) = .ok x ∨ K_space_inv a b (K_space a b x) = .error .valueError) ∧ (K_space_inv a b x = .ok y → K_space a b y = x) := by
  unfold K_space_inv K_space
  rw [F_Finv]
  have hF : (F x).length = x.length := length_F x
  refine ⟨?_, fun h => ?_⟩
  · rcases C38_left_inverse (F x) a b (by rw [hF]; exact hw) with h | h
    · left; rw [h]; show Except.ok (Finv (F x)) = _; rw [Finv_F]
    · right; rw [h]; rfl
  · cases hk : fourier_K_inv (F x) a b with
    | error e => rw [hk] at h; exact absurd h (by simp [Except.map])
    | ok z =>
      rw [hk] at h
      obtain rfl : Finv z = y := Except.ok.inj h
      rw [F_Finv, (C38_right_inverse (F x) z a b (by rw [hF]; exact hw) hk).2, Finv_F]

/-- C68 (`E_space`, resampling on a finer grid): zero padding in Fourier space evaluates the interpolant at the points of the finer grid. -/
theorem C68_refine (N n : ℕ) (hN : 0 < N) (x₀ : ℝ) (p : ℝ → ℂ) (hp : IsExp N p) :
    E_space n (circle N x₀ p) = circle (N + 2 * n) x₀ p ∧ method_in_fourier_space (extend · n) (circle N x₀ p) = circle (N + 2 * n) x₀ p := by
  obtain ⟨c, hc⟩ := hp.rep x₀
  have : E_space n (circle N x₀ p) = circle (N + 2 * n) x₀ p := by
    rw [circle_csamp hc, E_space_csamp hN, circle_tab]
    exact tab_congr fun j _ => (hc _).symm
  exact ⟨this, this⟩

/-- C68 (`E_space_inv`, resampling on a coarser grid): the folded coefficients give the values of the interpolant of the fine grid at the points of the coarse grid, also when the coarse
grid does not resolve it.  (`unextend` raises for `n = 0` and for `3n > M`, see C45.) -/
theorem C68_coarsen (M n : ℕ) (h1 : 1 ≤ n) (h3 : 3 * n ≤ M) (x₀ : ℝ) (p : ℝ → ℂ) (hp : IsExp M p) :
    E_space_inv n (circle M x₀ p) = .ok (circle (M - 2 * n) x₀ p) := by
  obtain ⟨N, rfl⟩ : ∃ N, M = N + 2 * n := ⟨M - 2 * n, by omega⟩
  have hN : 0 < N := by omega
  have hM' : ((N + 2 * n : ℕ) : ℂ) ≠ 0 := by exact_mod_cast (by omega : N + 2 * n ≠ 0)
  obtain ⟨c, hc⟩ := hp.rep x₀
  rw [circle_csamp hc]
  unfold E_space_inv unextend
  rw [F_csamp, unextend_tab N n h1 (by omega)]
  show Except.ok _ = Except.ok _
  congr 1
  rw [length_tab, smul_tab, show N + 2 * n - 2 * n = N by omega]
  have : (tab N fun i => (((N + 2 * n : ℕ) : ℂ) - 2 * n) / ((N + 2 * n : ℕ) : ℂ) *
      ((((N + 2 * n : ℕ) : ℂ) * c (n + i) + if i < n then ((N + 2 * n : ℕ) : ℂ) * c (N + n + i) else 0) + if N - n ≤ i then ((N + 2 * n : ℕ) : ℂ) * c (i - (N - n)) else 0))
      = tab N fun i => (N : ℂ) * ((c (n + i) + if i < n then c (N + n + i) else 0) + if N - n ≤ i then c (i - (N - n)) else 0) := by
    refine tab_congr fun i _ => ?_
    have e : (((N + 2 * n : ℕ) : ℂ) - 2 * n) = N := by push_cast; ring
    rw [e]
    by_cases ha : i < n <;> by_cases hb : N - n ≤ i <;> simp only [ha, hb, if_true, if_false] <;> field_simp <;> ring
  rw [this, Finv_smul, circle_tab]
  exact tab_congr fun j _ => by rw [synth_alias hN (by omega), hc]

/-- C68: coarsening undoes refining. -/
theorem C68_coarsen_refine (x : List ℂ) (n : ℕ) (h1 : 1 ≤ n) (h2 : n ≤ x.length) : E_space_inv n (E_space n x) = .ok x := by
  unfold E_space_inv E_space
  rw [F_Finv, C45_unextend_extend (F x) n h1 (by simpa using h2)]
  show Except.ok _ = _
  rw [Finv_F]

/-- C68: shifts add up and commute with integration; integrals over adjacent intervals add up; an integral over a shifted interval is a shifted integral. -/
theorem C68_laws (a b c : ℝ) (x : List ℂ) :
    T_space a (T_space b x) = T_space (a + b) x ∧ T_space 0 x = x ∧ T_space_inv a (T_space a x) = x ∧ T_space a (T_space_inv a x) = x ∧
    T_space c (I_space a b x) = I_space a b (T_space c x) ∧ T_space c (I_space a b x) = I_space (a + c) (b + c) x ∧
    vadd (I_space a b x) (I_space b c x) = I_space a c x := by
  rw [csamp_coef x]
  generalize x.length = N
  generalize coef N (fun i => x.getD i 0) = d
  have hshift : ∀ m : ℤ, Id m a b * E m c = Id m (a + c) (b + c) := by
    intro m
    unfold Sp.Id
    by_cases h : m = 0
    · subst h; simp [E_zero']
    · rw [if_neg h, if_neg h, E_add, E_add]; ring
  have hadd : ∀ m : ℤ, Id m a b + Id m b c = Id m a c := by
    intro m
    unfold Sp.Id
    by_cases h : m = 0
    · subst h; simp
    · rw [if_neg h, if_neg h, if_neg h]; ring
  refine ⟨?_, ?_, ?_, ?_, ?_, ?_, ?_⟩
  · rw [T_space_csamp, T_space_csamp, T_space_csamp]; exact csamp_congr fun k _ => by rw [E_add]; ring
  · rw [T_space_csamp]; exact csamp_congr fun k _ => by rw [E_zero, mul_one]
  · rw [T_space_csamp, T_space_inv_csamp]; exact csamp_congr fun k _ => by rw [E_neg', mul_inv_cancel_right₀ (E_ne_zero _ _)]
  · rw [T_space_inv_csamp, T_space_csamp]; exact csamp_congr fun k _ => by rw [E_neg', inv_mul_cancel_right₀ (E_ne_zero _ _)]
  · rw [I_space_csamp, T_space_csamp, T_space_csamp, I_space_csamp]; exact csamp_congr fun k _ => by ring
  · rw [I_space_csamp, T_space_csamp, I_space_csamp]; exact csamp_congr fun k _ => by rw [mul_assoc, hshift]
  · rw [I_space_csamp, I_space_csamp, I_space_csamp, csamp, csamp, vadd_tab]
    exact tab_congr fun j _ => by rw [← synth_add]; exact synth_congr (fun k _ => by rw [← mul_add, hadd]) _

/-- C68 (`half_edge_integrals`): from the integrals of a resolved function over the cells centred at the vertices, its integral over the first half cell. -/
theorem C68_half_edge (N K : ℕ) (hK : 2 * K < N) (p : ℝ → ℝ) (hp : IsTrig K p) :
    half_edge_integrals (tab N fun j => ∫ ξ in (j * (2 * π / N) - π / N)..(j * (2 * π / N) + π / N), p ξ) = ((∫ ξ in (0 : ℝ)..(π / N), p ξ : ℝ) : ℂ) := by
  have hN : 0 < N := by omega
  have hh2 : hh N / 2 = π / N := by unfold hh; ring
  have hr := (Res_of_isTrig hK hp 0).Hinv
  simp only [zero_add] at hr
  have e0 : (tab N fun j => ∫ ξ in (j * (2 * π / N) - π / N)..(j * (2 * π / N) + π / N), p ξ) = tab N fun j => ∫ ξ in (j * hh N - hh N / 2)..(j * hh N + hh N / 2), p ξ := by
    rw [hh2]; rfl
  unfold half_edge_integrals
  rw [e0, hr, length_tab]
  have e1 : toC (samp N 0 p) = circle N 0 fun θ => (p θ : ℂ) := by
    unfold samp; rw [toC_tab, circle_tab]
  rw [e1, (C68_integral N 0 0 _ _ (isExp_ofReal hK hp)).2.1, circle_tab, getD_tab hN]
  have e2 : (2 * π / N / 2 : ℝ) = π / N := by ring
  rw [e2]
  simp only [Nat.cast_zero, zero_mul, add_zero, zero_add]
  exact intervalIntegral.integral_ofReal

/-! ## Non-vacuity -/

/-- The functions of `test_transforms`: twelve points, sine and cosine, the step from `x - 1` to `x + 1`. -/
example : IsExp 12 (fun θ => (cos ((1 : ℕ) * θ) : ℂ)) ∧ NoPeriod 12 0 1 := by
  refine ⟨?_, C68_short_step 12 0 1 (by norm_num) ?_⟩
  · have := C68_real 12 1 (by norm_num) (fun θ => cos ((1 : ℕ) * θ)) ⟨fun k => if k = 1 then 1 else 0, fun _ => 0, fun θ => by simp [Finset.sum_range_succ]⟩
    simpa using this
  · push_cast; nlinarith [Real.pi_gt_three]

example : IsExp 4 (fun θ => Complex.exp (Complex.I * (-2 : ℤ) * θ)) :=
  ⟨fun m => if m = -2 then 1 else 0, fun θ => by
    rw [Finset.sum_eq_single (-2)]
    · simp
    · intro b _ hb; simp [hb]
    · intro h; exact absurd (by decide) h⟩

example : 1 ≤ 2 ∧ 3 * 2 ≤ 9 ∧ 2 ≤ ([1, 2, 3] : List ℂ).length := by norm_num

end Dec.Props
