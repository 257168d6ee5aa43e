import Verif.Model.Spectral
import Verif.Lib.Tab
import Mathlib.MeasureTheory.Integral.IntervalIntegral.FundThmCalculus
import Mathlib.Analysis.SpecialFunctions.Integrals.Basic

set_option linter.unusedSimpArgs false
set_option linter.unusedVariables false

/-! The discrete Fourier transform of the model, in normal form. -/

namespace Dec.Sp

open Finset Real

/-- Frequency number `k` of an array of length `N`. -/
def fr (N k : ℕ) : ℤ := (k : ℤ) - ((N / 2 : ℕ) : ℤ)

theorem freq_tab (N : ℕ) : freq N = tab N (fr N) := by
  unfold freq fftshift fftfreqN
  rw [length_tab, roll_tab]
  apply tab_congr
  intro k hk
  have hN : (0 : ℤ) < N := by omega
  unfold fr
  by_cases h : k < N / 2
  · have : ((k : ℤ) - ((N / 2 : ℕ) : ℤ)) % N = k - ((N / 2 : ℕ) : ℤ) + N := by
      rw [← Int.add_emod_right]; apply Int.emod_eq_of_lt <;> omega
    rw [this]
    have h2 : ¬ ((k : ℤ) - ((N / 2 : ℕ) : ℤ) + N).toNat < (N - 1) / 2 + 1 := by omega
    rw [if_neg h2]; omega
  · have : ((k : ℤ) - ((N / 2 : ℕ) : ℤ)) % N = k - ((N / 2 : ℕ) : ℤ) := by
      apply Int.emod_eq_of_lt <;> omega
    rw [this]
    have h2 : ((k : ℤ) - ((N / 2 : ℕ) : ℤ)).toNat < (N - 1) / 2 + 1 := by omega
    rw [if_pos h2]; omega

@[simp] theorem length_freq (N : ℕ) : (freq N).length = N := by simp [freq_tab]

/-- `exp(i n x)`. -/
noncomputable def E (n : ℤ) (x : ℝ) : ℂ := Complex.exp (Complex.I * n * x)

theorem E_zero (n : ℤ) : E n 0 = 1 := by simp [E]
theorem E_zero' (x : ℝ) : E 0 x = 1 := by simp [E]
theorem E_add (n : ℤ) (x y : ℝ) : E n (x + y) = E n x * E n y := by
  simp [E, ← Complex.exp_add]; ring_nf
theorem E_add' (n m : ℤ) (x : ℝ) : E (n + m) x = E n x * E m x := by
  simp [E, ← Complex.exp_add]; ring_nf
theorem E_ne_zero (n : ℤ) (x : ℝ) : E n x ≠ 0 := Complex.exp_ne_zero _
theorem E_neg (n : ℤ) (x : ℝ) : E (-n) x = (E n x)⁻¹ := by
  simp [E, ← Complex.exp_neg]
theorem E_neg' (n : ℤ) (x : ℝ) : E n (-x) = (E n x)⁻¹ := by
  simp [E, ← Complex.exp_neg]
theorem E_mul_nat (n : ℤ) (j : ℕ) (x : ℝ) : E n (j * x) = E n x ^ j := by
  simp only [E, ← Complex.exp_nat_mul]; congr 1; push_cast; ring
theorem E_conj (n : ℤ) (x : ℝ) : (starRingEnd ℂ) (E n x) = E (-n) x := by
  simp only [E, ← Complex.exp_conj]; congr 1; simp
theorem E_re (n : ℤ) (x : ℝ) : (E n x).re = cos (n * x) := by
  simp only [E]
  rw [show Complex.I * (n : ℂ) * (x : ℂ) = ((n * x : ℝ) : ℂ) * Complex.I by push_cast; ring]
  exact Complex.exp_ofReal_mul_I_re _
theorem E_im (n : ℤ) (x : ℝ) : (E n x).im = sin (n * x) := by
  simp only [E]
  rw [show Complex.I * (n : ℂ) * (x : ℂ) = ((n * x : ℝ) : ℂ) * Complex.I by push_cast; ring]
  exact Complex.exp_ofReal_mul_I_im _
theorem norm_E (n : ℤ) (x : ℝ) : ‖E n x‖ = 1 := by
  simp only [E]
  rw [show Complex.I * (n : ℂ) * (x : ℂ) = ((n * x : ℝ) : ℂ) * Complex.I by push_cast; ring]
  exact Complex.norm_exp_ofReal_mul_I _

/-- The step `2π/N`. -/
noncomputable def hh (N : ℕ) : ℝ := 2 * π / N

theorem hh_pos {N : ℕ} (hN : 0 < N) : 0 < hh N := by
  unfold hh; have := Real.pi_pos; positivity

theorem mul_hh {N : ℕ} (hN : 0 < N) : (N : ℝ) * hh N = 2 * π := by
  unfold hh; field_simp

/-- Aliasing: shifting the frequency by a multiple of `N` does not change grid values. -/
theorem E_alias {N : ℕ} (hN : 0 < N) (n q : ℤ) (j : ℤ) :
    E (n + q * N) (j * hh N) = E n (j * hh N) := by
  rw [E_add']
  have : E (q * N) (j * hh N) = 1 := by
    unfold E
    rw [Complex.exp_eq_one_iff]
    refine ⟨q * j, ?_⟩
    have h := mul_hh hN
    have h' : ((N : ℂ)) * (hh N : ℂ) = 2 * π := by exact_mod_cast congrArg (fun x : ℝ => (x : ℂ)) h
    push_cast
    linear_combination (Complex.I * q * j) * h'
  rw [this, mul_one]

theorem E_alias_of_dvd {N : ℕ} (hN : 0 < N) {n m : ℤ} (hd : (N : ℤ) ∣ n - m) (j : ℤ) :
    E n (j * hh N) = E m (j * hh N) := by
  obtain ⟨q, hq⟩ := hd
  have : n = m + q * N := by linarith [hq, mul_comm (N : ℤ) q]
  rw [this, E_alias hN]

/-- Orthogonality. -/
theorem sum_E {N : ℕ} (hN : 0 < N) (m : ℤ) :
    ∑ j ∈ range N, E m (j * hh N) = if (N : ℤ) ∣ m then (N : ℂ) else 0 := by
  split_ifs with hd
  · have : ∀ j ∈ range N, E m (j * hh N) = 1 := by
      intro j _
      have := E_alias_of_dvd (n := m) (m := 0) hN (by simpa using hd) (j : ℤ)
      simpa [E_zero'] using this
    rw [Finset.sum_congr rfl this]; simp
  · have hne : E m (hh N) ≠ 1 := by
      intro h
      unfold E at h
      rw [Complex.exp_eq_one_iff] at h
      obtain ⟨q, hq⟩ := h
      apply hd
      refine ⟨q, ?_⟩
      have hpi : (π : ℂ) ≠ 0 := by exact_mod_cast Real.pi_ne_zero
      have hN' : (N : ℂ) ≠ 0 := by exact_mod_cast hN.ne'
      have h2 : (2 * π * Complex.I : ℂ) ≠ 0 := by simp [hpi]
      unfold hh at hq
      push_cast at hq
      field_simp at hq
      have : (m : ℂ) = N * q := by linear_combination hq
      exact_mod_cast this
    simp_rw [E_mul_nat]
    rw [geom_sum_eq hne]
    have h1 : E m (hh N) ^ N = 1 := by
      rw [← E_mul_nat]
      have := E_alias_of_dvd (n := m * N) (m := 0) hN (by simp) 1
      simp only [E_zero'] at this
      rw [← this]; unfold E; congr 1; push_cast; ring
    rw [h1]; simp

/-- `Σ_{k<N} c_k exp(i (k - N/2) θ)`. -/
noncomputable def synth (N : ℕ) (c : ℕ → ℂ) (θ : ℝ) : ℂ := ∑ k ∈ range N, c k * E (fr N k) θ

/-- The Fourier coefficients of a grid function. -/
noncomputable def coef (N : ℕ) (x : ℕ → ℂ) (k : ℕ) : ℂ :=
  (∑ j ∈ range N, x j * E (-fr N k) (j * hh N)) / N

theorem E_shift_sum {N : ℕ} (hN : 0 < N) (k : ℕ) (hk : k < N) (j : ℕ) :
    E ((((k : ℤ) - ((N / 2 : ℕ) : ℤ)) % N).toNat : ℤ) (j * hh N) = E (fr N k) (j * hh N) := by
  have h0 : (0 : ℤ) < N := by omega
  rw [Int.toNat_of_nonneg (Int.emod_nonneg _ h0.ne')]
  have := E_alias_of_dvd (n := ((k : ℤ) - ((N / 2 : ℕ) : ℤ)) % N) (m := fr N k) hN (by
    unfold fr
    have := Int.emod_add_mul_ediv ((k : ℤ) - ((N / 2 : ℕ) : ℤ)) N
    refine ⟨-(((k : ℤ) - ((N / 2 : ℕ) : ℤ)) / N), ?_⟩
    linarith) (j : ℤ)
  simpa using this

theorem exp_eq_E (N : ℕ) (j k : ℕ) :
    Complex.exp (-(2 * Real.pi * Complex.I * j * k / N)) = E (-(k : ℤ)) (j * hh N) := by
  unfold E hh; congr 1; push_cast; ring

theorem exp_eq_E' (N : ℕ) (j k : ℕ) :
    Complex.exp (2 * Real.pi * Complex.I * j * k / N) = E (k : ℤ) (j * hh N) := by
  unfold E hh; congr 1; push_cast; ring

theorem F_tab (N : ℕ) (x : ℕ → ℂ) :
    F (tab N x) = tab N (fun k => (N : ℂ) * coef N x k) := by
  rcases Nat.eq_zero_or_pos N with rfl | hN
  · simp [F, fftshift, fft, roll]
  unfold F fftshift fft
  rw [length_tab, length_tab, roll_tab]
  apply tab_congr
  intro k hk
  unfold coef
  rw [mul_div_cancel₀ _ (by exact_mod_cast hN.ne')]
  apply Finset.sum_congr rfl
  intro j hj
  rw [getD_tab (by simpa using hj), exp_eq_E, E_neg, E_neg, E_shift_sum hN k hk]

theorem Finv_tab (N : ℕ) (X : ℕ → ℂ) :
    Finv (tab N X) = tab N (fun j => synth N X (j * hh N) / N) := by
  rcases Nat.eq_zero_or_pos N with rfl | hN
  · simp [Finv, ifftshift, ifft, roll]
  unfold Finv ifftshift ifft
  rw [length_tab, length_roll, length_tab, roll_tab]
  apply tab_congr
  intro j hj
  congr 1
  unfold synth
  have hN' : (0 : ℤ) < N := by omega
  -- reindex k ↦ (k - N/2) mod N
  symm
  refine Finset.sum_nbij' (fun k => (((k : ℤ) - ((N / 2 : ℕ) : ℤ)) % N).toNat)
    (fun k => (((k : ℤ) + ((N / 2 : ℕ) : ℤ)) % N).toNat) ?_ ?_ ?_ ?_ ?_
  · intro k _; simp only [Finset.mem_range]
    have := Int.emod_lt_of_pos ((k : ℤ) - ((N / 2 : ℕ) : ℤ)) hN'
    have := Int.emod_nonneg ((k : ℤ) - ((N / 2 : ℕ) : ℤ)) hN'.ne'
    omega
  · intro k _; simp only [Finset.mem_range]
    have := Int.emod_lt_of_pos ((k : ℤ) + ((N / 2 : ℕ) : ℤ)) hN'
    have := Int.emod_nonneg ((k : ℤ) + ((N / 2 : ℕ) : ℤ)) hN'.ne'
    omega
  · intro k hk
    simp only [Finset.mem_range] at hk
    rw [Int.toNat_of_nonneg (Int.emod_nonneg _ hN'.ne'), Int.emod_add_emod]
    simp only [sub_add_cancel]
    rw [Int.emod_eq_of_lt (by omega) (by omega)]; simp
  · intro k hk
    simp only [Finset.mem_range] at hk
    rw [Int.toNat_of_nonneg (Int.emod_nonneg _ hN'.ne'), Int.emod_sub_emod]
    simp only [add_sub_cancel_right]
    rw [Int.emod_eq_of_lt (by omega) (by omega)]; simp
  · intro k hk
    simp only [Finset.mem_range] at hk
    have h1 := Int.emod_lt_of_pos ((k : ℤ) - ((N / 2 : ℕ) : ℤ)) hN'
    have h2 := Int.emod_nonneg ((k : ℤ) - ((N / 2 : ℕ) : ℤ)) hN'.ne'
    have h3 : (((k : ℤ) - ((N / 2 : ℕ) : ℤ)) % N).toNat < N := by omega
    rw [getD_tab h3, exp_eq_E', E_shift_sum hN k hk]
    congr 1
    congr 1
    rw [sub_neg_eq_add, Int.toNat_of_nonneg h2, Int.emod_add_emod, sub_add_cancel,
      Int.emod_eq_of_lt (by omega) (by omega)]
    simp

@[simp] theorem length_F (x : List ℂ) : (F x).length = x.length := by simp [F, fftshift, fft]
@[simp] theorem length_Finv (x : List ℂ) : (Finv x).length = x.length := by
  simp [Finv, ifftshift, ifft]

theorem fr_dvd {N k l : ℕ} (hk : k < N) (hl : l < N) : (N : ℤ) ∣ fr N k - fr N l ↔ k = l := by
  unfold fr
  constructor
  · rintro ⟨q, hq⟩
    have h0 : (0 : ℤ) < N := by omega
    have hq' : (k : ℤ) - l = N * q := by linarith
    have h1 : q < 1 := by by_contra h; push Not at h; nlinarith
    have h2 : -1 < q := by by_contra h; push Not at h; nlinarith
    have : q = 0 := by omega
    subst this; omega
  · rintro rfl; simp

/-- Coefficients of samples of a synthesised function. -/
theorem coef_synth {N : ℕ} (c : ℕ → ℂ) {k : ℕ} (hk : k < N) :
    coef N (fun j => synth N c (j * hh N)) k = c k := by
  have hN : 0 < N := by omega
  unfold coef synth
  have hN' : (N : ℂ) ≠ 0 := by exact_mod_cast hN.ne'
  rw [div_eq_iff hN']
  simp_rw [Finset.sum_mul]
  rw [Finset.sum_comm]
  have : ∀ l ∈ range N, ∑ j ∈ range N, c l * E (fr N l) (j * hh N) * E (-fr N k) (j * hh N)
      = if l = k then c k * N else 0 := by
    intro l hl
    simp only [Finset.mem_range] at hl
    simp_rw [mul_assoc, ← E_add', ← Finset.mul_sum]
    rw [sum_E hN, ← sub_eq_add_neg]
    simp only [fr_dvd hl hk]
    split_ifs with h
    · subst h; rfl
    · simp
  rw [Finset.sum_congr rfl this]
  simp [hk]

/-- Fourier inversion. -/
theorem synth_coef {N : ℕ} (x : ℕ → ℂ) {j : ℕ} (hj : j < N) :
    synth N (coef N x) (j * hh N) = x j := by
  have hN : 0 < N := by omega
  have hN' : (N : ℂ) ≠ 0 := by exact_mod_cast hN.ne'
  unfold coef synth
  simp_rw [div_mul_eq_mul_div, ← Finset.sum_div]
  rw [div_eq_iff hN']
  simp_rw [Finset.sum_mul]
  rw [Finset.sum_comm]
  have : ∀ l ∈ range N, ∑ k ∈ range N, x l * E (-fr N k) (l * hh N) * E (fr N k) (j * hh N)
      = if l = j then x j * N else 0 := by
    intro l hl
    simp only [Finset.mem_range] at hl
    have h1 : ∀ k ∈ range N, x l * E (-fr N k) (l * hh N) * E (fr N k) (j * hh N)
        = x l * (E (-(N / 2 : ℕ)) ((j - l) * hh N) * E ((j : ℤ) - l) (k * hh N)) := by
      intro k _
      rw [mul_assoc]; congr 1
      unfold E fr; rw [← Complex.exp_add, ← Complex.exp_add]; congr 1; push_cast; ring
    rw [Finset.sum_congr rfl h1, ← Finset.mul_sum, ← Finset.mul_sum, sum_E hN]
    have h2 : (N : ℤ) ∣ (j : ℤ) - l ↔ l = j := by
      have := fr_dvd hj hl
      unfold fr at this
      rw [show (j : ℤ) - ((N / 2 : ℕ) : ℤ) - ((l : ℤ) - ((N / 2 : ℕ) : ℤ)) = j - l by ring] at this
      rw [this, eq_comm]
    simp only [h2]
    split_ifs with h
    · subst h; simp [E_zero]
    · simp
  rw [Finset.sum_congr rfl this]
  simp [hj]

theorem synth_congr {N : ℕ} {c d : ℕ → ℂ} (h : ∀ k < N, c k = d k) (θ : ℝ) :
    synth N c θ = synth N d θ :=
  Finset.sum_congr rfl fun k hk => by rw [h k (by simpa using hk)]

theorem synth_mul_left (N : ℕ) (a : ℂ) (c : ℕ → ℂ) (θ : ℝ) :
    synth N (fun k => a * c k) θ = a * synth N c θ := by
  unfold synth; rw [Finset.mul_sum]; simp_rw [mul_assoc]

theorem synth_add (N : ℕ) (c d : ℕ → ℂ) (θ : ℝ) :
    synth N (fun k => c k + d k) θ = synth N c θ + synth N d θ := by
  unfold synth; rw [← Finset.sum_add_distrib]; simp_rw [add_mul]

theorem Finv_smul (N : ℕ) (X : ℕ → ℂ) :
    Finv (tab N fun k => (N : ℂ) * X k) = tab N (fun j => synth N X (j * hh N)) := by
  rw [Finv_tab]
  apply tab_congr
  intro j hj
  have : (N : ℂ) ≠ 0 := by exact_mod_cast (by omega : N ≠ 0)
  rw [synth_mul_left, mul_div_cancel_left₀ _ this]

theorem F_synth (N : ℕ) (c : ℕ → ℂ) :
    F (tab N fun j => synth N c (j * hh N)) = tab N (fun k => (N : ℂ) * c k) := by
  rw [F_tab]; exact tab_congr fun k hk => by rw [coef_synth c hk]

theorem Finv_F (x : List ℂ) : Finv (F x) = x := by
  rw [eq_tab x 0, F_tab, Finv_smul]
  exact tab_congr fun j hj => synth_coef _ hj

theorem F_Finv (X : List ℂ) : F (Finv X) = X := by
  rw [eq_tab X 0]
  generalize X.length = N
  generalize (fun i => X.getD i 0) = Y
  rw [Finv_tab]
  have : (fun j : ℕ => synth N Y (j * hh N) / N) = fun j : ℕ => synth N (fun k => (N : ℂ)⁻¹ * Y k) (j * hh N) := by
    funext j; rw [synth_mul_left, div_eq_inv_mul]
  rw [this, F_synth]
  apply tab_congr; intro k hk
  have : (N : ℂ) ≠ 0 := by exact_mod_cast (by omega : N ≠ 0)
  field_simp

/-! ### The two diagonals -/

/-- Entry of `I_diag` at frequency `n`. -/
noncomputable def Id (n : ℤ) (a b : ℝ) : ℂ :=
  if n = 0 then ((b - a : ℝ) : ℂ) else (E n b - E n a) / (Complex.I * n)

theorem I_diag_tab (N : ℕ) (a b : ℝ) : I_diag N a b = tab N (fun k => Id (fr N k) a b) := by
  unfold I_diag; rw [freq_tab, map_tab]; rfl

theorem S_diag_tab (N : ℕ) (a : ℝ) : S_diag N a = tab N (fun k => E (fr N k) a) := by
  unfold S_diag; rw [freq_tab, map_tab]; rfl

@[simp] theorem length_I_diag (N : ℕ) (a b : ℝ) : (I_diag N a b).length = N := by simp [I_diag_tab]
@[simp] theorem length_S_diag (N : ℕ) (a : ℝ) : (S_diag N a).length = N := by simp [S_diag_tab]

theorem hasDerivAt_E (n : ℤ) (x : ℝ) : HasDerivAt (fun x : ℝ => E n x) (Complex.I * n * E n x) x := by
  unfold E
  have h1 : HasDerivAt (fun x : ℝ => Complex.I * n * (x : ℂ)) (Complex.I * n) x := by
    simpa using (Complex.ofRealCLM.hasDerivAt (x := x)).const_mul (Complex.I * n)
  have := h1.cexp
  rwa [mul_comm (Complex.exp _)] at this

theorem continuous_E (n : ℤ) : Continuous (E n) :=
  continuous_iff_continuousAt.2 fun x => (hasDerivAt_E n x).continuousAt

/-- The diagonal entry is an integral. -/
theorem integral_E (n : ℤ) (θ a b : ℝ) :
    ∫ ξ in (θ + a)..(θ + b), E n ξ = Id n a b * E n θ := by
  unfold Id
  split_ifs with h
  · subst h; simp only [E_zero', intervalIntegral.integral_const]; simp
  · have hn : (Complex.I * (n : ℂ)) ≠ 0 := by simp [h]
    have := intervalIntegral.integral_eq_sub_of_hasDerivAt
      (f := fun ξ => E n ξ / (Complex.I * n)) (f' := fun ξ => E n ξ) (a := θ + a) (b := θ + b)
      (fun x _ => by
        have := (hasDerivAt_E n x).div_const (Complex.I * n)
        rwa [mul_div_cancel_left₀ _ hn] at this)
      ((continuous_E n).intervalIntegrable _ _)
    rw [this, E_add, E_add]; field_simp

theorem continuous_synth (N : ℕ) (c : ℕ → ℂ) : Continuous (synth N c) := by
  unfold synth
  exact continuous_finsetSum _ fun k _ => continuous_const.mul (continuous_E _)

theorem synth_shift (N : ℕ) (c : ℕ → ℂ) (θ a : ℝ) :
    synth N (fun k => c k * E (fr N k) a) θ = synth N c (θ + a) := by
  unfold synth
  apply Finset.sum_congr rfl; intro k _
  rw [E_add]; ring

theorem synth_integral (N : ℕ) (c : ℕ → ℂ) (θ a b : ℝ) :
    synth N (fun k => c k * Id (fr N k) a b) θ = ∫ ξ in (θ + a)..(θ + b), synth N c ξ := by
  unfold synth
  rw [intervalIntegral.integral_finsetSum]
  · apply Finset.sum_congr rfl; intro k _
    rw [intervalIntegral.integral_const_mul, integral_E]; ring
  · intro k _; exact (continuous_const.mul (continuous_E _)).intervalIntegrable _ _

theorem re_integral {f : ℝ → ℂ} (hf : Continuous f) (a b : ℝ) :
    (∫ x in a..b, f x).re = ∫ x in a..b, (f x).re := by
  have := ContinuousLinearMap.intervalIntegral_comp_comm Complex.reCLM
    (hf.intervalIntegrable (μ := MeasureTheory.volume) a b)
  simpa using this.symm

/-- Applying a diagonal in Fourier space. -/
theorem diag_mul (N : ℕ) (x d : ℕ → ℂ) :
    Finv (vmul (F (tab N x)) (tab N d)) =
      tab N (fun j => synth N (fun k => coef N x k * d k) (j * hh N)) := by
  rw [F_tab, vmul_tab, ← Finv_smul]
  congr 1; exact tab_congr fun k _ => by ring

theorem diag_div (N : ℕ) (x d : ℕ → ℂ) :
    Finv (vdiv (F (tab N x)) (tab N d)) =
      tab N (fun j => synth N (fun k => coef N x k / d k) (j * hh N)) := by
  rw [F_tab, vdiv_tab, ← Finv_smul]
  congr 1; exact tab_congr fun k _ => by ring

end Dec.Sp
