import Verif.Model.Transforms
import Verif.Lib.KOp
import Verif.Lib.Trig
import Verif.Lib.PeriodicGrid
import Verif.Spec

set_option linter.unusedSimpArgs false
set_option linter.unusedVariables false

/-!
# Complex samples and the transforms in Fourier space
-/

namespace Dec.Sp

open Real Finset

theorem circle_tab (N : ℕ) (x₀ : ℝ) (p : ℝ → ℂ) : circle N x₀ p = tab N fun j => p (x₀ + j * hh N) := rfl

theorem sum_Ico_fr {M : Type*} [AddCommMonoid M] (N : ℕ) (f : ℤ → M) :
    ∑ m ∈ Finset.Ico (-((N / 2 : ℕ) : ℤ)) (N - (N / 2 : ℕ)), f m = ∑ k ∈ range N, f (fr N k) := by
  refine Finset.sum_nbij' (fun m => (m + (N / 2 : ℕ)).toNat) (fun k => fr N k) ?_ ?_ ?_ ?_ ?_
  · intro m hm; simp only [Finset.mem_Ico, Finset.mem_range] at hm ⊢; omega
  · intro k hk; simp only [Finset.mem_Ico, Finset.mem_range] at hk ⊢; unfold fr; omega
  · intro m hm; simp only [Finset.mem_Ico] at hm; unfold fr; omega
  · intro k hk; unfold fr; simp
  · intro m hm; simp only [Finset.mem_Ico] at hm
    congr 1; unfold fr; omega

theorem isExp_iff {N : ℕ} {p : ℝ → ℂ} : IsExp N p ↔ ∃ c : ℕ → ℂ, ∀ θ, p θ = synth N c θ := by
  constructor
  · rintro ⟨c, h⟩
    refine ⟨fun k => c (fr N k), fun θ => ?_⟩
    rw [h θ, sum_Ico_fr]; rfl
  · rintro ⟨c, h⟩
    refine ⟨fun m => c (m + (N / 2 : ℕ)).toNat, fun θ => ?_⟩
    rw [h θ, sum_Ico_fr]
    refine Finset.sum_congr rfl fun k hk => ?_
    have : (fr N k + (N / 2 : ℕ)).toNat = k := by unfold fr; simp
    beta_reduce; rw [this]; rfl

/-- A shifted function of the class. -/
theorem _root_.Dec.IsExp.rep {N : ℕ} {p : ℝ → ℂ} (h : IsExp N p) (x₀ : ℝ) : ∃ c : ℕ → ℂ, ∀ θ, p (x₀ + θ) = synth N c θ := by
  obtain ⟨c, hc⟩ := isExp_iff.1 h
  refine ⟨fun k => c k * E (fr N k) x₀, fun θ => ?_⟩
  rw [hc, synth_shift, add_comm]

theorem isExp_synth (N : ℕ) (c : ℕ → ℂ) : IsExp N (synth N c) := isExp_iff.2 ⟨c, fun _ => rfl⟩

theorem _root_.Dec.IsExp.comp_add {N : ℕ} {p : ℝ → ℂ} (h : IsExp N p) (a : ℝ) : IsExp N fun θ => p (θ + a) := by
  obtain ⟨c, hc⟩ := h.rep a
  exact isExp_iff.2 ⟨c, fun θ => by rw [← hc, add_comm]⟩

theorem _root_.Dec.IsExp.continuous {N : ℕ} {p : ℝ → ℂ} (h : IsExp N p) : Continuous p := by
  obtain ⟨c, hc⟩ := isExp_iff.1 h
  rw [show p = synth N c from funext hc]; exact continuous_synth N c

theorem _root_.Dec.IsExp.integral {N : ℕ} {p : ℝ → ℂ} (h : IsExp N p) (a b : ℝ) : IsExp N fun x => ∫ ξ in (x + a)..(x + b), p ξ := by
  obtain ⟨c, hc⟩ := isExp_iff.1 h
  refine isExp_iff.2 ⟨fun k => c k * Id (fr N k) a b, fun θ => ?_⟩
  rw [synth_integral, show p = synth N c from funext hc]

theorem isExp_ofReal {N K : ℕ} (hK : 2 * K < N) {p : ℝ → ℝ} (hp : IsTrig K p) : IsExp N fun θ => (p θ : ℂ) := by
  obtain ⟨a, b, h⟩ := hp
  have hE : ∀ k : ℕ, ∀ θ : ℝ, (cos (k * θ) : ℂ) = (E k θ + E (-k) θ) / 2 ∧ (sin (k * θ) : ℂ) = (E k θ - E (-k) θ) / (2 * Complex.I) := by
    intro k θ
    unfold E
    constructor
    · push_cast
      rw [Complex.cos]
      congr 2 <;> congr 1 <;> ring
    · push_cast
      rw [Complex.sin]
      rw [div_eq_div_iff (by norm_num) (by simp)]
      have e1 : Complex.exp (-(↑k * ↑θ) * Complex.I) = Complex.exp (Complex.I * -↑k * ↑θ) := by congr 1; ring
      have e2 : Complex.exp (↑k * ↑θ * Complex.I) = Complex.exp (Complex.I * ↑k * ↑θ) := by congr 1; ring
      rw [e1, e2]
      linear_combination (-2 * Complex.exp (Complex.I * ↑k * ↑θ) + 2 * Complex.exp (Complex.I * -↑k * ↑θ)) * Complex.I_sq
  refine ⟨fun m => (if 0 ≤ m ∧ m.toNat ≤ K then ((a m.toNat : ℂ) / 2 + b m.toNat / (2 * Complex.I)) else 0)
    + if 0 ≤ -m ∧ (-m).toNat ≤ K then ((a (-m).toNat : ℂ) / 2 - b (-m).toNat / (2 * Complex.I)) else 0, fun θ => ?_⟩
  beta_reduce
  rw [h θ]
  simp only [Complex.ofReal_sum, Complex.ofReal_add, Complex.ofReal_mul]
  have s1 : ∀ (f : ℕ → ℂ), (∑ m ∈ Finset.Ico (-((N / 2 : ℕ) : ℤ)) (N - (N / 2 : ℕ)), (if 0 ≤ m ∧ m.toNat ≤ K then f m.toNat else 0) * E m θ) = ∑ k ∈ range (K + 1), f k * E k θ := by
    intro f
    rw [← Finset.sum_filter_add_sum_filter_not _ (fun m : ℤ => 0 ≤ m ∧ m.toNat ≤ K)]
    rw [Finset.sum_eq_zero (s := Finset.filter (fun m : ℤ => ¬ (0 ≤ m ∧ m.toNat ≤ K)) _), add_zero]
    · refine Finset.sum_nbij' (fun m => m.toNat) (fun k => (k : ℤ)) ?_ ?_ ?_ ?_ ?_
      · intro m hm; simp only [Finset.mem_filter, Finset.mem_Ico, Finset.mem_range] at hm ⊢; omega
      · intro k hk; simp only [Finset.mem_filter, Finset.mem_Ico, Finset.mem_range] at hk ⊢; omega
      · intro m hm; simp only [Finset.mem_filter] at hm; exact Int.toNat_of_nonneg hm.2.1
      · intro k hk; simp
      · intro m hm; simp only [Finset.mem_filter] at hm
        rw [if_pos hm.2, Int.toNat_of_nonneg hm.2.1]
    · intro m hm; simp only [Finset.mem_filter] at hm; rw [if_neg hm.2, zero_mul]
  have s2 : ∀ (f : ℕ → ℂ), (∑ m ∈ Finset.Ico (-((N / 2 : ℕ) : ℤ)) (N - (N / 2 : ℕ)), (if 0 ≤ -m ∧ (-m).toNat ≤ K then f (-m).toNat else 0) * E m θ) = ∑ k ∈ range (K + 1), f k * E (-k) θ := by
    intro f
    rw [← Finset.sum_filter_add_sum_filter_not _ (fun m : ℤ => 0 ≤ -m ∧ (-m).toNat ≤ K)]
    rw [Finset.sum_eq_zero (s := Finset.filter (fun m : ℤ => ¬ (0 ≤ -m ∧ (-m).toNat ≤ K)) _), add_zero]
    · refine Finset.sum_nbij' (fun m => (-m).toNat) (fun k => -(k : ℤ)) ?_ ?_ ?_ ?_ ?_
      · intro m hm; simp only [Finset.mem_filter, Finset.mem_Ico, Finset.mem_range] at hm ⊢; omega
      · intro k hk; simp only [Finset.mem_filter, Finset.mem_Ico, Finset.mem_range] at hk ⊢; omega
      · intro m hm; simp only [Finset.mem_filter] at hm; omega
      · intro k hk; simp
      · intro m hm; simp only [Finset.mem_filter] at hm
        rw [if_pos hm.2]; congr 2; omega
    · intro m hm; simp only [Finset.mem_filter] at hm; rw [if_neg hm.2, zero_mul]
  have e : ∀ m : ℤ, Complex.exp (Complex.I * m * θ) = E m θ := fun m => rfl
  simp only [e, add_mul, Finset.sum_add_distrib]
  rw [s1 fun k => (a k : ℂ) / 2 + b k / (2 * Complex.I), s2 fun k => (a k : ℂ) / 2 - b k / (2 * Complex.I), ← Finset.sum_add_distrib, ← Finset.sum_add_distrib]
  refine Finset.sum_congr rfl fun k _ => ?_
  obtain ⟨h1, h2⟩ := hE k θ
  rw [h1, h2]
  ring

/-! ### The transforms on samples -/

variable {N : ℕ}

/-- The samples of a synthesised function. -/
noncomputable def csamp (N : ℕ) (c : ℕ → ℂ) : List ℂ := tab N fun j => synth N c (j * hh N)

@[simp] theorem length_csamp (N : ℕ) (c : ℕ → ℂ) : (csamp N c).length = N := by simp [csamp]

theorem circle_csamp {x₀ : ℝ} {p : ℝ → ℂ} {c : ℕ → ℂ} (h : ∀ θ, p (x₀ + θ) = synth N c θ) : circle N x₀ p = csamp N c := by
  rw [circle_tab]; exact tab_congr fun j _ => h _

theorem F_csamp (N : ℕ) (c : ℕ → ℂ) : F (csamp N c) = tab N fun k => (N : ℂ) * c k := F_synth N c

theorem csamp_coef (x : List ℂ) : x = csamp x.length (coef x.length fun i => x.getD i 0) := by
  conv_lhs => rw [eq_tab x 0]
  exact tab_congr fun j hj => (synth_coef (fun i => x.getD i 0) hj).symm

/-- Multiplying by a diagonal in Fourier space. -/
theorem mul_csamp (N : ℕ) (c d : ℕ → ℂ) : Finv (vmul (F (csamp N c)) (tab N d)) = csamp N fun k => c k * d k := by
  rw [F_csamp, vmul_tab]
  rw [csamp, ← Finv_smul]
  congr 1
  exact tab_congr fun k _ => by ring

theorem div_csamp (N : ℕ) (c d : ℕ → ℂ) : Finv (vdiv (F (csamp N c)) (tab N d)) = csamp N fun k => c k / d k := by
  rw [F_csamp, vdiv_tab]
  rw [csamp, ← Finv_smul]
  congr 1
  exact tab_congr fun k _ => by ring

theorem csamp_congr {c d : ℕ → ℂ} (h : ∀ k < N, c k = d k) : csamp N c = csamp N d :=
  tab_congr fun j _ => synth_congr h _

theorem csamp_inj {c d : ℕ → ℂ} : csamp N c = csamp N d ↔ ∀ k < N, c k = d k := by
  refine ⟨fun h k hk => ?_, csamp_congr⟩
  have := congrArg F h
  rw [F_csamp, F_csamp, tab_inj] at this
  have hN : (N : ℂ) ≠ 0 := by exact_mod_cast (by omega : N ≠ 0)
  exact mul_left_cancel₀ hN (this k hk)

theorem csamp_shift (N : ℕ) (c : ℕ → ℂ) (a : ℝ) : csamp N (fun k => c k * E (fr N k) a) = tab N fun j => synth N c (j * hh N + a) :=
  tab_congr fun j _ => synth_shift N c _ a

theorem csamp_integral (N : ℕ) (c : ℕ → ℂ) (a b : ℝ) :
    csamp N (fun k => c k * Id (fr N k) a b) = tab N fun j => ∫ ξ in (j * hh N + a)..(j * hh N + b), synth N c ξ :=
  tab_congr fun j _ => synth_integral N c _ a b

theorem T_space_csamp (N : ℕ) (c : ℕ → ℂ) (a : ℝ) : T_space a (csamp N c) = csamp N fun k => c k * E (fr N k) a := by
  unfold T_space; rw [length_csamp, S_diag_tab, mul_csamp]

theorem T_space_inv_csamp (N : ℕ) (c : ℕ → ℂ) (a : ℝ) : T_space_inv a (csamp N c) = csamp N fun k => c k * E (fr N k) (-a) := by
  unfold T_space_inv; rw [length_csamp, S_diag_tab, div_csamp]
  exact csamp_congr fun k _ => by rw [E_neg', div_eq_mul_inv]

theorem I_space_csamp (N : ℕ) (c : ℕ → ℂ) (a b : ℝ) : I_space a b (csamp N c) = csamp N fun k => c k * Id (fr N k) a b := by
  unfold I_space; rw [length_csamp, I_diag_tab, mul_csamp]

theorem I_space_inv_csamp (N : ℕ) (c : ℕ → ℂ) (a b : ℝ) : I_space_inv a b (csamp N c) = csamp N fun k => c k / Id (fr N k) a b := by
  unfold I_space_inv; rw [length_csamp, I_diag_tab, div_csamp]

theorem vmul_comm' {x y : List ℂ} : vmul x y = vmul y x := by
  unfold vmul; exact List.zipWith_comm_of_comm (fun a b => mul_comm a b)

theorem extend_tab (N n : ℕ) (x : ℕ → ℂ) :
    extend (tab N x) n = tab (N + 2 * n) fun i => (N + 2 * n) / N * (if n ≤ i ∧ i < n + N then x (i - n) else 0) := by
  unfold extend extend_
  rw [replicate_tab, length_tab, append_tab, append_tab, smul_tab]
  refine tab_congr' (by omega) fun i hi => ?_
  by_cases ha : i < n
  · rw [if_pos (by omega), if_pos ha, if_neg (by omega)]
  by_cases hb : i < n + N
  · rw [if_pos hb, if_neg ha, if_pos ⟨by omega, hb⟩]
  · rw [if_neg hb, if_neg (by omega)]

/-- Zero padding keeps the synthesised function. -/
theorem synth_pad (N n : ℕ) (c : ℕ → ℂ) (θ : ℝ) : synth (N + 2 * n) (fun i => if n ≤ i ∧ i < n + N then c (i - n) else 0) θ = synth N c θ := by
  unfold synth
  rw [show N + 2 * n = n + N + n by ring, Finset.sum_range_add, Finset.sum_range_add]
  rw [Finset.sum_eq_zero (s := range n) (f := fun x => (if n ≤ x ∧ x < n + N then c (x - n) else 0) * _), zero_add]
  · rw [Finset.sum_eq_zero (s := range n), add_zero]
    · refine Finset.sum_congr rfl fun k hk => ?_
      rw [Finset.mem_range] at hk
      beta_reduce; rw [if_pos ⟨by omega, by omega⟩, show n + k - n = k by omega]
      congr 2; unfold fr; omega
    · intro k hk
      rw [Finset.mem_range] at hk
      beta_reduce; rw [if_neg (by omega), zero_mul]
  · intro k hk
    rw [Finset.mem_range] at hk
    rw [if_neg (by omega), zero_mul]

theorem E_space_csamp {N : ℕ} (hN : 0 < N) (n : ℕ) (c : ℕ → ℂ) :
    E_space n (csamp N c) = tab (N + 2 * n) fun j => synth N c (j * hh (N + 2 * n)) := by
  have hN' : (N : ℂ) ≠ 0 := by exact_mod_cast hN.ne'
  unfold E_space
  rw [F_csamp, extend_tab]
  have : (tab (N + 2 * n) fun i => ((N : ℂ) + 2 * n) / N * (if n ≤ i ∧ i < n + N then (N : ℂ) * c (i - n) else 0))
      = tab (N + 2 * n) fun i => ((N + 2 * n : ℕ) : ℂ) * (if n ≤ i ∧ i < n + N then c (i - n) else 0) := by
    refine tab_congr fun i _ => ?_
    by_cases h : n ≤ i ∧ i < n + N
    · rw [if_pos h, if_pos h]; push_cast; field_simp
    · rw [if_neg h, if_neg h]; simp
  rw [this, Finv_smul]
  exact tab_congr fun j _ => synth_pad N n c _

/-- Folding the outer coefficients keeps the values at the coarse grid points. -/
theorem synth_alias {N n : ℕ} (hN : 0 < N) (hn : n ≤ N) (c : ℕ → ℂ) (j : ℕ) :
    synth N (fun i => c (n + i) + (if i < n then c (N + n + i) else 0) + if N - n ≤ i then c (i - (N - n)) else 0) (j * hh N)
      = synth (N + 2 * n) c (j * hh N) := by
  unfold synth
  simp only [add_mul, Finset.sum_add_distrib]
  rw [show range (N + 2 * n) = range (n + N + n) by congr 1; ring, Finset.sum_range_add, Finset.sum_range_add]
  have e1 : ∑ x ∈ range N, c (n + x) * E (fr N x) (j * hh N) = ∑ x ∈ range N, c (n + x) * E (fr (N + 2 * n) (n + x)) (j * hh N) := by
    refine Finset.sum_congr rfl fun k _ => ?_
    congr 2; unfold fr; omega
  have e2 : ∑ x ∈ range N, (if x < n then c (N + n + x) else 0) * E (fr N x) (j * hh N) = ∑ x ∈ range n, c (n + N + x) * E (fr (N + 2 * n) (n + N + x)) (j * hh N) := by
    conv_lhs => rw [show range N = range (n + (N - n)) by congr 1; omega, Finset.sum_range_add]
    rw [Finset.sum_eq_zero (s := range (N - n)), add_zero]
    · refine Finset.sum_congr rfl fun k hk => ?_
      rw [Finset.mem_range] at hk
      rw [if_pos hk, add_comm N n]
      congr 1
      have := E_alias_of_dvd hN (n := fr N k) (m := fr (N + 2 * n) (n + N + k)) ⟨-1, by unfold fr; push_cast; omega⟩ (j : ℤ)
      exact_mod_cast this
    · intro k _; rw [if_neg (by omega), zero_mul]
  have e3 : ∑ x ∈ range N, (if N - n ≤ x then c (x - (N - n)) else 0) * E (fr N x) (j * hh N) = ∑ x ∈ range n, c x * E (fr (N + 2 * n) x) (j * hh N) := by
    conv_lhs => rw [show range N = range ((N - n) + n) by congr 1; omega, Finset.sum_range_add]
    rw [Finset.sum_eq_zero (s := range (N - n)), zero_add]
    · refine Finset.sum_congr rfl fun k hk => ?_
      rw [Finset.mem_range] at hk
      rw [if_pos (by omega), show N - n + k - (N - n) = k by omega]
      congr 1
      have := E_alias_of_dvd hN (n := fr N (N - n + k)) (m := fr (N + 2 * n) k) ⟨1, by unfold fr; push_cast; omega⟩ (j : ℤ)
      exact_mod_cast this
    · intro k hk; rw [Finset.mem_range] at hk; rw [if_neg (by omega), zero_mul]
  rw [e1, e2, e3]; ring

end Dec.Sp
