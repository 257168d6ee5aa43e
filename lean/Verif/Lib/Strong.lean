import Verif.Lib.KInv
import Verif.Lib.RegularGrid

set_option linter.unusedSimpArgs false
set_option linter.unusedVariables false

/-! Sine and cosine polynomials, and functions resolved strictly below the Nyquist frequency. -/

namespace Dec

open Finset Real

/-- `p` is a sine polynomial of degree at most `K`. -/
def IsSin (K : ℕ) (p : ℝ → ℝ) : Prop := ∃ b : ℕ → ℝ, ∀ θ, p θ = ∑ k ∈ range (K + 1), b k * sin (k * θ)

theorem IsCos.isTrig {K : ℕ} {p : ℝ → ℝ} (h : IsCos K p) : IsTrig K p := by
  obtain ⟨a, ha⟩ := h
  exact ⟨a, fun _ => 0, fun θ => by rw [ha]; simp⟩

theorem IsSin.isTrig {K : ℕ} {p : ℝ → ℝ} (h : IsSin K p) : IsTrig K p := by
  obtain ⟨a, ha⟩ := h
  exact ⟨fun _ => 0, a, fun θ => by rw [ha]; simp⟩

theorem IsCos.even {K : ℕ} {p : ℝ → ℝ} (h : IsCos K p) (θ : ℝ) : p (-θ) = p θ := by
  obtain ⟨a, ha⟩ := h
  rw [ha, ha]; simp [mul_neg, cos_neg]

theorem IsSin.odd {K : ℕ} {p : ℝ → ℝ} (h : IsSin K p) (θ : ℝ) : p (-θ) = -p θ := by
  obtain ⟨a, ha⟩ := h
  rw [ha, ha]; simp [mul_neg, sin_neg]

theorem IsTrig.isCos {K : ℕ} {p : ℝ → ℝ} (h : IsTrig K p) (ev : ∀ θ, p (-θ) = p θ) : IsCos K p := by
  obtain ⟨a, b, hab⟩ := h
  refine ⟨a, fun θ => ?_⟩
  have h1 := ev θ
  have h2 := hab θ
  have h3 := hab (-θ)
  simp only [mul_neg, cos_neg, sin_neg, Finset.sum_add_distrib, Finset.sum_neg_distrib] at h2 h3
  linarith

theorem IsTrig.isSin {K : ℕ} {p : ℝ → ℝ} (h : IsTrig K p) (od : ∀ θ, p (-θ) = -p θ) : IsSin K p := by
  obtain ⟨a, b, hab⟩ := h
  refine ⟨b, fun θ => ?_⟩
  have h1 := od θ
  have h2 := hab θ
  have h3 := hab (-θ)
  simp only [mul_neg, cos_neg, sin_neg, Finset.sum_add_distrib, Finset.sum_neg_distrib] at h2 h3
  linarith

theorem IsCos.add {K : ℕ} {p q : ℝ → ℝ} (hp : IsCos K p) (hq : IsCos K q) : IsCos K (fun θ => p θ + q θ) :=
  (hp.isTrig.add hq.isTrig).isCos fun θ => by rw [hp.even, hq.even]

theorem IsCos.const_mul {K : ℕ} {p : ℝ → ℝ} (hp : IsCos K p) (c : ℝ) : IsCos K (fun θ => c * p θ) :=
  (hp.isTrig.const_mul c).isCos fun θ => by rw [hp.even]

theorem IsCos.mul {K L : ℕ} {p q : ℝ → ℝ} (hp : IsCos K p) (hq : IsCos L q) : IsCos (K + L) (fun θ => p θ * q θ) :=
  (hp.isTrig.mul hq.isTrig).isCos fun θ => by rw [hp.even, hq.even]

theorem IsCos.mono {K L : ℕ} (h : K ≤ L) {p : ℝ → ℝ} (hp : IsCos K p) : IsCos L p :=
  (hp.isTrig.mono h).isCos hp.even

theorem IsCos.congr {K : ℕ} {p q : ℝ → ℝ} (hp : IsCos K p) (h : ∀ θ, q θ = p θ) : IsCos K q := by
  have : q = p := funext h
  rwa [this]

theorem isCos_cos {m K : ℕ} (h : m ≤ K) : IsCos K (fun θ => cos (m * θ)) :=
  (isTrig_cos_nat h).isCos fun θ => by simp [mul_neg, cos_neg]

theorem isCos_const (K : ℕ) (c : ℝ) : IsCos K (fun _ => c) := (isTrig_const K c).isCos fun _ => rfl

theorem IsCos.sum {K : ℕ} {ι : Type*} (s : Finset ι) {p : ι → ℝ → ℝ} (hp : ∀ i ∈ s, IsCos K (p i)) :
    IsCos K (fun θ => ∑ i ∈ s, p i θ) :=
  (IsTrig.sum s fun i hi => (hp i hi).isTrig).isCos fun θ => Finset.sum_congr rfl fun i hi => (hp i hi).even θ

theorem IsCos.pow {K : ℕ} {p : ℝ → ℝ} (hp : IsCos K p) (m : ℕ) : IsCos (m * K) (fun θ => p θ ^ m) := by
  induction m with
  | zero => simpa using isCos_const 0 1
  | succ m ih => exact ((ih.mul hp).congr fun θ => by rw [pow_succ]).mono (by rw [Nat.succ_mul])

/-- A polynomial in `-cos θ` is a cosine polynomial of the same degree. -/
theorem IsPoly.isCos {m K : ℕ} (hK : m ≤ K + 1) {q : ℝ → ℝ} (hq : IsPoly m q) : IsCos K (fun θ => q (-cos θ)) := by
  obtain ⟨a, ha⟩ := hq
  refine (IsCos.sum (range m) (p := fun k θ => a k * (-cos θ) ^ k) fun k hk => IsCos.const_mul ?_ _).congr fun θ => ha _
  rw [mem_range] at hk
  have h1 : IsCos 1 (fun θ => -cos θ) := ((isCos_cos (m := 1) le_rfl).const_mul (-1)).congr fun θ => by simp
  exact (h1.pow k).mono (by omega)

/-- A sine polynomial is the sine times a cosine polynomial. -/
theorem IsSin.div {K : ℕ} {u : ℝ → ℝ} (hu : IsSin K u) : ∃ v, IsCos (K - 1) v ∧ ∀ θ, u θ = v θ * sin θ := by
  have h1 : ∀ k : ℕ, ∃ v, IsCos (k - 1) v ∧ ∀ θ, sin (k * θ) = v θ * sin θ := by
    intro k
    induction k with
    | zero => exact ⟨fun _ => 0, isCos_const _ 0, fun θ => by simp⟩
    | succ k ih =>
      obtain ⟨v, hv, hs⟩ := ih
      refine ⟨fun θ => v θ * cos θ + cos (k * θ), ?_, fun θ => ?_⟩
      · rcases Nat.eq_zero_or_pos k with rfl | hk
        · have : ∀ θ, v θ * sin θ = 0 := fun θ => by rw [← hs]; simp
          obtain ⟨a, ha⟩ := hv
          have hv0 : a 0 = 0 := by
            have := this (π / 2)
            rw [ha] at this
            simpa using this
          exact (isCos_const 0 1).congr fun θ => by rw [ha]; simp [hv0]
        · have := hv.mul (isCos_cos (m := 1) (K := 1) le_rfl)
          rw [show k - 1 + 1 = k by omega] at this
          exact ((this.congr fun θ => by rw [Nat.cast_one, one_mul]).add (isCos_cos le_rfl)).mono (by omega)
      · push_cast
        rw [add_mul, one_mul, sin_add, hs]; ring
  choose v hv hs using h1
  obtain ⟨b, hb⟩ := hu
  refine ⟨fun θ => ∑ k ∈ range (K + 1), b k * v k θ, IsCos.sum _ fun k hk => ?_, fun θ => ?_⟩
  · rw [mem_range] at hk
    exact ((hv k).const_mul _).mono (by omega)
  · rw [hb, Finset.sum_mul]; exact Finset.sum_congr rfl fun k _ => by rw [hs]; ring

namespace Sp

/-- Functions that are the (complex) interpolant of their samples, at every base point. -/
def ResC (N : ℕ) (p : ℝ → ℝ) : Prop := ∃ c : ℕ → ℂ, ∀ θ, ((p θ : ℝ) : ℂ) = synth N c θ

theorem resC_of_isTrig {K N : ℕ} (h : 2 * K < N) {p : ℝ → ℝ} (hp : IsTrig K p) : ResC N p := by
  refine IsTrig.induction (P := ResC N) ?_ ?_ ?_ hp
  · rintro p q ⟨c, hc⟩ ⟨d, hd⟩
    exact ⟨fun k => c k + d k, fun θ => by push_cast; rw [synth_add, hc, hd]⟩
  · rintro a p ⟨c, hc⟩
    exact ⟨fun k => a * c k, fun θ => by push_cast; rw [synth_mul_left, hc]⟩
  · intro m α hm
    have h0 := abs_nonneg m
    have h1 := abs_lt.1 (show |m| < ((N - 1) / 2 : ℕ) + 1 by omega)
    obtain ⟨k, hk, hkm⟩ : ∃ k < N, fr N k = m := ⟨(m + (N / 2 : ℕ)).toNat, by omega, by unfold fr; omega⟩
    obtain ⟨l, hl, hlm⟩ : ∃ k < N, fr N k = -m := ⟨(-m + (N / 2 : ℕ)).toNat, by omega, by unfold fr; omega⟩
    let A : ℂ := Complex.exp (Complex.I * α)
    refine ⟨fun j => (if j = k then A / 2 else 0) + (if j = l then A⁻¹ / 2 else 0), fun θ => ?_⟩
    rw [synth_add, synth_single hk, synth_single hl, hkm, hlm]
    push_cast
    rw [Complex.cos]
    unfold E
    simp only [A]
    rw [← Complex.exp_neg, div_mul_eq_mul_div, div_mul_eq_mul_div, ← Complex.exp_add, ← Complex.exp_add, ← add_div]
    congr 2
    · congr 1; push_cast; ring
    · congr 1; push_cast; ring

theorem ResC.res {N : ℕ} {p : ℝ → ℝ} (h : ResC N p) (φ : ℝ) : Res N φ p := by
  obtain ⟨c, hc⟩ := h
  refine ⟨fun k => c k * E (fr N k) φ, fun θ => ?_, fun j _ => ?_⟩
  · rw [synth_shift, ← hc, Complex.ofReal_re]; congr 1; ring
  · rw [synth_shift, ← hc, Complex.ofReal_im]

theorem F_samp {N : ℕ} {p : ℝ → ℝ} {c : ℕ → ℂ} (hc : ∀ θ, ((p θ : ℝ) : ℂ) = synth N c θ) (φ : ℝ) :
    F (toC (samp N φ p)) = tab N (fun k => (N : ℂ) * (c k * E (fr N k) φ)) := by
  rw [← F_synth]; unfold samp
  rw [toC_tab]
  congr 1
  exact tab_congr fun j _ => by rw [synth_shift, hc]; congr 1; ring

theorem ResC.T_space {N : ℕ} {p : ℝ → ℝ} (h : ResC N p) (φ a : ℝ) :
    T_space a (toC (samp N φ p)) = toC (samp N (φ + a) p) := by
  obtain ⟨c, hc⟩ := h
  unfold Sp.T_space
  rw [F_samp hc, length_toC, length_samp, S_diag_tab, vmul_tab]
  have := F_samp hc (φ + a)
  rw [← Finv_F (toC (samp N (φ + a) p)), this]
  congr 1
  exact tab_congr fun k _ => by rw [E_add]; ring

theorem ResC.I_space {N : ℕ} {p : ℝ → ℝ} (h : ResC N p) (φ a b : ℝ) :
    I_space a b (toC (samp N φ p)) = toC (tab N fun j => ∫ ξ in (φ + j * hh N + a)..(φ + j * hh N + b), p ξ) := by
  obtain ⟨c, hc⟩ := h
  unfold Sp.I_space
  rw [F_samp hc, length_toC, length_samp, I_diag_tab, vmul_tab, toC_tab]
  have : (tab N fun i => (N : ℂ) * (c i * E (fr N i) φ) * Id (fr N i) a b) = tab N fun i => (N : ℂ) * (c i * Id (fr N i) a b * E (fr N i) φ) :=
    tab_congr fun i _ => by ring
  rw [this, Finv_smul]
  refine tab_congr fun j _ => ?_
  rw [synth_shift, synth_integral, ← intervalIntegral.integral_ofReal]
  simp_rw [hc]
  rw [add_comm ((j : ℝ) * hh N) φ]

/-- Interpolation by cosine polynomials at the vertices. -/
theorem exists_cos0 {n : ℕ} (hn : 2 ≤ n) (x : ℕ → ℝ) :
    ∃ p, IsCos (n - 1) p ∧ ∀ j < n, p (j * hh (2 * n - 2)) = x j := by
  obtain ⟨p, hp, ev, hv, _⟩ := exists_even0 hn x
  have := (isTrig_of_res hp).isCos ev
  rw [show (2 * n - 2) / 2 = n - 1 by omega] at this
  exact ⟨p, this, hv⟩

theorem res_of_cos0 {n : ℕ} (hn : 2 ≤ n) {p : ℝ → ℝ} (hp : IsCos (n - 1) p) : Res (2 * n - 2) 0 p := by
  obtain ⟨a, ha⟩ := hp
  refine (Res.sum (range (n - 1 + 1)) (p := fun k θ => a k * cos (k * θ)) fun k hk => Res.const_mul ?_ _).congr ha
  rw [mem_range] at hk
  by_cases h : 2 * k < 2 * n - 2
  · exact (Res.cos_lt (N := 2 * n - 2) (m := k) (by rw [Nat.abs_cast]; omega) 0 0).congr fun θ => by simp
  · have hk' : k = n - 1 := by omega
    have := Res.cos_nyquist (m := n - 1) (by omega) 0
    rw [show 2 * (n - 1) = 2 * n - 2 by omega] at this
    exact this.congr fun θ => by rw [hk', sub_zero]

theorem mul_hh_half {m : ℕ} (hm : 0 < m) : (m : ℝ) * hh (2 * m) = π := by
  have := mul_hh (show 0 < 2 * m by omega)
  push_cast at this; linarith

/-- `cos (m θ)` vanishes at the midpoints. -/
theorem cos_mid {m : ℕ} (hm : 0 < m) (j : ℕ) : cos (m * (hh (2 * m) / 2 + j * hh (2 * m))) = 0 := by
  rw [Real.cos_eq_zero_iff]
  refine ⟨j, ?_⟩
  have := mul_hh_half hm
  push_cast
  linear_combination (1 / 2 + (j : ℝ)) * this

/-- Interpolation by cosine polynomials at the midpoints. -/
theorem exists_cos1 {m : ℕ} (hm : 0 < m) (x : ℕ → ℝ) :
    ∃ p, IsCos (m - 1) p ∧ ∀ j < m, p (hh (2 * m) / 2 + j * hh (2 * m)) = x j := by
  obtain ⟨p, hp, ev, hv, _⟩ := exists_even1 hm x
  have := (isTrig_of_res hp).isCos ev
  rw [show (2 * m) / 2 = m by omega] at this
  obtain ⟨a, ha⟩ := this
  refine ⟨fun θ => ∑ k ∈ range (m - 1 + 1), a k * cos (k * θ), ⟨a, fun _ => rfl⟩, fun j hj => ?_⟩
  rw [← hv j hj, ha, Finset.sum_range_succ _ m, cos_mid hm, mul_zero, add_zero, show m - 1 + 1 = m by omega]

/-- Interpolation by sine polynomials at the inner vertices. -/
theorem exists_sin0 {n : ℕ} (hn : 2 ≤ n) (x : ℕ → ℝ) (h0 : x 0 = 0) (h1 : x (n - 1) = 0) :
    ∃ u, IsSin (n - 2) u ∧ ∀ j < n, u (j * hh (2 * n - 2)) = x j := by
  set M := 2 * n - 2 with hM
  have hM0 : 0 < M := by omega
  obtain ⟨p, hp, hs⟩ := exists_res M 0 (fun i => if i < n then x i else -x (2 * n - 2 - i))
  have hv : ∀ j < M, p (j * hh M) = if j < n then x j else -x (2 * n - 2 - j) := by
    intro j hj
    have := tab_inj.1 hs j hj
    simpa using this
  have hneg : Res M 0 (fun θ => p (-θ)) := by
    have := Res.neg (m := 0) hM0 (p := p) (by simpa using hp)
    simpa using this
  have od : ∀ θ, p (-θ) = -p θ := by
    intro θ
    have := Res.unique hneg ((hp.const_mul (-1)).congr (q := fun θ => -p θ) fun θ => by ring) (fun j hj => ?_) θ
    · exact this
    · simp only [zero_add]
      rcases Nat.eq_zero_or_pos j with rfl | hj0
      · have := hv 0 hM0
        rw [if_pos (by omega), h0] at this
        simp only [Nat.cast_zero, zero_mul, neg_zero] at this ⊢
        rw [this]; simp
      · have e : -((j : ℝ) * hh M) + 2 * π = (M - j : ℕ) * hh M := by
          rw [hM, opp n hn j hj]; ring
        rw [← hp.periodic, e, hv _ (by omega), hv _ hj]
        by_cases h2 : j < n
        · by_cases h3 : M - j < n
          · have e1 : M - j = j := by omega
            have e2 : j = n - 1 := by omega
            rw [if_pos h3, if_pos h2, e1, e2, h1]; simp
          · rw [if_neg h3, if_pos h2]; congr 2; omega
        · rw [if_neg h2, if_pos (by omega), neg_neg]
  have := (isTrig_of_res hp).isSin od
  rw [show M / 2 = n - 1 by omega] at this
  obtain ⟨b, hb⟩ := this
  refine ⟨fun θ => ∑ k ∈ range (n - 2 + 1), b k * sin (k * θ), ⟨b, fun _ => rfl⟩, fun j hj => ?_⟩
  have hvj : p (j * hh M) = x j := by
    have := hv j (by omega)
    rwa [if_pos hj] at this
  rw [← hvj, hb, Finset.sum_range_succ _ (n - 1), show n - 2 + 1 = n - 1 by omega]
  have : sin (((n - 1 : ℕ) : ℝ) * (j * hh M)) = 0 := by
    rw [show ((n - 1 : ℕ) : ℝ) * (j * hh M) = j * π by rw [← mul_hh_double hn]; ring]
    exact Real.sin_nat_mul_pi j
  rw [this, mul_zero, add_zero]

/-- Every sine polynomial below the Nyquist frequency is the cell integral of a sine polynomial. -/
theorem exists_sin_integral {K N : ℕ} (h : 2 * K < N) {s : ℝ → ℝ} (hs : IsSin K s) :
    ∃ u, IsSin K u ∧ ∀ θ, ∫ ξ in (θ - hh N / 2)..(θ + hh N / 2), u ξ = s θ := by
  obtain ⟨b, hb⟩ := hs
  have hN : 0 < N := by omega
  refine ⟨fun θ => ∑ k ∈ range (K + 1), (b k * (k / (2 * sin (k * (hh N / 2))))) * sin (k * θ), ⟨_, fun _ => rfl⟩, fun θ => ?_⟩
  rw [intervalIntegral.integral_finsetSum (fun k _ => Continuous.intervalIntegrable (by fun_prop) _ _), hb]
  refine Finset.sum_congr rfl fun k hk => ?_
  rw [mem_range] at hk
  rw [intervalIntegral.integral_const_mul]
  rcases Nat.eq_zero_or_pos k with rfl | hk0
  · simp
  · have hk' : (k : ℝ) ≠ 0 := by exact_mod_cast hk0.ne'
    have hpos : sin (k * (hh N / 2)) ≠ 0 := by
      apply ne_of_gt
      apply Real.sin_pos_of_pos_of_lt_pi
      · have := hh_pos hN; positivity
      · have h1 := mul_hh hN
        have h2 : (k : ℝ) < N := by exact_mod_cast (by omega : k < N)
        have := hh_pos hN
        nlinarith
    have hint : ∫ ξ in (θ - hh N / 2)..(θ + hh N / 2), sin (k * ξ) = 2 * sin (k * (hh N / 2)) * sin (k * θ) / k := by
      rw [intervalIntegral.integral_comp_mul_left (fun x => sin x) hk', integral_sin, mul_sub, mul_add, cos_sub, cos_add, smul_eq_mul]
      field_simp
      ring
    rw [hint]
    generalize sin (k * (hh N / 2)) = σ at hpos ⊢
    field_simp

end Sp
end Dec
