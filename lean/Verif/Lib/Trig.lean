import Verif.Spec
import Verif.Lib.Res

set_option linter.unusedSimpArgs false
set_option linter.unusedVariables false

/-! Trigonometric polynomials: closure properties and resolvability. -/

namespace Dec

open Real Finset

theorem IsTrig.zero (K : ℕ) : IsTrig K (fun _ => 0) := ⟨fun _ => 0, fun _ => 0, by simp⟩

theorem IsTrig.add {K : ℕ} {p q : ℝ → ℝ} (hp : IsTrig K p) (hq : IsTrig K q) :
    IsTrig K (fun θ => p θ + q θ) := by
  obtain ⟨a, b, h⟩ := hp
  obtain ⟨c, d, h'⟩ := hq
  refine ⟨fun k => a k + c k, fun k => b k + d k, fun θ => ?_⟩
  simp only [h, h', ← Finset.sum_add_distrib]
  exact Finset.sum_congr rfl fun k _ => by ring

theorem IsTrig.const_mul {K : ℕ} {p : ℝ → ℝ} (hp : IsTrig K p) (c : ℝ) : IsTrig K (fun θ => c * p θ) := by
  obtain ⟨a, b, h⟩ := hp
  refine ⟨fun k => c * a k, fun k => c * b k, fun θ => ?_⟩
  simp only [h, Finset.mul_sum]
  exact Finset.sum_congr rfl fun k _ => by ring

theorem IsTrig.congr {K : ℕ} {p q : ℝ → ℝ} (hp : IsTrig K p) (h : ∀ θ, q θ = p θ) : IsTrig K q := by
  have : q = p := funext h
  rwa [this]

theorem IsTrig.sub {K : ℕ} {p q : ℝ → ℝ} (hp : IsTrig K p) (hq : IsTrig K q) :
    IsTrig K (fun θ => p θ - q θ) := (hp.add (hq.const_mul (-1))).congr fun θ => by ring

theorem IsTrig.sum {K : ℕ} {ι : Type*} (s : Finset ι) {p : ι → ℝ → ℝ} (hp : ∀ i ∈ s, IsTrig K (p i)) :
    IsTrig K (fun θ => ∑ i ∈ s, p i θ) := by
  classical
  induction s using Finset.induction with
  | empty => simpa using IsTrig.zero K
  | insert a s ha ih =>
    simp_rw [Finset.sum_insert ha]
    exact (hp a (by simp)).add (ih fun i hi => hp i (by simp [hi]))

theorem IsTrig.mono {K L : ℕ} (h : K ≤ L) {p : ℝ → ℝ} (hp : IsTrig K p) : IsTrig L p := by
  obtain ⟨a, b, hab⟩ := hp
  refine ⟨fun k => if k < K + 1 then a k else 0, fun k => if k < K + 1 then b k else 0, fun θ => ?_⟩
  rw [hab, ← Finset.sum_subset (Finset.range_subset_range.2 (show K + 1 ≤ L + 1 by omega))]
  · apply Finset.sum_congr rfl; intro k hk; simp only [Finset.mem_range] at hk; simp [hk]
  · intro k _ hk; simp only [Finset.mem_range] at hk; simp [hk]

theorem isTrig_cos_nat {m K : ℕ} (h : m ≤ K) : IsTrig K (fun θ => cos (m * θ)) := by
  refine ⟨fun k => if k = m then 1 else 0, fun _ => 0, fun θ => ?_⟩
  simp [show m < K + 1 by omega]

theorem isTrig_sin_nat {m K : ℕ} (h : m ≤ K) : IsTrig K (fun θ => sin (m * θ)) := by
  refine ⟨fun _ => 0, fun k => if k = m then 1 else 0, fun θ => ?_⟩
  simp [show m < K + 1 by omega]

theorem isTrig_cos {m : ℤ} {K : ℕ} (h : |m| ≤ K) : IsTrig K (fun θ => cos (m * θ)) := by
  have h2 : m.natAbs ≤ K := by rw [Int.abs_eq_natAbs] at h; exact_mod_cast h
  refine (isTrig_cos_nat h2).congr fun θ => ?_
  rcases Int.natAbs_eq m with h3 | h3
  · conv_lhs => rw [h3]
    simp
  · conv_lhs => rw [h3]
    push_cast; rw [neg_mul, cos_neg]; simp

theorem isTrig_sin {m : ℤ} {K : ℕ} (h : |m| ≤ K) : IsTrig K (fun θ => sin (m * θ)) := by
  have h2 : m.natAbs ≤ K := by rw [Int.abs_eq_natAbs] at h; exact_mod_cast h
  rcases Int.natAbs_eq m with h3 | h3
  · refine (isTrig_sin_nat h2).congr fun θ => ?_
    conv_lhs => rw [h3]
    simp
  · refine ((isTrig_sin_nat h2).const_mul (-1)).congr fun θ => ?_
    conv_lhs => rw [h3]
    push_cast; rw [neg_mul, sin_neg]; simp

/-- A single harmonic with a phase. -/
theorem isTrig_cos_phase {m : ℤ} {K : ℕ} (h : |m| ≤ K) (α : ℝ) : IsTrig K (fun θ => cos (m * θ + α)) :=
  (((isTrig_cos h).const_mul (cos α)).sub ((isTrig_sin h).const_mul (sin α))).congr fun θ => by
    rw [cos_add]; ring

theorem isTrig_const (K : ℕ) (c : ℝ) : IsTrig K (fun _ => c) :=
  ((isTrig_cos_nat (Nat.zero_le K)).const_mul c).congr fun θ => by simp

/-- Every trigonometric polynomial is a sum of harmonics with phases. -/
theorem IsTrig.induction {K : ℕ} {P : (ℝ → ℝ) → Prop}
    (hadd : ∀ p q, P p → P q → P (fun θ => p θ + q θ))
    (hmul : ∀ (c : ℝ) p, P p → P (fun θ => c * p θ))
    (hcos : ∀ (m : ℤ) (α : ℝ), |m| ≤ K → P (fun θ => cos (m * θ + α)))
    {p : ℝ → ℝ} (hp : IsTrig K p) : P p := by
  obtain ⟨a, b, h⟩ := hp
  have h0 : P (fun _ => 0) := by
    have := hmul 0 _ (hcos 0 0 (by simp))
    simpa using this
  have hP : ∀ n, n ≤ K + 1 → P (fun θ => ∑ k ∈ range n, (a k * cos (k * θ) + b k * sin (k * θ))) := by
    intro n
    induction n with
    | zero => intro _; simpa using h0
    | succ n ih =>
      intro hn
      simp_rw [Finset.sum_range_succ]
      refine hadd _ _ (ih (by omega)) (hadd _ _ (hmul _ _ ?_) (hmul _ _ ?_))
      · have := hcos n 0 (by simp; omega)
        simpa using this
      · have := hcos n (-(π / 2)) (by simp; omega)
        have e : (fun θ => cos (((n : ℤ) : ℝ) * θ + -(π / 2))) = fun θ => sin (n * θ) := by
          funext θ; rw [← sub_eq_add_neg, cos_sub_pi_div_two]; simp
        rwa [e] at this
  have : p = fun θ => ∑ k ∈ range (K + 1), (a k * cos (k * θ) + b k * sin (k * θ)) := funext h
  rw [this]; exact hP _ le_rfl

/-- Products. -/
theorem IsTrig.mul {K L : ℕ} {p q : ℝ → ℝ} (hp : IsTrig K p) (hq : IsTrig L q) :
    IsTrig (K + L) (fun θ => p θ * q θ) := by
  refine IsTrig.induction (P := fun p => IsTrig (K + L) (fun θ => p θ * q θ)) ?_ ?_ ?_ hp
  · intro p p' h h'; exact (h.add h').congr fun θ => by ring
  · intro c p h; exact (h.const_mul c).congr fun θ => by ring
  · intro m α hm
    refine IsTrig.induction (P := fun q => IsTrig (K + L) (fun θ => cos (m * θ + α) * q θ)) ?_ ?_ ?_ hq
    · intro p p' h h'; exact (h.add h').congr fun θ => by ring
    · intro c p h; exact (h.const_mul c).congr fun θ => by ring
    · intro l β hl
      have h1 : |m + l| ≤ ((K + L : ℕ) : ℤ) := by
        have := abs_add_le m l; push_cast; linarith
      have h2 : |m - l| ≤ ((K + L : ℕ) : ℤ) := by
        have := abs_sub m l; push_cast; linarith
      refine (((isTrig_cos_phase h1 (α + β)).const_mul (1 / 2)).add
        ((isTrig_cos_phase h2 (α - β)).const_mul (1 / 2))).congr fun θ => ?_
      have e1 : ((m + l : ℤ) : ℝ) * θ + (α + β) = (m * θ + α) + (l * θ + β) := by push_cast; ring
      have e2 : ((m - l : ℤ) : ℝ) * θ + (α - β) = (m * θ + α) - (l * θ + β) := by push_cast; ring
      beta_reduce
      rw [e1, e2]
      generalize (m : ℝ) * θ + α = u
      generalize (l : ℝ) * θ + β = v
      rw [cos_add u v, cos_sub u v]; ring

theorem IsTrig.continuous {K : ℕ} {p : ℝ → ℝ} (hp : IsTrig K p) : Continuous p :=
  IsTrig.induction (P := Continuous) (fun _ _ h h' => h.add h') (fun c _ h => continuous_const.mul h)
    (fun m α _ => by fun_prop) hp

/-- Derivatives. -/
theorem IsTrig.deriv {K : ℕ} {p : ℝ → ℝ} (hp : IsTrig K p) :
    ∃ q, IsTrig K q ∧ ∀ θ, HasDerivAt p (q θ) θ := by
  refine IsTrig.induction (P := fun p => ∃ q, IsTrig K q ∧ ∀ θ, HasDerivAt p (q θ) θ) ?_ ?_ ?_ hp
  · rintro p p' ⟨q, hq, h⟩ ⟨q', hq', h'⟩; exact ⟨_, hq.add hq', fun θ => (h θ).add (h' θ)⟩
  · rintro c p ⟨q, hq, h⟩; exact ⟨_, hq.const_mul c, fun θ => (h θ).const_mul c⟩
  · intro m α hm
    refine ⟨fun θ => (m : ℝ) * cos (m * θ + (α + π / 2)), (isTrig_cos_phase hm _).const_mul _, fun θ => ?_⟩
    have h1 : HasDerivAt (fun θ : ℝ => (m : ℝ) * θ + α) m θ := by
      simpa using ((hasDerivAt_id θ).const_mul (m : ℝ)).add_const α
    have := h1.cos
    convert this using 1
    show (m : ℝ) * cos (m * θ + (α + π / 2)) = _
    rw [← add_assoc, cos_add_pi_div_two]; ring

/-- `2π`-periodicity. -/
theorem IsTrig.periodic {K : ℕ} {p : ℝ → ℝ} (hp : IsTrig K p) : Function.Periodic p (2 * π) := by
  refine IsTrig.induction (P := fun p => Function.Periodic p (2 * π)) ?_ ?_ ?_ hp
  · intro p q h h' θ; simp only [h θ, h' θ]
  · intro c p h θ; simp only [h θ]
  · intro m α _ θ
    have : (m : ℝ) * (θ + 2 * π) + α = (m * θ + α) + m * (2 * π) := by ring
    simp only [this, cos_add_int_mul_two_pi]

theorem IsTrig.comp_add {K : ℕ} {p : ℝ → ℝ} (hp : IsTrig K p) (c : ℝ) : IsTrig K (fun θ => p (θ + c)) := by
  refine IsTrig.induction (P := fun p => IsTrig K (fun θ => p (θ + c))) ?_ ?_ ?_ hp
  · intro p q h h'; exact h.add h'
  · intro a p h; exact h.const_mul a
  · intro m α hm; exact (isTrig_cos_phase hm (m * c + α)).congr fun θ => by ring_nf

theorem IsTrig.comp_neg {K : ℕ} {p : ℝ → ℝ} (hp : IsTrig K p) : IsTrig K (fun θ => p (-θ)) := by
  refine IsTrig.induction (P := fun p => IsTrig K (fun θ => p (-θ))) ?_ ?_ ?_ hp
  · intro p q h h'; exact h.add h'
  · intro a p h; exact h.const_mul a
  · intro m α hm; exact (isTrig_cos_phase (m := -m) (by simpa using hm) α).congr fun θ => by push_cast; ring_nf

/-! ### Resolvability -/

namespace Sp

theorem Res_of_isTrig {K N : ℕ} (h : 2 * K < N) {p : ℝ → ℝ} (hp : IsTrig K p) (φ : ℝ) : Res N φ p :=
  IsTrig.induction (P := Res N φ) (fun _ _ h h' => h.add h') (fun c _ h => h.const_mul c)
    (fun m α hm => Res.cos_lt (by omega) φ α) hp

theorem isTrig_of_res {N : ℕ} {φ : ℝ} {p : ℝ → ℝ} (hp : Res N φ p) : IsTrig (N / 2) p := by
  obtain ⟨c, hc, _⟩ := hp
  have h1 : IsTrig (N / 2) (fun θ => (synth N c θ).re) := by
    have : (fun θ => (synth N c θ).re) = fun θ => ∑ k ∈ range N,
        ((c k).re * cos (fr N k * θ) - (c k).im * sin (fr N k * θ)) := by
      funext θ; unfold synth
      rw [Complex.re_sum]
      exact Finset.sum_congr rfl fun k _ => by rw [Complex.mul_re, E_re, E_im]
    rw [this]
    apply IsTrig.sum
    intro k hk
    simp only [Finset.mem_range] at hk
    have : |fr N k| ≤ ((N / 2 : ℕ) : ℤ) := by have := fr_abs_le hk; omega
    exact ((isTrig_cos this).const_mul _).sub ((isTrig_sin this).const_mul _)
  refine (h1.comp_add (-φ)).congr fun θ => ?_
  rw [← hc]; congr 1; ring

/-- Every array of samples comes from a trigonometric polynomial of degree at most half its length. -/
theorem exists_isTrig (N : ℕ) (φ : ℝ) (x : List ℝ) (hx : x.length = N) :
    ∃ p, IsTrig (N / 2) p ∧ Res N φ p ∧ x = samp N φ p := by
  obtain ⟨p, hp, h⟩ := exists_res N φ (fun i => x.getD i 0)
  exact ⟨p, isTrig_of_res hp, hp, by rw [h]; exact eq_tab' hx 0⟩

end Sp

end Dec
