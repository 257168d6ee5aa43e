import Verif.Props.AccuracyProducts

set_option linter.unusedSimpArgs false
set_option linter.unusedVariables false

/-! Sums of absolutely convergent series (the Wiener algebra): sums, products and aliases. -/

namespace Dec.Props

open Finset Real G2 Sp

/-- The function is the sum of a series whose amplitudes add up to at most `A`. -/
def Wien (k : Kind) (A : ℝ) (f : ℝ → ℝ) : Prop := ∃ c s, Expansion k c s f ∧ totalAmplitude k c s ≤ A

theorem Wien.mono {k : Kind} {A B : ℝ} {f : ℝ → ℝ} (h : Wien k A f) (hAB : A ≤ B) : Wien k B f := by
  obtain ⟨c, s, h1, h2⟩ := h
  exact ⟨c, s, h1, h2.trans hAB⟩

theorem Wien.congr {k : Kind} {A : ℝ} {f g : ℝ → ℝ} (h : Wien k A f) (e : ∀ x ∈ Whole k, f x = g x) : Wien k A g := by
  obtain ⟨c, s, h1, h2⟩ := h
  exact ⟨c, s, ⟨h1.1, fun x hx => by rw [← e x hx]; exact h1.2 x hx⟩, h2⟩

theorem Wien.nonneg {k : Kind} {A : ℝ} {f : ℝ → ℝ} (h : Wien k A f) : 0 ≤ A := by
  obtain ⟨c, s, h1, h2⟩ := h
  exact (tsum_nonneg (amplitude_nonneg k c s)).trans h2

theorem Wien.bound {k : Kind} {A : ℝ} {f : ℝ → ℝ} (h : Wien k A f) {x : ℝ} (hx : x ∈ Whole k) : |f x| ≤ A := by
  obtain ⟨c, s, h1, h2⟩ := h
  exact (expansion_bound h1 hx).trans h2

theorem abs_c_le (k : Kind) (c s : ℕ → ℝ) (m : ℕ) : |c m| ≤ amplitude k c s m := by
  cases k
  · exact le_add_of_nonneg_right (abs_nonneg _)
  · exact le_refl _
  · exact le_refl _

/-- A sum of (countably many) series. -/
theorem wien_sum {ι : Type*} {k : Kind} {u : ι → ℝ → ℝ} {A : ι → ℝ} {f : ℝ → ℝ} (hA : Summable A) (h : ∀ i, Wien k (A i) (u i))
    (hf : ∀ x ∈ Whole k, HasSum (fun i => u i x) (f x)) : Wien k (∑' i, A i) f := by
  choose c s hE hT using h
  have hnn : ∀ i m, 0 ≤ amplitude k (c i) (s i) m := fun i m => amplitude_nonneg k _ _ _
  have hsum : Summable fun p : ι × ℕ => amplitude k (c p.1) (s p.1) p.2 := by
    refine (summable_prod_of_nonneg fun p => hnn _ _).2 ⟨fun i => (hE i).1, ?_⟩
    exact Summable.of_nonneg_of_le (fun i => tsum_nonneg (hnn i)) hT hA
  have hswap : Summable fun p : ℕ × ι => amplitude k (c p.2) (s p.2) p.1 := hsum.prod_symm
  have hfib : ∀ m, Summable fun i => amplitude k (c i) (s i) m := fun m => hswap.prod_factor m
  have hc : ∀ m, Summable fun i => c i m := fun m => Summable.of_norm_bounded (hfib m) fun i => by rw [Real.norm_eq_abs]; exact abs_c_le k _ _ m
  have hs : k = .periodic → ∀ m, Summable fun i => s i m := fun hk m => by
    subst hk
    refine Summable.of_norm_bounded (hfib m) fun i => ?_
    rw [Real.norm_eq_abs]; exact le_add_of_nonneg_left (abs_nonneg (c i m))
  have hle : ∀ m, amplitude k (fun m => ∑' i, c i m) (fun m => ∑' i, s i m) m ≤ ∑' i, amplitude k (c i) (s i) m := fun m => by
    have hc' : |∑' i, c i m| ≤ ∑' i, |c i m| := norm_tsum_le_tsum_norm (hc m).norm
    cases k
    · have hs' : |∑' i, s i m| ≤ ∑' i, |s i m| := norm_tsum_le_tsum_norm (hs rfl m).norm
      exact (add_le_add hc' hs').trans ((hc m).abs.tsum_add (hs rfl m).abs).symm.le
    · exact hc'
    · exact hc'
  have hbig : Summable fun m => ∑' i, amplitude k (c i) (s i) m := hswap.prod
  have hterm : ∀ m x, HasSum (fun i => term k (c i) (s i) m x) (term k (fun m => ∑' i, c i m) (fun m => ∑' i, s i m) m x) := fun m x => by
    cases k
    · exact ((hc m).hasSum.mul_right _).add ((hs rfl m).hasSum.mul_right _)
    · exact (hc m).hasSum.mul_right _
    · exact (hc m).hasSum.mul_right _
  refine ⟨_, _, ⟨Summable.of_nonneg_of_le (fun m => amplitude_nonneg k _ _ m) hle hbig, fun x hx => ?_⟩, ?_⟩
  · have hS : Summable fun p : ι × ℕ => term k (c p.1) (s p.1) p.2 x := Summable.of_norm_bounded hsum fun p => by
      rw [Real.norm_eq_abs]; exact term_bound k _ _ _ hx
    have h1 : HasSum (fun i => u i x) (∑' p : ι × ℕ, term k (c p.1) (s p.1) p.2 x) := hS.hasSum.prod_fiberwise fun i => (hE i).2 x hx
    have h2 : HasSum (fun p : ℕ × ι => term k (c p.2) (s p.2) p.1 x) (∑' p : ι × ℕ, term k (c p.1) (s p.1) p.2 x) :=
      (Equiv.prodComm ℕ ι).hasSum_iff (f := fun p : ι × ℕ => term k (c p.1) (s p.1) p.2 x) |>.2 hS.hasSum
    rw [(hf x hx).unique h1]
    exact h2.prod_fiberwise fun m => hterm m x
  · calc totalAmplitude k _ _ ≤ ∑' m, ∑' i, amplitude k (c i) (s i) m := Summable.tsum_le_tsum hle (Summable.of_nonneg_of_le (fun m => amplitude_nonneg k _ _ m) hle hbig) hbig
      _ = ∑' i, ∑' m, amplitude k (c i) (s i) m := by
        rw [← hswap.tsum_prod, ← hsum.tsum_prod]
        exact (Equiv.prodComm ℕ ι).tsum_eq (fun p : ι × ℕ => amplitude k (c p.1) (s p.1) p.2)
      _ ≤ _ := Summable.tsum_le_tsum hT (Summable.of_nonneg_of_le (fun i => tsum_nonneg (hnn i)) hT hA) hA

theorem wien_add {k : Kind} {A B : ℝ} {f g : ℝ → ℝ} (hf : Wien k A f) (hg : Wien k B g) : Wien k (A + B) fun x => f x + g x := by
  have := wien_sum (u := fun b : Bool => if b then f else g) (A := fun b => if b then A else B) (f := fun x => f x + g x) (k := k) (hasSum_fintype _).summable
    (fun b => by cases b <;> simpa) fun x _ => by
      have := hasSum_fintype fun b : Bool => (if b then f else g) x
      simpa using this
  simpa using this

theorem wien_finset {ι : Type*} {k : Kind} (S : Finset ι) {A : ι → ℝ} {u : ι → ℝ → ℝ} (h : ∀ i ∈ S, Wien k (A i) (u i)) : Wien k (∑ i ∈ S, A i) fun x => ∑ i ∈ S, u i x := by
  have := wien_sum (u := fun i : S => u i) (A := fun i : S => A i) (f := fun x => ∑ i ∈ S, u i x) (k := k) (hasSum_fintype _).summable (fun i => h i i.2) fun x _ => by
    have := hasSum_fintype fun i : S => u i x
    rwa [Finset.sum_coe_sort S (fun i => u i x)] at this
  rwa [tsum_fintype, Finset.sum_coe_sort S A] at this

theorem wien_smul {k : Kind} (a : ℝ) {A : ℝ} {f : ℝ → ℝ} (hf : Wien k A f) : Wien k (|a| * A) fun x => a * f x := by
  obtain ⟨c, s, h1, h2⟩ := hf
  have e : ∀ m, amplitude k (fun m => a * c m) (fun m => a * s m) m = |a| * amplitude k c s m := fun m => by
    cases k
    · show |a * c m| + |a * s m| = |a| * (|c m| + |s m|)
      rw [abs_mul, abs_mul]; ring
    · exact abs_mul _ _
    · exact abs_mul _ _
  have e' : ∀ m x, term k (fun m => a * c m) (fun m => a * s m) m x = a * term k c s m x := fun m x => by
    cases k
    · show a * c m * _ + a * s m * _ = a * (c m * _ + s m * _); ring
    · exact mul_assoc _ _ _
    · exact mul_assoc _ _ _
  refine ⟨fun m => a * c m, fun m => a * s m, ⟨?_, fun x hx => ?_⟩, ?_⟩
  · rw [funext e]; exact h1.1.mul_left _
  · simp only [e']; exact (h1.2 x hx).mul_left a
  · unfold totalAmplitude
    rw [funext e, tsum_mul_left]
    exact mul_le_mul_of_nonneg_left h2 (abs_nonneg _)

/-- One term. -/
theorem wien_term (k : Kind) (c s : ℕ → ℝ) (m : ℕ) : Wien k (amplitude k c s m) (term k c s m) := by
  have e : ∀ j, amplitude k (fun j => if j = m then c m else 0) (fun j => if j = m then s m else 0) j = if j = m then amplitude k c s m else 0 := fun j => by
    cases k
    all_goals by_cases h : j = m
    all_goals simp [amplitude, h]
  have e' : ∀ j x, term k (fun j => if j = m then c m else 0) (fun j => if j = m then s m else 0) j x = if j = m then term k c s m x else 0 := fun j x => by
    cases k
    all_goals by_cases h : j = m
    all_goals simp [term, h]
  refine ⟨fun j => if j = m then c m else 0, fun j => if j = m then s m else 0, ⟨?_, fun x hx => ?_⟩, ?_⟩
  · rw [funext e]; exact (hasSum_ite_eq m _).summable
  · simp only [e']; exact hasSum_ite_eq m _
  · unfold totalAmplitude
    rw [funext e, tsum_ite_eq]

theorem wien_cos (m : ℤ) : Wien .periodic 1 fun x => cos (m * x) := by
  have h := wien_term .periodic (fun _ => 1) (fun _ => 0) m.natAbs
  refine (h.mono (by simp [amplitude])).congr fun x _ => ?_
  show 1 * cos (((m.natAbs : ℕ) : ℝ) * x) + 0 * sin _ = _
  rcases Int.natAbs_eq m with h | h
  · conv_rhs => rw [h]
    simp
  · conv_rhs => rw [h]
    simp

theorem wien_sin (m : ℤ) : Wien .periodic 1 fun x => sin (m * x) := by
  rcases Int.natAbs_eq m with h | h
  · have h' := wien_term .periodic (fun _ => 0) (fun _ => 1) m.natAbs
    refine (h'.mono (by simp [amplitude])).congr fun x _ => ?_
    show 0 * cos (((m.natAbs : ℕ) : ℝ) * x) + 1 * sin _ = _
    conv_rhs => rw [h]
    simp
  · have h' := wien_term .periodic (fun _ => 0) (fun _ => -1) m.natAbs
    refine (h'.mono (by simp [amplitude])).congr fun x _ => ?_
    show 0 * cos (((m.natAbs : ℕ) : ℝ) * x) + -1 * sin _ = _
    conv_rhs => rw [h]
    simp

theorem wien_wave (m : ℤ) (ρ β : ℝ) : Wien .periodic (2 * |ρ|) fun x => ρ * cos (m * x + β) := by
  have h := wien_smul ρ (wien_add (wien_smul (cos β) (wien_cos m)) (wien_smul (-sin β) (wien_sin m)))
  refine (h.mono ?_).congr fun x _ => ?_
  · have h1 := abs_cos_le_one β
    have h2 := abs_sin_le_one β
    rw [mul_comm 2, abs_neg, mul_one, mul_one]
    exact mul_le_mul_of_nonneg_left (by linarith) (abs_nonneg _)
  · rw [cos_add]; ring

theorem wien_shape {k : Kind} {A : ℝ} {q : ℝ → ℝ} (h : Shape k A q) : Wien k (2 * A) q := by
  cases k
  · obtain ⟨m₁, m₂, ρ₁, β₁, ρ₂, β₂, h1, rfl⟩ := h
    exact (wien_add (wien_wave m₁ ρ₁ β₁) (wien_wave m₂ ρ₂ β₂)).mono (by linarith)
  all_goals
    obtain ⟨m, σ, h1, rfl⟩ := h
    refine (wien_term _ (fun _ => σ) (fun _ => 0) m).mono ?_
    have := abs_nonneg σ
    show |σ| ≤ _
    linarith

/-- The product of two terms. -/
theorem wien_term_mul {k : Kind} (hk : k ≠ .regular) (c s c' s' : ℕ → ℝ) (m l : ℕ) : Wien k (amplitude k c s m * amplitude k c' s' l) fun x => term k c s m x * term k c' s' l x := by
  cases k
  · have hh : ∀ {f g : ℝ → ℝ}, Wien .periodic 1 f → Wien .periodic 1 g → ∀ a : ℝ, Wien .periodic |a| fun x => a * (1 / 2 * f x + 1 / 2 * g x) := fun hf hg a => by
      have := wien_smul a (wien_add (wien_smul (1 / 2) hf) (wien_smul (1 / 2) hg))
      refine this.mono ?_
      rw [abs_of_pos (by norm_num : (0 : ℝ) < 1 / 2)]; linarith
    have hn : ∀ {f : ℝ → ℝ}, Wien .periodic 1 f → Wien .periodic 1 fun x => -1 * f x := fun hf => by simpa using wien_smul (-1) hf
    have h := wien_add (wien_add (hh (wien_cos (m - l)) (wien_cos (m + l)) (c m * c' l)) (hh (wien_sin (m + l)) (hn (wien_sin (m - l))) (c m * s' l)))
      (wien_add (hh (wien_sin (m + l)) (wien_sin (m - l)) (s m * c' l)) (hh (wien_cos (m - l)) (hn (wien_cos (m + l))) (s m * s' l)))
    refine (h.mono ?_).congr fun x _ => ?_
    · rw [abs_mul, abs_mul, abs_mul, abs_mul]
      show _ ≤ (|c m| + |s m|) * (|c' l| + |s' l|)
      linarith
    · show _ = (c m * cos (m * x) + s m * sin (m * x)) * (c' l * cos (l * x) + s' l * sin (l * x))
      push_cast
      rw [add_mul, sub_mul, cos_add, cos_sub, sin_add, sin_sub]
      ring
  · exact absurd rfl hk
  · have h1 := wien_term .chebyshev (fun _ => c m * c' l / 2) (fun _ => 0) (m + l)
    have h2 := wien_term .chebyshev (fun _ => c m * c' l / 2) (fun _ => 0) (((m : ℤ) - l).natAbs)
    refine ((wien_add h1 h2).mono ?_).congr fun x hx => ?_
    · show |c m * c' l / 2| + |c m * c' l / 2| ≤ |c m| * |c' l|
      rw [abs_div, abs_mul, abs_of_pos (by norm_num : (0 : ℝ) < 2)]; linarith
    · show c m * c' l / 2 * (Polynomial.Chebyshev.T ℝ ((m + l : ℕ) : ℤ)).eval x + c m * c' l / 2 * (Polynomial.Chebyshev.T ℝ (((((m : ℤ) - l).natAbs : ℕ)) : ℤ)).eval x =
        c m * (Polynomial.Chebyshev.T ℝ m).eval x * (c' l * (Polynomial.Chebyshev.T ℝ l).eval x)
      rw [Polynomial.Chebyshev.T_natAbs]
      have hx' : x = cos (arccos x) := (cos_arccos hx.1 hx.2).symm
      rw [hx', Polynomial.Chebyshev.T_real_cos, Polynomial.Chebyshev.T_real_cos, Polynomial.Chebyshev.T_real_cos, Polynomial.Chebyshev.T_real_cos]
      push_cast
      rw [add_mul, sub_mul, cos_add, cos_sub]
      ring

theorem wien_mul {k : Kind} (hk : k ≠ .regular) {A B : ℝ} {f g : ℝ → ℝ} (hf : Wien k A f) (hg : Wien k B g) : Wien k (A * B) fun x => f x * g x := by
  have hB := hg.nonneg
  obtain ⟨c, s, h1, h2⟩ := hf
  obtain ⟨c', s', h3, h4⟩ := hg
  have hn : ∀ (c s : ℕ → ℝ), Summable (amplitude k c s) → Summable fun m => ‖amplitude k c s m‖ := fun c s h => h.norm
  have hS := summable_mul_of_summable_norm (hn _ _ h1.1) (hn _ _ h3.1)
  have h := wien_sum (k := k) (u := fun p : ℕ × ℕ => fun x => term k c s p.1 x * term k c' s' p.2 x) (f := fun x => f x * g x) hS (fun p => wien_term_mul hk c s c' s' p.1 p.2) fun x hx => by
    refine (h1.2 x hx).mul (h3.2 x hx) ?_
    refine Summable.of_norm_bounded hS fun p => ?_
    rw [norm_mul, Real.norm_eq_abs, Real.norm_eq_abs]
    exact mul_le_mul (term_bound k _ _ _ hx) (term_bound k _ _ _ hx) (abs_nonneg _) (amplitude_nonneg _ _ _ _)
  refine h.mono ?_
  rw [← tsum_mul_tsum_of_summable_norm (hn _ _ h1.1) (hn _ _ h3.1)]
  exact mul_le_mul h2 h4 (tsum_nonneg (amplitude_nonneg k _ _)) ((tsum_nonneg (amplitude_nonneg k c s)).trans h2)

end Dec.Props
