import Verif.Lib.Accuracy
import Mathlib.Analysis.SpecialFunctions.Integrals.Basic

set_option linter.unusedSimpArgs false
set_option linter.unusedVariables false

/-! Aliasing: on a grid, a wave of high frequency has the same coefficients as a wave that the coefficients determine. -/

namespace Dec.Props

open Finset Real G2 Sp

/-! ### The circle -/

/-- A frequency, modulo the number of points. -/
theorem freq_mod {n : ℕ} (hn : 0 < n) (k : ℕ) :
    ∃ m l : ℤ, (k : ℤ) = m + l * n ∧ |m| ≤ k ∧ (2 * |m| < n ∨ 2 * m = n) ∧ (2 * k < n → m = k ∧ l = 0) := by
  have hn' : (0 : ℤ) < n := by exact_mod_cast hn
  have h1 := Int.emod_add_mul_ediv (k : ℤ) n
  have h2 := Int.emod_nonneg (k : ℤ) hn'.ne'
  have h3 := Int.emod_lt_of_pos (k : ℤ) hn'
  have h4 : (0 : ℤ) ≤ (k : ℤ) / n := Int.ediv_nonneg (by positivity) hn'.le
  have hc : 2 * k < n → (k : ℤ) % n = k ∧ (k : ℤ) / n = 0 := fun h =>
    ⟨Int.emod_eq_of_lt (by positivity) (by omega), Int.ediv_eq_zero_of_lt (by positivity) (by omega)⟩
  by_cases h : 2 * ((k : ℤ) % n) ≤ n
  · refine ⟨(k : ℤ) % n, (k : ℤ) / n, by rw [mul_comm]; exact h1.symm, ?_, ?_, hc⟩
    · rw [abs_of_nonneg h2]; nlinarith
    · rw [abs_of_nonneg h2]
      rcases h.lt_or_eq with h | h
      · exact Or.inl h
      · exact Or.inr h
  · push Not at h
    refine ⟨(k : ℤ) % n - n, (k : ℤ) / n + 1, by rw [add_mul, mul_comm]; omega, ?_, ?_, fun h' => ?_⟩
    · rw [abs_of_nonpos (by omega)]
      nlinarith
    · left; rw [abs_of_nonpos (by omega)]; omega
    · exfalso
      have := (hc h').1
      omega

theorem cos_mul_int_pi (x : ℝ) (l : ℤ) : cos (x + l * (2 * π)) = cos x := cos_add_int_mul_two_pi x l

/-- The shape of a wave that has the same coefficients as `cos (k θ + ψ)`. -/
theorem wave_trigAt {n : ℕ} {m : ℤ} (h : 2 * |m| < n ∨ 2 * m = n) (x₀ α : ℝ) :
    ∃ ρ β : ℝ, |ρ| ≤ 1 ∧ IsTrigAt n x₀ (fun θ => ρ * cos (m * θ + β)) ∧ (2 * |m| < n → ∀ θ, ρ * cos (m * θ + β) = cos (m * (θ - x₀) + α)) ∧
      ∀ θ, sin (m * (θ - x₀)) = 0 → ρ * cos (m * θ + β) = cos (m * (θ - x₀) + α) := by
  by_cases h' : 2 * |m| < n
  · refine ⟨1, α - m * x₀, by simp, IsTrigAt.of_trig ((isTrig_cos_phase (m := m) (by omega) (α - m * x₀)).congr fun θ => by ring), fun _ θ => ?_, fun θ _ => ?_⟩
    all_goals rw [one_mul]; congr 1; ring
  · have hm : 2 * m = n := h.resolve_left h'
    have hn2 : n % 2 = 0 := by omega
    have hnm : ((n / 2 : ℕ) : ℤ) = m := by omega
    have hnm' : ((n / 2 : ℕ) : ℝ) = m := by rw [← hnm, Int.cast_natCast]
    refine ⟨cos α, -m * x₀, abs_cos_le_one _, IsTrigAt.nyquist hn2 x₀ (cos α) (IsTrig.zero _) fun θ => ?_, fun h'' => absurd h'' h', fun θ hθ => ?_⟩
    · rw [hnm', zero_add]; congr 2; ring
    · rw [show (m : ℝ) * θ + -m * x₀ = m * (θ - x₀) by ring, cos_add (m * (θ - x₀)) α, hθ]; ring

theorem periodic_alias_samples {n : ℕ} (hn : 0 < n) (x₀ : ℝ) (k : ℕ) (ψ : ℝ) :
    ∃ (m : ℤ) (ρ β : ℝ), |m| ≤ k ∧ |ρ| ≤ 1 ∧ IsTrigAt n x₀ (fun θ => ρ * cos (m * θ + β)) ∧
      (∀ j : ℕ, ρ * cos (m * (x₀ + j * hh n) + β) = cos (k * (x₀ + j * hh n) + ψ)) ∧ (2 * k < n → ∀ θ, ρ * cos (m * θ + β) = cos (k * θ + ψ)) := by
  obtain ⟨m, l, hk, hmk, hm, hlow⟩ := freq_mod hn k
  obtain ⟨ρ, β, h1, h2, h3, h4⟩ := wave_trigAt hm x₀ (k * x₀ + ψ)
  have hN := mul_hh hn
  have hk' : (k : ℝ) = m + l * n := by exact_mod_cast congrArg (Int.cast : ℤ → ℝ) hk
  refine ⟨m, ρ, β, hmk, h1, h2, fun j => ?_, fun h θ => ?_⟩
  · have e : cos (m * ((x₀ + j * hh n) - x₀) + (k * x₀ + ψ)) = cos (k * (x₀ + j * hh n) + ψ) := by
      have e1 : (k : ℝ) * (x₀ + j * hh n) + ψ = (m * ((x₀ + j * hh n) - x₀) + (k * x₀ + ψ)) + ((l * j : ℤ) : ℝ) * (2 * π) := by
        push_cast
        rw [← hN, hk']; ring
      rw [e1, cos_mul_int_pi]
    rw [← e]
    rcases hm with hm | hm
    · exact h3 hm _
    · refine h4 _ ?_
      have hm' : (2 : ℝ) * m = n := by exact_mod_cast congrArg (Int.cast : ℤ → ℝ) hm
      have : (m : ℝ) * (x₀ + j * hh n - x₀) = (j : ℕ) * π := by
        have : (m : ℝ) * hh n = π := by rw [← hm'] at hN; linarith
        calc (m : ℝ) * (x₀ + j * hh n - x₀) = j * (m * hh n) := by ring
          _ = _ := by rw [this]
      rw [this, sin_nat_mul_pi]
  · obtain ⟨e1, e2⟩ := hlow h
    rw [h3 (by rw [e1, abs_of_nonneg (by positivity)]; omega), e1]
    congr 1
    push_cast; ring

/-- The integral of a wave over a cell. -/
theorem wave_integral (κ β c w : ℝ) : κ * ∫ t in (c - w / 2)..(c + w / 2), cos (κ * t + β) = 2 * sin (κ * (w / 2)) * cos (κ * c + β) := by
  have e : (fun t => κ * cos (κ * t + β)) = fun t => κ * cos (κ * t + β) := rfl
  have h : ∀ t ∈ Set.uIcc (c - w / 2) (c + w / 2), HasDerivAt (fun t => sin (κ * t + β)) (κ * cos (κ * t + β)) t := fun t _ => by
    have := (((hasDerivAt_id t).const_mul κ).add_const β).sin
    simpa [mul_comm] using this
  rw [← intervalIntegral.integral_const_mul, intervalIntegral.integral_eq_sub_of_hasDerivAt h (Continuous.intervalIntegrable (by fun_prop) _ _)]
  rw [show κ * (c + w / 2) + β = (κ * c + β) + κ * (w / 2) by ring, show κ * (c - w / 2) + β = (κ * c + β) - κ * (w / 2) by ring, sin_add, sin_sub]
  ring

theorem sin_add_int_mul_pi' (x : ℝ) (l : ℤ) : sin (x + l * π) = (-1) ^ l * sin x := sin_add_int_mul_pi x l

theorem periodic_alias_cells {n : ℕ} (hn : 0 < n) (x₀ : ℝ) (k : ℕ) (ψ : ℝ) :
    ∃ (m : ℤ) (ρ β : ℝ), |m| ≤ k ∧ |ρ| ≤ 1 ∧ IsTrigAt n x₀ (fun θ => ρ * cos (m * θ + β)) ∧
      (∀ j : ℕ, (∫ t in (x₀ + j * hh n - hh n / 2)..(x₀ + j * hh n + hh n / 2), ρ * cos (m * t + β)) = ∫ t in (x₀ + j * hh n - hh n / 2)..(x₀ + j * hh n + hh n / 2), cos (k * t + ψ)) ∧
      (2 * k < n → ∀ θ, ρ * cos (m * θ + β) = cos (k * θ + ψ)) := by
  obtain ⟨m, l, hk, hmk, hm, hlow⟩ := freq_mod hn k
  by_cases hlo : 2 * k < n
  · obtain ⟨e1, e2⟩ := hlow hlo
    have hc : ∀ θ, (1 : ℝ) * cos (((k : ℤ) : ℝ) * θ + ψ) = cos (k * θ + ψ) := fun θ => by push_cast; ring
    refine ⟨(k : ℤ), 1, ψ, by simp, by simp, ?_, fun j => ?_, fun _ => hc⟩
    · exact IsTrigAt.of_trig ((isTrig_cos_phase (m := (k : ℤ)) (by rw [abs_of_nonneg (by positivity)]; omega) ψ).congr fun θ => by ring)
    · simp only [hc]
  have hk0 : 0 < k := by omega
  have hkR : (k : ℝ) ≠ 0 := by positivity
  obtain ⟨ρ, β, h1, h2, h3, h4⟩ := wave_trigAt hm x₀ (k * x₀ + ψ)
  have hN := mul_hh hn
  have hk' : (k : ℝ) = m + l * n := by exact_mod_cast congrArg (Int.cast : ℤ → ℝ) hk
  set σ : ℝ := (-1) ^ l * (m / k) with hσ
  have hσ1 : |σ| ≤ 1 := by
    rw [hσ, abs_mul, abs_zpow, abs_neg, abs_one, one_zpow, one_mul, abs_div, abs_of_pos (show (0 : ℝ) < k by positivity), div_le_one (by positivity)]
    exact_mod_cast hmk
  refine ⟨m, σ * ρ, β, hmk, ?_, ?_, fun j => ?_, fun h => absurd h hlo⟩
  · rw [abs_mul]; exact mul_le_one₀ hσ1 (abs_nonneg _) h1
  · have := (space_trigAt n x₀).smul σ _ h2
    have e : (fun θ => σ * ρ * cos (m * θ + β)) = fun θ => σ * (ρ * cos (m * θ + β)) := funext fun θ => by ring
    rw [e]; exact this
  · have hm2 : 2 * m = n → (m : ℝ) * hh n = π := fun hm => by
      have hm' : (2 : ℝ) * m = n := by exact_mod_cast congrArg (Int.cast : ℤ → ℝ) hm
      rw [← hm'] at hN; linarith
    have hcen : ρ * cos (m * (x₀ + j * hh n) + β) = cos (m * ((x₀ + j * hh n) - x₀) + (k * x₀ + ψ)) := by
      rcases hm with hm | hm
      · exact h3 hm _
      · refine h4 _ ?_
        have : (m : ℝ) * (x₀ + j * hh n - x₀) = (j : ℕ) * π := by
          calc (m : ℝ) * (x₀ + j * hh n - x₀) = j * (m * hh n) := by ring
            _ = _ := by rw [hm2 hm]
        rw [this, sin_nat_mul_pi]
    have e1 : (k : ℝ) * (x₀ + j * hh n) + ψ = (m * ((x₀ + j * hh n) - x₀) + (k * x₀ + ψ)) + ((l * j : ℤ) : ℝ) * (2 * π) := by
      push_cast
      rw [← hN, hk']; ring
    have e2 : sin (k * (hh n / 2)) = (-1) ^ l * sin (m * (hh n / 2)) := by
      rw [← sin_add_int_mul_pi']
      congr 1
      rw [hk', show π = n * hh n / 2 by rw [hN]; ring]; ring
    have w1 := wave_integral k ψ (x₀ + j * hh n) (hh n)
    have w2 := wave_integral m β (x₀ + j * hh n) (hh n)
    rw [e1, cos_mul_int_pi, e2, ← hcen] at w1
    rw [intervalIntegral.integral_const_mul]
    refine mul_left_cancel₀ hkR ?_
    rw [w1, hσ, show (k : ℝ) * ((-1) ^ l * (m / k) * ρ * ∫ t in (x₀ + j * hh n - hh n / 2)..(x₀ + j * hh n + hh n / 2), cos (m * t + β))
      = (-1) ^ l * ρ * (m * ∫ t in (x₀ + j * hh n - hh n / 2)..(x₀ + j * hh n + hh n / 2), cos (m * t + β)) by field_simp, w2]
    ring

/-! ### The interval -/

/-- A frequency, modulo reflections at both ends of an interval of `M` cells. -/
theorem freq_fold {M : ℕ} (hM : 0 < M) (k : ℕ) :
    ∃ (m : ℕ) (s l : ℤ), (s = 1 ∨ s = -1) ∧ (k : ℤ) = s * m + l * (2 * M) ∧ m ≤ k ∧ m ≤ M ∧ (k ≤ M → m = k ∧ s = 1 ∧ l = 0) := by
  by_cases hlo : k ≤ M
  · exact ⟨k, 1, 0, Or.inl rfl, by ring, le_rfl, hlo, fun _ => ⟨rfl, rfl, rfl⟩⟩
  have h1 := Nat.mod_add_div k (2 * M)
  have h2 := Nat.mod_lt k (show 2 * M > 0 by omega)
  have h1' : ((k % (2 * M) : ℕ) : ℤ) + 2 * M * ((k / (2 * M) : ℕ) : ℤ) = k := by exact_mod_cast h1
  by_cases h : k % (2 * M) ≤ M
  · refine ⟨k % (2 * M), 1, (k / (2 * M) : ℕ), Or.inl rfl, by rw [← h1']; ring, Nat.mod_le _ _, h, fun h => absurd h hlo⟩
  · refine ⟨2 * M - k % (2 * M), -1, (k / (2 * M) : ℕ) + 1, Or.inr rfl, ?_, ?_, by omega, fun h => absurd h hlo⟩
    · rw [← h1', Nat.cast_sub h2.le]; push_cast; ring
    · omega

section
variable {M : ℕ} {m k : ℕ} {s l : ℤ} {h : ℝ}

/-- Cosines at the nodes `j h` and at the nodes `(j + 1/2) h`. -/
theorem cos_fold (hs : s = 1 ∨ s = -1) (hk : (k : ℤ) = s * m + l * (2 * M)) (hh : (M : ℝ) * h = π) (j : ℕ) :
    cos (k * (j * h)) = cos (m * (j * h)) ∧ cos (k * (h / 2 + j * h)) = (-1) ^ l * cos (m * (h / 2 + j * h)) ∧
      sin (k * (j * h)) = s * sin (m * (j * h)) ∧ sin (k * (h / 2 + j * h)) = (-1) ^ l * s * sin (m * (h / 2 + j * h)) := by
  have hk' : (k : ℝ) = s * m + l * (2 * M) := by exact_mod_cast congrArg (Int.cast : ℤ → ℝ) hk
  have e1 : (k : ℝ) * (j * h) = s * (m * (j * h)) + ((l * j : ℤ) : ℝ) * (2 * π) := by rw [hk', ← hh]; push_cast; ring
  have e2 : (k : ℝ) * (h / 2 + j * h) = (s * (m * (h / 2 + j * h)) + l * π) + ((l * j : ℤ) : ℝ) * (2 * π) := by rw [hk', ← hh]; push_cast; ring
  rw [e1, e2, cos_add_int_mul_two_pi, cos_add_int_mul_two_pi, sin_add_int_mul_two_pi, sin_add_int_mul_two_pi, cos_add_int_mul_pi, sin_add_int_mul_pi]
  rcases hs with rfl | rfl
  · simp
  · simp

/-- At the folding frequency. -/
theorem fold_last (hh : (M : ℝ) * h = π) (j : ℕ) : cos (M * (h / 2 + j * h)) = 0 ∧ sin (M * (j * h)) = 0 := by
  constructor
  · rw [show (M : ℝ) * (h / 2 + j * h) = π / 2 + j * π by rw [← hh]; ring, cos_add_nat_mul_pi, cos_pi_div_two, mul_zero]
  · rw [show (M : ℝ) * (j * h) = j * π by rw [← hh]; ring, sin_nat_mul_pi]

theorem cos_integral (κ a b : ℝ) : κ * ∫ t in a..b, cos (κ * t) = sin (κ * b) - sin (κ * a) := by
  have h : ∀ t ∈ Set.uIcc a b, HasDerivAt (fun t => sin (κ * t)) (κ * cos (κ * t)) t := fun t _ => by
    have := ((hasDerivAt_id t).const_mul κ).sin
    simpa [mul_comm] using this
  rw [← intervalIntegral.integral_const_mul, intervalIntegral.integral_eq_sub_of_hasDerivAt h (Continuous.intervalIntegrable (by fun_prop) _ _)]

/-- The highest frequency that the values at the nodes (the integrals over the cells) determine. -/
def foldMax (M : ℕ) (t : Bool) : ℕ := if t then M else M - 1

theorem interval_alias_nodes (hM : 0 < M) (hh : (M : ℝ) * h = π) (t : Bool) (k : ℕ) :
    ∃ (m : ℕ) (σ : ℝ), m ≤ k ∧ |σ| ≤ 1 ∧ (m ≤ foldMax M t ∨ σ = 0) ∧
      (∀ j : ℕ, σ * cos (m * ((if t then 0 else h / 2) + j * h)) = cos (k * ((if t then 0 else h / 2) + j * h))) ∧ (k ≤ foldMax M t → m = k ∧ σ = 1) := by
  obtain ⟨m, s, l, hs, hk, hmk, hmM, hlow⟩ := freq_fold hM k
  cases t
  · by_cases hm : m = M
    · refine ⟨m, 0, hmk, by simp, Or.inr rfl, fun j => ?_, fun h => ?_⟩
      · simp only [Bool.false_eq_true, if_false, zero_mul]
        rw [(cos_fold hs hk hh j).2.1, hm, (fold_last hh j).1, mul_zero]
      · simp only [foldMax, Bool.false_eq_true, if_false] at h
        have := hlow (by omega)
        omega
    · refine ⟨m, (-1) ^ l, hmk, by simp [abs_zpow], Or.inl ?_, fun j => ?_, fun h => ?_⟩
      · simp only [foldMax, Bool.false_eq_true, if_false]; omega
      · simp only [Bool.false_eq_true, if_false]
        exact (cos_fold hs hk hh j).2.1.symm
      · simp only [foldMax, Bool.false_eq_true, if_false] at h
        obtain ⟨h1, h2, h3⟩ := hlow (by omega)
        exact ⟨h1, by rw [h3, zpow_zero]⟩
  · refine ⟨m, 1, hmk, by simp, Or.inl hmM, fun j => ?_, fun h => ⟨(hlow h).1, rfl⟩⟩
    simp only [if_true, zero_add, one_mul]
    exact (cos_fold hs hk hh j).1.symm

/-- The boundaries of the cells: the nodes of the other kind, and the two ends. -/
def Bd (M : ℕ) (h : ℝ) (t : Bool) (x : ℝ) : Prop := (∃ j : ℕ, x = (if t then h / 2 else 0) + j * h) ∨ x = 0 ∨ x = π

theorem interval_alias_cells (hM : 0 < M) (hh : (M : ℝ) * h = π) (t : Bool) (k : ℕ) :
    ∃ (m : ℕ) (σ : ℝ), m ≤ k ∧ |σ| ≤ 1 ∧ (m ≤ foldMax M t ∨ σ = 0) ∧
      (∀ a b, Bd M h t a → Bd M h t b → (∫ x in a..b, σ * cos (m * x)) = ∫ x in a..b, cos (k * x)) ∧ (k ≤ foldMax M t → m = k ∧ σ = 1) := by
  by_cases hlo : k ≤ foldMax M t
  · exact ⟨k, 1, le_rfl, by simp, Or.inl hlo, fun a b _ _ => by simp only [one_mul], fun _ => ⟨rfl, rfl⟩⟩
  obtain ⟨m, s, l, hs, hk, hmk, hmM, hlow⟩ := freq_fold hM k
  have hk0 : 0 < k := by unfold foldMax at hlo; split_ifs at hlo <;> omega
  have hkR : (0 : ℝ) < k := by exact_mod_cast hk0
  have hsR : |(s : ℝ)| = 1 := by rcases hs with rfl | rfl <;> simp
  have hmkR : |(m : ℝ) / k| ≤ 1 := by
    rw [abs_of_nonneg (by positivity), div_le_one hkR]; exact_mod_cast hmk
  -- it suffices to compare the antiderivatives at the boundaries
  have key : ∀ τ : ℝ, (∀ x, Bd M h t x → τ * sin (m * x) = sin (k * x)) → ∀ a b, Bd M h t a → Bd M h t b →
      (∫ x in a..b, τ * (m / k) * cos (m * x)) = ∫ x in a..b, cos (k * x) := fun τ hτ a b ha hb => by
    refine mul_left_cancel₀ hkR.ne' ?_
    rw [cos_integral, ← hτ a ha, ← hτ b hb, intervalIntegral.integral_const_mul]
    have := cos_integral m a b
    rw [show (k : ℝ) * (τ * (m / k) * ∫ x in a..b, cos (m * x)) = τ * (m * ∫ x in a..b, cos (m * x)) by field_simp, this]
    ring
  have hpi : ∀ i : ℕ, sin ((i : ℝ) * π) = 0 := fun i => sin_nat_mul_pi i
  cases t
  · by_cases hm : m = M
    · refine ⟨m, 0, hmk, by simp, Or.inr rfl, fun a b ha hb => ?_, fun h => absurd h hlo⟩
      have := key 0 (fun x hx => ?_) a b ha hb
      · simpa using this
      · rw [zero_mul]
        rcases hx with ⟨j, rfl⟩ | rfl | rfl
        · simp only [Bool.false_eq_true, if_false, zero_add]
          rw [(cos_fold hs hk hh j).2.2.1, hm, (fold_last hh j).2, mul_zero]
        · simp
        · exact (hpi k).symm
    · refine ⟨m, s * (m / k), hmk, ?_, Or.inl ?_, key s fun x hx => ?_, fun h => absurd h hlo⟩
      · rw [abs_mul, hsR, one_mul]; exact hmkR
      · simp only [foldMax, Bool.false_eq_true, if_false]; omega
      · rcases hx with ⟨j, rfl⟩ | rfl | rfl
        · simp only [Bool.false_eq_true, if_false, zero_add]
          exact (cos_fold hs hk hh j).2.2.1.symm
        · simp
        · rw [hpi, hpi, mul_zero]
  · refine ⟨m, (-1) ^ l * s * (m / k), hmk, ?_, Or.inl hmM, key _ fun x hx => ?_, fun h => absurd h hlo⟩
    · rw [abs_mul, abs_mul, hsR, abs_zpow, abs_neg, abs_one, one_zpow, one_mul, one_mul]; exact hmkR
    · rcases hx with ⟨j, rfl⟩ | rfl | rfl
      · simp only [if_true]
        exact (cos_fold hs hk hh j).2.2.2.symm
      · simp
      · rw [hpi, hpi, mul_zero]

end

end Dec.Props
