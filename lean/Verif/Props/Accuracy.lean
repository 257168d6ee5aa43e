import Verif.Lib.Alias
import Mathlib.RingTheory.Polynomial.Chebyshev
import Mathlib.Analysis.SpecialFunctions.Trigonometric.Chebyshev.Basic

set_option linter.unusedSimpArgs false
set_option linter.unusedVariables false

/-! # C80: how large the errors are for functions that the grid does not resolve -/

namespace Dec.Props

open Finset Real G2 Sp

/-! ## Specification -/

/-- The `m`-th term of the expansion of a function on the default interval of a grid: Fourier series, cosine series, Chebyshev series. -/
noncomputable def term (k : Kind) (c s : ℕ → ℝ) (m : ℕ) (x : ℝ) : ℝ :=
  match k with
  | .periodic => c m * cos (m * x) + s m * sin (m * x)
  | .regular => c m * cos (m * x)
  | .chebyshev => c m * (Polynomial.Chebyshev.T ℝ m).eval x

/-- A bound of the `m`-th term. -/
def amplitude (k : Kind) (c s : ℕ → ℝ) (m : ℕ) : ℝ :=
  match k with
  | .periodic => |c m| + |s m|
  | _ => |c m|

/-- The default interval (the whole line for periodic functions). -/
def Whole : Kind → Set ℝ
  | .periodic => Set.univ
  | .regular => Set.Icc 0 π
  | .chebyshev => Set.Icc (-1) 1

/-- `f` is the sum of the series with coefficients `c` (and `s`, of the sines), which converges absolutely. -/
def Expansion (k : Kind) (c s : ℕ → ℝ) (f : ℝ → ℝ) : Prop :=
  Summable (amplitude k c s) ∧ ∀ x ∈ Whole k, HasSum (fun m => term k c s m x) (f x)

/-- The number of terms of the expansion that `N` coefficients determine. -/
def termsOf (k : Kind) (N : ℕ) : ℕ :=
  match k with
  | .periodic => (N + 1) / 2
  | _ => N

/-- The sum of the amplitudes of the terms that `N` coefficients do not determine. -/
noncomputable def tail (k : Kind) (c s : ℕ → ℝ) (N : ℕ) : ℝ := ∑' m, amplitude k c s (m + termsOf k N)

/-! ## The terms have aliases -/

theorem cells_in (k : Kind) (n : ℕ) (hn : validSize k n) (d : Fin 2) (t : Bool) : CellsIn (grid₀ k n) (Whole k) d t := by
  have key : ∀ (k : IKind) {n : ℕ} (hn : 2 ≤ n) {a b : ℝ} (hab : a < b), CellsIn (intervalGrid k n a b) (Set.Icc a b) d t := by
    intro k n hn a b hab
    obtain ⟨v, w, hg, ho⟩ := exists_isInterval k hn hab
    have hf := hg.first; have hl := hg.last
    have e3 := hg.verts; have e4 := hg.verts_dual; have e5 := hg.edges; have e6 := hg.edges_dual
    have n1 := hg.N01; have n2 := hg.N00; have n3 := hg.N11; have n4 := hg.N10
    simp only [intervalGrid_n, intervalGrid_xmin, intervalGrid_xmax] at hf hl e3 e4 e5 e6 n1 n2 n3 n4
    have hm : ∀ i < n - 1, v i < v (i + 1) := fun i hi => (ho i hi).1.trans (ho i hi).2
    have hv : ∀ i ≤ n - 1, a ≤ v i ∧ v i ≤ b := fun i hi => by
      have h1 := mono_lt hm (Nat.zero_le i) (by omega)
      have h2 := mono_lt hm hi le_rfl
      rw [hf] at h1; rw [hl] at h2
      exact ⟨h1, h2⟩
    have hw : ∀ i < n - 1, a < w i ∧ w i < b := fun i hi => ⟨(hv i (by omega)).1.trans_lt (ho i hi).1, (ho i hi).2.trans_le (hv (i + 1) (by omega)).2⟩
    obtain rfl | rfl : d = 0 ∨ d = 1 := by omega
    · intro i hi
      cases t
      · rw [n2] at hi; rw [vx_tab e4 hi]; exact ⟨(hw i hi).1.le, (hw i hi).2.le⟩
      · rw [n1] at hi; rw [vx_tab e3 hi]; exact hv i (by omega)
    · intro i hi
      cases t
      · rw [n4] at hi
        rw [lo_tab e6 hi, hi_tab e6 hi]
        have h1 : a ≤ (if i = 0 then a else w (i - 1)) := by
          by_cases h0 : i = 0
          · rw [if_pos h0]
          · rw [if_neg h0]; exact (hw _ (by omega)).1.le
        have h2 : (if i < n - 1 then w i else b) ≤ b := by
          by_cases h0 : i < n - 1
          · rw [if_pos h0]; exact (hw _ h0).2.le
          · rw [if_neg h0]
        refine ⟨?_, Set.Icc_subset_Icc h1 h2⟩
        by_cases h0 : i = 0
        · rw [if_pos h0, h0, if_pos (by omega)]; exact (hw 0 (by omega)).1.le
        · rw [if_neg h0]
          by_cases h3 : i < n - 1
          · rw [if_pos h3]
            have h4 := (ho (i - 1) (by omega)).2
            rw [show i - 1 + 1 = i by omega] at h4
            exact (h4.trans (ho i h3).1).le
          · rw [if_neg h3]; exact (hw _ (by omega)).2.le
      · rw [n3] at hi
        rw [lo_tab e5 hi, hi_tab e5 hi]
        exact ⟨(hm i hi).le, Set.Icc_subset_Icc (hv i (by omega)).1 (hv _ (by omega)).2⟩
  cases k
  · obtain rfl | rfl : d = 0 ∨ d = 1 := by omega
    · exact fun i _ => Set.mem_univ _
    · exact fun i hi => ⟨((spans' .periodic n hn).dual.e1 t i hi i hi).le, Set.subset_univ _⟩
  · exact key .regular hn pi_pos
  · exact key .chebyshev hn (by norm_num)

theorem periodic_P_congr {n : ℕ} (d : Fin 2) (t : Bool) {p q : ℝ → ℝ}
    (h0 : d = 0 → ∀ j : ℕ, p (Periodic.ph n d t + j * hh n) = q (Periodic.ph n d t + j * hh n))
    (h1 : d = 1 → ∀ j : ℕ, (∫ x in (Periodic.ph n d t + j * hh n - hh n / 2)..(Periodic.ph n d t + j * hh n + hh n / 2), p x)
      = ∫ x in (Periodic.ph n d t + j * hh n - hh n / 2)..(Periodic.ph n d t + j * hh n + hh n / 2), q x) :
    (grid₀ .periodic n).P d t p = (grid₀ .periodic n).P d t q := by
  show (Periodic.make n).P d t p = (Periodic.make n).P d t q
  obtain rfl | rfl : d = 0 ∨ d = 1 := by omega
  · replace h0 := h0 rfl
    cases t
    · rw [Periodic.P0d_samp, Periodic.P0d_samp]
      exact tab_congr fun j _ => h0 j
    · rw [Periodic.P0_samp, Periodic.P0_samp]
      exact tab_congr fun j _ => h0 j
  · replace h1 := h1 rfl
    cases t
    · rw [Periodic.P1d_hh, Periodic.P1d_hh]
      exact tab_congr fun j _ => h1 j
    · rw [Periodic.P1_hh, Periodic.P1_hh]
      exact tab_congr fun j _ => h1 j

/-- A wave on the circle has the coefficients of a wave that they determine. -/
theorem periodic_alias {n : ℕ} (hn : 0 < n) (d : Fin 2) (t : Bool) (k : ℕ) (ψ : ℝ) :
    ∃ (m : ℤ) (ρ β : ℝ), |m| ≤ k ∧ |ρ| ≤ 1 ∧ Determined .periodic n d t (fun θ => ρ * cos (m * θ + β)) ∧
      (d = 0 → ∀ j : ℕ, ρ * cos (m * (Periodic.ph n d t + j * hh n) + β) = cos (k * (Periodic.ph n d t + j * hh n) + ψ)) ∧
      (d = 1 → ∀ j : ℕ, (∫ x in (Periodic.ph n d t + j * hh n - hh n / 2)..(Periodic.ph n d t + j * hh n + hh n / 2), ρ * cos (m * x + β))
        = ∫ x in (Periodic.ph n d t + j * hh n - hh n / 2)..(Periodic.ph n d t + j * hh n + hh n / 2), cos (k * x + ψ)) ∧
      (2 * k < n → ∀ θ, ρ * cos (m * θ + β) = cos (k * θ + ψ)) := by
  obtain rfl | rfl : d = 0 ∨ d = 1 := by omega
  · obtain ⟨m, ρ, β, h1, h2, h3, h4, h5⟩ := periodic_alias_samples hn (Periodic.ph n 0 t) k ψ
    exact ⟨m, ρ, β, h1, h2, (determined_iff .periodic n hn 0 t _).2 h3, fun _ => h4, fun h => absurd h (by decide), h5⟩
  · obtain ⟨m, ρ, β, h1, h2, h3, h4, h5⟩ := periodic_alias_cells hn (Periodic.ph n 1 t) k ψ
    exact ⟨m, ρ, β, h1, h2, (determined_iff .periodic n hn 1 t _).2 h3, fun h => absurd h (by decide), fun _ => h4, h5⟩

theorem mul_cos_le {ρ x : ℝ} (h : |ρ| ≤ 1) : |ρ * cos x| ≤ 1 := by
  rw [abs_mul]; exact mul_le_one₀ h (abs_nonneg _) (abs_cos_le_one _)

theorem term_cont (k : Kind) (c s : ℕ → ℝ) (m : ℕ) : Continuous (term k c s m) := by
  cases k
  · show Continuous fun x => c m * cos (m * x) + s m * sin (m * x)
    fun_prop
  · show Continuous fun x => c m * cos (m * x)
    fun_prop
  · exact (Polynomial.continuous _).const_mul _

theorem T_bound (m : ℕ) {x : ℝ} (hx : x ∈ Set.Icc (-1 : ℝ) 1) : |(Polynomial.Chebyshev.T ℝ m).eval x| ≤ 1 := by
  rw [← cos_arccos hx.1 hx.2, Polynomial.Chebyshev.T_real_cos]
  exact abs_cos_le_one _

theorem term_bound (k : Kind) (c s : ℕ → ℝ) (m : ℕ) {x : ℝ} (hx : x ∈ Whole k) : |term k c s m x| ≤ amplitude k c s m := by
  have key : ∀ a b : ℝ, |b| ≤ 1 → |a * b| ≤ |a| := fun a b hb => by
    rw [abs_mul]; exact mul_le_of_le_one_right (abs_nonneg _) hb
  cases k
  · exact (abs_add_le _ _).trans (add_le_add (key _ _ (abs_cos_le_one _)) (key _ _ (abs_sin_le_one _)))
  · exact key _ _ (abs_cos_le_one _)
  · exact key _ _ (T_bound m hx)

theorem int_smul_congr (c : ℝ) {f g : ℝ → ℝ} {a b : ℝ} (h : (∫ x in a..b, f x) = ∫ x in a..b, g x) : (∫ x in a..b, c * f x) = ∫ x in a..b, c * g x := by
  rw [intervalIntegral.integral_const_mul, intervalIntegral.integral_const_mul, h]

/-- The shape of the alias of a term: a wave (two waves on a circle, for the cosine and the sine). -/
def Shape (k : Kind) (A : ℝ) (q : ℝ → ℝ) : Prop :=
  match k with
  | .periodic => ∃ (m₁ m₂ : ℤ) (ρ₁ β₁ ρ₂ β₂ : ℝ), |ρ₁| + |ρ₂| ≤ A ∧ q = fun θ => ρ₁ * cos (m₁ * θ + β₁) + ρ₂ * cos (m₂ * θ + β₂)
  | k => ∃ (m : ℕ) (σ : ℝ), |σ| ≤ A ∧ q = term k (fun _ => σ) (fun _ => 0) m

/-- The alias of a term. -/
theorem term_alias_shape (k : Kind) (n : ℕ) (hn : validSize k n) (d : Fin 2) (t : Bool) (hc : k = .chebyshev → d = 0) (c s : ℕ → ℝ) (m : ℕ) :
    ∃ q, Determined k n d t q ∧ (grid₀ k n).P d t q = (grid₀ k n).P d t (term k c s m) ∧ (∀ x ∈ Whole k, |q x| ≤ amplitude k c s m) ∧
      (m < termsOf k ((grid₀ k n).N d t) → q = term k c s m) ∧ Shape k (amplitude k c s m) q := by
  have key : ∀ a b : ℝ, |b| ≤ 1 → |a * b| ≤ |a| := fun a b hb => by
    rw [abs_mul]; exact mul_le_of_le_one_right (abs_nonneg _) hb
  cases k
  · have hn' : 0 < n := hn
    obtain ⟨m₁, ρ₁, β₁, _, h2, h3, h4, h5, h6⟩ := periodic_alias hn' d t m 0
    obtain ⟨m₂, ρ₂, β₂, _, k2, k3, k4, k5, k6⟩ := periodic_alias hn' d t m (-(π / 2))
    have hsin : ∀ θ, cos ((m : ℝ) * θ + -(π / 2)) = sin (m * θ) := fun θ => by rw [← sub_eq_add_neg, cos_sub_pi_div_two]
    simp only [add_zero] at h4 h5 h6
    simp only [hsin] at k4 k5 k6
    refine ⟨fun θ => c m * (ρ₁ * cos (m₁ * θ + β₁)) + s m * (ρ₂ * cos (m₂ * θ + β₂)), ?_, ?_, fun x _ => ?_, fun hm => ?_,
      m₁, m₂, c m * ρ₁, β₁, s m * ρ₂, β₂, add_le_add (key _ _ h2) (key _ _ k2), funext fun θ => by ring⟩
    · have sp := space_trigAt n (if (d = 0) = (t = true) then 0 else π / n)
      exact sp.add _ _ (sp.smul (c m) _ h3) (sp.smul (s m) _ k3)
    · refine periodic_P_congr d t (fun h j => ?_) fun h j => ?_
      · show c m * _ + s m * _ = c m * cos _ + s m * sin _
        rw [h4 h j, k4 h j]
      · show _ = ∫ x in _.._, c m * cos (m * x) + s m * sin (m * x)
        rw [intervalIntegral.integral_add (Continuous.intervalIntegrable (by fun_prop) _ _) (Continuous.intervalIntegrable (by fun_prop) _ _),
          intervalIntegral.integral_add (Continuous.intervalIntegrable (by fun_prop) _ _) (Continuous.intervalIntegrable (by fun_prop) _ _),
          int_smul_congr (c m) (h5 h j), int_smul_congr (s m) (k5 h j)]
    · exact (abs_add_le _ _).trans (add_le_add (key _ _ (mul_cos_le h2)) (key _ _ (mul_cos_le k2)))
    · have hm' : 2 * m < n := by
        have : m < ((grid₀ .periodic n).N d t + 1) / 2 := hm
        rw [show (grid₀ .periodic n).N d t = n from rfl] at this
        omega
      funext θ
      show _ = c m * cos _ + s m * sin _
      rw [h6 hm', k6 hm']
  · have hn' : 2 ≤ n := hn
    have hI := Regular.isInterval hn' 0 π
    have N00 : (grid₀ .regular n).N 0 false = n - 1 := hI.N00
    have N01 : (grid₀ .regular n).N 0 true = n := hI.N01
    have N10 : (grid₀ .regular n).N 1 false = n := hI.N10
    have N11 : (grid₀ .regular n).N 1 true = n - 1 := hI.N11
    have hM : 0 < n - 1 := by omega
    set h : ℝ := (π - 0) / ((n - 1 : ℕ) : ℝ) with hdef
    have hh : ((n - 1 : ℕ) : ℝ) * h = π := by
      have : ((n - 1 : ℕ) : ℝ) ≠ 0 := by positivity
      rw [hdef]; field_simp; ring
    -- from a folded frequency to the claim
    have fin : ∀ (t' : Bool) (m' : ℕ) (σ : ℝ), |σ| ≤ 1 → (m' ≤ foldMax (n - 1) t' ∨ σ = 0) → (m ≤ foldMax (n - 1) t' → m' = m ∧ σ = 1) →
        foldMax (n - 1) t' = (if (d = 0) = (t = true) then n else n - 1) - 1 → (grid₀ .regular n).N d t = (if (d = 0) = (t = true) then n else n - 1) →
        (grid₀ .regular n).P d t (fun x => c m * (σ * cos (m' * x))) = (grid₀ .regular n).P d t (term .regular c s m) →
        ∃ q, Determined .regular n d t q ∧ (grid₀ .regular n).P d t q = (grid₀ .regular n).P d t (term .regular c s m) ∧ (∀ x ∈ Whole .regular, |q x| ≤ amplitude .regular c s m) ∧
          (m < termsOf .regular ((grid₀ .regular n).N d t) → q = term .regular c s m) ∧ Shape .regular (amplitude .regular c s m) q := by
      intro t' m' σ h1 h2 h3 h4 h5 h6
      refine ⟨_, ?_, h6, fun x _ => key _ _ (mul_cos_le h1), fun hm => ?_, m', c m * σ, key _ _ h1, funext fun x => (mul_assoc _ _ _).symm⟩
      · show IsCos ((if (d = 0) = (t = true) then n else n - 1) - 1) _
        rw [← h4]
        rcases h2 with h2 | h2
        · exact ((isCos_cos h2).const_mul σ).const_mul (c m)
        · exact ((isCos_const _ 0).congr fun x => by rw [h2]; ring)
      · have hm' : m < (grid₀ .regular n).N d t := hm
        obtain ⟨e1, e2⟩ := h3 (by rw [h4, ← h5]; omega)
        funext x
        show _ = c m * cos (m * x)
        rw [e1, e2, one_mul]
    obtain rfl | rfl : d = 0 ∨ d = 1 := by omega
    · obtain ⟨m', σ, _, h1, h2, h3, h4⟩ := interval_alias_nodes hM hh t m
      refine fin t m' σ h1 h2 h4 ?_ ?_ ?_
      · cases t <;> simp [foldMax]
      · cases t
        · simp [N00]
        · simp [N01]
      · show (Regular.make n).P 0 t _ = (Regular.make n).P 0 t _
        cases t
        · rw [hI.P0d, hI.P0d]
          refine tab_congr fun j _ => ?_
          have := h3 j
          simp only [Bool.false_eq_true, if_false] at this
          beta_reduce
          rw [show (0 : ℝ) + (j + 1 / 2) * h = h / 2 + j * h by ring, this]; rfl
        · rw [hI.P0, hI.P0]
          refine tab_congr fun j _ => ?_
          have := h3 j
          simp only [if_true] at this
          beta_reduce
          rw [this]; rfl
    · obtain ⟨m', σ, _, h1, h2, h3, h4⟩ := interval_alias_cells hM hh (!t) m
      have hint : ∀ a b, Bd (n - 1) h (!t) a → Bd (n - 1) h (!t) b → (∫ x in a..b, c m * (σ * cos (m' * x))) = ∫ x in a..b, term .regular c s m x := fun a b ha hb => by
        show _ = ∫ x in a..b, c m * cos (m * x)
        exact int_smul_congr (c m) (h3 a b ha hb)
      refine fin (!t) m' σ h1 h2 h4 ?_ ?_ ?_
      · cases t <;> simp [foldMax]
      · cases t
        · simp [N10]
        · simp [N11]
      · show (Regular.make n).P 1 t _ = (Regular.make n).P 1 t _
        cases t
        · rw [hI.P1d, hI.P1d]
          refine tab_congr fun j hj => hint _ _ ?_ ?_
          · by_cases h0 : j = 0
            · rw [if_pos h0]; exact Or.inr (Or.inl rfl)
            · rw [if_neg h0]
              exact Or.inl ⟨j - 1, by simp only [Bool.not_false, if_true]; ring⟩
          · by_cases h0 : j < (Regular.make n).n - 1
            · rw [if_pos h0]
              exact Or.inl ⟨j, by simp only [Bool.not_false, if_true]; ring⟩
            · rw [if_neg h0]; exact Or.inr (Or.inr rfl)
        · rw [hI.P1, hI.P1]
          refine tab_congr fun j hj => hint _ _ (Or.inl ⟨j, ?_⟩) (Or.inl ⟨j + 1, ?_⟩)
          · simp
          · simp
  · obtain rfl := hc rfl
    have hn' : 2 ≤ n := hn
    have hI := Chebyshev.isInterval hn' (-1) 1
    have N00 : (grid₀ .chebyshev n).N 0 false = n - 1 := hI.N00
    have N01 : (grid₀ .chebyshev n).N 0 true = n := hI.N01
    have hM : 0 < n - 1 := by omega
    obtain ⟨m', σ, _, h1, h2, h3, h4⟩ := interval_alias_nodes hM (mul_hh_double hn') t m
    have hN : (grid₀ .chebyshev n).N 0 t = foldMax (n - 1) t + 1 := by
      cases t
      · rw [N00]; simp only [foldMax, Bool.false_eq_true, if_false]; omega
      · rw [N01]; simp only [foldMax, if_true]; omega
    have hcos : ∀ (k : ℕ) (θ : ℝ), (Polynomial.Chebyshev.T ℝ k).eval (-cos θ) = cos (k * (π - θ)) := fun k θ => by
      rw [← cos_pi_sub, Polynomial.Chebyshev.T_real_cos]
      norm_cast
    refine ⟨fun x => c m * (σ * (Polynomial.Chebyshev.T ℝ m').eval x), ?_, ?_, fun x hx => key _ _ ?_, fun hm => ?_, m', c m * σ, key _ _ h1, funext fun x => (mul_assoc _ _ _).symm⟩
    · show IsPoly (if ((0 : Fin 2) = 0) = (t = true) then n else n - 1) _
      have e : (if ((0 : Fin 2) = 0) = (t = true) then n else n - 1) = foldMax (n - 1) t + 1 := by
        rw [← hN]; cases t
        · simp [N00]
        · simp [N01]
      rw [e]
      refine isPoly_smul (c m) ?_
      rcases h2 with h2 | h2
      · refine isPoly_smul σ ⟨fun i => (Polynomial.Chebyshev.T ℝ m').coeff i, fun x => ?_⟩
        beta_reduce
        rw [Polynomial.eval_eq_sum_range' (n := foldMax (n - 1) t + 1)]
        rw [Polynomial.Chebyshev.natDegree_T]
        simpa using Nat.lt_succ_of_le h2
      · exact ⟨fun _ => 0, fun x => by rw [h2]; simp⟩
    · show (Chebyshev.make n).P 0 t _ = (Chebyshev.make n).P 0 t _
      cases t
      · rw [Chebyshev.P0d hn', Chebyshev.P0d hn']
        refine tab_congr fun j hj => ?_
        show c m * (σ * (Polynomial.Chebyshev.T ℝ m').eval _) = c m * (Polynomial.Chebyshev.T ℝ m).eval _
        have := h3 (n - 1 - 1 - j)
        simp only [Bool.false_eq_true, if_false] at this
        rw [hcos, hcos, show π - (hh (2 * n - 2) / 2 + j * hh (2 * n - 2)) = hh (2 * n - 2) / 2 + ((n - 1 - 1 - j : ℕ) : ℝ) * hh (2 * n - 2) from ?_, this]
        rw [← mul_hh_double hn', show ((n - 1 : ℕ) : ℝ) = ((n - 1 - 1 - j : ℕ) : ℝ) + 1 + j by exact_mod_cast (by omega : n - 1 = n - 1 - 1 - j + 1 + j)]
        ring
      · rw [Chebyshev.P0 hn', Chebyshev.P0 hn']
        refine tab_congr fun j hj => ?_
        show c m * (σ * (Polynomial.Chebyshev.T ℝ m').eval _) = c m * (Polynomial.Chebyshev.T ℝ m).eval _
        have := h3 (n - 1 - j)
        simp only [if_true, zero_add] at this
        rw [hcos, hcos, show π - j * hh (2 * n - 2) = ((n - 1 - j : ℕ) : ℝ) * hh (2 * n - 2) from ?_, this]
        rw [← mul_hh_double hn', show ((n - 1 : ℕ) : ℝ) = ((n - 1 - j : ℕ) : ℝ) + j by exact_mod_cast (by omega : n - 1 = n - 1 - j + j)]
        ring
    · rw [abs_mul]; exact mul_le_one₀ h1 (abs_nonneg _) (T_bound _ hx)
    · have hm' : m < (grid₀ .chebyshev n).N 0 t := hm
      obtain ⟨e1, e2⟩ := h4 (by omega)
      funext x
      show _ = c m * (Polynomial.Chebyshev.T ℝ m).eval x
      rw [e1, e2, one_mul]

theorem term_alias (k : Kind) (n : ℕ) (hn : validSize k n) (d : Fin 2) (t : Bool) (hc : k = .chebyshev → d = 0) (c s : ℕ → ℝ) (m : ℕ) :
    ∃ q, Determined k n d t q ∧ (grid₀ k n).P d t q = (grid₀ k n).P d t (term k c s m) ∧ (∀ x ∈ Whole k, |q x| ≤ amplitude k c s m) ∧
      (m < termsOf k ((grid₀ k n).N d t) → q = term k c s m) := by
  obtain ⟨q, h1, h2, h3, h4, _⟩ := term_alias_shape k n hn d t hc c s m
  exact ⟨q, h1, h2, h3, h4⟩

theorem aliased (k : Kind) (n : ℕ) (hn : validSize k n) (d : Fin 2) (t : Bool) (hc : k = .chebyshev → d = 0) (c s : ℕ → ℝ) (f : ℝ → ℝ) (hf : Expansion k c s f) :
    ∃ q, Aliased (grid₀ k n) (Determined k n d t) (Whole k) d t (termsOf k ((grid₀ k n).N d t)) (term k c s) q (amplitude k c s) f := by
  have h := term_alias k n hn d t hc c s
  choose q h1 h2 h3 h4 using h
  exact ⟨q, term_cont k c s, hf.1, fun m x hx => term_bound k c s m hx, hf.2, h1, h2, h3, h4⟩

/-! ## The theorems -/

/-- **C80**: the Hodge star of the projection of a function, compared with the projection of the function on the other grid: on every cell the error is at most
twice the sum of the amplitudes of the terms that the grid does not resolve, times the size of the cell.  (On a Chebyshev grid: for the stars of 0-forms.) -/
theorem C80_star_error (k : Kind) (n : ℕ) (hn : validSize k n) (d : Fin 2) (t : Bool) (hc : k = .chebyshev → d = 0) (c s : ℕ → ℝ) (f : ℝ → ℝ) (hf : Expansion k c s f) :
    ∃ b, (grid₀ k n).H d t ((grid₀ k n).P d t f) = .ok b ∧ b.length = (grid₀ k n).N (1 - d) (!t) ∧
      ∀ i < (grid₀ k n).N (1 - d) (!t), |b.getD i 0 - ((grid₀ k n).P (1 - d) (!t) f).getD i 0|
        ≤ 2 * tail k c s ((grid₀ k n).N d t) * ((grid₀ k n).P (1 - d) (!t) fun _ => 1).getD i 0 := by
  obtain ⟨q, h⟩ := aliased k n hn d t hc c s f hf
  refine star_error (spans' k n hn) (determined_star k n hn d t (fun h1 h2 => ?_)) (cells_in k n hn d t) (cells_in k n hn (1 - d) (!t)) h
  rw [hc h1] at h2
  exact absurd h2 (by decide)

/-- **C80**: the reconstruction of the projection of a function differs from the function, at every point of the interval, by at most twice the sum of the
amplitudes of the terms that the grid does not resolve.  (On a Chebyshev grid: for 0-forms.) -/
theorem C80_reconstruction_error (k : Kind) (n : ℕ) (hn : validSize k n) (d : Fin 2) (t : Bool) (hc : k = .chebyshev → d = 0) (c s : ℕ → ℝ) (f : ℝ → ℝ) (hf : Expansion k c s f)
    (x : ℝ) (hx : x ∈ Inside k d) :
    ∃ y, (grid₀ k n).R d t ((grid₀ k n).P d t f) x = some y ∧ |y - f x| ≤ 2 * tail k c s ((grid₀ k n).N d t) := by
  obtain ⟨q, h⟩ := aliased k n hn d t hc c s f hf
  refine reconstruct_error (spans' k n hn) (cells_in k n hn d t) h (inside_dom k n hn d t hx) ?_
  cases k
  · exact Set.mem_univ x
  · obtain rfl | rfl : d = 0 ∨ d = 1 := by omega
    all_goals exact hx
  · obtain rfl := hc rfl
    exact hx

theorem N_ge (k : Kind) (n : ℕ) (hn : validSize k n) (d : Fin 2) (t : Bool) : n - 1 ≤ (grid₀ k n).N d t := by
  cases k
  · exact Nat.sub_le n 1
  · have hI := Regular.isInterval (show 2 ≤ n from hn) 0 π
    obtain rfl | rfl : d = 0 ∨ d = 1 := by omega
    all_goals cases t
    · exact hI.N00.ge
    · exact (Nat.sub_le n 1).trans hI.N01.ge
    · exact (Nat.sub_le n 1).trans hI.N10.ge
    · exact hI.N11.ge
  · have hI := Chebyshev.isInterval (show 2 ≤ n from hn) (-1) 1
    obtain rfl | rfl : d = 0 ∨ d = 1 := by omega
    all_goals cases t
    · exact hI.N00.ge
    · exact (Nat.sub_le n 1).trans hI.N01.ge
    · exact (Nat.sub_le n 1).trans hI.N10.ge
    · exact hI.N11.ge

theorem amplitude_nonneg (k : Kind) (c s : ℕ → ℝ) (m : ℕ) : 0 ≤ amplitude k c s m := by
  cases k
  · exact add_nonneg (abs_nonneg _) (abs_nonneg _)
  · exact abs_nonneg _
  · exact abs_nonneg _

theorem tail_tendsto (k : Kind) (c s : ℕ → ℝ) {ε : ℝ} (hε : 0 < ε) : ∃ n₀, ∀ n ≥ n₀, ∀ N, n - 1 ≤ N → 2 * tail k c s N < ε := by
  have h := tendsto_sum_nat_add (amplitude k c s)
  obtain ⟨K, hK⟩ := (Metric.tendsto_atTop.1 h) (ε / 2) (by positivity)
  refine ⟨2 * K + 1, fun n hn N hN => ?_⟩
  have hm : K ≤ termsOf k N := by
    cases k
    · show K ≤ (N + 1) / 2; omega
    · show K ≤ N; omega
    · show K ≤ N; omega
  have h1 := hK _ hm
  rw [dist_zero_right, Real.norm_eq_abs] at h1
  have h2 := le_abs_self (∑' m, amplitude k c s (m + termsOf k N))
  unfold tail
  linarith

/-- **C80**: the errors of the star and of the reconstruction tend to zero as the grid is refined, uniformly on all the cells (relative to their size) and at all
the points. -/
theorem C80_convergence (k : Kind) (d : Fin 2) (t : Bool) (hc : k = .chebyshev → d = 0) (c s : ℕ → ℝ) (f : ℝ → ℝ) (hf : Expansion k c s f) (ε : ℝ) (hε : 0 < ε) :
    ∃ n₀, ∀ n ≥ n₀, validSize k n →
      (∃ b, (grid₀ k n).H d t ((grid₀ k n).P d t f) = .ok b ∧ b.length = (grid₀ k n).N (1 - d) (!t) ∧
        ∀ i < (grid₀ k n).N (1 - d) (!t), |b.getD i 0 - ((grid₀ k n).P (1 - d) (!t) f).getD i 0| ≤ ε * ((grid₀ k n).P (1 - d) (!t) fun _ => 1).getD i 0) ∧
      ∀ x ∈ Inside k d, ∃ y, (grid₀ k n).R d t ((grid₀ k n).P d t f) x = some y ∧ |y - f x| < ε := by
  obtain ⟨n₀, h⟩ := tail_tendsto k c s hε
  refine ⟨n₀, fun n hn hv => ⟨?_, fun x hx => ?_⟩⟩
  · obtain ⟨b, h1, h2, h3⟩ := C80_star_error k n hv d t hc c s f hf
    refine ⟨b, h1, h2, fun i hi => (h3 i hi).trans (mul_le_mul_of_nonneg_right (h n hn _ (N_ge k n hv d t)).le ?_)⟩
    have := P_bound (spans' k n hv).factor (1 - d) (!t) (cells_in k n hv (1 - d) (!t)) continuous_const continuous_const (u := fun _ => (0 : ℝ)) (q := fun _ => 0) (c := 1) (by simp) hi
    rw [one_mul] at this
    exact (abs_nonneg _).trans this
  · obtain ⟨y, h1, h2⟩ := C80_reconstruction_error k n hv d t hc c s f hf x hx
    exact ⟨y, h1, h2.trans_lt (h n hn _ (N_ge k n hv d t))⟩

/-- The unresolved part of a series whose coefficients decrease geometrically. -/
theorem tail_geometric (k : Kind) (n : ℕ) (hn : validSize k n) (d : Fin 2) (t : Bool) (c s : ℕ → ℝ) (hsum : Summable (amplitude k c s))
    (M r : ℝ) (h0 : 0 ≤ r) (h1 : r < 1) (hM : ∀ m, amplitude k c s m ≤ M * r ^ m) :
    2 * tail k c s ((grid₀ k n).N d t) ≤ 2 * M / (1 - r) * r ^ termsOf k (n - 1) := by
  have hM0 : 0 ≤ M := by have := (amplitude_nonneg k c s 0).trans (hM 0); simpa using this
  have hs : Summable fun m => M * r ^ (m + termsOf k ((grid₀ k n).N d t)) := by
    have := (summable_geometric_of_lt_one h0 h1).mul_left (M * r ^ termsOf k ((grid₀ k n).N d t))
    refine this.congr fun m => by rw [pow_add]; ring
  have h2 : tail k c s ((grid₀ k n).N d t) ≤ ∑' m, M * r ^ (m + termsOf k ((grid₀ k n).N d t)) :=
    Summable.tsum_le_tsum (fun m => hM _) ((summable_nat_add_iff _).2 hsum) hs
  have h3 : ∑' m, M * r ^ (m + termsOf k ((grid₀ k n).N d t)) = M * r ^ termsOf k ((grid₀ k n).N d t) * (1 - r)⁻¹ := by
    rw [← tsum_geometric_of_lt_one h0 h1, ← tsum_mul_left]
    exact tsum_congr fun m => by rw [pow_add]; ring
  have h4 : termsOf k (n - 1) ≤ termsOf k ((grid₀ k n).N d t) := by
    have := N_ge k n hn d t
    cases k
    · show (n - 1 + 1) / 2 ≤ (_ + 1) / 2; omega
    · exact this
    · exact this
  have h5 : r ^ termsOf k ((grid₀ k n).N d t) ≤ r ^ termsOf k (n - 1) := pow_le_pow_of_le_one h0 h1.le h4
  have h6 : 0 < 1 - r := by linarith
  rw [h3] at h2
  calc 2 * tail k c s ((grid₀ k n).N d t) ≤ 2 * (M * r ^ termsOf k ((grid₀ k n).N d t) * (1 - r)⁻¹) := by linarith
    _ ≤ 2 * (M * r ^ termsOf k (n - 1) * (1 - r)⁻¹) := by
      refine mul_le_mul_of_nonneg_left (mul_le_mul_of_nonneg_right (mul_le_mul_of_nonneg_left h5 hM0) (by positivity)) (by norm_num)
    _ = _ := by rw [div_eq_mul_inv]; ring

/-- **C80**: geometrically decreasing coefficients (as an analytic function has them) give errors that decrease geometrically with the number of vertices. -/
theorem C80_spectral_accuracy (k : Kind) (n : ℕ) (hn : validSize k n) (d : Fin 2) (t : Bool) (hc : k = .chebyshev → d = 0) (c s : ℕ → ℝ) (f : ℝ → ℝ) (hf : Expansion k c s f)
    (M r : ℝ) (h0 : 0 ≤ r) (h1 : r < 1) (hM : ∀ m, amplitude k c s m ≤ M * r ^ m) (x : ℝ) (hx : x ∈ Inside k d) :
    ∃ y, (grid₀ k n).R d t ((grid₀ k n).P d t f) x = some y ∧ |y - f x| ≤ 2 * M / (1 - r) * r ^ termsOf k (n - 1) := by
  obtain ⟨y, e1, e2⟩ := C80_reconstruction_error k n hn d t hc c s f hf x hx
  exact ⟨y, e1, e2.trans (tail_geometric k n hn d t c s hf.1 M r h0 h1 hM)⟩

/-- C80 (the star): the error of the Hodge star on a cell, relative to the size of the cell, decreases at the same geometric rate. -/
theorem C80_spectral_star (k : Kind) (n : ℕ) (hn : validSize k n) (d : Fin 2) (t : Bool) (hc : k = .chebyshev → d = 0) (c s : ℕ → ℝ) (f : ℝ → ℝ) (hf : Expansion k c s f)
    (M r : ℝ) (h0 : 0 ≤ r) (h1 : r < 1) (hM : ∀ m, amplitude k c s m ≤ M * r ^ m) :
    ∃ b, (grid₀ k n).H d t ((grid₀ k n).P d t f) = .ok b ∧ b.length = (grid₀ k n).N (1 - d) (!t) ∧ ∀ i < (grid₀ k n).N (1 - d) (!t),
      |b.getD i 0 - ((grid₀ k n).P (1 - d) (!t) f).getD i 0| ≤ 2 * M / (1 - r) * r ^ termsOf k (n - 1) * ((grid₀ k n).P (1 - d) (!t) fun _ => 1).getD i 0 := by
  obtain ⟨b, e1, e2, e3⟩ := C80_star_error k n hn d t hc c s f hf
  refine ⟨b, e1, e2, fun i hi => (e3 i hi).trans (mul_le_mul_of_nonneg_right (tail_geometric k n hn d t c s hf.1 M r h0 h1 hM) ?_)⟩
  have := P_bound (spans' k n hn).factor (1 - d) (!t) (cells_in k n hn (1 - d) (!t)) continuous_const continuous_const (u := fun _ => (0 : ℝ)) (q := fun _ => 0) (c := 1) (by simp) hi
  rw [one_mul] at this
  exact (abs_nonneg _).trans this

/-! ## The hypotheses can be met -/

/-- A function that no grid resolves: all its coefficients are nonzero. -/
theorem expansion_example : Expansion .periodic (fun m => (1 / 2) ^ m) (fun _ => 0) (fun x => ∑' m : ℕ, (1 / 2 : ℝ) ^ m * cos (m * x)) := by
  have hs : Summable fun m : ℕ => ((1 : ℝ) / 2) ^ m := summable_geometric_of_lt_one (by norm_num) (by norm_num)
  refine ⟨?_, fun x _ => ?_⟩
  · refine hs.congr fun m => ?_
    show _ = |((1 : ℝ) / 2) ^ m| + |(0 : ℝ)|
    rw [abs_of_pos (by positivity)]; simp
  · have : Summable fun m : ℕ => (1 / 2 : ℝ) ^ m * cos (m * x) :=
      Summable.of_norm_bounded hs fun m => by
        rw [Real.norm_eq_abs, abs_mul, abs_of_pos (by positivity)]
        exact mul_le_of_le_one_right (by positivity) (abs_cos_le_one _)
    have e : (fun m => term .periodic (fun m => (1 / 2 : ℝ) ^ m) (fun _ => 0) m x) = fun m : ℕ => (1 / 2 : ℝ) ^ m * cos (m * x) := by
      funext m; show _ * _ + 0 * _ = _; ring
    rw [e]; exact this.hasSum

example : ∃ b, (grid₀ .periodic 7).H 1 true ((grid₀ .periodic 7).P 1 true fun x => ∑' m : ℕ, (1 / 2 : ℝ) ^ m * cos (m * x)) = .ok b :=
  (C80_star_error .periodic 7 (by norm_num [validSize]) 1 true (fun h => by cases h) _ _ _ expansion_example).imp fun _ h => h.1

/-- A polynomial on a Chebyshev grid that is too coarse for it. -/
example : Expansion .chebyshev (fun m => if m = 5 then 3 else 0) (fun _ => 0) (fun x => 3 * (Polynomial.Chebyshev.T ℝ 5).eval x) := by
  refine ⟨summable_of_ne_finset_zero (s := {5}) fun m hm => ?_, fun x _ => ?_⟩
  · show |(if m = 5 then (3 : ℝ) else 0)| = 0
    rw [if_neg (by simpa using hm), abs_zero]
  · have h := hasSum_single (f := fun m => term .chebyshev (fun m => if m = 5 then 3 else 0) (fun _ => 0) m x) 5 fun m hm => by
      show (if m = 5 then (3 : ℝ) else 0) * _ = 0
      rw [if_neg hm, zero_mul]
    have e : term .chebyshev (fun m => if m = 5 then 3 else 0) (fun _ => 0) 5 x = 3 * (Polynomial.Chebyshev.T ℝ 5).eval x := by
      show (if 5 = 5 then (3 : ℝ) else 0) * _ = _
      rw [if_pos rfl]; rfl
    rw [e] at h
    exact h

end Dec.Props
