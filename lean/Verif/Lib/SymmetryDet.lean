import Verif.Lib.SymmetryGrids

set_option linter.unusedSimpArgs false
set_option linter.unusedVariables false

/-! The functions that the coefficients determine can be translated and reflected. -/

namespace Dec

open Finset Real G2 Sp

theorem IsTrigAt.trig {N : ℕ} (hN : 0 < N) {x₀ : ℝ} {p : ℝ → ℝ} (h : IsTrigAt N x₀ p) : IsTrig (N / 2) p := isTrig_of_res (h.res hN)

theorem half_mul_hh {N : ℕ} (h : N % 2 = 0) : ((N / 2 : ℕ) : ℝ) * hh N = π ∨ N = 0 := by
  rcases Nat.eq_zero_or_pos N with rfl | hN
  · exact Or.inr rfl
  · left
    have h4 : (N : ℝ) = 2 * (N / 2 : ℕ) := by exact_mod_cast (by omega : N = 2 * (N / 2))
    have := mul_hh hN; rw [h4] at this; linarith

theorem IsTrigAt.comp_shift {N : ℕ} (hN : 0 < N) {x₀ : ℝ} {p : ℝ → ℝ} (h : IsTrigAt N x₀ p) (j : ℕ) : IsTrigAt N x₀ fun x => p (j * hh N + 1 * x) := by
  obtain ⟨q, c, hq, h0, hp⟩ := h
  refine ⟨fun x => q (j * hh N + 1 * x), (-1) ^ j * c, (hq.comp_add (j * hh N)).congr fun θ => by ring_nf, fun h => by rw [h0 h, mul_zero], fun θ => ?_⟩
  beta_reduce
  rw [hp]
  rcases Nat.mod_two_eq_zero_or_one N with h2 | h2
  · have e := (half_mul_hh h2).resolve_right (by omega)
    rw [show ((N / 2 : ℕ) : ℝ) * (j * hh N + 1 * θ - x₀) = (N / 2 : ℕ) * (θ - x₀) + j * π by linear_combination (j : ℝ) * e, cos_add_nat_mul_pi]
    ring
  · rw [h0 h2]; ring

theorem IsTrigAt.comp_flip {N : ℕ} (hN : 0 < N) {x₀ : ℝ} (hx : x₀ = 0 ∨ x₀ = hh N / 2) {p : ℝ → ℝ} (h : IsTrigAt N x₀ p) (m : ℤ) : IsTrigAt N x₀ fun x => p (m * (2 * π) + -1 * x) := by
  have hper : ∀ x, p (m * (2 * π) + -1 * x) = p (-x) := fun x => by
    rw [show (m : ℝ) * (2 * π) + -1 * x = -x + m * (2 * π) by ring]
    exact (h.trig hN).periodic.int_mul m (-x)
  simp only [hper]
  obtain ⟨q, c, hq, h0, hp⟩ := h
  refine ⟨fun x => q (-x), (if x₀ = 0 then 1 else -1) * c, hq.comp_neg, fun h => by rw [h0 h, mul_zero], fun θ => ?_⟩
  beta_reduce
  rw [hp]
  rcases Nat.mod_two_eq_zero_or_one N with h2 | h2
  · have e := (half_mul_hh h2).resolve_right (by omega)
    by_cases h0 : x₀ = 0
    · rw [if_pos h0, h0, sub_zero, sub_zero, mul_neg, cos_neg, one_mul]
    · rw [if_neg h0, hx.resolve_left h0,
        show ((N / 2 : ℕ) : ℝ) * (-θ - hh N / 2) = -((N / 2 : ℕ) * (θ - hh N / 2) + π) by linear_combination -e, cos_neg, cos_add_pi]
      ring
  · rw [h0 h2]; ring

theorem IsCos.comp_flip {K : ℕ} {p : ℝ → ℝ} (h : IsCos K p) : IsCos K fun x => p (π - x) := by
  refine IsTrig.isCos ((h.isTrig.comp_neg.comp_add (-π)).congr fun θ => by ring_nf) fun θ => ?_
  rw [show π - -θ = -(π - θ) + 2 * π by ring, h.isTrig.periodic, h.even]

theorem IsPoly.comp_neg {m : ℕ} {p : ℝ → ℝ} (h : IsPoly m p) : IsPoly m fun x => p (-x) := by
  obtain ⟨a, ha⟩ := h
  refine ⟨fun k => (-1) ^ k * a k, fun x => ?_⟩
  beta_reduce
  rw [ha]
  refine sum_congr rfl fun k _ => ?_
  rw [neg_pow]; ring

/-! ### The isometries of the default grids -/

open Props

theorem shift_isometry {n : ℕ} (hn : 1 ≤ n) (j : ℕ) :
    Isometry (grid₀ .periodic n) (Determined .periodic n) (fun f => Function.Periodic f (2 * π - 0)) 1 (j * ((2 * π - 0) / n)) (fun _ _ i => (i + j) % n) := by
  refine Periodic.isometry_shift (n := n) (a := 0) (b := 2 * π) hn (by positivity) j (fun d t f hf => ?_) fun d t f hf => ?_
  · rw [sub_zero]; exact (IsTrigAt.trig hn hf).periodic
  · have := IsTrigAt.comp_shift hn hf j
    rw [sub_zero]; exact this

/-- Where a cell goes when the interval is reflected. -/
noncomputable def mirrorIdx (k : Kind) (n : ℕ) (d : Fin 2) (t : Bool) (i : ℕ) : ℕ :=
  match k with
  | .periodic => Periodic.flip n d t i
  | _ => (grid₀ k n).N d t - 1 - i

/-- The functions for which the reflection maps cells to cells. -/
def Wraps (k : Kind) (L : ℝ) (f : ℝ → ℝ) : Prop := k = .periodic → Function.Periodic f L

theorem Isometry.mono {g : Grid1} {V V' : Fin 2 → Bool → (ℝ → ℝ) → Prop} {Q Q' : (ℝ → ℝ) → Prop} {σ c : ℝ} {ι ι' : Fin 2 → Bool → ℕ → ℕ} (h : Isometry g V Q σ c ι)
    (hQ : ∀ f, Q' f → Q f) (hι : ∀ d t i, i < g.N d t → ι d t i = ι' d t i) (hs : ∀ d t f, V' d t f → Q' f) (hp : ∀ d t f, V' d t f → V' d t fun x => f (c + σ * x)) : Isometry g V' Q' σ c ι' where
  sign := h.sign
  lt := fun d t i hi => by rw [← hι d t i hi]; exact h.lt d t i hi
  sub := hs
  pull := hp
  v := fun f hf t i hi => by rw [← hι 0 t i hi]; exact h.v f (hQ f hf) t i hi
  e := fun f hf t i hi => by rw [← hι 1 t i hi]; exact h.e f (hQ f hf) t i hi

theorem grid_N (k : Kind) (n : ℕ) (a b : ℝ) (d : Fin 2) (t : Bool) : (grid k n a b).N d t = (grid₀ k n).N d t := by cases k <;> rfl

theorem regular_sym {n : ℕ} (hn : 2 ≤ n) (a b : ℝ) :
    (∀ i < n, a + ((n - 1 - i : ℕ) : ℝ) * ((b - a) / ((n - 1 : ℕ) : ℝ)) = a + b - (a + i * ((b - a) / ((n - 1 : ℕ) : ℝ)))) ∧
      ∀ i < n - 1, a + (((n - 1 - 1 - i : ℕ) : ℝ) + 1 / 2) * ((b - a) / ((n - 1 : ℕ) : ℝ)) = a + b - (a + (i + 1 / 2) * ((b - a) / ((n - 1 : ℕ) : ℝ))) := by
  obtain ⟨m, rfl⟩ : ∃ m, n = m + 2 := ⟨n - 2, by omega⟩
  have hm : ((m + 2 - 1 : ℕ) : ℝ) = m + 1 := by rw [show m + 2 - 1 = m + 1 by omega]; push_cast; ring
  have e : (b - a) = (m + 1) * ((b - a) / (m + 1)) := by
    have : (m : ℝ) + 1 ≠ 0 := by positivity
    field_simp
  rw [hm]
  refine ⟨fun i hi => ?_, fun i hi => ?_⟩
  · rw [Nat.cast_sub (by omega), hm]; linear_combination -e
  · rw [show m + 2 - 1 - 1 - i = m + 2 - 1 - (1 + i) by omega, Nat.cast_sub (by omega), hm]; push_cast; linear_combination -e

theorem chebyshev_sym {n : ℕ} (hn : 2 ≤ n) (a b : ℝ) :
    (∀ i < n, Chebyshev.pt a b (((n - 1 - i : ℕ) : ℝ) * (π / ((n - 1 : ℕ) : ℝ))) = a + b - Chebyshev.pt a b (i * (π / ((n - 1 : ℕ) : ℝ)))) ∧
      ∀ i < n - 1, Chebyshev.pt a b ((((n - 1 - 1 - i : ℕ) : ℝ) + 1 / 2) * (π / ((n - 1 : ℕ) : ℝ))) = a + b - Chebyshev.pt a b ((i + 1 / 2) * (π / ((n - 1 : ℕ) : ℝ))) := by
  have h := regular_sym hn 0 π
  have key : ∀ θ θ', θ' = π - θ → Chebyshev.pt a b θ' = a + b - Chebyshev.pt a b θ := fun θ θ' e => by
    unfold Chebyshev.pt; rw [e, cos_pi_sub]; ring
  refine ⟨fun i hi => key _ _ ?_, fun i hi => key _ _ ?_⟩
  · have := h.1 i hi
    simpa using this
  · have := h.2 i hi
    simpa using this

/-- Reflection of a grid on any interval, for functions that are only projected. -/
theorem mirror_isometry' (k : Kind) {n : ℕ} (hn : validSize k n) {a b : ℝ} (hab : a < b) {V : Fin 2 → Bool → (ℝ → ℝ) → Prop} (hs : ∀ d t f, V d t f → Wraps k (b - a) f)
    (hp : ∀ d t f, V d t f → V d t fun x => f (a + b + -1 * x)) :
    Isometry (grid k n a b) V (Wraps k (b - a)) (-1) (a + b) (mirrorIdx k n) := by
  cases k
  · exact (Periodic.isometry_flip (V := fun _ _ _ => False) hn hab (fun _ _ _ h => h.elim) fun _ _ _ h => h.elim).mono (fun f hf => hf rfl) (fun d t i hi => rfl) hs hp
  · have h := isometry_interval (Regular.isInterval hn a b) (regular_sym hn a b).1 (regular_sym hn a b).2 (V := fun _ _ _ => False) fun _ _ _ h => h.elim
    exact h.mono (fun _ _ => trivial) (fun d t i hi => rfl) hs hp
  · have h := isometry_interval (Chebyshev.isInterval hn a b) (chebyshev_sym hn a b).1 (chebyshev_sym hn a b).2 (V := fun _ _ _ => False) fun _ _ _ h => h.elim
    exact h.mono (fun _ _ => trivial) (fun d t i hi => rfl) hs hp

/-- The ends of the default interval. -/
noncomputable def end₀ : Kind → ℝ × ℝ
  | .periodic => (0, 2 * π)
  | .regular => (0, π)
  | .chebyshev => (-1, 1)

theorem end₀_lt (k : Kind) : (end₀ k).1 < (end₀ k).2 := by
  cases k
  · exact two_pi_pos
  · exact pi_pos
  · show (-1 : ℝ) < 1; norm_num

theorem grid_end₀ (k : Kind) (n : ℕ) : grid k n (end₀ k).1 (end₀ k).2 = grid₀ k n := by cases k <;> rfl

theorem mirror_isometry (k : Kind) {n : ℕ} (hn : validSize k n) :
    Isometry (grid₀ k n) (Determined k n) (Wraps k ((end₀ k).2 - (end₀ k).1)) (-1) ((end₀ k).1 + (end₀ k).2) (mirrorIdx k n) := by
  rw [← grid_end₀]
  refine mirror_isometry' k hn (end₀_lt k) (fun d t f hf => ?_) fun d t f hf => ?_
  · rintro rfl
    show Function.Periodic f (2 * π - 0)
    rw [sub_zero]; exact (IsTrigAt.trig hn hf).periodic
  · cases k
    · have h := IsTrigAt.comp_flip (show 0 < n from hn) (by
        by_cases h : (d = 0) = (t = true)
        · left; rw [if_pos h]
        · right; rw [if_neg h]; unfold hh; ring) hf 1
      show IsTrigAt n _ fun x => f (0 + 2 * π + -1 * x)
      convert h using 2
      push_cast; ring_nf
    · have h : IsCos _ f := hf
      exact h.comp_flip.congr fun x => by show f (0 + π + -1 * x) = f (π - x); ring_nf
    · have h : IsPoly _ f := hf
      show IsPoly _ fun x => f (-1 + 1 + -1 * x)
      convert h.comp_neg using 2
      ring_nf

end Dec
