import Verif.Lib.ChebyshevGrid
import Verif.Model.Grids

set_option linter.unusedSimpArgs false
set_option linter.unusedVariables false

/-!
# C05, C06 and C38: the Hodge stars of the Chebyshev grid and the operator `fourier_K`
-/

namespace Dec.Props

open Real Finset Dec.Sp

/-- C05: on every Chebyshev grid the star on primal 0-forms and the star on dual 1-forms invert each other. -/
theorem C05_chebyshev_hodge_inverse_primal (n : ℕ) (hn : 2 ≤ n) (xmin xmax : ℝ) (a : List ℝ) (ha : a.length = n) :
    ((Chebyshev.make n xmin xmax).H 0 true a >>= (Chebyshev.make n xmin xmax).H 1 false) = .ok a ∧
    ((Chebyshev.make n xmin xmax).H 1 false a >>= (Chebyshev.make n xmin xmax).H 0 true) = .ok a := by
  refine ⟨?_, ?_⟩
  · show Except.ok (Chebyshev.H1d (Chebyshev.H0 a)) = _
    rw [Chebyshev.H1d_H0 hn a ha]
  · show Except.ok (Chebyshev.H0 (Chebyshev.H1d a)) = _
    rw [Chebyshev.H0_H1d hn a ha]

/-- C05: with at most 927 vertices the star on dual 0-forms and the star on primal 1-forms invert each other. -/
theorem C05_chebyshev_hodge_inverse_dual (n : ℕ) (hn : 2 ≤ n) (h927 : n ≤ 927) (xmin xmax : ℝ) (a : List ℝ) (ha : a.length = n - 1) :
    ((Chebyshev.make n xmin xmax).H 0 false a >>= (Chebyshev.make n xmin xmax).H 1 true) = .ok a ∧
    ((Chebyshev.make n xmin xmax).H 1 true a >>= (Chebyshev.make n xmin xmax).H 0 false) = .ok a := by
  have hm : 0 < n - 1 := by omega
  have hw := Chebyshev.weightsOk hm
  have hacc := Chebyshev.accepts hm (by omega)
  refine ⟨?_, ?_⟩
  · exact Chebyshev.H1_H0d hm hw hacc a ha
  · obtain ⟨x, hx, hl, h⟩ := Chebyshev.H0d_H1 hm hw hacc a ha
    show (Chebyshev.H1 a >>= fun f => Except.ok (Chebyshev.H0d f)) = _
    rw [hx, ← h]; rfl

/-- C05, the defect: with 928 or more vertices the star on primal 1-forms rejects every form ("Singular operator"),
although the star on dual 0-forms of which it should be the inverse is injective (`C05_dual_star_injective`). -/
theorem C05_chebyshev_hodge_rejects (n : ℕ) (h928 : 928 ≤ n) (xmin xmax : ℝ) (a : List ℝ) (ha : a.length = n - 1) :
    (Chebyshev.make n xmin xmax).H 1 true a = .error .valueError :=
  Chebyshev.H1_rejects (Chebyshev.rejects (by omega)) a ha

/-- Non-vacuity: arrays of the right lengths on the grid with three vertices. -/
example : ([1, 2, 3] : List ℝ).length = (Chebyshev.make 3).N 0 true ∧ ([1, 2] : List ℝ).length = (Chebyshev.make 3).N 0 false ∧
    (3 ≤ 927) := ⟨rfl, rfl, by norm_num⟩

/-- C06: exactness on the primal vertices and dual edges, for polynomials of degree less than `n`. -/
theorem C06_chebyshev_hodge_exact_primal (n : ℕ) (hn : 2 ≤ n) (f : ℝ → ℝ) (hf : IsPoly n f) :
    (Chebyshev.make n).H 0 true ((Chebyshev.make n).P 0 true f) = .ok ((Chebyshev.make n).P 1 false f) ∧
    (Chebyshev.make n).H 1 false ((Chebyshev.make n).P 1 false f) = .ok ((Chebyshev.make n).P 0 true f) := by
  have hp := hf.isCos (K := n - 1) (by omega)
  rw [Chebyshev.P0 hn, Chebyshev.P1d hn hf.continuous, Chebyshev.make_H0, Chebyshev.make_H1d]
  exact ⟨by rw [Chebyshev.H0_exact hn hp], by rw [Chebyshev.H1d_exact hn hp]⟩

/-- C06: exactness on the dual vertices and primal edges, for polynomials of degree less than `n - 1`. -/
theorem C06_chebyshev_hodge_exact_dual (n : ℕ) (hn : 2 ≤ n) (f : ℝ → ℝ) (hf : IsPoly (n - 1) f) :
    (Chebyshev.make n).H 0 false ((Chebyshev.make n).P 0 false f) = .ok ((Chebyshev.make n).P 1 true f) ∧
    (n ≤ 927 → (Chebyshev.make n).H 1 true ((Chebyshev.make n).P 1 true f) = .ok ((Chebyshev.make n).P 0 false f)) := by
  have hp := hf.isCos (K := n - 1 - 1) (by omega)
  have hm : 0 < n - 1 := by omega
  have e : 2 * n - 2 = 2 * (n - 1) := by omega
  rw [Chebyshev.P0d hn, Chebyshev.P1 hn hf.continuous, e, Chebyshev.make_H0d, Chebyshev.make_H1]
  refine ⟨?_, fun h => ?_⟩
  · rw [Chebyshev.H0d_exact hm hp]
  · exact Chebyshev.H1_exact hm (Chebyshev.weightsOk hm) (Chebyshev.accepts hm (by omega)) hp

/-- Non-vacuity: `x^2` on three vertices (highest resolved degree) and `x` on its two dual vertices. -/
example : IsPoly 3 (fun x => x ^ 2) ∧ IsPoly (3 - 1) (fun x => x) :=
  ⟨⟨fun k => if k = 2 then 1 else 0, fun x => by simp⟩, ⟨fun k => if k = 1 then 1 else 0, fun x => by simp⟩⟩

/-! ## C38 -/

/-- No weight that `fourier_K_inv` divides by is zero: the inner weights, and for odd length all of them. -/
def NoZeroWeight (N : ℕ) (a b : ℝ) : Prop :=
  (0 : ℂ) ∉ (I_diag (N + 2) a b).tail.dropLast ∧ (N % 2 = 1 → (0 : ℂ) ∉ I_diag (N + 2) a b)

theorem weightsOk_of_noZero {N : ℕ} {a b : ℝ} (h : NoZeroWeight N a b) : WeightsOk N a b := by
  obtain ⟨h1, h2⟩ := h
  rw [I_diag_tab] at h1 h2
  rw [tail_tab, dropLast_tab] at h1
  simp only [tab, List.mem_map, List.mem_range, not_exists, not_and] at h1 h2
  refine ⟨fun k hk hk' h0 => h1 (k - 1) (by omega) (by rw [show k - 1 + 1 = k by omega]; exact h0), fun ho => ⟨fun h0 => h2 ho 0 (by omega) h0, fun h0 => h2 ho (N + 1) (by omega) h0⟩⟩

theorem rejects_zero (a b : ℝ) : Rejects 0 a b := Or.inl (isclose_self _)

theorem length_fourier_K (x : List ℂ) (a b : ℝ) : (fourier_K x a b).length = x.length := by
  unfold fourier_K
  simp only [List.length_modify, List.length_dropLast, List.length_tail, length_vmul, length_vsub, length_roll, List.length_append,
    List.length_map, length_I_diag, List.length_singleton]
  omega

/-- C38: `fourier_K_inv` after `fourier_K`: the input comes back unless the call is rejected. -/
theorem C38_left_inverse (x : List ℂ) (a b : ℝ) (hw : NoZeroWeight x.length a b) :
    fourier_K_inv (fourier_K x a b) a b = .ok x ∨ fourier_K_inv (fourier_K x a b) a b = .error .valueError := by
  by_cases hacc : Rejects x.length a b
  · right; exact fourier_K_inv_rejects hacc _ (length_fourier_K x a b)
  · left
    have hN : 0 < x.length := by
      rcases Nat.eq_zero_or_pos x.length with h0 | h0
      · rw [h0] at hacc; exact absurd (rejects_zero a b) hacc
      · exact h0
    have := fourier_K_inv_K hN (weightsOk_of_noZero hw) hacc (fun i => x.getD i 0)
    rwa [← eq_tab x 0] at this

/-- C38: `fourier_K` after `fourier_K_inv`: whenever the call is accepted, the result is a solution. -/
theorem C38_right_inverse (x y : List ℂ) (a b : ℝ) (hw : NoZeroWeight x.length a b) (h : fourier_K_inv x a b = .ok y) :
    y.length = x.length ∧ fourier_K y a b = x := by
  have hacc : ¬ Rejects x.length a b := by
    intro hr
    rw [fourier_K_inv_rejects hr x rfl] at h
    cases h
  have hN : 0 < x.length := by
    rcases Nat.eq_zero_or_pos x.length with h0 | h0
    · rw [h0] at hacc; exact absurd (rejects_zero a b) hacc
    · exact h0
  obtain ⟨z, hz, hl, he⟩ := fourier_K_K_inv hN (weightsOk_of_noZero hw) hacc x rfl
  rw [hz] at h
  cases h
  exact ⟨hl, he⟩

/-- C38: a singular operator is always rejected: if two different arrays have the same image, `fourier_K_inv` raises
`ValueError` on every array of that length. -/
theorem C38_singular_rejected (x x' : List ℂ) (a b : ℝ) (hw : NoZeroWeight x.length a b) (hl : x'.length = x.length)
    (hne : x ≠ x') (h : fourier_K x a b = fourier_K x' a b) (z : List ℂ) (hz : z.length = x.length) :
    fourier_K_inv z a b = .error .valueError := by
  by_cases hacc : Rejects x.length a b
  · exact fourier_K_inv_rejects hacc z hz
  · exfalso
    have hN : 0 < x.length := by
      rcases Nat.eq_zero_or_pos x.length with h0 | h0
      · rw [h0] at hacc; exact absurd (rejects_zero a b) hacc
      · exact h0
    have h1 := fourier_K_inv_K hN (weightsOk_of_noZero hw) hacc (fun i => x.getD i 0)
    have h2 := fourier_K_inv_K hN (weightsOk_of_noZero hw) hacc (fun i => x'.getD i 0)
    rw [← eq_tab x 0] at h1
    rw [← eq_tab' hl 0] at h2
    rw [← h, h1] at h2
    exact hne (by injection h2)

/-- C38, the defect: for every even length from 1854 on, `fourier_K_inv` with `a = 0` and `b` one cell raises
"Singular operator" on every array, although `fourier_K` is injective there and no weight vanishes. -/
theorem C38_rejects_invertible (m : ℕ) (hm : 927 ≤ m) :
    NoZeroWeight (2 * m) 0 (2 * π / (2 * m : ℕ)) ∧
    (∀ x x' : List ℂ, x.length = 2 * m → x'.length = 2 * m →
      fourier_K x 0 (2 * π / (2 * m : ℕ)) = fourier_K x' 0 (2 * π / (2 * m : ℕ)) → x = x') ∧
    (∀ z : List ℂ, z.length = 2 * m → fourier_K_inv z 0 (2 * π / (2 * m : ℕ)) = .error .valueError) := by
  have hw := Chebyshev.weightsOk (m := m) (by omega)
  refine ⟨?_, ?_, fun z hz => fourier_K_inv_rejects (Chebyshev.rejects hm) z hz⟩
  · refine ⟨?_, fun h => by omega⟩
    rw [I_diag_tab, tail_tab, dropLast_tab]
    simp only [tab, List.mem_map, List.mem_range, not_exists, not_and]
    intro k hk h0
    exact hw.1 (k + 1) (by omega) (by omega) h0
  · intro x x' hx hx' h
    have hns : NonSing (2 * m) 0 (hh (2 * m)) := by
      refine ⟨fun _ => ?_, fun h => by omega⟩
      rw [Chebyshev.I0_eq (by omega), Chebyshev.I1_eq (by omega), Chebyshev.IN_eq (by omega), Chebyshev.IM_eq (by omega)]
      have h2 : (2 : ℝ) ≤ m := by exact_mod_cast (by omega : 2 ≤ m)
      have hmC : (m : ℂ) ≠ 0 := by exact_mod_cast (by omega : m ≠ 0)
      have hpC : ((m : ℂ) + 1) ≠ 0 := by exact_mod_cast (by omega : m + 1 ≠ 0)
      have hsC : ((m : ℂ) - 1) ≠ 0 := by
        rw [← norm_ne_zero_iff, Chebyshev.norm_nat_sub (by omega)]; linarith
      have hz : Chebyshev.zz m ≠ 0 := by
        rw [← norm_ne_zero_iff, Chebyshev.norm_zz (by omega)]
        have : 0 < cos (π / (2 * m)) := by
          apply cos_pos_of_mem_Ioo
          constructor
          · have : 0 < π / (2 * m) := by positivity
            linarith [pi_pos]
          · rw [div_lt_div_iff₀ (by positivity) (by norm_num)]
            nlinarith [pi_pos]
        positivity
      constructor
      · rw [ne_eq, neg_eq_iff_add_eq_zero]
        intro h'
        have e : Complex.I * Chebyshev.zz m / (m + 1) + Complex.I * Chebyshev.zz m / (m - 1) = Complex.I * Chebyshev.zz m * (2 * m) / (((m : ℂ) + 1) * (m - 1)) := by
          field_simp; ring
        rw [e, div_eq_zero_iff] at h'
        simp [hz, hmC, hpC, hsC] at h'
      · rw [ne_eq, neg_eq_iff_add_eq_zero]
        intro h'
        have e : 2 * Complex.I / (m : ℂ) + 2 * Complex.I / m = 4 * Complex.I / m := by ring
        rw [e, div_eq_zero_iff] at h'
        simp [hmC] at h'
    have h1 := Sp.kcore_K (by omega) hw hns (fun i => x.getD i 0)
    have h2 := Sp.kcore_K (by omega) hw hns (fun i => x'.getD i 0)
    rw [← eq_tab' hx 0] at h1
    rw [← eq_tab' hx' 0] at h2
    have h' : fourier_K x 0 (hh (2 * m)) = fourier_K x' 0 (hh (2 * m)) := h
    rw [← h1, ← h2, h']

/-- Non-vacuity of C38: an accepted operator without zero weights (length 4, one cell). -/
example : NoZeroWeight 4 0 (2 * π / (4 : ℕ)) ∧ ∃ y, fourier_K_inv [1, 2, 3, 4] 0 (2 * π / (4 : ℕ)) = .ok y := by
  have hw := Chebyshev.weightsOk (m := 2) (by omega)
  refine ⟨⟨?_, fun h => by omega⟩, ?_⟩
  · rw [I_diag_tab, tail_tab, dropLast_tab]
    simp only [tab, List.mem_map, List.mem_range, not_exists, not_and]
    intro k hk h0
    exact hw.1 (k + 1) (by omega) (by omega) h0
  · obtain ⟨y, hy, _⟩ := fourier_K_K_inv (by omega) hw (Chebyshev.accepts (m := 2) (by omega) (by omega)) [1, 2, 3, 4] rfl
    exact ⟨y, hy⟩

end Dec.Props
