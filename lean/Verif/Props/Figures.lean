import Verif.Props.ReconstructCalculus
import Verif.Props.Transforms

set_option linter.unusedSimpArgs false
set_option linter.unusedVariables false

/-! # C102: what the figures of the documentation show -/

namespace Dec.Props

open Finset Real G2 Sp

theorem determined_flip {k : Kind} {n : ℕ} {d : Fin 2} {t : Bool} {f : ℝ → ℝ} (hf : Determined k n d t f) : Determined k n (1 - d) (!t) f := by
  obtain rfl | rfl : d = 0 ∨ d = 1 := by omega
  all_goals cases k <;> cases t <;> simpa [Determined] using hf

theorem inside_one (k : Kind) (d : Fin 2) {z : ℝ} (hz : z ∈ Inside k 1) : z ∈ Inside k d := by
  obtain rfl | rfl : d = 0 ∨ d = 1 := by omega
  · exact inside_mono k 0 hz
  · exact hz

/-- **C102** (`doc/plot/cheb/basis_forms.py`: `B1d = inv(H0).T · B0` and `B0d = inv(H1).T · B1`): on every grid, a basis form is the combination of the basis forms of the
other degree and duality whose coefficients the star takes to the unit array (a column of the inverse of its matrix) ... -/
theorem C102_star_basis (k : Kind) (n : ℕ) (hn : validSize k n) (d : Fin 2) (t : Bool) (h927 : k = .chebyshev → d = 1 → t = true → n ≤ 927) (j : ℕ)
    (hj : j < (grid₀ k n).N (1 - d) (!t)) (c : List ℝ) (hc : c.length = (grid₀ k n).N d t)
    (h : (grid₀ k n).H d t c = .ok ((List.range ((grid₀ k n).N (1 - d) (!t))).map fun i => if i = j then 1 else 0)) (x : ℝ) (hx : x ∈ Inside k 1) :
    (grid₀ k n).R d t c x = (grid₀ k n).B (1 - d) (!t) j x := by
  obtain ⟨f, hf, hP, hR⟩ := C70_reconstruction_determined k n hn d t c hc
  have h1 := determined_star k n hn d t h927 f hf
  rw [hP, h] at h1
  rw [hR x (inside_one k d hx)]
  exact (B_of_P (spans' k n hn) (1 - d) (!t) hj (determined_flip hf) (Except.ok.inj h1).symm (inside_dom k n hn _ _ (inside_one k _ hx))).symm

/-- ... and there is such an array, for every basis form. -/
theorem C102_star_basis_exists (k : Kind) (n : ℕ) (hn : validSize k n) (d : Fin 2) (t : Bool) (h927 : k = .chebyshev → d = 1 → t = true → n ≤ 927) (j : ℕ)
    (hj : j < (grid₀ k n).N (1 - d) (!t)) :
    ∃ c : List ℝ, c.length = (grid₀ k n).N d t ∧ (grid₀ k n).H d t c = .ok ((List.range ((grid₀ k n).N (1 - d) (!t))).map fun i => if i = j then 1 else 0) := by
  have s := spans' k n hn
  obtain ⟨b, hb, hB⟩ := s.rep (1 - d) (!t) j hj
  have hb' : Determined k n d t b := by
    have := determined_flip hb
    rwa [Bool.not_not, show (1 - (1 - d) : Fin 2) = d from (by decide : ∀ d : Fin 2, 1 - (1 - d) = d) d] at this
  refine ⟨(grid₀ k n).P d t b, ?_, ?_⟩
  · obtain rfl | rfl : d = 0 ∨ d = 1 := by omega
    · rw [P0_tab s.factor, length_tab]
    · rw [P1_tab s.factor, length_tab]
  · rw [determined_star k n hn d t h927 b hb', s.P_rep (1 - d) (!t) hj hb hB]; rfl

/-- **C102** (`doc/plot/cheb/resample.py`): padding the Fourier coefficients of any array with `m` zeros on each side gives an array whose real parts are the values of
the reconstruction at the vertices of the grid of `n + 2 m` vertices. -/
theorem C102_resample (n m : ℕ) (hn : 1 ≤ n) (y : List ℝ) (hy : y.length = n) :
    ((method_in_fourier_space (extend · m) (y.map Complex.ofReal)).map fun z => some z.re)
      = ((Periodic.make (n + 2 * m)).cells.v true).map ((Periodic.make n).R 0 true y) := by
  obtain ⟨f, hf, hP, hR⟩ := C70_reconstruction_determined .periodic n hn 0 true y hy
  have hfT : IsTrigAt n 0 f := by simpa [Determined] using hf
  obtain ⟨q, c, hq, hc, e⟩ := hfT
  have hv : ∀ N : ℕ, (Periodic.make N).cells.v true = tab N fun j : ℕ => (j : ℝ) * (2 * π / N) := fun N => by
    refine (Periodic.verts_tab N 0 (2 * π)).trans (tab_congr fun j _ => ?_)
    rw [zero_add, sub_zero]
  have hy' : y = tab n fun j : ℕ => f ((j : ℝ) * (2 * π / n)) := by
    rw [← hP]
    refine (show (Periodic.make n).P 0 true f = ((Periodic.make n).cells.v true).map f from rfl).trans ?_
    rw [hv, map_tab]
  -- the complex interpolant
  obtain ⟨p, hp, hps, hre⟩ : ∃ p : ℝ → ℂ, IsExp n p ∧ (∀ j : ℕ, p ((j : ℝ) * (2 * π / n)) = f ((j : ℝ) * (2 * π / n))) ∧ ∀ θ, (p θ).re = f θ := by
    have hq' := isExp_ofReal (N := n) (by omega) hq
    by_cases h2 : n % 2 = 0
    · obtain ⟨a, ha⟩ := hq'
      obtain ⟨K, hK⟩ : ∃ K, n / 2 = K := ⟨_, rfl⟩
      rw [hK] at ha e
      refine ⟨fun θ => (q θ : ℂ) + c * Complex.exp (Complex.I * (-(K : ℤ) : ℤ) * θ), ⟨fun k => a k + if k = -(K : ℤ) then (c : ℂ) else 0, fun θ => ?_⟩, fun j => ?_, fun θ => ?_⟩
      · simp only [add_mul, ite_mul, zero_mul]
        rw [hK, Finset.sum_add_distrib, ← ha, Finset.sum_ite_eq' , if_pos (by rw [Finset.mem_Ico]; omega)]
      · have h2' : (K : ℝ) * 2 = n := by exact_mod_cast (by omega : K * 2 = n)
        have hn' : (n : ℝ) ≠ 0 := by positivity
        have ea : (K : ℝ) * ((j : ℝ) * (2 * π / n)) = j * π := by
          have : (K : ℝ) = n / 2 := by linarith
          rw [this]; field_simp
        rw [e]
        push_cast
        have eb : Complex.I * (-(K : ℂ)) * ((j : ℂ) * (2 * π / n)) = -(((j * π : ℝ) : ℂ) * Complex.I) := by
          rw [← ea]; push_cast; ring
        have es : Complex.sin ((j * π : ℝ) : ℂ) = 0 := by rw [← Complex.ofReal_sin, sin_nat_mul_pi]; rfl
        have ec : (K : ℂ) * ((j : ℂ) * (2 * π / n) - 0) = ((j * π : ℝ) : ℂ) := by
          rw [← ea]; push_cast; ring
        rw [eb, ← neg_mul, Complex.exp_mul_I, Complex.cos_neg, Complex.sin_neg, es, ec]
        ring
      · rw [e, sub_zero]
        have eb : Complex.I * ((-(K : ℤ) : ℤ) : ℂ) * (θ : ℂ) = ((-(K * θ) : ℝ) : ℂ) * Complex.I := by push_cast; ring
        beta_reduce
        rw [eb, Complex.add_re, Complex.ofReal_re, Complex.re_ofReal_mul, Complex.exp_ofReal_mul_I_re, cos_neg]
    · refine ⟨fun θ => (q θ : ℂ), hq', fun j => ?_, fun θ => ?_⟩
      · rw [e, hc (by omega)]; simp
      · rw [e, hc (by omega)]; simp
  have hin : y.map Complex.ofReal = circle n 0 p := by
    rw [hy', map_tab]
    refine tab_congr fun j _ => ?_
    rw [zero_add, hps]
  rw [hin, (C68_refine n m hn 0 p hp).2, hv, map_tab]
  show List.map _ (tab (n + 2 * m) fun j : ℕ => p (0 + j * (2 * π / ((n + 2 * m : ℕ) : ℝ)))) = _
  rw [map_tab]
  refine tab_congr fun j hj => ?_
  rw [zero_add, hre]
  refine (hR _ ⟨by positivity, ?_⟩).symm
  have h0 : (0 : ℝ) < ((n + 2 * m : ℕ) : ℝ) := by exact_mod_cast (by omega : 0 < n + 2 * m)
  rw [← mul_div_assoc, div_lt_iff₀ h0, mul_comm]
  exact mul_lt_mul_of_pos_left (by exact_mod_cast hj) (by positivity)

/-- The figure uses five random values, padded by two zeros. -/
example : ([0.4, 0.7, 0.1, 0.3, 0.2] : List ℝ).length = 5 := rfl

/-- The sizes in `basis_forms.py`: the third dual basis 1-form of a regular grid of four vertices. -/
example : 2 < (grid₀ .regular 4).N (1 - 0) (!true) := by
  rw [show (grid₀ .regular 4).N (1 - 0) (!true) = 4 from (Regular.isInterval (n := 4) (by norm_num) 0 π).N10]; norm_num

end Dec.Props
