import Verif.Model.Notebooks
import Verif.Lib.ChebyshevStar
import Mathlib.Tactic

/-!
# C99: the variants tried out in the notebooks `hodge` and `whitney`
-/

set_option linter.unusedVariables false

namespace Dec.Props

open Real Finset Dec.Notebooks Dec.Chebyshev Dec.Sp Dec.Regular

/-! ### The star without folding -/

/-- On samples of cosine polynomials, `H0_cheb_new` integrates over a full cell around every vertex, also around the end points. -/
theorem H0_new_exact {n : ℕ} (hn : 2 ≤ n) {q : ℝ → ℝ} (hp : IsCos (n - 1) q) :
    H0_cheb_new (tab n fun j => q (j * hh (2 * n - 2)))
      = tab n fun j => ∫ ξ in (j * hh (2 * n - 2) - hh (2 * n - 2) / 2)..(j * hh (2 * n - 2) + hh (2 * n - 2) / 2), q ξ * sin ξ := by
  have hM : 0 < 2 * n - 2 := by omega
  obtain ⟨c, hc, hi'⟩ := res_of_cos0 hn hp
  have hF : Sp.F (toC (samp (2 * n - 2) 0 q)) = tab (2 * n - 2) (fun k => ((2 * n - 2 : ℕ) : ℂ) * c k) := by
    unfold samp
    rw [toC_tab, F_tab]
    exact tab_congr fun k hk => by rw [Res.coef hc hi' hk]
  have hre : ∀ a b : ℝ, (∫ ξ in a..b, synth (2 * n - 2) c ξ * ((sin ξ : ℝ) : ℂ)).re = ∫ ξ in a..b, q ξ * sin ξ := by
    intro a b
    have hcs := continuous_synth (2 * n - 2) c
    rw [re_integral (by fun_prop)]
    congr 1; funext ξ
    have := hc ξ
    rw [zero_add] at this
    rw [this, Complex.mul_re, Complex.ofReal_re, Complex.ofReal_im, mul_zero, sub_zero]
  have e : (2 * n - 2) / 2 + 1 = n := by omega
  unfold H0_cheb_new
  simp only []
  rw [mirror0_samp hn hp.isTrig.periodic hp.even, length_samp, hF, show 2 * π / ((2 * n - 2 : ℕ) : ℝ) = hh (2 * n - 2) from rfl,
    Finv_fourier_K hM, unmirror0, length_tab, e, take_tab, re_tab]
  refine tab_congr' (by omega) fun j hj => ?_
  rw [hre]
  congr 1
  ring

theorem int_odd {g : ℝ → ℝ} (h : ∀ x, g (-x) = - g x) (t : ℝ) : ∫ ξ in (-t)..t, g ξ = 0 := by
  have h2 : ∫ ξ in (-t)..t, g (-ξ) = ∫ ξ in (-t)..t, g ξ := by
    rw [intervalIntegral.integral_comp_neg g, neg_neg]
  have h3 : ∫ ξ in (-t)..t, g (-ξ) = - ∫ ξ in (-t)..t, g ξ := by
    rw [← intervalIntegral.integral_neg]
    congr 1; funext ξ; exact h ξ
  linarith

theorem int_odd0 {w : ℝ → ℝ} (h : ∀ x, w (-x) = w x) (t : ℝ) : ∫ ξ in (-t)..t, w ξ * sin ξ = 0 :=
  int_odd (fun x => by rw [h, sin_neg]; ring) t

theorem int_oddPi {w : ℝ → ℝ} (h : ∀ x, w (-x) = w x) (hper : ∀ x, w (x + 2 * π) = w x) (t : ℝ) : ∫ ξ in (π - t)..(π + t), w ξ * sin ξ = 0 := by
  have h4 : ∫ ξ in (π - t)..(π + t), w ξ * sin ξ = ∫ ξ in (-t)..t, w (ξ + π) * sin (ξ + π) := by
    rw [intervalIntegral.integral_comp_add_right (fun ξ => w ξ * sin ξ)]
    congr 1 <;> ring
  rw [h4]
  refine int_odd (fun ξ => ?_) t
  have e1 : w (-ξ + π) = w (ξ + π) := by
    rw [← h (-ξ + π), ← hper (-(-ξ + π))]
    congr 1; ring
  rw [e1, sin_add_pi, sin_add_pi, sin_neg]; ring

/-- **C99.** The variant `H0_cheb_new` of the notebook agrees with the star of the library at the inner vertices and is zero at both ends, whatever the array. -/
theorem C99_star_variant (n : ℕ) (hn : 2 ≤ n) (f : List ℝ) (hf : f.length = n) :
    (H0_cheb_new f).length = n ∧ (∀ j, 0 < j → j < n - 1 → (H0_cheb_new f).getD j 0 = (Chebyshev.H0 f).getD j 0) ∧
      (H0_cheb_new f).getD 0 0 = 0 ∧ (H0_cheb_new f).getD (n - 1) 0 = 0 := by
  have hl0 : (Chebyshev.H0 f).length = n := (lin_H0 hn).len f hf
  obtain ⟨w, hw, h, -⟩ := H1d_spec hn (fun i => (Chebyshev.H0 f).getD i 0)
  rw [← eq_tab' hl0 0, H1d_H0 hn f hf] at h
  have hs := IsCos.mul_sin hw
  have h1 := H0_new_exact hn hw
  have h0 := H0_exact hn hw
  rw [← h] at h1 h0
  rw [h1, h0]
  refine ⟨length_tab .., fun j hj hj' => ?_, ?_, ?_⟩
  · rw [getD_tab (by omega), getD_tab (by omega), lo_eq (n := n) _ (by omega), hi_eq _ hj']
  · rw [getD_tab (by omega)]
    simp only [Nat.cast_zero, zero_mul, zero_sub, zero_add]
    exact int_odd0 hw.even _
  · rw [getD_tab (by omega), show ((n - 1 : ℕ) : ℝ) * hh (2 * n - 2) = π from mul_hh_double hn]
    exact int_oddPi hw.even hw.isTrig.periodic _

/-- **C99.** So it is no star: it has no inverse (arrays that differ have the same image). -/
theorem C99_star_variant_singular (n : ℕ) (hn : 2 ≤ n) :
    ∃ f f' : List ℝ, f.length = n ∧ f'.length = n ∧ f ≠ f' ∧ H0_cheb_new f = H0_cheb_new f' := by
  -- two arrays whose stars differ at the first vertex only
  have key : ∀ x y : ℝ, H0_cheb_new (Chebyshev.H1d (tab n fun j => if j = 0 then x else 0)) = H0_cheb_new (Chebyshev.H1d (tab n fun j => if j = 0 then y else 0)) := by
    have h : ∀ x : ℝ, H0_cheb_new (Chebyshev.H1d (tab n fun j => if j = 0 then x else 0)) = tab n fun _ => 0 := by
      intro x
      have hl : (Chebyshev.H1d (tab n fun j => if j = 0 then x else 0)).length = n := Chebyshev.length_H1d hn _ (length_tab ..)
      obtain ⟨h1, h2, h3, h4⟩ := C99_star_variant n hn _ hl
      rw [eq_tab' h1 0]
      refine tab_congr fun j hj => ?_
      rcases Nat.eq_zero_or_pos j with h0 | h0
      · rw [h0]; exact h3
      · rcases Nat.lt_or_ge j (n - 1) with h5 | h5
        · rw [h2 j h0 h5, H0_H1d hn _ (length_tab ..), getD_tab hj, if_neg (by omega)]
        · rw [show j = n - 1 by omega]; exact h4
    intro x y
    rw [h x, h y]
  refine ⟨_, _, Chebyshev.length_H1d hn _ (length_tab ..), Chebyshev.length_H1d hn _ (length_tab ..), fun h => ?_, key 0 1⟩
  have h' := congrArg Chebyshev.H0 h
  rw [H0_H1d hn _ (length_tab ..), H0_H1d hn _ (length_tab ..)] at h'
  have h'' := congrArg (fun l => l.getD 0 0) h'
  simp only [getD_tab (show 0 < n by omega), if_true] at h''
  exact zero_ne_one h''

/-- Both are non-trivial: with three vertices, as in the notebook. -/
example : (H0_cheb_new [1, 2, 3]).length = 3 ∧ (H0_cheb_new [1, 2, 3]).getD 1 0 = (Chebyshev.H0 [1, 2, 3]).getD 1 0 ∧ (H0_cheb_new [1, 2, 3]).getD 2 0 = 0 :=
  have h := C99_star_variant 3 (by norm_num) [1, 2, 3] rfl
  ⟨h.1, h.2.1 1 (by norm_num) (by norm_num), h.2.2.2⟩

end Dec.Props
