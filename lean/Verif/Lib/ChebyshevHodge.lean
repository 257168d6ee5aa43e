import Verif.Lib.Strong
import Verif.Lib.IntervalGrid

set_option linter.unusedSimpArgs false
set_option linter.unusedVariables false

/-! The Chebyshev Hodge stars in terms of the angle variable. -/

namespace Dec.Chebyshev

open Finset Real Dec.Sp

theorem fourier_S_tab (N : ℕ) (X : ℕ → ℂ) (a : ℝ) : fourier_S (tab N X) a = tab N (fun k => X k * E (fr N k) a) := by
  unfold fourier_S
  rw [length_tab, freq_tab, map_tab, vmul_tab]; rfl

theorem integral_sin_ofReal {N : ℕ} {p : ℝ → ℝ} {c : ℕ → ℂ} (hc : ∀ θ, ((p θ : ℝ) : ℂ) = synth N c θ) (a b : ℝ) :
    ∫ ξ in a..b, synth N c ξ * ((sin ξ : ℝ) : ℂ) = ((∫ ξ in a..b, p ξ * sin ξ : ℝ) : ℂ) := by
  rw [← intervalIntegral.integral_ofReal]
  congr 1; funext ξ; rw [← hc]; push_cast; rfl

theorem neg_half (N : ℕ) : -(2 * π / (N : ℝ)) / 2 = -(hh N / 2) := neg_half_step N

/-- The dual 0-form star integrates over the primal edges. -/
theorem H0d_exact {m : ℕ} (hm : 0 < m) {p : ℝ → ℝ} (hp : IsCos (m - 1) p) :
    H0d (tab m fun j => p (hh (2 * m) / 2 + j * hh (2 * m)))
      = tab m fun j => ∫ ξ in ((j : ℝ) * hh (2 * m))..((j + 1) * hh (2 * m)), p ξ * sin ξ := by
  obtain ⟨c, hc⟩ := resC_of_isTrig (N := 2 * m) (by omega) hp.isTrig
  unfold H0d
  simp only []
  rw [mirror1_samp hm hp.isTrig.periodic hp.even, length_samp, F_samp hc, neg_half, fourier_S_tab]
  have e : (tab (2 * m) fun k => ((2 * m : ℕ) : ℂ) * (c k * E (fr (2 * m) k) (hh (2 * m) / 2)) * E (fr (2 * m) k) (-(hh (2 * m) / 2)))
      = tab (2 * m) fun k => ((2 * m : ℕ) : ℂ) * c k := by
    refine tab_congr fun k _ => ?_
    rw [mul_assoc, mul_assoc, ← E_add, add_neg_cancel, E_zero, mul_one]
  rw [e, show 2 * π / ((2 * m : ℕ) : ℝ) = hh (2 * m) from rfl, Finv_fourier_K (by omega), unmirror1_tab, re_tab]
  refine tab_congr fun j _ => ?_
  rw [integral_sin_ofReal hc, Complex.ofReal_re]
  congr 1 <;> ring

theorem odd_integral {q : ℝ → ℝ} (hper : Function.Periodic q (2 * π)) (od : ∀ θ, q (-θ) = -q θ) (a b : ℝ) :
    ∫ ξ in (2 * π - b)..(2 * π - a), q ξ = -∫ ξ in a..b, q ξ := by
  rw [← intervalIntegral.integral_comp_sub_left (fun ξ => q ξ) (2 * π), ← intervalIntegral.integral_neg]
  refine intervalIntegral.integral_congr fun x _ => ?_
  show q (2 * π - x) = -q x
  rw [← od, ← hper (-x)]; congr 1; ring

theorem IsCos.mul_sin {K : ℕ} {p : ℝ → ℝ} (hp : IsCos K p) : IsSin (K + 1) (fun θ => p θ * sin θ) := by
  have h1 : IsTrig 1 (fun θ => sin θ) := (isTrig_sin_nat (m := 1) le_rfl).congr fun θ => by simp
  exact (hp.isTrig.mul h1).isSin fun θ => by rw [hp.even, sin_neg]; ring

theorem H1_exact {m : ℕ} (hm : 0 < m) (hw : WeightsOk (2 * m) 0 (hh (2 * m))) (hacc : ¬ Rejects (2 * m) 0 (hh (2 * m)))
    {p : ℝ → ℝ} (hp : IsCos (m - 1) p) :
    H1 (tab m fun j => ∫ ξ in ((j : ℝ) * hh (2 * m))..((j + 1) * hh (2 * m)), p ξ * sin ξ)
      = .ok (tab m fun j => p (hh (2 * m) / 2 + j * hh (2 * m))) := by
  obtain ⟨c, hc⟩ := resC_of_isTrig (N := 2 * m) (by omega) hp.isTrig
  have hs := IsCos.mul_sin hp
  have e : mirror1 (tab m fun j => ∫ ξ in ((j : ℝ) * hh (2 * m))..((j + 1) * hh (2 * m)), p ξ * sin ξ) (-1)
      = tab (2 * m) fun j => ∫ ξ in ((j : ℝ) * hh (2 * m))..((j + 1) * hh (2 * m)), p ξ * sin ξ := by
    rw [mirror1_tab]
    refine tab_congr fun j hj => ?_
    split_ifs with h
    · rfl
    · have h2 := mul_hh (show 0 < 2 * m by omega)
      have e1 : (j : ℝ) * hh (2 * m) = 2 * π - (((2 * m - 1 - j : ℕ) : ℝ) + 1) * hh (2 * m) := by
        rw [show ((2 * m - 1 - j : ℕ) : ℝ) = (2 * m : ℕ) - 1 - j by
          rw [Nat.sub_sub, Nat.cast_sub (by omega)]; push_cast; ring]
        linear_combination h2
      have e2 : ((j : ℝ) + 1) * hh (2 * m) = 2 * π - ((2 * m - 1 - j : ℕ) : ℝ) * hh (2 * m) := by
        linear_combination e1
      rw [e2, e1, odd_integral hs.isTrig.periodic hs.odd]; ring
  have e2 : toC (tab (2 * m) fun j => ∫ ξ in ((j : ℝ) * hh (2 * m))..((j + 1) * hh (2 * m)), p ξ * sin ξ)
      = Finv (fourier_K (tab (2 * m) fun k => ((2 * m : ℕ) : ℂ) * c k) 0 (hh (2 * m))) := by
    rw [Finv_fourier_K (by omega), toC_tab]
    refine tab_congr fun j _ => ?_
    rw [integral_sin_ofReal hc]
    congr 2 <;> ring
  unfold H1
  simp only []
  rw [e, length_tab, e2, F_Finv, show 2 * π / ((2 * m : ℕ) : ℝ) = hh (2 * m) from rfl, fourier_K_inv_K (by omega) hw hacc]
  simp only []
  have e3 := F_samp hc (hh (2 * m) / 2)
  have e4 : fourier_S (tab (2 * m) fun k => ((2 * m : ℕ) : ℂ) * c k) (hh (2 * m) / 2) = F (toC (samp (2 * m) (hh (2 * m) / 2) p)) := by
    rw [fourier_S_tab, e3]; exact tab_congr fun k _ => by ring
  rw [e4, Finv_F]
  unfold samp
  rw [toC_tab, unmirror1_tab, re_tab]
  rfl

theorem H1_rejects {m : ℕ} (hrej : Rejects (2 * m) 0 (hh (2 * m))) (f : List ℝ) (hf : f.length = m) :
    H1 f = .error .valueError := by
  unfold H1
  have hl : (mirror1 f (-1)).length = 2 * m := by simp [mirror1, smul, hf]; omega
  simp only []
  rw [hl, show 2 * π / ((2 * m : ℕ) : ℝ) = hh (2 * m) from rfl,
    fourier_K_inv_rejects hrej _ (by rw [length_F, length_toC, hl])]

theorem lin_H0d {m : ℕ} (hm : 0 < m) : Lin m m H0d := by
  have h := (lin_re m).comp ((lin_unmirror1 (V := ℂ) m).comp ((lin_Finv (2 * m)).comp ((lin_fourier_K (N := 2 * m) (by omega) 0 (hh (2 * m))).comp
    ((lin_vmul (n := 2 * m) (S_diag (2 * m) (-(hh (2 * m) / 2))) (by simp [S_diag_tab])).comp
      ((lin_F (2 * m)).comp ((lin_toC (2 * m)).comp (lin_mirror1 m 1)))))))
  refine h.congr fun x hx => ?_
  have hl : (mirror1 x 1).length = 2 * m := by simp [mirror1, smul, hx]; omega
  unfold H0d
  simp only []
  rw [hl, neg_half]
  congr 5
  unfold fourier_S S_diag
  rw [length_F, length_toC, hl]

theorem H1_H0d {m : ℕ} (hm : 0 < m) (hw : WeightsOk (2 * m) 0 (hh (2 * m))) (hacc : ¬ Rejects (2 * m) 0 (hh (2 * m)))
    (x : List ℝ) (hx : x.length = m) : H1 (H0d x) = .ok x := by
  rw [eq_tab' hx 0]
  obtain ⟨p, hp, hv⟩ := exists_cos1 hm (fun i => x.getD i 0)
  have : (tab m fun i => x.getD i 0) = tab m fun j => p (hh (2 * m) / 2 + j * hh (2 * m)) :=
    tab_congr fun j hj => (hv j hj).symm
  rw [this, H0d_exact hm hp, H1_exact hm hw hacc hp]

theorem H0d_H1 {m : ℕ} (hm : 0 < m) (hw : WeightsOk (2 * m) 0 (hh (2 * m))) (hacc : ¬ Rejects (2 * m) 0 (hh (2 * m)))
    (y : List ℝ) (hy : y.length = m) : ∃ x, H1 y = .ok x ∧ x.length = m ∧ H0d x = y := by
  have hl : (mirror1 y (-1)).length = 2 * m := by simp [mirror1, smul, hy]; omega
  obtain ⟨z, hz, hzl, _⟩ := fourier_K_K_inv (N := 2 * m) (by omega) hw hacc (F (toC (mirror1 y (-1)))) (by simp [hl])
  have hok : H1 y = .ok (re (unmirror1 (Finv (fourier_S z (hh (2 * m) / 2))))) := by
    unfold H1
    simp only []
    rw [hl, show 2 * π / ((2 * m : ℕ) : ℝ) = hh (2 * m) from rfl, hz]
  have hlen : (re (unmirror1 (Finv (fourier_S z (hh (2 * m) / 2))))).length = m := by
    rw [eq_tab' hzl 0, fourier_S_tab, Finv_tab, unmirror1_tab, re_tab, length_tab]
  refine ⟨_, hok, hlen, ?_⟩
  have h := Lin.inverse (A := fun y => (H1 y).toOption.getD []) (lin_H0d hm) (fun x hx => by
    beta_reduce; rw [H1_H0d hm hw hacc x hx]; rfl) y hy
  beta_reduce at h
  rw [hok] at h
  exact h

end Dec.Chebyshev
