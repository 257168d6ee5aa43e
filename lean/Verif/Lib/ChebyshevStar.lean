import Verif.Lib.ChebyshevHodge

set_option linter.unusedSimpArgs false
set_option linter.unusedVariables false

/-! The primal Chebyshev Hodge star `H0` and its inverse `H1d`. -/

namespace Dec.Chebyshev

open Finset Real Dec.Sp Dec.Regular

theorem fold0_tab {R : Type*} [Ring R] {n : ℕ} (hn : 2 ≤ n) (g : ℕ → R) (s : R) :
    fold0 (tab (2 * n - 2) g) s
      = tab n (fun j => (if j < n - 1 then g j else 0) + s * (if j = 0 then 0 else g (2 * n - 2 - j))) := by
  have e : (2 * n - 2) / 2 = n - 1 := by omega
  unfold fold0
  rw [length_tab, e, take_tab, reverse_tab, take_tab, append_singleton_tab, List.singleton_append, cons_tab, smul_tab, vadd, zipWith_tab']
  refine tab_congr' (by omega) fun i hi => ?_
  have h1 : min (n - 1) (2 * n - 2) = n - 1 := by omega
  rw [h1]
  by_cases h0 : i = 0
  · simp [h0]
  · simp only [h0, if_false]
    congr 3
    omega

theorem lo_eq {n : ℕ} (h : ℝ) {j : ℕ} (hj : j ≠ 0) : lo h j = j * h - h / 2 := by
  unfold lo
  rw [if_neg hj]
  have : ((j - 1 : ℕ) : ℝ) = j - 1 := by rw [Nat.cast_sub (by omega)]; simp
  rw [this]; ring

theorem hi_eq {n : ℕ} (h : ℝ) {j : ℕ} (hj : j < n - 1) : hi n h j = j * h + h / 2 := by
  unfold hi; rw [if_pos hj]; ring

/-- The primal 0-form star integrates over the dual edges. -/
theorem H0_exact {n : ℕ} (hn : 2 ≤ n) {p : ℝ → ℝ} (hp : IsCos (n - 1) p) :
    H0 (tab n fun j => p (j * hh (2 * n - 2)))
      = tab n fun j => ∫ ξ in (lo (hh (2 * n - 2)) j)..(hi n (hh (2 * n - 2)) j), p ξ * sin ξ := by
  have hM : 0 < 2 * n - 2 := by omega
  have hs := IsCos.mul_sin hp
  obtain ⟨c, hc, hi'⟩ := res_of_cos0 hn hp
  have hF : F (toC (samp (2 * n - 2) 0 p)) = tab (2 * n - 2) (fun k => ((2 * n - 2 : ℕ) : ℂ) * c k) := by
    unfold samp
    rw [toC_tab, F_tab]
    exact tab_congr fun k hk => by rw [Res.coef hc hi' hk]
  have hre : ∀ a b : ℝ, (∫ ξ in a..b, synth (2 * n - 2) c ξ * ((sin ξ : ℝ) : ℂ)).re = ∫ ξ in a..b, p ξ * sin ξ := by
    intro a b
    have hcs := continuous_synth (2 * n - 2) c
    rw [re_integral (by fun_prop)]
    congr 1; funext ξ
    have := hc ξ
    rw [zero_add] at this
    rw [this, Complex.mul_re, Complex.ofReal_re, Complex.ofReal_im, mul_zero, sub_zero]
  unfold H0
  simp only []
  rw [mirror0_samp hn hp.isTrig.periodic hp.even, length_samp, hF, show 2 * π / ((2 * n - 2 : ℕ) : ℝ) = hh (2 * n - 2) from rfl,
    Finv_fourier_K hM, fold0_tab hn, re_tab]
  refine tab_congr fun j hj => ?_
  have hint : ∀ a b : ℝ, IntervalIntegrable (fun ξ => p ξ * sin ξ) MeasureTheory.volume a b :=
    fun a b => (hs.isTrig.continuous).intervalIntegrable _ _
  have e1 : (if j < n - 1 then ∫ ξ in (j * hh (2 * n - 2) + 0)..(j * hh (2 * n - 2) + hh (2 * n - 2) / 2), synth (2 * n - 2) c ξ * ((sin ξ : ℝ) : ℂ) else 0).re
      = ∫ ξ in (j * hh (2 * n - 2))..(hi n (hh (2 * n - 2)) j), p ξ * sin ξ := by
    split_ifs with h
    · rw [hre, hi_eq _ h, add_zero]
    · have hj' : j = n - 1 := by omega
      rw [hj', hi, if_neg (by omega), mul_hh_double hn]; simp
  have e2 : ((-1 : ℂ) * (if j = 0 then 0 else ∫ ξ in (((2 * n - 2 - j : ℕ) : ℝ) * hh (2 * n - 2) + 0)..(((2 * n - 2 - j : ℕ) : ℝ) * hh (2 * n - 2) + hh (2 * n - 2) / 2), synth (2 * n - 2) c ξ * ((sin ξ : ℝ) : ℂ))).re
      = ∫ ξ in (lo (hh (2 * n - 2)) j)..(j * hh (2 * n - 2)), p ξ * sin ξ := by
    split_ifs with h
    · simp [h, lo]
    · have hop : ((2 * n - 2 - j : ℕ) : ℝ) * hh (2 * n - 2) = 2 * π - j * hh (2 * n - 2) := by
        rcases Nat.lt_or_ge j (2 * n - 2) with h1 | h1
        · exact opp n hn j h1
        · have : j = 2 * n - 2 := by omega
          rw [this, Nat.sub_self, mul_hh hM]; simp
      rw [neg_one_mul, Complex.neg_re, hre, hop, add_zero, lo_eq (n := n) _ h,
        show 2 * π - (j : ℝ) * hh (2 * n - 2) + hh (2 * n - 2) / 2 = 2 * π - (j * hh (2 * n - 2) - hh (2 * n - 2) / 2) by ring,
        odd_integral hs.isTrig.periodic hs.odd, neg_neg]
  rw [Complex.add_re, e1, e2, add_comm, intervalIntegral.integral_add_adjacent_intervals (hint _ _) (hint _ _)]

theorem lin_fold0 {n : ℕ} (hn : 2 ≤ n) : Lin (2 * n - 2) n (fun x : List ℂ => fold0 x (-1)) := by
  refine Lin.of_tab _ (fun x => fold0_tab hn x (-1)) (fun x y i _ => ?_) (fun c x i _ => ?_)
  · beta_reduce
    split_ifs <;> ring
  · beta_reduce
    simp only [Complex.real_smul]
    split_ifs <;> ring

theorem lin_H0 {n : ℕ} (hn : 2 ≤ n) : Lin n n H0 := by
  have hM : 0 < 2 * n - 2 := by omega
  have h := (lin_re n).comp ((lin_fold0 hn).comp ((lin_Finv (2 * n - 2)).comp ((lin_fourier_K hM 0 (hh (2 * n - 2) / 2)).comp
      ((lin_F (2 * n - 2)).comp ((lin_toC (2 * n - 2)).comp (lin_mirror0 hn 1))))))
  refine h.congr fun x hx => ?_
  have hl : (mirror0 x 1).length = 2 * n - 2 := (lin_mirror0 hn 1).len x hx
  unfold H0
  simp only []
  rw [hl]; rfl

/-! ### The half edge function -/

/-- Twice the half-edge cosine polynomial without its highest term. -/
noncomputable def dsum (L : ℕ) (θ : ℝ) : ℝ := ∑ k ∈ range L, (cos (k * θ) + cos ((k + 1 : ℕ) * θ))

theorem dsum_sin (L : ℕ) (θ : ℝ) : dsum L θ * sin θ = sin (L * θ) * (1 + cos θ) := by
  induction L with
  | zero => simp [dsum]
  | succ L ih =>
    have : dsum (L + 1) θ = dsum L θ + (cos (L * θ) + cos ((L + 1 : ℕ) * θ)) := Finset.sum_range_succ _ _
    rw [this, add_mul, ih]
    push_cast
    rw [add_mul (L : ℝ), one_mul, sin_add, cos_add]
    linear_combination (-sin (L * θ)) * sin_sq_add_cos_sq θ

/-- The cosine polynomial with `dhat L · sin` equal to the boundary half-edge form. -/
noncomputable def dhat (L : ℕ) (θ : ℝ) : ℝ := L / 2 * dsum L θ + 1 / 2 * cos (L * θ)

theorem isCos_dhat (L : ℕ) : IsCos L (dhat L) := by
  refine IsCos.add (IsCos.const_mul (IsCos.sum _ fun k hk => ?_) _) ((isCos_cos le_rfl).const_mul _)
  rw [mem_range] at hk
  exact (isCos_cos (by omega)).add (isCos_cos (by omega))

theorem hasDerivAt_half (L : ℕ) (θ : ℝ) :
    HasDerivAt (fun θ => -(1 / 2) * ((1 + cos θ) * cos (L * θ))) (dhat L θ * sin θ) θ := by
  have h1 : HasDerivAt (fun θ : ℝ => cos (L * θ)) (-sin (L * θ) * L) θ := by
    have := (hasDerivAt_id θ).const_mul (L : ℝ)
    exact (this.cos).congr_deriv (by simp)
  have h2 : HasDerivAt (fun θ : ℝ => 1 + cos θ) (-sin θ) θ := (hasDerivAt_cos θ).const_add 1
  refine ((h2.mul h1).const_mul (-(1 / 2))).congr_deriv ?_
  unfold dhat
  linear_combination (-(L : ℝ) / 2) * dsum_sin L θ

theorem integral_dhat (L : ℕ) (a b : ℝ) :
    ∫ ξ in a..b, dhat L ξ * sin ξ = 1 / 2 * ((1 + cos a) * cos (L * a)) - 1 / 2 * ((1 + cos b) * cos (L * b)) := by
  have hc := (IsCos.mul_sin (isCos_dhat L)).isTrig.continuous
  rw [intervalIntegral.integral_eq_sub_of_hasDerivAt (fun x _ => hasDerivAt_half L x) (hc.intervalIntegrable _ _)]
  ring

section
variable {n : ℕ} (hn : 2 ≤ n)
include hn

theorem lo_zero_or {j : ℕ} (hj : j < n) : (j = 0 ∧ lo (hh (2 * n - 2)) j = 0) ∨ (0 < j ∧ cos ((n - 1 : ℕ) * lo (hh (2 * n - 2)) j) = 0) := by
  rcases Nat.eq_zero_or_pos j with h | h
  · left; exact ⟨h, by simp [h, lo]⟩
  · right
    refine ⟨h, ?_⟩
    have := cos_mid (m := n - 1) (by omega) (j - 1)
    rw [show 2 * (n - 1) = 2 * n - 2 by omega] at this
    rw [lo, if_neg (by omega)]
    rw [show ((j - 1 : ℕ) + 1 / 2 : ℝ) * hh (2 * n - 2) = hh (2 * n - 2) / 2 + (j - 1 : ℕ) * hh (2 * n - 2) by ring]
    exact this

theorem hi_pi_or {j : ℕ} (hj : j < n) : (j = n - 1 ∧ hi n (hh (2 * n - 2)) j = π) ∨ (j < n - 1 ∧ cos ((n - 1 : ℕ) * hi n (hh (2 * n - 2)) j) = 0) := by
  rcases Nat.lt_or_ge j (n - 1) with h | h
  · right
    refine ⟨h, ?_⟩
    have := cos_mid (m := n - 1) (by omega) j
    rw [show 2 * (n - 1) = 2 * n - 2 by omega] at this
    rw [hi_eq _ h, add_comm]
    exact this
  · left; exact ⟨by omega, by rw [hi, if_neg (by omega)]⟩

theorem dhat_integral {j : ℕ} (hj : j < n) :
    ∫ ξ in (lo (hh (2 * n - 2)) j)..(hi n (hh (2 * n - 2)) j), dhat (n - 1) ξ * sin ξ = if j = 0 then 1 else 0 := by
  rw [integral_dhat]
  have e2 : (1 + cos (hi n (hh (2 * n - 2)) j)) * cos ((n - 1 : ℕ) * hi n (hh (2 * n - 2)) j) = 0 := by
    rcases hi_pi_or hn hj with ⟨_, h⟩ | ⟨_, h⟩
    · rw [h]; simp
    · rw [h, mul_zero]
  rw [e2]
  rcases lo_zero_or hn hj with ⟨h0, h⟩ | ⟨h0, h⟩
  · rw [h, if_pos h0]; norm_num
  · rw [h, if_neg (by omega)]; norm_num

theorem lo_flip {j : ℕ} (hj : j < n) : π - lo (hh (2 * n - 2)) j = hi n (hh (2 * n - 2)) (n - 1 - j) := by
  have := mul_hh_double hn
  rcases Nat.eq_zero_or_pos j with h | h
  · rw [h, hi, if_neg (by omega)]; simp [lo]
  · rw [hi_eq _ (by omega), lo_eq (n := n) _ (by omega), Nat.cast_sub (by omega)]
    linear_combination -this

theorem hi_flip {j : ℕ} (hj : j < n) : π - hi n (hh (2 * n - 2)) j = lo (hh (2 * n - 2)) (n - 1 - j) := by
  have := lo_flip hn (j := n - 1 - j) (by omega)
  rw [show n - 1 - (n - 1 - j) = j by omega] at this
  rw [← this]; ring

theorem dhat_integral_flip {j : ℕ} (hj : j < n) :
    ∫ ξ in (lo (hh (2 * n - 2)) j)..(hi n (hh (2 * n - 2)) j), dhat (n - 1) (π - ξ) * sin ξ = if j = n - 1 then 1 else 0 := by
  have h := intervalIntegral.integral_comp_sub_left (a := lo (hh (2 * n - 2)) j) (b := hi n (hh (2 * n - 2)) j)
    (fun ξ => dhat (n - 1) ξ * sin ξ) π
  simp only [sin_pi_sub] at h
  rw [h, lo_flip hn hj, hi_flip hn hj, dhat_integral hn (by omega)]
  congr 1
  exact propext ⟨fun _ => by omega, fun _ => by omega⟩

omit hn in
theorem isCos_dhat_flip : IsCos (n - 1) (fun θ => dhat (n - 1) (π - θ)) := by
  have h := isCos_dhat (n - 1)
  have h1 := (h.isTrig.comp_add π).comp_neg
  refine IsTrig.isCos (h1.congr fun θ => by congr 1; ring) fun θ => ?_
  rw [← h.even, ← h.isTrig.periodic]
  congr 1; ring

theorem dhat_node {j : ℕ} (hj : j < n) :
    dhat (n - 1) (j * hh (2 * n - 2)) = (if j % 2 = 1 then (1 / 2 : ℝ) + -1 else 1 / 2) + if j = 0 then ((n : ℝ) - 1) ^ 2 else 0 := by
  have hp := mul_hh_double hn
  have hc : cos ((n - 1 : ℕ) * (j * hh (2 * n - 2))) = (-1) ^ j := by
    rw [show ((n - 1 : ℕ) : ℝ) * (j * hh (2 * n - 2)) = j * π by rw [← hp]; ring, cos_nat_mul_pi]
  have hd : dsum (n - 1) (j * hh (2 * n - 2)) = if j = 0 then 2 * ((n : ℝ) - 1) else 0 := by
    split_ifs with h0
    · rw [h0]; unfold dsum
      simp
      rw [Nat.cast_sub (by omega)]; push_cast; ring
    · by_cases h1 : j = n - 1
      · rw [h1, hp]
        unfold dsum
        apply Finset.sum_eq_zero
        intro k _
        rw [cos_nat_mul_pi, cos_nat_mul_pi, pow_succ]; ring
      · have h2 := dsum_sin (n - 1) (j * hh (2 * n - 2))
        have h3 : sin (((n - 1 : ℕ) : ℝ) * (j * hh (2 * n - 2))) = 0 := by
          rw [show ((n - 1 : ℕ) : ℝ) * (j * hh (2 * n - 2)) = j * π by rw [← hp]; ring, sin_nat_mul_pi]
        rw [h3, zero_mul] at h2
        have hpos := hh_pos (show 0 < 2 * n - 2 by omega)
        have h4 : sin (j * hh (2 * n - 2)) ≠ 0 := by
          apply ne_of_gt
          apply sin_pos_of_pos_of_lt_pi
          · have : (0 : ℝ) < j := by exact_mod_cast Nat.pos_of_ne_zero h0
            positivity
          · rw [← hp]
            have : (j : ℝ) < (n - 1 : ℕ) := by exact_mod_cast (by omega : j < n - 1)
            exact mul_lt_mul_of_pos_right this hpos
        exact (mul_eq_zero.1 h2).resolve_right h4
  unfold dhat
  rw [hd, hc]
  have hn1 : ((n - 1 : ℕ) : ℝ) = n - 1 := by rw [Nat.cast_sub (by omega)]; simp
  rw [hn1]
  rcases Nat.even_or_odd j with he | ho
  · rw [if_neg (c := j % 2 = 1) (by have := Nat.even_iff.1 he; omega), he.neg_one_pow]
    split_ifs <;> ring
  · rw [if_pos (c := j % 2 = 1) (Nat.odd_iff.1 ho), ho.neg_one_pow]
    have : j ≠ 0 := by rintro rfl; simp at ho
    rw [if_neg this, if_neg this]; ring

end

theorem half_edge_base_tab {n : ℕ} (hn : 2 ≤ n) :
    (half_edge_base n : List ℂ) = tab n (fun j => ((dhat (n - 1) (j * hh (2 * n - 2)) : ℝ) : ℂ)) := by
  unfold half_edge_base
  rw [Periodic.modify_zero_tab]
  refine tab_congr fun j hj => ?_
  rw [dhat_node hn hj]
  by_cases h0 : j = 0
  · simp [h0]
  · simp only [h0, if_false, add_zero]
    split_ifs <;> push_cast <;> rfl

theorem matC_tab {n : ℕ} (hn : 2 ≤ n) (x : ℕ → ℝ) :
    matC (tab n x) = tab n (fun j => if j = 0 ∨ j = n - 1 then 0 else x j) := by
  unfold matC
  rw [tail_tab, dropLast_tab, List.singleton_append, cons_tab, append_singleton_tab]
  refine tab_congr' (by omega) fun i hi => ?_
  by_cases h0 : i = 0
  · simp [h0]
  · by_cases h1 : i = n - 1
    · rw [if_neg (by omega)]; simp [h1]
    · rw [if_pos (by omega), if_neg h0, if_neg (by omega)]
      congr 1; omega

theorem mirror0_odd {n : ℕ} (hn : 2 ≤ n) {s : ℝ → ℝ} (hper : Function.Periodic s (2 * π)) (od : ∀ θ, s (-θ) = -s θ) :
    mirror0 (tab n fun j => s (j * hh (2 * n - 2))) (-1) = samp (2 * n - 2) 0 s := by
  rw [mirror0_tab hn]
  unfold samp
  refine tab_congr fun j hj => ?_
  rw [zero_add]
  split_ifs with h
  · rfl
  · rw [opp n hn j hj, show 2 * π - (j : ℝ) * hh (2 * n - 2) = -(j * hh (2 * n - 2)) + 2 * π by ring, hper, od]; ring

theorem sin_mid_ne {n : ℕ} (hn : 2 ≤ n) (j : ℕ) : sin (((j : ℝ) + 1 / 2) * hh (2 * n - 2)) ≠ 0 := by
  intro h
  rw [sin_eq_zero_iff] at h
  obtain ⟨k, hk⟩ := h
  have h1 := mul_hh_double hn
  have hpos := hh_pos (show 0 < 2 * n - 2 by omega)
  have h2 : ((k : ℝ) * (n - 1 : ℕ)) * hh (2 * n - 2) = (j + 1 / 2) * hh (2 * n - 2) := by
    rw [← hk, ← h1]; ring
  have h3 := mul_right_cancel₀ hpos.ne' h2
  have h4 : ((2 * (k * ((n - 1 : ℕ) : ℤ)) : ℤ) : ℝ) = ((2 * j + 1 : ℤ) : ℝ) := by push_cast; linarith
  have h5 : 2 * (k * ((n - 1 : ℕ) : ℤ)) = 2 * (j : ℤ) + 1 := by exact_mod_cast h4
  omega

/-- `H1d` in terms of the sine polynomial with the given inner cell integrals. -/
theorem H1d_spec' {n : ℕ} (hn : 2 ≤ n) (x : ℕ → ℝ) :
    ∃ w, IsCos (n - 1) w ∧ vadd (midpoints (hh (2 * n - 2)) (tab n x)) (endpoints (hh (2 * n - 2)) (tab n x)) = toC (tab n fun j => w (j * hh (2 * n - 2))) ∧
      ∀ j < n, ∫ ξ in (lo (hh (2 * n - 2)) j)..(hi n (hh (2 * n - 2)) j), w ξ * sin ξ = x j := by
  have hM : 0 < 2 * n - 2 := by omega
  obtain ⟨s, hs, hsv⟩ := exists_sin0 hn (fun j => if j = 0 ∨ j = n - 1 then 0 else x j) (by simp) (by simp)
  obtain ⟨u, hu, hui⟩ := exists_sin_integral (N := 2 * n - 2) (by omega) hs
  obtain ⟨v, hv, huv⟩ := hu.div
  have hru := resC_of_isTrig (N := 2 * n - 2) (by omega) hu.isTrig
  have hrv := resC_of_isTrig (N := 2 * n - 2) (by omega) hv.isTrig
  have hp := mul_hh_double hn
  -- the mirrored inner values, and their inverse cell integrals
  have e0 : mirror0 (matC (tab n x)) (-1) = samp (2 * n - 2) 0 s := by
    rw [matC_tab hn, ← mirror0_odd hn hs.isTrig.periodic hs.odd]
    exact congrArg (fun l => mirror0 l (-1)) (tab_congr fun j hj => (hsv j hj).symm)
  have e1 : I_space_inv (-hh (2 * n - 2) / 2) (hh (2 * n - 2) / 2) (toC (samp (2 * n - 2) 0 s)) = toC (samp (2 * n - 2) 0 u) := by
    have := I_space_inv_real (samp (2 * n - 2) 0 s)
    rw [length_samp] at this
    have h' : I_space_inv (-hh (2 * n - 2) / 2) (hh (2 * n - 2) / 2) (toC (samp (2 * n - 2) 0 s)) = toC (Hinv (samp (2 * n - 2) 0 s)) := this
    have h2 : samp (2 * n - 2) 0 s
        = tab (2 * n - 2) (fun j => ∫ ξ in (0 + j * hh (2 * n - 2) - hh (2 * n - 2) / 2)..(0 + j * hh (2 * n - 2) + hh (2 * n - 2) / 2), u ξ) :=
      tab_congr fun j _ => (hui _).symm
    rw [h', h2, (hru.res 0).Hinv]
  have emid : midpoints (hh (2 * n - 2)) (tab n x) = toC (tab n fun j => v (j * hh (2 * n - 2))) := by
    unfold midpoints
    simp only []
    rw [e0, e1, hru.T_space, length_toC, length_samp]
    have e2 : vdiv (toC (samp (2 * n - 2) (0 + hh (2 * n - 2) / 2) u)) (toC (Omega_d (2 * n - 2))) = toC (samp (2 * n - 2) (0 + hh (2 * n - 2) / 2) v) := by
      rw [toC_vdiv]
      unfold samp Omega_d
      rw [vdiv_tab]
      refine congrArg toC (tab_congr fun j _ => ?_)
      have := sin_mid_ne hn j
      rw [huv, show 0 + hh (2 * n - 2) / 2 + (j : ℝ) * hh (2 * n - 2) = (j + 1 / 2) * hh (2 * n - 2) by ring]
      exact mul_div_cancel_right₀ _ this
    rw [e2, show -hh (2 * n - 2) / 2 = -(hh (2 * n - 2) / 2) by ring, hrv.T_space]
    unfold samp
    rw [toC_unmirror0, unmirror0_tab hn]
    exact congrArg toC (tab_congr fun j _ => congrArg v (by ring))
  set A : ℝ := x 0 - ∫ ξ in (0 : ℝ)..(hh (2 * n - 2) / 2), u ξ with hA
  set B : ℝ := x (n - 1) - ∫ ξ in (π - hh (2 * n - 2) / 2)..π, u ξ with hB
  have eend : endpoints (hh (2 * n - 2)) (tab n x)
      = toC (tab n fun j => A * dhat (n - 1) (j * hh (2 * n - 2)) + B * dhat (n - 1) (π - j * hh (2 * n - 2))) := by
    unfold endpoints
    simp only []
    rw [e0, e1, hru.I_space, hru.I_space, toC_unmirror0, toC_unmirror0, unmirror0_tab hn, unmirror0_tab hn]
    simp only [toC_tab, vsub_tab]
    unfold matB matB1
    rw [length_tab, length_tab, getD_tab (by omega), getD_tab (by omega), half_edge_base_tab hn, reverse_tab, map_tab, map_tab, vadd_tab]
    refine tab_congr fun j hj => ?_
    have hflip : ((n - 1 - j : ℕ) : ℝ) * hh (2 * n - 2) = π - j * hh (2 * n - 2) := by
      rw [Nat.cast_sub (by omega)]; linear_combination hp
    rw [hflip, hA, hB]
    simp only [Nat.cast_zero, zero_mul, add_zero, zero_add, hp]
    rw [show π + -hh (2 * n - 2) / 2 = π - hh (2 * n - 2) / 2 by ring]
    push_cast
    ring
  refine ⟨fun θ => v θ + (A * dhat (n - 1) θ + B * dhat (n - 1) (π - θ)), ?_, ?_, ?_⟩
  · exact (hv.mono (by omega)).add (((isCos_dhat _).const_mul _).add (isCos_dhat_flip.const_mul _))
  · rw [emid, eend, toC_tab, toC_tab, toC_tab, vadd_tab]
    exact tab_congr fun j _ => by simp
  · intro j hj
    have hcu := hu.isTrig.continuous
    have hcd := (IsCos.mul_sin (isCos_dhat (n - 1))).isTrig.continuous
    have hcf := (IsCos.mul_sin (isCos_dhat_flip (n := n))).isTrig.continuous
    have e : ∀ ξ, (v ξ + (A * dhat (n - 1) ξ + B * dhat (n - 1) (π - ξ))) * sin ξ
        = u ξ + (A * (dhat (n - 1) ξ * sin ξ) + B * (dhat (n - 1) (π - ξ) * sin ξ)) := fun ξ => by rw [huv]; ring
    simp only [e]
    rw [intervalIntegral.integral_add (hcu.intervalIntegrable _ _) (by
        refine IntervalIntegrable.add ?_ ?_
        · exact (hcd.intervalIntegrable _ _).const_mul A
        · exact (hcf.intervalIntegrable _ _).const_mul B),
      intervalIntegral.integral_add ((hcd.intervalIntegrable _ _).const_mul A) ((hcf.intervalIntegrable _ _).const_mul B),
      intervalIntegral.integral_const_mul, intervalIntegral.integral_const_mul, dhat_integral hn hj, dhat_integral_flip hn hj]
    by_cases h0 : j = 0
    · have h1 : j ≠ n - 1 := by omega
      rw [if_pos h0, if_neg h1, h0, hi_eq _ (by omega)]
      simp [lo, hA]
    · by_cases h1 : j = n - 1
      · rw [if_neg h0, if_pos h1, lo_eq (n := n) _ h0, h1, hi, if_neg (by omega), hp]
        simp [hB]
      · rw [if_neg h0, if_neg h1, lo_eq (n := n) _ h0, hi_eq _ (by omega), hui, hsv j hj, if_neg (by omega)]
        ring

theorem H1d_spec {n : ℕ} (hn : 2 ≤ n) (x : ℕ → ℝ) :
    ∃ w, IsCos (n - 1) w ∧ H1d (tab n x) = (tab n fun j => w (j * hh (2 * n - 2))) ∧
      ∀ j < n, ∫ ξ in (lo (hh (2 * n - 2)) j)..(hi n (hh (2 * n - 2)) j), w ξ * sin ξ = x j := by
  have hh2 : π / (((tab n x).length : ℝ) - 1) = hh (2 * n - 2) := by
    rw [length_tab, hh_double hn, Nat.cast_sub (by omega)]; simp
  obtain ⟨w, h1, h2, h3⟩ := H1d_spec' hn x
  refine ⟨w, h1, ?_, h3⟩
  unfold H1d
  simp only []
  rw [hh2, h2, toC_tab, re_tab]
  exact tab_congr fun j _ => by simp

theorem length_H1d {n : ℕ} (hn : 2 ≤ n) (x : List ℝ) (hx : x.length = n) : (H1d x).length = n := by
  rw [eq_tab' hx 0]
  obtain ⟨w, _, h, _⟩ := H1d_spec hn (fun i => x.getD i 0)
  rw [h, length_tab]

theorem H0_H1d {n : ℕ} (hn : 2 ≤ n) (x : List ℝ) (hx : x.length = n) : H0 (H1d x) = x := by
  rw [eq_tab' hx 0]
  obtain ⟨w, hw, h, hi⟩ := H1d_spec hn (fun i => x.getD i 0)
  rw [h, H0_exact hn hw]
  exact tab_congr fun j hj => hi j hj

theorem H1d_H0 {n : ℕ} (hn : 2 ≤ n) (x : List ℝ) (hx : x.length = n) : H1d (H0 x) = x :=
  Lin.inverse' (lin_H0 hn) (length_H1d hn) (H0_H1d hn) x hx

theorem H1d_exact {n : ℕ} (hn : 2 ≤ n) {p : ℝ → ℝ} (hp : IsCos (n - 1) p) :
    H1d (tab n fun j => ∫ ξ in (lo (hh (2 * n - 2)) j)..(hi n (hh (2 * n - 2)) j), p ξ * sin ξ)
      = tab n fun j => p (j * hh (2 * n - 2)) := by
  rw [← H0_exact hn hp, H1d_H0 hn _ (by simp)]

end Dec.Chebyshev
