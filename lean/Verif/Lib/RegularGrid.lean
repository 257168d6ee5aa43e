import Verif.Lib.LinOps
import Verif.Lib.IntervalGrid

set_option linter.unusedSimpArgs false
set_option linter.unusedVariables false

/-! The Hodge stars of the regular grid. -/

namespace Dec.Sp

open Finset Real

theorem A_diag_tab {R : Type*} [Field R] {n : ℕ} (hn : 2 ≤ n) :
    (A_diag n : List R) = tab n (fun i => if i = 0 ∨ i = n - 1 then 1 / 2 else 1) := by
  unfold A_diag
  rw [replicate_tab, List.singleton_append, cons_tab, append_singleton_tab]
  refine tab_congr' (by omega) fun i hi => ?_
  by_cases h0 : i = 0
  · simp [h0]
  · by_cases h1 : i < n - 2 + 1
    · rw [if_pos h1, if_neg h0, if_neg (by omega)]
    · rw [if_neg h1, if_pos (by omega)]

/-- The step `h = 2π/M` of the doubled grid. -/
theorem hh_double {n : ℕ} (hn : 2 ≤ n) : hh (2 * n - 2) = π / ((n - 1 : ℕ) : ℝ) := by
  unfold hh
  have : ((2 * n - 2 : ℕ) : ℝ) = 2 * ((n - 1 : ℕ) : ℝ) := by exact_mod_cast (by omega : 2 * n - 2 = 2 * (n - 1))
  rw [this]
  have : ((n - 1 : ℕ) : ℝ) ≠ 0 := by exact_mod_cast (by omega : n - 1 ≠ 0)
  field_simp

theorem mul_hh_double {n : ℕ} (hn : 2 ≤ n) : ((n - 1 : ℕ) : ℝ) * hh (2 * n - 2) = π := by
  rw [hh_double hn]
  have : ((n - 1 : ℕ) : ℝ) ≠ 0 := by exact_mod_cast (by omega : n - 1 ≠ 0)
  field_simp

/-- The moving average of an even function is even. -/
theorem even_avg {p : ℝ → ℝ} (ev : ∀ θ, p (-θ) = p θ) (c θ : ℝ) :
    ∫ ξ in (-θ - c)..(-θ + c), p ξ = ∫ ξ in (θ - c)..(θ + c), p ξ := by
  have := intervalIntegral.integral_comp_neg (f := p) (a := θ - c) (b := θ + c)
  simp only [ev] at this
  rw [this]; congr 1 <;> ring

theorem periodic_avg {p : ℝ → ℝ} (hp : Function.Periodic p (2 * π)) (c : ℝ) :
    Function.Periodic (fun θ => ∫ ξ in (θ - c)..(θ + c), p ξ) (2 * π) := by
  intro θ
  have := intervalIntegral.integral_comp_add_right (f := p) (a := θ - c) (b := θ + c) (2 * π)
  simp only [hp _] at this
  beta_reduce
  rw [this]; congr 1 <;> ring

theorem even_half {p : ℝ → ℝ} (hc : Continuous p) (ev : ∀ θ, p (-θ) = p θ) (c : ℝ) :
    ∫ ξ in (-c)..c, p ξ = 2 * ∫ ξ in (0 : ℝ)..c, p ξ := by
  have := intervalIntegral.integral_comp_neg (f := p) (a := 0) (b := c)
  simp only [ev, neg_zero] at this
  rw [← intervalIntegral.integral_add_adjacent_intervals (hc.intervalIntegrable (-c) 0) (hc.intervalIntegrable 0 c), ← this]
  ring

/-- An even `2π`-periodic function is even about `π`. -/
theorem even_pi {p : ℝ → ℝ} (hp : Function.Periodic p (2 * π)) (ev : ∀ θ, p (-θ) = p θ) (θ : ℝ) : p (2 * π - θ) = p θ := by
  have := hp (-θ)
  rw [← ev θ, ← this]; congr 1; ring

theorem even_half_pi {p : ℝ → ℝ} (hc : Continuous p) (hp : Function.Periodic p (2 * π)) (ev : ∀ θ, p (-θ) = p θ) (c : ℝ) :
    ∫ ξ in (π - c)..(π + c), p ξ = 2 * ∫ ξ in (π - c)..π, p ξ := by
  have := intervalIntegral.integral_comp_sub_left (f := p) (a := π - c) (b := π) (2 * π)
  simp only [even_pi hp ev] at this
  rw [← intervalIntegral.integral_add_adjacent_intervals (hc.intervalIntegrable (π - c) π) (hc.intervalIntegrable π (π + c)), this]
  rw [show 2 * π - π = π by ring, show 2 * π - (π - c) = π + c by ring]; ring

end Dec.Sp

namespace Dec.Regular

open Finset Real Dec.Sp

/-- `H0` on real arrays. -/
noncomputable def rH0 (f : List ℝ) : List ℝ :=
  vmul (unmirror0 (Hs (mirror0 f 1))) (A_diag (unmirror0 (Hs (mirror0 f 1))).length)
noncomputable def rH1d (f : List ℝ) : List ℝ := unmirror0 (Hinv (mirror0 (vdiv f (A_diag f.length)) 1))
noncomputable def rH0d (f : List ℝ) : List ℝ := unmirror1 (Hs (mirror1 f 1))
noncomputable def rH1 (f : List ℝ) : List ℝ := unmirror1 (Hinv (mirror1 f 1))

theorem toC_A_diag (n : ℕ) : (A_diag n : List ℂ) = toC (A_diag n) := by
  unfold A_diag toC; simp

theorem toC_vmul (x y : List ℝ) : vmul (toC x) (toC y) = toC (vmul x y) := by
  unfold vmul toC
  rw [List.zipWith_map, List.map_zipWith]; simp

theorem toC_vdiv (x y : List ℝ) : vdiv (toC x) (toC y) = toC (vdiv x y) := by
  unfold vdiv toC
  rw [List.zipWith_map, List.map_zipWith]; simp

theorem H0_real (f : List ℝ) : H0 (toC f) = toC (rH0 f) := by
  unfold H0 rH0
  simp only
  rw [show (1 : ℂ) = ((1 : ℝ) : ℂ) by norm_num, toC_mirror0, length_toC, I_space_real, toC_unmirror0, length_toC, toC_A_diag, toC_vmul]

theorem H1d_real (f : List ℝ) : H1d (toC f) = toC (rH1d f) := by
  unfold H1d rH1d
  simp only
  rw [length_toC, toC_A_diag, toC_vdiv, show (1 : ℂ) = ((1 : ℝ) : ℂ) by norm_num, toC_mirror0, length_toC, I_space_inv_real, toC_unmirror0]

theorem H0d_real (f : List ℝ) : H0d (toC f) = toC (rH0d f) := by
  unfold H0d rH0d
  simp only
  rw [show (1 : ℂ) = ((1 : ℝ) : ℂ) by norm_num, toC_mirror1, length_toC, I_space_real, toC_unmirror1]

theorem H1_real (f : List ℝ) : H1 (toC f) = toC (rH1 f) := by
  unfold H1 rH1
  simp only
  rw [show (1 : ℂ) = ((1 : ℝ) : ℂ) by norm_num, toC_mirror1, length_toC, I_space_inv_real, toC_unmirror1]

variable {n : ℕ}

/-- Start and end of the dual edge `j` of the doubled grid. -/
noncomputable def lo (h : ℝ) (j : ℕ) : ℝ := if j = 0 then 0 else ((j - 1 : ℕ) + 1 / 2 : ℝ) * h
noncomputable def hi (n : ℕ) (h : ℝ) (j : ℕ) : ℝ := if j < n - 1 then (j + 1 / 2 : ℝ) * h else π

/-- The half weights make the edges end at the boundary. -/
theorem half_edges (hn : 2 ≤ n) {p : ℝ → ℝ} (hc : Continuous p) (hper : Function.Periodic p (2 * π)) (ev : ∀ θ, p (-θ) = p θ)
    {j : ℕ} (hj : j < n) :
    (∫ ξ in (j * hh (2 * n - 2) - hh (2 * n - 2) / 2)..(j * hh (2 * n - 2) + hh (2 * n - 2) / 2), p ξ)
      * (if j = 0 ∨ j = n - 1 then 1 / 2 else 1) = ∫ ξ in (lo (hh (2 * n - 2)) j)..(hi n (hh (2 * n - 2)) j), p ξ := by
  set h := hh (2 * n - 2)
  have hpi : ((n - 1 : ℕ) : ℝ) * h = π := mul_hh_double hn
  unfold lo hi
  by_cases h0 : j = 0
  · subst h0
    rw [if_pos (Or.inl rfl), if_pos rfl, if_pos (by omega)]
    simp only [Nat.cast_zero, zero_mul, zero_sub, zero_add]
    rw [even_half hc ev, show (1 / 2 : ℝ) * h = h / 2 by ring]; ring
  · have hj1 : ((j - 1 : ℕ) : ℝ) = j - 1 := by rw [Nat.cast_sub (by omega)]; simp
    by_cases h1 : j = n - 1
    · rw [if_pos (Or.inr h1), if_neg h0, if_neg (by omega), hj1, h1, hpi, even_half_pi hc hper ev]
      rw [show (((n - 1 : ℕ) : ℝ) - 1 + 1 / 2) * h = π - h / 2 by rw [← hpi]; ring]; ring
    · rw [if_neg (by omega), if_neg h0, if_pos (by omega), hj1, mul_one]
      congr 1 <;> ring

theorem rH0_exact (hn : 2 ≤ n) {p : ℝ → ℝ} (hp : Res (2 * n - 2) 0 p) (ev : ∀ θ, p (-θ) = p θ) :
    rH0 (tab n fun j => p (j * hh (2 * n - 2))) = tab n (fun j => ∫ ξ in (lo (hh (2 * n - 2)) j)..(hi n (hh (2 * n - 2)) j), p ξ) := by
  unfold rH0
  rw [mirror0_samp hn hp.periodic ev, hp.Hs, unmirror0_tab hn, length_tab, A_diag_tab hn, vmul_tab]
  refine tab_congr fun j hj => ?_
  rw [← half_edges hn hp.continuous hp.periodic ev hj]; simp only [zero_add]

theorem rH1d_exact (hn : 2 ≤ n) {p : ℝ → ℝ} (hp : Res (2 * n - 2) 0 p) (ev : ∀ θ, p (-θ) = p θ) :
    rH1d (tab n (fun j => ∫ ξ in (lo (hh (2 * n - 2)) j)..(hi n (hh (2 * n - 2)) j), p ξ)) = tab n fun j => p (j * hh (2 * n - 2)) := by
  unfold rH1d
  rw [length_tab, A_diag_tab hn, vdiv_tab]
  have e : tab n (fun i => (∫ ξ in (lo (hh (2 * n - 2)) i)..(hi n (hh (2 * n - 2)) i), p ξ) / (if i = 0 ∨ i = n - 1 then 1 / 2 else 1))
      = tab n (fun j => (fun θ => ∫ ξ in (θ - hh (2 * n - 2) / 2)..(θ + hh (2 * n - 2) / 2), p ξ) (j * hh (2 * n - 2))) := by
    refine tab_congr fun j hj => ?_
    rw [← half_edges hn hp.continuous hp.periodic ev hj]
    rw [mul_div_assoc, div_self, mul_one]
    split_ifs <;> norm_num
  rw [e, mirror0_samp hn (periodic_avg hp.periodic _) (even_avg ev _)]
  have := hp.Hinv
  unfold samp at this ⊢
  simp only at this ⊢
  rw [this, unmirror0_tab hn]
  simp

theorem rH0d_exact {m : ℕ} (hm : 0 < m) {p : ℝ → ℝ} (hp : Res (2 * m) (hh (2 * m) / 2) p) (ev : ∀ θ, p (-θ) = p θ) :
    rH0d (tab m fun j => p (hh (2 * m) / 2 + j * hh (2 * m))) = tab m (fun j => ∫ ξ in (j * hh (2 * m))..((j + 1) * hh (2 * m)), p ξ) := by
  unfold rH0d
  rw [mirror1_samp hm hp.periodic ev, hp.Hs, unmirror1_tab]
  exact tab_congr fun j _ => by congr 1 <;> ring

theorem rH1_exact {m : ℕ} (hm : 0 < m) {p : ℝ → ℝ} (hp : Res (2 * m) (hh (2 * m) / 2) p) (ev : ∀ θ, p (-θ) = p θ) :
    rH1 (tab m (fun j => ∫ ξ in (j * hh (2 * m))..((j + 1) * hh (2 * m)), p ξ)) = tab m fun j => p (hh (2 * m) / 2 + j * hh (2 * m)) := by
  unfold rH1
  have e : tab m (fun j : ℕ => ∫ ξ in (j * hh (2 * m))..((j + 1) * hh (2 * m)), p ξ)
      = tab m (fun j => (fun θ => ∫ ξ in (θ - hh (2 * m) / 2)..(θ + hh (2 * m) / 2), p ξ) (hh (2 * m) / 2 + j * hh (2 * m))) :=
    tab_congr fun j _ => by beta_reduce; congr 1 <;> ring
  rw [e, mirror1_samp hm (periodic_avg hp.periodic _) (even_avg ev _)]
  have := hp.Hinv
  unfold samp at this ⊢
  simp only at this ⊢
  rw [this, unmirror1_tab]

theorem lin_rH0 (hn : 2 ≤ n) : Lin n n rH0 := by
  refine ((lin_vmul_real (A_diag n) (by rw [A_diag_tab hn]; simp)).comp ((lin_unmirror0 hn).comp ((lin_Hs _).comp (lin_mirror0 hn 1)))).congr fun x hx => ?_
  have l := (((lin_unmirror0 hn).comp ((lin_Hs _).comp (lin_mirror0 hn 1)))).len x hx
  unfold rH0; rw [l]

theorem lin_rH0d (m : ℕ) : Lin m m rH0d :=
  (lin_unmirror1 m).comp ((lin_Hs _).comp (lin_mirror1 m 1))

theorem rH1d_rH0 (hn : 2 ≤ n) (x : List ℝ) (hx : x.length = n) : rH1d (rH0 x) = x := by
  rw [eq_tab' hx 0]
  obtain ⟨p, hp, ev, hv, _⟩ := exists_even0 hn (fun i => x.getD i 0)
  rw [← tab_congr hv, rH0_exact hn hp ev, rH1d_exact hn hp ev]

theorem rH0_rH1d (hn : 2 ≤ n) (x : List ℝ) (hx : x.length = n) : rH0 (rH1d x) = x :=
  (lin_rH0 hn).inverse (fun x hx => rH1d_rH0 hn x hx) x hx

theorem rH1_rH0d {m : ℕ} (hm : 0 < m) (x : List ℝ) (hx : x.length = m) : rH1 (rH0d x) = x := by
  rw [eq_tab' hx 0]
  obtain ⟨p, hp, ev, hv, _⟩ := exists_even1 hm (fun i => x.getD i 0)
  rw [← tab_congr hv, rH0d_exact hm hp ev, rH1_exact hm hp ev]

theorem rH0d_rH1 {m : ℕ} (hm : 0 < m) (x : List ℝ) (hx : x.length = m) : rH0d (rH1 x) = x :=
  (lin_rH0d m).inverse (fun x hx => rH1_rH0d hm x hx) x hx

end Dec.Regular
