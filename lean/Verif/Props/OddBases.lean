import Verif.Props.BasisDerivative
import Verif.Props.Figures

set_option linter.unusedSimpArgs false
set_option linter.unusedVariables false

/-! # C120: the antisymmetric 1-forms of `doc/bases.rst` -/

namespace Dec.Props

open Finset Real G2 Sp

namespace Odd

/-- The midpoint of the edge `i` of the default regular grid with `N` vertices: its dual vertex `i`. -/
noncomputable def mid (N i : ℕ) : ℝ := (i + 1 / 2) * (π / ((N - 1 : ℕ) : ℝ))

/-- The left end of the edge `i`. -/
noncomputable def left (N i : ℕ) : ℝ := i * (π / ((N - 1 : ℕ) : ℝ))

/-- The star that a family of basis 1-forms gives: the values at the dual vertices of the combination of them. -/
noncomputable def star (b : ℕ → ℝ → ℝ) (N : ℕ) (a : List ℝ) : List ℝ :=
  (List.range (N - 1)).map fun i => ∑ j ∈ range (N - 1), a.getD j 0 * b j (mid N i)

theorem mid_hh {N : ℕ} (hN : 2 ≤ N) (i : ℕ) : mid N i = hh (2 * N - 2) / 2 + i * hh (2 * N - 2) := by
  unfold mid; rw [hh_double hN]; ring

theorem left_hh {N : ℕ} (hN : 2 ≤ N) (i : ℕ) : left N i = i * hh (2 * N - 2) := by
  unfold left; rw [hh_double hN]

/-- An odd trigonometric polynomial of degree `N - 1` is determined by its integrals over the edges. -/
theorem sin_zero {N : ℕ} (hN : 2 ≤ N) {u : ℝ → ℝ} (hu : IsSin (N - 1) u) (h : ∀ i < N - 1, ∫ x in (left N i)..(left N (i + 1)), u x = 0) (x : ℝ) : u x = 0 := by
  obtain ⟨b, hb⟩ := hu
  obtain ⟨U, hU⟩ : ∃ U : ℝ → ℝ, U = fun x => ∑ k ∈ range (N - 1 + 1), (if k = 0 then 0 else -b k / k) * cos (k * x) := ⟨_, rfl⟩
  have hUc : IsCos (N - 1) U := ⟨_, fun θ => by rw [hU]⟩
  have hd : ∀ x, HasDerivAt U (u x) x := fun x => by
    rw [hU, hb]
    refine HasDerivAt.fun_sum fun k _ => ?_
    by_cases hk : k = 0
    · subst hk; simpa using hasDerivAt_const x (0 : ℝ)
    · rw [if_neg hk]
      have hk' : (k : ℝ) ≠ 0 := by exact_mod_cast hk
      have h1 : HasDerivAt (fun x : ℝ => (k : ℝ) * x) k x := by simpa using (hasDerivAt_id x).const_mul (k : ℝ)
      have e : b k * sin (k * x) = -b k / k * (-sin (k * x) * k) := by field_simp
      rw [e]
      exact h1.cos.const_mul (-b k / k)
  have hcont : Continuous u := by
    rw [show u = fun x => ∑ k ∈ range (N - 1 + 1), b k * sin (k * x) from funext hb]
    fun_prop
  have hstep : ∀ i < N - 1, U (left N (i + 1)) = U (left N i) := fun i hi => by
    have := intervalIntegral.integral_eq_sub_of_hasDerivAt (a := left N i) (b := left N (i + 1)) (fun x _ => hd x) (hcont.intervalIntegrable _ _)
    rw [h i hi] at this; linarith
  have hall : ∀ i < N, U (left N i) = U (left N 0) := by
    intro i
    induction i with
    | zero => intro _; rfl
    | succ i ih => intro hi; rw [hstep i (by omega), ih (by omega)]
  have hconst : ∀ x, U x = U (left N 0) := fun x =>
    cos_unique0 hN hUc (isCos_const (N - 1) (U (left N 0))) (fun j hj => by rw [← left_hh hN]; exact hall j hj) x
  have := hd x
  rw [show U = fun _ => U (left N 0) from funext hconst] at this
  exact this.unique (hasDerivAt_const x _)

theorem left_succ_hh {N : ℕ} (hN : 2 ≤ N) (i : ℕ) : left N (i + 1) = (i + 1) * hh (2 * N - 2) := by
  rw [left_hh hN]; push_cast; ring

theorem integral_odd {N : ℕ} (hN : 2 ≤ N) {i j : ℕ} (hi : i < N - 1) (hj : j < N - 1) :
    ∫ x in (left N i)..(left N (i + 1)), kappa1 N j x = if i = j then 1 else 0 := by
  rw [left_hh hN, left_succ_hh hN]; exact integral_kappa1 hN hi hj

theorem odd {N : ℕ} (j : ℕ) (x : ℝ) : kappa1 N j (-x) = -kappa1 N j x := (kappa1_sin N j).odd x

/-- The sine is the combination of the antisymmetric basis 1-forms with its integrals over the edges. -/
theorem sin_eq {N : ℕ} (hN : 2 ≤ N) (x : ℝ) :
    sin x = ∑ j ∈ range (N - 1), 2 * sin (π / ((N - 1 : ℕ) : ℝ) / 2) * sin (mid N j) * kappa1 N j x := by
  have hlen : ∀ i, ∫ x in (left N i)..(left N (i + 1)), sin x = 2 * sin (π / ((N - 1 : ℕ) : ℝ) / 2) * sin (mid N i) := fun i => by
    rw [integral_sin]
    have e1 : left N i = mid N i - π / ((N - 1 : ℕ) : ℝ) / 2 := by unfold left mid; ring
    have e2 : left N (i + 1) = mid N i + π / ((N - 1 : ℕ) : ℝ) / 2 := by unfold left mid; push_cast; ring
    rw [e1, e2, cos_sub, cos_add]; ring
  have hS : IsTrig (N - 1) fun x => ∑ j ∈ range (N - 1), 2 * sin (π / ((N - 1 : ℕ) : ℝ) / 2) * sin (mid N j) * kappa1 N j x :=
    IsTrig.sum _ fun j _ => (kappa1_sin N j).isTrig.const_mul _
  have h1 : IsTrig (N - 1) sin := (isTrig_sin_nat (m := 1) (show 1 ≤ N - 1 by omega)).congr fun θ => by simp
  have hu : IsSin (N - 1) fun x => sin x - ∑ j ∈ range (N - 1), 2 * sin (π / ((N - 1 : ℕ) : ℝ) / 2) * sin (mid N j) * kappa1 N j x :=
    (h1.sub hS).isSin fun θ => by
      simp only [odd, sin_neg, mul_neg, sum_neg_distrib]; ring
  have := sin_zero hN hu (fun i hi => ?_) x
  · linarith
  · have hc : ∀ j : ℕ, IntervalIntegrable (fun x => 2 * sin (π / ((N - 1 : ℕ) : ℝ) / 2) * sin (mid N j) * kappa1 N j x) MeasureTheory.volume (left N i) (left N (i + 1)) :=
      fun j => (continuous_const.mul (continuous_kappa1 N j)).intervalIntegrable _ _
    have hc' : IntervalIntegrable (fun x => ∑ j ∈ range (N - 1), 2 * sin (π / ((N - 1 : ℕ) : ℝ) / 2) * sin (mid N j) * kappa1 N j x) MeasureTheory.volume (left N i) (left N (i + 1)) :=
      (continuous_finsetSum _ fun j _ => continuous_const.mul (continuous_kappa1 N j)).intervalIntegrable _ _
    rw [intervalIntegral.integral_sub (continuous_sin.intervalIntegrable _ _) hc', hlen, intervalIntegral.integral_finsetSum fun j _ => hc j]
    simp only [intervalIntegral.integral_const_mul]
    rw [sum_congr rfl fun j hj => by rw [integral_odd hN hi (mem_range.1 hj)]]
    simp only [mul_ite, mul_one, mul_zero, sum_ite_eq, mem_range]
    rw [if_pos hi]; ring

/-- The value of the basis form `j` at the midpoint `i` is that of the form `i` at the midpoint `j`. -/
theorem symm {N : ℕ} (hN : 2 ≤ N) (i j : ℕ) : kappa1 N j (mid N i) = kappa1 N i (mid N j) := by
  have e : ∀ i : ℕ, mid N i = 2 * π / (2 * N - 2 : ℕ) * (i + 1 / 2) := fun i => by rw [mid_hh hN]; unfold hh; ring
  rw [kappa1_split, kappa1_split, e, e]
  congr 1
  · rw [← beta0_even]; congr 1; ring
  · congr 1; ring

theorem length_star (b : ℕ → ℝ → ℝ) (N : ℕ) (a : List ℝ) : (star b N a).length = N - 1 := by simp [star]

theorem star_tab (b : ℕ → ℝ → ℝ) (N : ℕ) (a : List ℝ) : star b N a = tab (N - 1) fun i => ∑ j ∈ range (N - 1), a.getD j 0 * b j (mid N i) := rfl

theorem mid_mem {N : ℕ} (hN : 2 ≤ N) {i : ℕ} (hi : i < N - 1) : mid N i ∈ Set.Ioo 0 π := by
  have h1 : (0 : ℝ) < ((N - 1 : ℕ) : ℝ) := by exact_mod_cast (by omega : 0 < N - 1)
  have h2 : (i : ℝ) + 1 ≤ ((N - 1 : ℕ) : ℝ) := by exact_mod_cast hi
  have hpi := pi_pos
  unfold mid
  constructor
  · positivity
  · rw [← mul_div_assoc, div_lt_iff₀ h1]; nlinarith

end Odd

/-- **C120** (`doc/bases.rst`): both families of basis 1-forms of the regular grid (`kappa1` odd, `kappa1_symm` even, about the ends) are dual to its edges: the form `j`
has integral one over the edge `j` and zero over the others. -/
theorem C120_dual (N : ℕ) (hN : 2 ≤ N) (j : ℕ) (hj : j < N - 1) :
    (∀ x, kappa1 N j (-x) = -kappa1 N j x ∧ kappa1_symm N j (-x) = kappa1_symm N j x) ∧
      ∀ i < N - 1, (∫ x in (i * (π / ((N - 1 : ℕ) : ℝ)))..((i + 1) * (π / ((N - 1 : ℕ) : ℝ))), kappa1 N j x) = (if i = j then 1 else 0) ∧
        (∫ x in (i * (π / ((N - 1 : ℕ) : ℝ)))..((i + 1) * (π / ((N - 1 : ℕ) : ℝ))), kappa1_symm N j x) = if i = j then 1 else 0 := by
  refine ⟨fun x => ⟨Odd.odd j x, (kappa1_symm_cos hN j).even x⟩, fun i hi => ?_⟩
  rw [← hh_double hN]
  exact ⟨integral_kappa1 hN hi hj, integral_kappa1_symm hN hi hj⟩

/-- **C120**: the star of the library (an exact inverse, C03) is the one that the even forms give: the values of their combination at the dual vertices. -/
theorem C120_even_star (N : ℕ) (hN : 2 ≤ N) (a : List ℝ) (ha : a.length = N - 1) : (Regular.make N).H 1 true a = .ok (Odd.star (kappa1_symm N) N a) := by
  have hI := Regular.isInterval hN 0 π
  have hl : a.length = (grid₀ .regular N).N 1 true := by rw [ha]; exact hI.N11.symm
  obtain ⟨f, hf, hP, hR⟩ := C70_reconstruction_determined .regular N hN 1 true a hl
  have h1 := determined_star .regular N hN 1 true (by simp) f hf
  rw [hP] at h1
  refine h1.trans ?_
  refine congrArg Except.ok ((hI.P0d f).trans ?_)
  rw [Odd.star_tab]
  refine tab_congr fun i hi => ?_
  have e : (0 : ℝ) + (i + 1 / 2) * ((π - 0) / ((N - 1 : ℕ) : ℝ)) = Odd.mid N i := by unfold Odd.mid; ring
  rw [e]
  have hm := Odd.mid_mem hN hi
  have h2 := hR (Odd.mid N i) ⟨hm.1.le, hm.2.le⟩
  have h3 := (spans' .regular N hN).R_eq 1 true a (kappa1_symm N) (fun j _ x _ => rfl) (x := Odd.mid N i)
    (inside_dom .regular N hN 1 true ⟨hm.1.le, hm.2.le⟩)
  rw [h2] at h3
  rw [Option.some.inj h3]
  exact sum_congr (by rw [show (grid₀ .regular N).N 1 true = N - 1 from hI.N11]) fun _ _ => rfl

/-- **C120**: the star that the odd forms give, after the star of the constant 0-form one (which is the array of the lengths of the edges): its sum against the sine is
`(h/2) / sin (h/2) > 1` times that of ones. -/
theorem C120_odd_star (N : ℕ) (hN : 2 ≤ N) :
    (Regular.make N).H 0 false (List.replicate (N - 1) 1) = .ok (List.replicate (N - 1) (π / ((N - 1 : ℕ) : ℝ))) ∧
    ∑ i ∈ range (N - 1), sin (Odd.mid N i) * (Odd.star (kappa1 N) N (List.replicate (N - 1) (π / ((N - 1 : ℕ) : ℝ)))).getD i 0
      = π / ((N - 1 : ℕ) : ℝ) / 2 / sin (π / ((N - 1 : ℕ) : ℝ) / 2) * ∑ i ∈ range (N - 1), sin (Odd.mid N i) ∧
    1 < π / ((N - 1 : ℕ) : ℝ) / 2 / sin (π / ((N - 1 : ℕ) : ℝ) / 2) ∧ 0 < ∑ i ∈ range (N - 1), sin (Odd.mid N i) := by
  have hI := Regular.isInterval hN 0 π
  have hpi := pi_pos
  have h1 : (1 : ℝ) ≤ ((N - 1 : ℕ) : ℝ) := by exact_mod_cast (by omega : 1 ≤ N - 1)
  have hx0 : 0 < π / ((N - 1 : ℕ) : ℝ) / 2 := by positivity
  have hx1 : π / ((N - 1 : ℕ) : ℝ) / 2 < π := by
    have : π / ((N - 1 : ℕ) : ℝ) ≤ π := div_le_self hpi.le h1
    linarith
  have hs := sin_pos_of_pos_of_lt_pi hx0 hx1
  refine ⟨?_, ?_, ?_, ?_⟩
  · have := (C04_regular_hodge_exact_dual N 0 hN (Nat.zero_le _) (fun _ => 1) (isCos_const 0 1)).1
    rw [hI.P0d, hI.P1] at this
    change (Regular.make N).H 0 false (tab (N - 1) fun _ => (1 : ℝ)) = .ok (tab (N - 1) fun i => ∫ t in (0 + (i : ℝ) * ((π - 0) / ((N - 1 : ℕ) : ℝ)))..(0 + ((i + 1 : ℕ) : ℝ) * ((π - 0) / ((N - 1 : ℕ) : ℝ))), (1 : ℝ)) at this
    have e0 : List.replicate (N - 1) (1 : ℝ) = tab (N - 1) fun _ => (1 : ℝ) := by simp [tab, List.map_const']
    have e1 : List.replicate (N - 1) (π / ((N - 1 : ℕ) : ℝ)) = tab (N - 1) fun _ => π / ((N - 1 : ℕ) : ℝ) := by simp [tab, List.map_const']
    rw [e0, e1, this]
    refine congrArg Except.ok (tab_congr fun i hi => ?_)
    simp; ring
  · have h2 : ∀ i ∈ range (N - 1), sin (Odd.mid N i) * (Odd.star (kappa1 N) N (List.replicate (N - 1) (π / ((N - 1 : ℕ) : ℝ)))).getD i 0
        = ∑ j ∈ range (N - 1), π / ((N - 1 : ℕ) : ℝ) * (sin (Odd.mid N i) * kappa1 N i (Odd.mid N j)) := fun i hi => by
      rw [Odd.star_tab, getD_tab (mem_range.1 hi), mul_sum]
      refine sum_congr rfl fun j hj => ?_
      rw [Odd.symm hN i j, List.getD_eq_getElem?_getD, List.getElem?_replicate, if_pos (mem_range.1 hj)]
      simp only [Option.getD_some]; ring
    rw [sum_congr rfl h2, sum_comm, mul_sum]
    refine sum_congr rfl fun j _ => ?_
    have h3 := Odd.sin_eq hN (Odd.mid N j)
    rw [← mul_sum]
    have h4 : ∑ i ∈ range (N - 1), sin (Odd.mid N i) * kappa1 N i (Odd.mid N j) = sin (Odd.mid N j) / (2 * sin (π / ((N - 1 : ℕ) : ℝ) / 2)) := by
      rw [eq_div_iff (by positivity)]
      conv_rhs => rw [h3]
      rw [sum_mul]
      exact sum_congr rfl fun i _ => by ring
    rw [h4]; field_simp
  · rw [one_lt_div hs]; exact sin_lt hx0
  · refine sum_pos (fun i hi => ?_) ⟨0, mem_range.2 (by omega)⟩
    have := Odd.mid_mem hN (mem_range.1 hi)
    exact sin_pos_of_pos_of_lt_pi this.1 this.2

/-- **C120** (`doc/bases.rst`: "the hodge-stars are no longer exact inverses of each other"): on every regular grid the star of the odd forms inverts the other star of the
library from neither side. -/
theorem C120_not_inverse (N : ℕ) (hN : 2 ≤ N) :
    (∃ a b : List ℝ, a.length = N - 1 ∧ (Regular.make N).H 0 false a = .ok b ∧ Odd.star (kappa1 N) N b ≠ a) ∧
      ∃ b : List ℝ, b.length = N - 1 ∧ (Regular.make N).H 0 false (Odd.star (kappa1 N) N b) ≠ .ok b := by
  obtain ⟨h1, h2, h3, h4⟩ := C120_odd_star N hN
  have hne : Odd.star (kappa1 N) N (List.replicate (N - 1) (π / ((N - 1 : ℕ) : ℝ))) ≠ List.replicate (N - 1) 1 := fun e => by
    rw [e] at h2
    have : ∑ i ∈ range (N - 1), sin (Odd.mid N i) * (List.replicate (N - 1) (1 : ℝ)).getD i 0 = ∑ i ∈ range (N - 1), sin (Odd.mid N i) := by
      refine sum_congr rfl fun i hi => ?_
      rw [List.getD_eq_getElem?_getD, List.getElem?_replicate, if_pos (mem_range.1 hi)]
      simp
    rw [this] at h2
    nlinarith
  refine ⟨⟨_, _, List.length_replicate, h1, hne⟩, List.replicate (N - 1) (π / ((N - 1 : ℕ) : ℝ)), List.length_replicate, fun e => hne ?_⟩
  have hI := Regular.isInterval hN 0 π
  have inv := (C03_regular_hodge_inverse N hN 0 π false).1
  have i1 := inv _ ((Odd.length_star (kappa1 N) N (List.replicate (N - 1) (π / ((N - 1 : ℕ) : ℝ)))).trans hI.N00.symm)
  have i2 := inv (List.replicate (N - 1) 1) (List.length_replicate.trans hI.N00.symm)
  rw [e] at i1
  rw [h1] at i2
  exact Except.ok.inj (i1.symm.trans i2)

/-- **C120**: no odd form is, between the ends, a combination of the basis 0-forms of the dual grid ... -/
theorem C120_not_spanned (N : ℕ) (hN : 2 ≤ N) (j : ℕ) (hj : j < N - 1) (c : List ℝ) (hc : c.length = N - 1) :
    ¬ ∀ x ∈ Set.Ioo 0 π, (Regular.make N).R 0 false c x = some (kappa1 N j x) := by
  intro h
  have hI := Regular.isInterval hN 0 π
  have hl : c.length = (grid₀ .regular N).N 0 false := by rw [hc]; exact hI.N00.symm
  obtain ⟨f, hf, hP, hR⟩ := C70_reconstruction_determined .regular N hN 0 false c hl
  replace hf : IsCos (N - 1 - 1) f := by simpa [Determined] using hf
  have e : f = kappa1 N j := by
    refine AnalyticOnNhd.eq_of_eventuallyEq (IsTrig.analytic hf.isTrig) (IsTrig.analytic (kappa1_sin N j).isTrig) (z₀ := π / 2) ?_
    filter_upwards [Ioo_mem_nhds (show 0 < π / 2 by positivity) (show π / 2 < π by linarith [pi_pos])] with x hx
    have h1 := hR x ⟨hx.1.le, hx.2.le⟩
    have h2 := h x hx
    exact Option.some.inj (h1.symm.trans h2)
  have h0 : ∀ x, kappa1 N j x = 0 := fun x => by
    have h1 := Odd.odd (N := N) j x
    have h2 := hf.even x
    rw [e] at h2
    linarith
  have := Odd.integral_odd hN hj hj
  simp [h0] at this

/-- ... and the even forms are the only family dual to the edges that are: so the question of `doc/bases.rst` ("Is that because the anti-symmetric bases functions for 1-forms
are no longer expressible as linear combinations of the symmetric bases functions for 0-forms?") has the answer yes: forms that are give the exact inverse. -/
theorem C120_only_even (N : ℕ) (hN : 2 ≤ N) (b : ℕ → ℝ → ℝ)
    (hb : ∀ j < N - 1, ∀ i < N - 1, (∫ x in (i * (π / ((N - 1 : ℕ) : ℝ)))..((i + 1) * (π / ((N - 1 : ℕ) : ℝ))), b j x) = if i = j then 1 else 0)
    (hs : ∀ j < N - 1, ∃ c : List ℝ, c.length = N - 1 ∧ ∀ x ∈ Set.Icc 0 π, (Regular.make N).R 0 false c x = some (b j x)) :
    (∀ j < N - 1, ∀ x ∈ Set.Icc 0 π, b j x = kappa1_symm N j x) ∧ ∀ a : List ℝ, a.length = N - 1 → (Regular.make N).H 1 true a = .ok (Odd.star b N a) := by
  have hI := Regular.isInterval hN 0 π
  have hmain : ∀ j < N - 1, ∀ x ∈ Set.Icc 0 π, b j x = kappa1_symm N j x := fun j hj x hx => by
    obtain ⟨c, hc, hR⟩ := hs j hj
    have hl : c.length = (grid₀ .regular N).N 0 false := by rw [hc]; exact hI.N00.symm
    obtain ⟨f, hf, hP, hR'⟩ := C70_reconstruction_determined .regular N hN 0 false c hl
    have e : ∀ y ∈ Set.Icc 0 π, b j y = f y := fun y hy => Option.some.inj ((hR y hy).symm.trans (hR' y hy))
    rw [e x hx]
    have hf' : Determined .regular N 1 true f := determined_flip hf
    refine (Option.some.inj (B_of_P (spans' .regular N hN) 1 true (j := j) (by rw [show (grid₀ .regular N).N 1 true = N - 1 from hI.N11]; exact hj) hf' ?_
      (inside_dom .regular N hN 1 true hx))).symm
    rw [show (grid₀ .regular N).N 1 true = N - 1 from hI.N11]
    refine (hI.P1 f).trans (tab_congr fun i hi => ?_)
    rw [← hb j hj i hi]
    have h1 : (0 : ℝ) < ((N - 1 : ℕ) : ℝ) := by exact_mod_cast (by omega : 0 < N - 1)
    have h2 : (i : ℝ) + 1 ≤ ((N - 1 : ℕ) : ℝ) := by exact_mod_cast hi
    have hpi := pi_pos
    have ea : (0 : ℝ) + i * ((π - 0) / ((N - 1 : ℕ) : ℝ)) = i * (π / ((N - 1 : ℕ) : ℝ)) := by ring
    have eb : (0 : ℝ) + ((i + 1 : ℕ) : ℝ) * ((π - 0) / ((N - 1 : ℕ) : ℝ)) = (i + 1) * (π / ((N - 1 : ℕ) : ℝ)) := by push_cast; ring
    rw [ea, eb]
    have hle : (i : ℝ) * (π / ((N - 1 : ℕ) : ℝ)) ≤ (i + 1) * (π / ((N - 1 : ℕ) : ℝ)) := by
      have : 0 < π / ((N - 1 : ℕ) : ℝ) := by positivity
      nlinarith
    refine intervalIntegral.integral_congr fun y hy => (e y ?_).symm
    rw [Set.uIcc_of_le hle] at hy
    refine ⟨le_trans (by positivity) hy.1, hy.2.trans ?_⟩
    rw [← mul_div_assoc, div_le_iff₀ h1]; nlinarith
  refine ⟨hmain, fun a ha => ?_⟩
  rw [C120_even_star N hN a ha, Odd.star_tab, Odd.star_tab]
  refine congrArg Except.ok (tab_congr fun i hi => sum_congr rfl fun j hj => ?_)
  have hm := Odd.mid_mem hN hi
  rw [hmain j (mem_range.1 hj) _ ⟨hm.1.le, hm.2.le⟩]

/-- With two vertices there is one edge and one odd form, `kappa1 2 0 x = sin x / 2`, whose star multiplies by `1/2` where the library's divides by `π`: the round trip is `π/2`. -/
example : kappa1 2 0 (π / 2) = 1 / 2 := by
  have h := Odd.sin_eq (N := 2) le_rfl (π / 2)
  have e : Odd.mid 2 0 = π / 2 := by unfold Odd.mid; norm_num; ring
  simp [e] at h
  linarith

end Dec.Props
