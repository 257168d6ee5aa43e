import Verif.Lib.Trig
import Verif.Lib.Lin

set_option linter.unusedSimpArgs false
set_option linter.unusedVariables false

/-! Mirror images of arrays, and even and odd resolvable functions. -/

namespace Dec.Sp

open Finset Real

section
variable {R : Type*}

theorem mirror0_tab [Mul R] {n : ℕ} (hn : 2 ≤ n) (f : ℕ → R) (s : R) :
    mirror0 (tab n f) s = tab (2 * n - 2) (fun i => if i < n then f i else s * f (2 * n - 2 - i)) := by
  unfold mirror0
  rw [reverse_tab, tail_tab, dropLast_tab, smul_tab, append_tab]
  refine tab_congr' (by omega) fun i hi => ?_
  split_ifs with h
  · rfl
  · congr 2; omega

theorem mirror1_tab [Mul R] (m : ℕ) (f : ℕ → R) (s : R) :
    mirror1 (tab m f) s = tab (2 * m) (fun i => if i < m then f i else s * f (2 * m - 1 - i)) := by
  unfold mirror1
  rw [reverse_tab, smul_tab, append_tab]
  refine tab_congr' (by omega) fun i hi => ?_
  split_ifs with h
  · rfl
  · congr 2; omega

theorem unmirror0_tab {n : ℕ} (hn : 2 ≤ n) (f : ℕ → R) : unmirror0 (tab (2 * n - 2) f) = tab n f := by
  unfold unmirror0; rw [length_tab, take_tab]; exact tab_congr' (by omega) fun _ _ => rfl

theorem unmirror1_tab (m : ℕ) (f : ℕ → R) : unmirror1 (tab (2 * m) f) = tab m f := by
  unfold unmirror1; rw [length_tab, take_tab]; exact tab_congr' (by omega) fun _ _ => rfl

end

theorem toC_mirror0 (f : List ℝ) (s : ℝ) : mirror0 (toC f) (s : ℂ) = toC (mirror0 f s) := by
  unfold mirror0 toC smul
  simp only [List.map_append, List.map_dropLast, List.map_tail, List.map_reverse, List.map_map, Function.comp_def, Complex.ofReal_mul]

theorem toC_mirror1 (f : List ℝ) (s : ℝ) : mirror1 (toC f) (s : ℂ) = toC (mirror1 f s) := by
  unfold mirror1 toC smul
  simp [List.map_append, ← List.map_reverse, Function.comp_def]

theorem toC_unmirror0 (f : List ℝ) : unmirror0 (toC f) = toC (unmirror0 f) := by
  unfold unmirror0 toC; simp [List.map_take]

theorem toC_unmirror1 (f : List ℝ) : unmirror1 (toC f) = toC (unmirror1 f) := by
  unfold unmirror1 toC; simp [List.map_take]

/-- On real arrays the complex integration operator is the real one. -/
theorem I_space_real (x : List ℝ) :
    I_space (-(2 * π / x.length) / 2) (2 * π / x.length / 2) (toC x) = toC (Hs x) := by
  rw [eq_tab x 0]
  generalize x.length = N
  generalize (fun i => x.getD i 0) = y
  simp only [length_tab]
  unfold I_space
  rw [neg_half_step, half_step, toC_tab, length_tab, I_diag_tab, diag_mul, Hs_tab, ← re_tab]
  rw [tab_im_zero]
  intro j hj
  have := im_synth_zero (N := N) (x := fun i => (y i : ℂ)) (d := fun k => Id (fr N k) (-(hh N / 2)) (hh N / 2)) (fun j _ => by simp)
    (realEven_Id N _) j
  simpa using this

theorem I_space_inv_real (x : List ℝ) :
    I_space_inv (-(2 * π / x.length) / 2) (2 * π / x.length / 2) (toC x) = toC (Hinv x) := by
  rw [eq_tab x 0]
  generalize x.length = N
  generalize (fun i => x.getD i 0) = y
  simp only [length_tab]
  unfold I_space_inv
  rw [neg_half_step, half_step, toC_tab, length_tab, I_diag_tab, diag_div, Hinv_tab, ← re_tab]
  rw [tab_im_zero]
  intro j hj
  have := im_synth_zero (N := N) (x := fun i => (y i : ℂ)) (d := fun k => (Id (fr N k) (-(hh N / 2)) (hh N / 2))⁻¹) (fun j _ => by simp)
    (realEven_inv (realEven_Id N _)) j
  simpa [div_eq_mul_inv] using this

/-! ### Symmetries of resolvable functions -/

theorem Res.congr {N : ℕ} {φ : ℝ} {p q : ℝ → ℝ} (hp : Res N φ p) (h : ∀ θ, q θ = p θ) : Res N φ q := by
  have : q = p := funext h
  rwa [this]

theorem E_periodic (n : ℤ) (x : ℝ) (m : ℤ) : E n (x + m * (2 * π)) = E n x := by
  rw [E_add]
  have : E n (m * (2 * π)) = 1 := by
    unfold E; rw [Complex.exp_eq_one_iff]; exact ⟨n * m, by push_cast; ring⟩
  rw [this, mul_one]

theorem synth_periodic (N : ℕ) (c : ℕ → ℂ) (x : ℝ) (m : ℤ) : synth N c (x + m * (2 * π)) = synth N c x := by
  unfold synth; simp_rw [E_periodic]

theorem Res.periodic {N : ℕ} {φ : ℝ} {p : ℝ → ℝ} (h : Res N φ p) : Function.Periodic p (2 * π) := by
  obtain ⟨c, hc, _⟩ := h
  intro x
  have h1 := hc (x - φ + (1 : ℤ) * (2 * π))
  have h2 := hc (x - φ)
  rw [synth_periodic, ← h2] at h1
  rw [show φ + (x - φ + (1 : ℤ) * (2 * π)) = x + 2 * π by push_cast; ring, show φ + (x - φ) = x by ring] at h1
  exact h1

/-- The imaginary part vanishes at all grid points, not only the first `N`. -/
theorem im_all {N : ℕ} (hN : 0 < N) {c : ℕ → ℂ} (hi : ∀ j < N, (synth N c (j * hh N)).im = 0) (j : ℤ) :
    (synth N c (j * hh N)).im = 0 := by
  have h0 : (0 : ℤ) < N := by omega
  have h1 := Int.emod_nonneg j h0.ne'
  have h2 := Int.emod_lt_of_pos j h0
  have h3 := Int.emod_add_mul_ediv j N
  have := hi (j % N).toNat (by omega)
  rw [← this]
  have e : (j : ℝ) * hh N = ((j % N).toNat : ℕ) * hh N + ((j / N : ℤ) : ℝ) * (2 * π) := by
    rw [← mul_hh hN]
    have h4 : (((j % N).toNat : ℕ) : ℝ) = ((j % N : ℤ) : ℝ) := by
      exact_mod_cast Int.toNat_of_nonneg h1
    rw [h4]
    have h5 : (j : ℝ) = ((j % N : ℤ) : ℝ) + N * ((j / N : ℤ) : ℝ) := by exact_mod_cast h3.symm
    linear_combination hh N * h5
  rw [e, synth_periodic]

/-- Moving the base point by whole cells. -/
theorem Res.step {N : ℕ} (hN : 0 < N) {φ : ℝ} {p : ℝ → ℝ} (h : Res N φ p) (m : ℤ) : Res N (φ + m * hh N) p := by
  obtain ⟨c, hc, hi⟩ := h
  refine ⟨fun k => c k * E (fr N k) (m * hh N), fun θ => ?_, fun j hj => ?_⟩
  · rw [synth_shift, ← hc]; congr 1; ring
  · rw [synth_shift]
    have := im_all hN hi (j + m)
    rw [← this]; congr 2; push_cast; ring

theorem synth_conj_neg (N : ℕ) (c : ℕ → ℂ) (x : ℝ) :
    synth N (fun k => (starRingEnd ℂ) (c k)) x = (starRingEnd ℂ) (synth N c (-x)) := by
  unfold synth
  rw [map_sum]
  refine Finset.sum_congr rfl fun k _ => ?_
  rw [map_mul, E_conj, E_neg', E_neg, inv_inv]

/-- Reflection at the base point. -/
theorem Res.reflect {N : ℕ} (hN : 0 < N) {φ : ℝ} {p : ℝ → ℝ} (h : Res N φ p) : Res N φ (fun θ => p (2 * φ - θ)) := by
  obtain ⟨c, hc, hi⟩ := h
  refine ⟨fun k => (starRingEnd ℂ) (c k), fun θ => ?_, fun j hj => ?_⟩
  · rw [synth_conj_neg, Complex.conj_re, ← hc]
    show p _ = p _
    congr 1; ring
  · rw [synth_conj_neg, Complex.conj_im]
    have := im_all hN hi (-j)
    rw [show -((j : ℝ) * hh N) = ((-j : ℤ) : ℝ) * hh N by push_cast; ring, this, neg_zero]

/-- Reflection at the origin, for samples at the multiples of half a cell. -/
theorem Res.neg {N : ℕ} (hN : 0 < N) {m : ℤ} {p : ℝ → ℝ} (h : Res N (m * (hh N / 2)) p) :
    Res N (m * (hh N / 2)) (fun θ => p (-θ)) := by
  have h1 := ((h.reflect hN).comp_add (2 * (m * (hh N / 2)))).step hN m
  have e : (m : ℝ) * (hh N / 2) - 2 * (m * (hh N / 2)) + m * hh N = m * (hh N / 2) := by ring
  rw [e] at h1
  exact h1.congr fun θ => by congr 1; ring

/-- Two resolvable functions with the same samples are equal. -/
theorem Res.unique {N : ℕ} {φ : ℝ} {p q : ℝ → ℝ} (hp : Res N φ p) (hq : Res N φ q)
    (h : ∀ j < N, p (φ + j * hh N) = q (φ + j * hh N)) (θ : ℝ) : p θ = q θ := by
  obtain ⟨c, hc, hi⟩ := hp
  obtain ⟨d, hd, hj⟩ := hq
  have e : ∀ k < N, c k = d k := by
    intro k hk
    rw [← Res.coef hc hi hk, ← Res.coef hd hj hk]
    exact coef_congr (fun j hj => by rw [h j hj]) k
  have h1 := hc (θ - φ)
  have h2 := hd (θ - φ)
  rw [synth_congr e, ← h2] at h1
  simpa using h1

/-- The grid point opposite to point `j`. -/
theorem opp (n : ℕ) (hn : 2 ≤ n) (i : ℕ) (hi : i < 2 * n - 2) :
    ((2 * n - 2 - i : ℕ) : ℝ) * hh (2 * n - 2) = 2 * π - i * hh (2 * n - 2) := by
  rw [← mul_hh (show 0 < 2 * n - 2 by omega), Nat.cast_sub hi.le]; ring

/-- Resolvable functions even about the origin are represented by their samples on the half circle, at the vertices. -/
theorem exists_even0 {n : ℕ} (hn : 2 ≤ n) (x : ℕ → ℝ) :
    ∃ p, Res (2 * n - 2) 0 p ∧ (∀ θ, p (-θ) = p θ) ∧ (∀ j < n, p (j * hh (2 * n - 2)) = x j) ∧
      mirror0 (tab n x) 1 = samp (2 * n - 2) 0 p := by
  set M := 2 * n - 2 with hM
  have hM0 : 0 < M := by omega
  obtain ⟨p, hp, hs⟩ := exists_res M 0 (fun i => if i < n then x i else x (2 * n - 2 - i))
  have hv : ∀ j < M, p (j * hh M) = if j < n then x j else x (2 * n - 2 - j) := by
    intro j hj
    have := tab_inj.1 hs j hj
    simpa using this
  have hneg : Res M 0 (fun θ => p (-θ)) := by
    have := Res.neg (m := 0) hM0 (p := p) (by simpa using hp)
    simpa using this
  have ev : ∀ θ, p (-θ) = p θ := by
    refine Res.unique hneg hp fun j hj => ?_
    simp only [zero_add]
    rcases Nat.eq_zero_or_pos j with rfl | hj0
    · simp
    · have e : -((j : ℝ) * hh M) + 2 * π = (M - j : ℕ) * hh M := by
        rw [hM, opp n hn j hj]; ring
      rw [← hp.periodic, e, hv _ (by omega), hv _ hj]
      by_cases h1 : j < n
      · by_cases h2 : M - j < n
        · rw [if_pos h2, if_pos h1]
          have : M - j = j := by omega
          rw [this]
        · rw [if_neg h2, if_pos h1]; congr 1; omega
      · rw [if_neg h1, if_pos (by omega)]
  refine ⟨p, hp, ev, fun j hj => by rw [hv j (by omega), if_pos hj], ?_⟩
  rw [mirror0_tab hn, hs]
  exact tab_congr fun i hi => by rw [one_mul]

/-- Resolvable functions even about the origin are represented by their samples on the half circle, at the midpoints. -/
theorem exists_even1 {m : ℕ} (hm : 0 < m) (x : ℕ → ℝ) :
    ∃ p, Res (2 * m) (hh (2 * m) / 2) p ∧ (∀ θ, p (-θ) = p θ) ∧ (∀ j < m, p (hh (2 * m) / 2 + j * hh (2 * m)) = x j) ∧
      mirror1 (tab m x) 1 = samp (2 * m) (hh (2 * m) / 2) p := by
  set M := 2 * m with hM
  have hM0 : 0 < M := by omega
  obtain ⟨p, hp, hs⟩ := exists_res M (hh M / 2) (fun i => if i < m then x i else x (2 * m - 1 - i))
  have hv : ∀ j < M, p (hh M / 2 + j * hh M) = if j < m then x j else x (2 * m - 1 - j) := by
    intro j hj
    exact tab_inj.1 hs j hj
  have hneg : Res M (hh M / 2) (fun θ => p (-θ)) := by
    have := Res.neg (m := 1) hM0 (p := p) (by simpa using hp)
    simpa using this
  have ev : ∀ θ, p (-θ) = p θ := by
    refine Res.unique hneg hp fun j hj => ?_
    have e : -(hh M / 2 + (j : ℝ) * hh M) + 2 * π = hh M / 2 + (M - 1 - j : ℕ) * hh M := by
      rw [← mul_hh hM0, Nat.sub_sub, Nat.cast_sub (by omega)]; push_cast; ring
    rw [← hp.periodic, e, hv _ (by omega), hv _ hj]
    by_cases h1 : j < m
    · rw [if_neg (by omega), if_pos h1]; congr 1; omega
    · rw [if_neg h1, if_pos (by omega)]
  refine ⟨p, hp, ev, fun j hj => by rw [hv j (by omega), if_pos hj], ?_⟩
  rw [mirror1_tab, hs]
  exact tab_congr fun i hi => by rw [one_mul]

/-- The mirror image of the samples of an even periodic function. -/
theorem mirror0_samp {n : ℕ} (hn : 2 ≤ n) {p : ℝ → ℝ} (hper : Function.Periodic p (2 * π)) (ev : ∀ θ, p (-θ) = p θ) :
    mirror0 (tab n fun j => p (j * hh (2 * n - 2))) 1 = samp (2 * n - 2) 0 p := by
  rw [mirror0_tab hn]; unfold samp
  refine tab_congr fun i hi => ?_
  rw [zero_add]
  split_ifs with h
  · rfl
  · rw [one_mul, opp n hn i hi, ← ev, ← hper]; congr 1; ring

theorem mirror1_samp {m : ℕ} (hm : 0 < m) {p : ℝ → ℝ} (hper : Function.Periodic p (2 * π)) (ev : ∀ θ, p (-θ) = p θ) :
    mirror1 (tab m fun j => p (hh (2 * m) / 2 + j * hh (2 * m))) 1 = samp (2 * m) (hh (2 * m) / 2) p := by
  rw [mirror1_tab]; unfold samp
  refine tab_congr fun i hi => ?_
  split_ifs with h
  · rfl
  · rw [one_mul, ← ev, ← hper]; congr 1
    have h2 : ((2 * m : ℕ) : ℝ) = 2 * m := by push_cast; ring
    rw [← mul_hh (show 0 < 2 * m by omega), Nat.sub_sub, Nat.cast_sub (by omega)]; push_cast; ring

end Dec.Sp
