import Verif.Lib.RegularGrid
import Verif.Lib.Laplace

set_option linter.unusedSimpArgs false
set_option linter.unusedVariables false

/-! # Symmetric positive definite stars -/

namespace Dec

open Finset

/-- The dot product `numpy.sum(x*y)`. -/
def dot (x y : List ℝ) : ℝ := (vmul x y).sum

theorem dot_tab (n : ℕ) (f g : ℕ → ℝ) : dot (tab n f) (tab n g) = ∑ i ∈ range n, f i * g i := by
  unfold dot; rw [vmul_tab, sum_tab]

theorem dot_comm (x y : List ℝ) : dot x y = dot y x := by
  unfold dot vmul; rw [List.zipWith_comm]; simp only [mul_comm]

theorem dot_smul (x y : List ℝ) (c : ℝ) : dot x (y.map (c * ·)) = c * dot x y := by
  unfold dot vmul
  induction x generalizing y with
  | nil => simp
  | cons a x ih =>
    cases y with
    | nil => simp
    | cons b y =>
      simp only [List.map_cons, List.zipWith_cons_cons, List.sum_cons]
      rw [ih]; ring

/-- A symmetric positive definite operator on arrays of length `n`. -/
structure SPD (n : ℕ) (L : List ℝ → List ℝ) : Prop where
  symm : ∀ x y : List ℝ, x.length = n → y.length = n → dot x (L y) = dot y (L x)
  pos : ∀ x : List ℝ, x.length = n → x ≠ List.replicate n 0 → 0 < dot x (L x)

theorem SPD.inverse {n : ℕ} {L M : List ℝ → List ℝ} (h : SPD n L) (hM : ∀ x : List ℝ, x.length = n → (M x).length = n)
    (hLM : ∀ x : List ℝ, x.length = n → L (M x) = x) (h0 : L (List.replicate n 0) = List.replicate n 0) : SPD n M where
  symm x y hx hy := by
    have := h.symm (M x) (M y) (hM x hx) (hM y hy)
    rw [hLM y hy, hLM x hx] at this
    rw [dot_comm x, dot_comm y, this]
  pos x hx hne := by
    have := h.pos (M x) (hM x hx) (fun h1 => hne (by rw [← hLM x hx, h1, h0]))
    rw [hLM x hx] at this
    rwa [dot_comm]

namespace Sp

open Real

theorem conj_coef (N : ℕ) (x : ℕ → ℝ) (k : ℕ) :
    (starRingEnd ℂ) (coef N (fun i => (x i : ℂ)) k) = (∑ j ∈ range N, (x j : ℂ) * E (fr N k) (j * hh N)) / N := by
  unfold coef
  rw [map_div₀, map_sum, Complex.conj_natCast]
  congr 1
  exact sum_congr rfl fun j _ => by rw [map_mul, Complex.conj_ofReal, E_conj, neg_neg]

/-- Parseval's identity for a Fourier multiplier. -/
theorem parseval {N : ℕ} (hN : 0 < N) (x y : ℕ → ℝ) (d : ℕ → ℂ) :
    ∑ j ∈ range N, x j * (synth N (fun k => coef N (fun i => (y i : ℂ)) k * d k) (j * hh N)).re
      = (N : ℝ) * ∑ k ∈ range N, ((starRingEnd ℂ) (coef N (fun i => (x i : ℂ)) k) * coef N (fun i => (y i : ℂ)) k * d k).re := by
  have hN' : (N : ℂ) ≠ 0 := by exact_mod_cast hN.ne'
  have e : ((∑ j ∈ range N, (x j : ℂ) * synth N (fun k => coef N (fun i => (y i : ℂ)) k * d k) (j * hh N)))
      = (N : ℂ) * ∑ k ∈ range N, ((starRingEnd ℂ) (coef N (fun i => (x i : ℂ)) k) * coef N (fun i => (y i : ℂ)) k * d k) := by
    unfold synth
    simp_rw [mul_sum]
    rw [sum_comm]
    refine sum_congr rfl fun k _ => ?_
    rw [conj_coef]
    rw [show (N : ℂ) * ((∑ j ∈ range N, (x j : ℂ) * E (fr N k) (j * hh N)) / N * coef N (fun i => (y i : ℂ)) k * d k)
      = (∑ j ∈ range N, (x j : ℂ) * E (fr N k) (j * hh N)) * (coef N (fun i => (y i : ℂ)) k * d k) by
        generalize (∑ j ∈ range N, (x j : ℂ) * E (fr N k) (j * hh N)) = z; field_simp, sum_mul]
    exact sum_congr rfl fun j _ => by ring
  have := congrArg Complex.re e
  rw [Complex.re_sum] at this
  rw [← Complex.re_sum, ← Complex.re_ofReal_mul]
  push_cast
  rw [← this]
  exact sum_congr rfl fun j _ => by rw [Complex.re_ofReal_mul]

/-- A positive real multiplier. -/
def Positive (N : ℕ) (d : ℕ → ℂ) : Prop := ∀ k < N, ∃ r : ℝ, 0 < r ∧ d k = r

theorem pos_symm {N : ℕ} (hN : 0 < N) {d : ℕ → ℂ} (hd : Positive N d) (x y : ℕ → ℝ) :
    ∑ j ∈ range N, x j * (synth N (fun k => coef N (fun i => (y i : ℂ)) k * d k) (j * hh N)).re
      = ∑ j ∈ range N, y j * (synth N (fun k => coef N (fun i => (x i : ℂ)) k * d k) (j * hh N)).re := by
  rw [parseval hN, parseval hN]
  congr 1
  refine sum_congr rfl fun k hk => ?_
  obtain ⟨r, -, e⟩ := hd k (mem_range.1 hk)
  rw [e, Complex.re_mul_ofReal, Complex.re_mul_ofReal]
  congr 1
  rw [← Complex.conj_re, map_mul, Complex.conj_conj, mul_comm]

theorem pos_pos {N : ℕ} (hN : 0 < N) {d : ℕ → ℂ} (hd : Positive N d) (x : ℕ → ℝ) (hx : ∃ j < N, x j ≠ 0) :
    0 < ∑ j ∈ range N, x j * (synth N (fun k => coef N (fun i => (x i : ℂ)) k * d k) (j * hh N)).re := by
  rw [parseval hN]
  have hN' : (0 : ℝ) < N := by exact_mod_cast hN
  refine mul_pos hN' ?_
  have term : ∀ k < N, ∃ r : ℝ, 0 < r ∧ ((starRingEnd ℂ) (coef N (fun i => (x i : ℂ)) k) * coef N (fun i => (x i : ℂ)) k * d k).re = Complex.normSq (coef N (fun i => (x i : ℂ)) k) * r := fun k hk => by
    obtain ⟨r, hr, e⟩ := hd k hk
    exact ⟨r, hr, by rw [e, Complex.re_mul_ofReal, ← Complex.normSq_eq_conj_mul_self, Complex.ofReal_re]⟩
  have hne : ∃ k < N, coef N (fun i => (x i : ℂ)) k ≠ 0 := by
    by_contra h
    push Not at h
    obtain ⟨j, hj, hxj⟩ := hx
    apply hxj
    have e := synth_coef (fun i => (x i : ℂ)) hj
    rw [synth_congr (d := fun _ => 0) h] at e
    have : (x j : ℂ) = 0 := by rw [← e]; simp [synth]
    exact_mod_cast this
  obtain ⟨k, hk, hc⟩ := hne
  refine sum_pos' (fun i hi => ?_) ⟨k, mem_range.2 hk, ?_⟩
  · obtain ⟨r, hr, e⟩ := term i (mem_range.1 hi)
    rw [e]; exact mul_nonneg (Complex.normSq_nonneg _) hr.le
  · obtain ⟨r, hr, e⟩ := term k hk
    rw [e]; exact mul_pos (Complex.normSq_pos.2 hc) hr

theorem Id_pos (N : ℕ) : Positive N fun k => Id (fr N k) (-(hh N / 2)) (hh N / 2) := by
  intro k hk
  have hN : 0 < N := by omega
  have hp := hh_pos hN
  beta_reduce
  rw [Id_symm]
  by_cases h : fr N k = 0
  · rw [if_pos h]; exact ⟨_, by positivity, rfl⟩
  · rw [if_neg h]
    refine ⟨_, ?_, rfl⟩
    have hb : |(fr N k : ℝ) * (hh N / 2)| ≤ π / 2 := by
      rw [abs_mul, abs_of_pos (by positivity : 0 < hh N / 2)]
      have h2 : 2 * |(fr N k : ℝ)| ≤ N := by exact_mod_cast fr_abs_le hk
      have h3 := mul_hh hN
      have : 2 * |(fr N k : ℝ)| * hh N ≤ N * hh N := by gcongr
      linarith
    have hpi := Real.pi_pos
    rw [abs_le] at hb
    have hn : (fr N k : ℝ) ≠ 0 := by exact_mod_cast h
    rcases lt_or_gt_of_ne hn with hlt | hgt
    · have : (fr N k : ℝ) * (hh N / 2) < 0 := mul_neg_of_neg_of_pos hlt (by positivity)
      have := Real.sin_neg_of_neg_of_neg_pi_lt this (by linarith)
      exact div_pos_of_neg_of_neg (by linarith) hlt
    · have : 0 < (fr N k : ℝ) * (hh N / 2) := by positivity
      have := Real.sin_pos_of_pos_of_lt_pi this (by linarith)
      positivity

theorem exists_ne_of_tab {N : ℕ} {x : ℕ → ℝ} (h : tab N x ≠ List.replicate N 0) : ∃ j < N, x j ≠ 0 := by
  by_contra h'
  push Not at h'
  exact h (by rw [replicate_tab]; exact tab_congr h')

theorem Hs_spd {N : ℕ} (hN : 0 < N) : SPD N Hs where
  symm x y hx hy := by
    rw [eq_tab' hx 0, eq_tab' hy 0, Hs_tab, Hs_tab, dot_tab, dot_tab]
    exact pos_symm hN (Id_pos N) _ _
  pos x hx hne := by
    obtain ⟨f, rfl⟩ : ∃ f, x = tab N f := ⟨_, eq_tab' hx 0⟩
    rw [Hs_tab, dot_tab]
    exact pos_pos hN (Id_pos N) _ (exists_ne_of_tab hne)

end Sp

namespace Regular

open Sp Real

theorem fold_sum {m : ℕ} (hm : 0 < m) (u : ℕ → ℝ) (hu : ∀ i, 0 < i → i < m → u (2 * m - i) = u i) :
    ∑ i ∈ range (2 * m), u i = 2 * ∑ i ∈ range (m + 1), u i * (if i = 0 ∨ i = m then 1 / 2 else 1) := by
  obtain ⟨l, rfl⟩ : ∃ l, m = l + 1 := ⟨m - 1, by omega⟩
  rw [show 2 * (l + 1) = (l + 1) + (l + 1) by ring, sum_range_add, sum_range_succ' u l, sum_range_succ' (fun i => u (l + 1 + i)) l]
  have e1 : ∑ i ∈ range l, u (l + 1 + (i + 1)) = ∑ i ∈ range l, u (i + 1) := by
    rw [← sum_range_reflect (fun i => u (i + 1)) l]
    refine sum_congr rfl fun i hi => ?_
    have hi := mem_range.1 hi
    rw [← hu (l - 1 - i + 1) (by omega) (by omega)]
    congr 1; omega
  have e2 : ∑ i ∈ range l, u (i + 1) * (if i + 1 = 0 ∨ i + 1 = l + 1 then (1 / 2 : ℝ) else 1) = ∑ i ∈ range l, u (i + 1) :=
    sum_congr rfl fun i hi => by
      have hi := mem_range.1 hi
      rw [if_neg (by omega), mul_one]
  rw [sum_range_succ _ (l + 1), sum_range_succ' (fun i => u i * (if i = 0 ∨ i = l + 1 then (1 / 2 : ℝ) else 1)) l, e1, e2]
  simp
  ring

theorem fold_sum1 {m : ℕ} (u : ℕ → ℝ) (hu : ∀ i < m, u (2 * m - 1 - i) = u i) : ∑ i ∈ range (2 * m), u i = 2 * ∑ i ∈ range m, u i := by
  rw [show 2 * m = m + m by ring, sum_range_add]
  have e1 : ∑ i ∈ range m, u (m + i) = ∑ i ∈ range m, u i := by
    rw [← sum_range_reflect u m]
    refine sum_congr rfl fun i hi => ?_
    have hi := mem_range.1 hi
    rw [← hu (m - 1 - i) (by omega)]
    congr 1; omega
  rw [e1]; ring

/-- The star of the vertices of a regular grid, as a form on the doubled periodic grid. -/
theorem dot_rH0 {n : ℕ} (hn : 2 ≤ n) (x y : List ℝ) (hx : x.length = n) (hy : y.length = n) :
    dot x (rH0 y) = 1 / 2 * dot (mirror0 x 1) (Hs (mirror0 y 1)) := by
  obtain ⟨f, rfl⟩ : ∃ f, x = tab n f := ⟨_, eq_tab' hx 0⟩
  obtain ⟨g, rfl⟩ : ∃ g, y = tab n g := ⟨_, eq_tab' hy 0⟩
  obtain ⟨p, hp, ev, hv, hm⟩ := exists_even0 hn g
  unfold rH0
  rw [hm, hp.Hs, unmirror0_tab hn, length_tab, A_diag_tab hn, vmul_tab, mirror0_tab hn, dot_tab, dot_tab]
  obtain ⟨m, rfl⟩ : ∃ m, n = m + 1 := ⟨n - 1, by omega⟩
  have e : 2 * (m + 1) - 2 = 2 * m := by omega
  have opp' := fun i (hi : i < 2 * m) => opp (m + 1) hn i (by omega)
  simp only [e] at *
  set Q : ℕ → ℝ := fun j => ∫ ξ in (0 + j * hh (2 * m) - hh (2 * m) / 2)..(0 + j * hh (2 * m) + hh (2 * m) / 2), p ξ with hQ
  have hQ' : ∀ i, 0 < i → i < m → Q (2 * m - i) = Q i := fun i h0 h1 => by
    have a1 := even_avg ev (hh (2 * m) / 2) (i * hh (2 * m))
    have a2 := periodic_avg hp.periodic (hh (2 * m) / 2) (-(i * hh (2 * m)))
    beta_reduce at a1 a2
    simp only [hQ, zero_add]
    rw [opp' i (by omega), ← a1, ← a2, show -(i * hh (2 * m)) + 2 * π = 2 * π - i * hh (2 * m) by ring]
  rw [fold_sum (by omega) (fun i => (if i < m + 1 then f i else 1 * f (2 * m - i)) * Q i) fun i h0 h1 => by
    beta_reduce
    rw [hQ' i h0 h1, if_neg (by omega), if_pos (by omega), one_mul, show 2 * m - (2 * m - i) = i by omega], ← mul_assoc,
    show (1 / 2 * 2 : ℝ) = 1 by norm_num, one_mul]
  refine sum_congr rfl fun i hi => ?_
  rw [if_pos (mem_range.1 hi)]
  simp only [Nat.add_sub_cancel]
  ring

theorem dot_rH0d {m : ℕ} (hm : 0 < m) (x y : List ℝ) (hx : x.length = m) (hy : y.length = m) :
    dot x (rH0d y) = 1 / 2 * dot (mirror1 x 1) (Hs (mirror1 y 1)) := by
  obtain ⟨f, rfl⟩ : ∃ f, x = tab m f := ⟨_, eq_tab' hx 0⟩
  obtain ⟨g, rfl⟩ : ∃ g, y = tab m g := ⟨_, eq_tab' hy 0⟩
  obtain ⟨p, hp, ev, hv, hm'⟩ := exists_even1 hm g
  unfold rH0d
  rw [hm', hp.Hs, unmirror1_tab, mirror1_tab, dot_tab, dot_tab]
  set Q : ℕ → ℝ := fun j => ∫ ξ in (hh (2 * m) / 2 + j * hh (2 * m) - hh (2 * m) / 2)..(hh (2 * m) / 2 + j * hh (2 * m) + hh (2 * m) / 2), p ξ with hQ
  have hQ' : ∀ i < m, Q (2 * m - 1 - i) = Q i := fun i h1 => by
    have a1 := even_avg ev (hh (2 * m) / 2) (hh (2 * m) / 2 + i * hh (2 * m))
    have a2 := periodic_avg hp.periodic (hh (2 * m) / 2) (-(hh (2 * m) / 2 + i * hh (2 * m)))
    beta_reduce at a1 a2
    simp only [hQ]
    have e : hh (2 * m) / 2 + ((2 * m - 1 - i : ℕ) : ℝ) * hh (2 * m) = -(hh (2 * m) / 2 + i * hh (2 * m)) + 2 * π := by
      rw [← mul_hh (show 0 < 2 * m by omega), Nat.sub_sub, Nat.cast_sub (by omega)]; push_cast; ring
    rw [e, ← a1, ← a2]
  rw [fold_sum1 (fun i => (if i < m then f i else 1 * f (2 * m - 1 - i)) * Q i) fun i h1 => by
    beta_reduce
    rw [hQ' i h1, if_neg (by omega), if_pos (by omega), one_mul, show 2 * m - 1 - (2 * m - 1 - i) = i by omega], ← mul_assoc,
    show (1 / 2 * 2 : ℝ) = 1 by norm_num, one_mul]
  exact sum_congr rfl fun i hi => by rw [if_pos (mem_range.1 hi)]

theorem rH0_spd {n : ℕ} (hn : 2 ≤ n) : SPD n rH0 := by
  have hs := Hs_spd (show 0 < 2 * n - 2 by omega)
  have hl : ∀ x : List ℝ, x.length = n → (mirror0 x 1).length = 2 * n - 2 := fun x hx => by rw [eq_tab' hx 0, mirror0_tab hn, length_tab]
  refine ⟨fun x y hx hy => ?_, fun x hx hne => ?_⟩
  · rw [dot_rH0 hn x y hx hy, dot_rH0 hn y x hy hx, hs.symm _ _ (hl x hx) (hl y hy)]
  · rw [dot_rH0 hn x x hx hx]
    have := hs.pos _ (hl x hx) (fun h => hne (by
      obtain ⟨f, rfl⟩ : ∃ f, x = tab n f := ⟨_, eq_tab' hx 0⟩
      rw [mirror0_tab hn, replicate_tab, tab_inj] at h
      rw [replicate_tab, tab_inj]
      exact fun i hi => by have := h i (by omega); rwa [if_pos hi] at this))
    linarith

theorem rH0d_spd {m : ℕ} (hm : 0 < m) : SPD m rH0d := by
  have hs := Hs_spd (show 0 < 2 * m by omega)
  have hl : ∀ x : List ℝ, x.length = m → (mirror1 x 1).length = 2 * m := fun x hx => by rw [eq_tab' hx 0, mirror1_tab, length_tab]
  refine ⟨fun x y hx hy => ?_, fun x hx hne => ?_⟩
  · rw [dot_rH0d hm x y hx hy, dot_rH0d hm y x hy hx, hs.symm _ _ (hl x hx) (hl y hy)]
  · rw [dot_rH0d hm x x hx hx]
    have := hs.pos _ (hl x hx) (fun h => hne (by
      obtain ⟨f, rfl⟩ : ∃ f, x = tab m f := ⟨_, eq_tab' hx 0⟩
      rw [mirror1_tab, replicate_tab, tab_inj] at h
      rw [replicate_tab, tab_inj]
      exact fun i hi => by have := h i (by omega); rwa [if_pos hi] at this))
    linarith

end Regular

end Dec
