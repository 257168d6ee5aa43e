import Verif.Props.PoissonCheb
import Verif.Lib.ChebL2

set_option linter.unusedSimpArgs false
set_option linter.unusedVariables false

/-! # C109: the Neumann problem of the Chebyshev Poisson example -/

namespace Dec.Props

open Finset Real Sp G2

theorem pt_cos (θ : ℝ) : Chebyshev.pt (-1) 1 θ = -cos θ := by unfold Chebyshev.pt; ring

theorem cheb_P0_cos (n : ℕ) (hn : 2 ≤ n) (f : ℝ → ℝ) : (Chebyshev.make n).P 0 true f = tab n fun i => f (-cos ((i : ℝ) * (π / ((n - 1 : ℕ) : ℝ)))) := by
  have h : (Chebyshev.make n).P 0 true f = tab n fun i => f (Chebyshev.pt (-1) 1 ((i : ℝ) * (π / ((n - 1 : ℕ) : ℝ)))) := (Chebyshev.isInterval hn (-1) 1).P0 f
  rw [h]
  exact tab_congr fun i _ => by rw [pt_cos]

theorem cheb_P0d_cos (n : ℕ) (hn : 2 ≤ n) (f : ℝ → ℝ) : (Chebyshev.make n).P 0 false f = tab (n - 1) fun i => f (-cos (((i : ℝ) + 1 / 2) * (π / ((n - 1 : ℕ) : ℝ)))) := by
  have h : (Chebyshev.make n).P 0 false f = tab (n - 1) fun i => f (Chebyshev.pt (-1) 1 (((i : ℝ) + 1 / 2) * (π / ((n - 1 : ℕ) : ℝ)))) := (Chebyshev.isInterval hn (-1) 1).P0d f
  rw [h]
  exact tab_congr fun i _ => by rw [pt_cos]

theorem cheb_bc (n : ℕ) (hn : 2 ≤ n) (f : ℝ → ℝ) : (Chebyshev.make n).boundary_condition f = tab n fun i => if i = n - 1 then f 1 else if i = 0 then -f (-1) else 0 :=
  (Chebyshev.isInterval hn (-1) 1).boundary_condition f

theorem cheb_D0d (n : ℕ) (hn : 2 ≤ n) (x : ℕ → ℝ) : (Chebyshev.make n).D 0 false (tab (n - 1) x) = some (tab n fun i => (if i < n - 1 then x i else 0) - (if i = 0 then 0 else x (i - 1))) := by
  have hI := Chebyshev.isInterval hn (-1) 1
  have h1 : (Chebyshev.make n).D 0 false (tab (n - 1) x) = some (diff ([0] ++ tab (n - 1) x ++ [0])) := hI.D0d _
  have h2 : diff ([0] ++ tab (n - 1) x ++ [0]) = tab n fun i => (if i < n - 1 then x i else 0) - (if i = 0 then 0 else x (i - 1)) := hI.diff_zero_pad x
  rw [h1, h2]

/-- What the Neumann system says about the polynomial through the unknowns: its derivative at the dual vertices is the integral of the source from the left end. -/
theorem neumann_key (n : ℕ) (hn : 2 ≤ n) (h927 : n ≤ 927) {u u' u'' g G φ : ℝ → ℝ} {b : List ℝ} (hu : IsPoly n u) (hu1 : ∀ x, HasDerivAt u (u' x) x) (hu2 : ∀ x, HasDerivAt u' (u'' x) x)
    (hg : IsPoly n g) (hG : ∀ x, HasDerivAt G (g x) x) (hG0 : G (-1) = φ (-1)) (hb : (Chebyshev.make n).H 1 false ((Chebyshev.make n).boundary_condition φ) = .ok b)
    (h : (Chebyshev.make n).laplacian true ((Chebyshev.make n).P 0 true u) = .ok (vsub ((Chebyshev.make n).P 0 true g) b)) :
    (∀ i < n - 1, u' (-cos (((i : ℝ) + 1 / 2) * (π / ((n - 1 : ℕ) : ℝ)))) = G (-cos (((i : ℝ) + 1 / 2) * (π / ((n - 1 : ℕ) : ℝ))))) ∧ G 1 = φ 1 := by
  have hv : validSize .chebyshev n := hn
  have hS : Stars (Chebyshev.make n) := grid_stars .chebyshev n hv (fun _ => h927) (-1) 1
  have N10 : (Chebyshev.make n).N 1 false = n := (Chebyshev.isInterval hn (-1) 1).N10
  have hu'' : IsPoly n u'' := isPoly_mono (by omega) (isPoly_deriv (isPoly_deriv hu hu1) hu2)
  obtain ⟨y, b', e1, e2, e3⟩ := C67_neumann_exact n hn h927 u u' u'' hu hu1 hu2
  rw [h] at e1
  have e1' := Except.ok.inj e1
  obtain ⟨η, hη, eη⟩ := hS.lin 1 false
  rw [N10] at hη eη
  have lbc : ∀ q, ((Chebyshev.make n).boundary_condition q).length = n := fun q => by rw [cheb_bc n hn]; simp
  have lP : ∀ q, ((Chebyshev.make n).P 0 true q).length = n := fun q => by rw [cheb_P0_cos n hn]; simp
  rw [eη _ (lbc _)] at hb e2
  have hb := Except.ok.inj hb
  have e2 := Except.ok.inj e2
  have N01 : (Chebyshev.make n).N (1 - 1) (!false) = n := (Chebyshev.isInterval hn (-1) 1).N01
  rw [N01] at hη
  have lη : ∀ q, (η ((Chebyshev.make n).boundary_condition q)).length = n := fun q => hη.len _ (lbc q)
  have hdiff : η ((Chebyshev.make n).boundary_condition fun x => u' x - φ x) = (Chebyshev.make n).P 0 true fun x => u'' x - g x := by
    have l1 : (Chebyshev.make n).boundary_condition (fun x => u' x - φ x) = vsub ((Chebyshev.make n).boundary_condition u') ((Chebyshev.make n).boundary_condition φ) := by
      rw [cheb_bc n hn, cheb_bc n hn, cheb_bc n hn, vsub_tab]
      refine tab_congr fun i _ => ?_
      split_ifs <;> ring
    rw [l1, lin_sub hη (lbc _) (lbc _)]
    have l2 : (Chebyshev.make n).P 0 true (fun x => u'' x - g x) = vsub ((Chebyshev.make n).P 0 true u'') ((Chebyshev.make n).P 0 true g) := by
      rw [cheb_P0_cos n hn, cheb_P0_cos n hn, cheb_P0_cos n hn, vsub_tab]
    rw [l2, ← e3, ← e1', ← hb, ← e2]
    rw [eq_tab' (lη φ) 0, eq_tab' (lη u') 0, eq_tab' (lP g) 0]
    simp only [vsub_tab, vadd_tab]
    exact tab_congr fun i _ => by ring
  have hinv := hS.inv 1 false _ ((lbc fun x => u' x - φ x).trans N10.symm)
  rw [eη _ (lbc _), hdiff] at hinv
  have hst : (Chebyshev.make n).H 0 true ((Chebyshev.make n).P 0 true fun x => u'' x - g x) = .ok ((Chebyshev.make n).P 1 false fun x => u'' x - g x) :=
    (C06_chebyshev_hodge_exact_primal n hn _ (by
      have := isPoly_add hu'' (isPoly_smul (-1) hg)
      simpa [sub_eq_add_neg] using this)).1
  have hinv' : (Chebyshev.make n).H 0 true ((Chebyshev.make n).P 0 true fun x => u'' x - g x) = .ok ((Chebyshev.make n).boundary_condition fun x => u' x - φ x) := hinv
  rw [hst] at hinv'
  have hP1 := Except.ok.inj hinv'
  set W : ℝ → ℝ := fun x => u' x - G x with hW
  have c : Continuous fun x => u'' x - g x := hu''.continuous.sub hg.continuous
  have h8 : ((Chebyshev.make n).D 0 false ((Chebyshev.make n).P 0 false W)).map (vadd · ((Chebyshev.make n).boundary_condition W)) = some ((Chebyshev.make n).P 1 false fun x => u'' x - g x) :=
    C08_interval .chebyshev n hn (-1) 1 (by norm_num) W (fun x => u'' x - g x) (fun s _ => (hu2 s).sub (hG s)) (c.intervalIntegrable _ _)
  rw [hP1, cheb_P0d_cos n hn, cheb_D0d n hn, cheb_bc n hn, cheb_bc n hn, Option.map_some] at h8
  have h9 := Option.some.inj h8
  rw [vadd_tab] at h9
  have h10 := fun i hi => tab_inj.1 h9 i hi
  have W0 : ∀ i < n - 1, W (-cos (((i : ℝ) + 1 / 2) * (π / ((n - 1 : ℕ) : ℝ)))) = 0 := fun i => by
    induction i with
    | zero =>
      intro hi
      have := h10 0 (by omega)
      simp only [if_pos hi, if_neg (show ¬ (0 = n - 1) by omega), if_true] at this
      have hm : W (-1) = u' (-1) - φ (-1) := by simp only [hW, hG0]
      linarith
    | succ i ih =>
      intro hi
      have := h10 (i + 1) (by omega)
      simp only [if_pos hi, if_neg (show ¬ (i + 1 = n - 1) by omega), if_neg (show ¬ (i + 1 = 0) by omega), Nat.add_sub_cancel, ih (show i < n - 1 by omega)] at this
      linarith
  refine ⟨fun i hi => sub_eq_zero.1 (W0 i hi), ?_⟩
  have := h10 (n - 1) (by omega)
  simp only [if_neg (show ¬ (n - 1 < n - 1) by omega), if_neg (show ¬ (n - 1 = 0) by omega), if_true, W0 (n - 1 - 1) (by omega)] at this
  simp only [hW] at this
  linarith

/-- The variation of a function is at most the integral of the absolute value of its derivative. -/
theorem variation_le {u u' : ℝ → ℝ} (h : ∀ x, HasDerivAt u (u' x) x) (hc : Continuous u') {x : ℝ} (hx : x ∈ Set.Icc (-1 : ℝ) 1) : |u x - u (-1)| ≤ ∫ y in (-1 : ℝ)..1, |u' y| := by
  rw [← intervalIntegral.integral_eq_sub_of_hasDerivAt (fun y _ => h y) (hc.intervalIntegrable _ _)]
  refine (intervalIntegral.abs_integral_le_integral_abs hx.1).trans ?_
  exact intervalIntegral.integral_mono_interval le_rfl hx.1 hx.2 (Filter.Eventually.of_forall fun y => abs_nonneg _) (hc.abs.intervalIntegrable _ _)

/-- A polynomial of degree less than `N` with values at most `ε` at the midpoint angles. -/
theorem variation_dual {N : ℕ} (hN : 0 < N) {p : ℝ → ℝ} (hp : IsPoly N p) {E : ℝ} (h : ∀ j < N, p (-cos (((j : ℝ) + 1 / 2) * (π / N))) ^ 2 ≤ E) : (∫ x in (-1 : ℝ)..1, |p x|) ^ 2 ≤ π ^ 2 / 2 * E := by
  have hN' : (0 : ℝ) < N := by exact_mod_cast hN
  refine (l1_dual hN hp).trans ?_
  calc _ ≤ π ^ 2 / (2 * N) * ∑ j ∈ range N, E := mul_le_mul_of_nonneg_left (sum_le_sum fun j hj => h j (mem_range.1 hj)) (by positivity)
    _ = _ := by rw [sum_const, card_range, nsmul_eq_mul]; field_simp

theorem cheb_interp (n : ℕ) (hn : 2 ≤ n) (r : List ℝ) (hr : r.length = n) : ∃ g, IsPoly n g ∧ (Chebyshev.make n).P 0 true g = r := by
  have N01 : (grid₀ .chebyshev n).N 0 true = n := (Chebyshev.isInterval hn (-1) 1).N01
  obtain ⟨g, h1, h2, -⟩ := C70_reconstruction_determined .chebyshev n hn 0 true r (by rw [hr, N01])
  exact ⟨g, by simpa [Determined] using h1, h2⟩

theorem poly_derivs {m : ℕ} {u : ℝ → ℝ} (hu : IsPoly m u) : ∃ u' u'' : ℝ → ℝ, (∀ x, HasDerivAt u (u' x) x) ∧ ∀ x, HasDerivAt u' (u'' x) x := by
  obtain ⟨P, -, e⟩ := hu.exists_eval
  obtain rfl : u = fun x => P.eval x := funext e
  exact ⟨fun x => P.derivative.eval x, fun x => P.derivative.derivative.eval x, fun x => P.hasDerivAt x, fun x => P.derivative.hasDerivAt x⟩

theorem cheb_H_zero (n : ℕ) (hn : 2 ≤ n) (h927 : n ≤ 927) : (Chebyshev.make n).H 1 false ((Chebyshev.make n).boundary_condition fun _ => 0) = .ok (List.replicate n 0) := by
  have hS : Stars (Chebyshev.make n) := grid_stars .chebyshev n hn (fun _ => h927) (-1) 1
  have N10 : (Chebyshev.make n).N 1 false = n := (Chebyshev.isInterval hn (-1) 1).N10
  have N01 : (Chebyshev.make n).N (1 - 1) (!false) = n := (Chebyshev.isInterval hn (-1) 1).N01
  obtain ⟨η, hη, eη⟩ := hS.lin 1 false
  rw [N10, N01] at hη
  rw [N10] at eη
  have e : (Chebyshev.make n).boundary_condition (fun _ => 0) = List.replicate n 0 := by
    rw [cheb_bc n hn, replicate_tab]
    exact tab_congr fun i _ => by simp
  rw [e, eη _ (by simp), lin_zero hη]

theorem vsub_replicate {n : ℕ} {r : List ℝ} (hr : r.length = n) : vsub r (List.replicate n 0) = r := by
  obtain ⟨f, rfl⟩ : ∃ f, r = tab n f := ⟨_, eq_tab' hr 0⟩
  rw [replicate_tab, vsub_tab]
  exact tab_congr fun i _ => sub_zero _

/-- **C109** (stability, Neumann): every array on the primal vertices differs from its first number by at most `π²/2` times the root mean square of its Laplacian, whatever the size of the grid
(stated with squares; the mean is taken with `n - 1`). -/
theorem C109_neumann_stability (n : ℕ) (hn : 2 ≤ n) (h927 : n ≤ 927) (z r : List ℝ) (hz : z.length = n) (h : (Chebyshev.make n).laplacian true z = .ok r) (i : ℕ) (hi : i < n) :
    (z.getD i 0 - z.getD 0 0) ^ 2 ≤ (π ^ 2 / 2) ^ 2 * ((r.map (· ^ 2)).sum / (n - 1 : ℕ)) := by
  have hv : validSize .chebyshev n := hn
  have hN : 0 < n - 1 := by omega
  have hN' : (0 : ℝ) < ((n - 1 : ℕ) : ℝ) := by exact_mod_cast hN
  have hr : r.length = n := by
    obtain ⟨L, hL, eL⟩ := lap_elin (grid_factor .chebyshev n hv (-1) 1) (grid_stars .chebyshev n hv (fun _ => h927) (-1) 1) true
    have e := eL z hz
    rw [show (grid .chebyshev n (-1) 1).laplacian true z = .ok r from h] at e
    rw [Except.ok.inj e]
    exact hL.len _ hz
  obtain ⟨u, hu, rfl⟩ := cheb_interp n hn z hz
  obtain ⟨g, hg, rfl⟩ := cheb_interp n hn r hr
  obtain ⟨u', u'', h1, h2⟩ := poly_derivs hu
  obtain ⟨G, hGp, hG⟩ := isPoly_antideriv hg
  have k := (neumann_key n hn h927 (G := fun x => G x - G (-1)) (φ := fun _ => 0) hu h1 h2 hg (fun x => (hG x).sub_const _) (sub_self _) (cheb_H_zero n hn h927) (by rw [vsub_replicate hr]; exact h)).1
  set Q := ∑ j ∈ range n, g (-cos ((j : ℝ) * (π / ((n - 1 : ℕ) : ℝ)))) ^ 2 with hQ
  have s1 : (∫ x in (-1 : ℝ)..1, |g x|) ^ 2 ≤ π ^ 2 / (2 * ((n - 1 : ℕ) : ℝ)) * Q := by
    have := l1_primal (N := n - 1) hN (p := g) (by rw [show n - 1 + 1 = n by omega]; exact hg)
    rw [show n - 1 + 1 = n by omega] at this
    exact this
  have hu' : IsPoly (n - 1) u' := isPoly_deriv hu h1
  have s2 := variation_dual hN hu' (E := π ^ 2 / (2 * ((n - 1 : ℕ) : ℝ)) * Q) fun j hj => by
    rw [k j hj]
    refine le_trans ?_ s1
    have hv := variation_le hG (isPoly_cont hg) (x := -cos (((j : ℝ) + 1 / 2) * (π / ((n - 1 : ℕ) : ℝ)))) ⟨by linarith [cos_le_one (((j : ℝ) + 1 / 2) * (π / ((n - 1 : ℕ) : ℝ)))], by linarith [neg_one_le_cos (((j : ℝ) + 1 / 2) * (π / ((n - 1 : ℕ) : ℝ)))]⟩
    rw [← sq_abs]
    exact pow_le_pow_left₀ (abs_nonneg _) hv 2
  have s3 := variation_le h1 (isPoly_cont hu') (x := -cos ((i : ℝ) * (π / ((n - 1 : ℕ) : ℝ)))) ⟨by linarith [cos_le_one ((i : ℝ) * (π / ((n - 1 : ℕ) : ℝ)))], by linarith [neg_one_le_cos ((i : ℝ) * (π / ((n - 1 : ℕ) : ℝ)))]⟩
  rw [cheb_P0_cos n hn, cheb_P0_cos n hn, getD_tab hi, getD_tab (show 0 < n by omega), map_tab, sum_tab, ← hQ]
  simp only [Nat.cast_zero, zero_mul, cos_zero]
  rw [← sq_abs]
  refine (pow_le_pow_left₀ (abs_nonneg _) s3 2).trans (s2.trans (le_of_eq ?_))
  field_simp

end Dec.Props
