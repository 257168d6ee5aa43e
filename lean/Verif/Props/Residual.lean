import Verif.Props.Separable2
import Verif.Props.PoissonNeumann
import Verif.Lib.Jet

set_option linter.unusedSimpArgs false
set_option linter.unusedVariables false

/-!
# C111: the residuals of the Poisson examples on Chebyshev grids (`/repo/doc/plot/cheb/poisson1d_cheb.py`, `/repo/doc/plot/cheb/poisson2d_cheb.py`)
-/

namespace Dec.Props

open Real Finset Dec.G2 Dec.Sp

theorem rO_functional {n : ℕ} {A : ℕ → ℕ → ℝ} {H : (Fin 3 → ℝ → ℝ) → ℕ → ℕ → ℝ} {j : ℕ} (h : ∀ k < n, Functional fun F => H F j k) (i : ℕ) : Functional fun F => rO n A (H F) j i :=
  Functional.finsum fun k hk => (h k hk).mul (A i k)

theorem beta_functional {g : Grid1} (h1 : g.xmin ∈ Set.Icc (-1 : ℝ) 1) (h2 : g.xmax ∈ Set.Icc (-1 : ℝ) 1) (d : Fin 3) (i : ℕ) : Functional fun F => G2.beta g (F d) i := by
  unfold G2.beta
  refine Functional.add ?_ ?_
  · by_cases h : lo g false i = g.xmin
    · simp only [h, if_true]; exact (Functional.eval d h1).neg
    · simp only [h, if_false]; exact Functional.zero
  · by_cases h : hi g false i = g.xmax
    · simp only [h, if_true]; exact Functional.eval d h2
    · simp only [h, if_false]; exact Functional.zero

theorem lapX_functional {g : Grid1} {t : Bool} {A A' S1 S1' : ℕ → ℕ → ℝ} {H : (Fin 3 → ℝ → ℝ) → ℕ → ℕ → ℝ} (h : ∀ k < g.N 0 t, Functional fun F => H F 0 k) (i : ℕ) :
    Functional fun F => lapX g t A A' S1 S1' (H F) 0 i :=
  rO_functional (fun k _ => rO_functional (fun k _ => rO_functional (fun k _ => rO_functional h k) k) k) i

section
variable (n : ℕ) (hn : 2 ≤ n) (h927 : n ≤ 927)
include hn h927

/-- The left-hand side with prescribed values, as numbers. -/
theorem valueSide_functional : ∃ V : (Fin 3 → ℝ → ℝ) → ℕ → ℝ,
    (∀ F, valueSide .chebyshev (grid₀ .chebyshev n) (F 0) = .ok (tab ((grid₀ .chebyshev n).N 0 false) (V F))) ∧ ∀ i, Functional fun F => V F i := by
  have hv : validSize .chebyshev n := hn
  have Fx : Factor (grid₀ .chebyshev n) := grid_factor .chebyshev n hv (-1) 1
  have Sx : Stars (grid₀ .chebyshev n) := grid_stars .chebyshev n hv (fun _ => h927) (-1) 1
  have ex : ∀ f, ends .chebyshev (grid₀ .chebyshev n) f = tab ((grid₀ .chebyshev n).N 1 false) (G2.beta (grid₀ .chebyshev n) f) := fun f =>
    ends_beta .chebyshev n hv (by norm_num : (-1 : ℝ) < 1) f
  obtain ⟨A, A', S0, S1, S0', S1', Mx⟩ := exists_mats Fx Sx false
  refine ⟨_, fun F => valueSide_m .chebyshev Fx Mx (ex (F 0)), fun i => Functional.add (lapX_functional (fun k hk => Functional.eval 0 (cells_in .chebyshev n hv 0 false k hk)) i)
    (rO_functional (fun k _ => rO_functional (fun k _ => rO_functional (fun k _ => beta_functional (g := grid₀ .chebyshev n) ?_ ?_ 0 k) k) k) i)⟩
  · exact Set.left_mem_Icc.2 (by norm_num)
  · exact Set.right_mem_Icc.2 (by norm_num)

/-- The left-hand side with prescribed slopes, as numbers. -/
theorem slopeSide_functional : ∃ V : (Fin 3 → ℝ → ℝ) → ℕ → ℝ,
    (∀ F, slopeSide .chebyshev (grid₀ .chebyshev n) (F 0) (F 1) = .ok (tab ((grid₀ .chebyshev n).N 0 true) (V F))) ∧ ∀ i, Functional fun F => V F i := by
  have hv : validSize .chebyshev n := hn
  have Fx : Factor (grid₀ .chebyshev n) := grid_factor .chebyshev n hv (-1) 1
  have Sx : Stars (grid₀ .chebyshev n) := grid_stars .chebyshev n hv (fun _ => h927) (-1) 1
  have ex : ∀ f, ends .chebyshev (grid₀ .chebyshev n) f = tab ((grid₀ .chebyshev n).N 1 false) (G2.beta (grid₀ .chebyshev n) f) := fun f =>
    ends_beta .chebyshev n hv (by norm_num : (-1 : ℝ) < 1) f
  obtain ⟨A, A', S0, S1, S0', S1', Mx⟩ := exists_mats Fx Sx true
  refine ⟨_, fun F => slopeSide_m .chebyshev Fx Mx (ex (F 1)), fun i => Functional.add (lapX_functional (fun k hk => Functional.eval 0 (cells_in .chebyshev n hv 0 true k hk)) i)
    (rO_functional (fun k _ => beta_functional (g := grid₀ .chebyshev n) ?_ ?_ 1 k) i)⟩
  · exact Set.left_mem_Icc.2 (by norm_num)
  · exact Set.right_mem_Icc.2 (by norm_num)

/-! ## The Chebyshev polynomials -/

omit hn h927 in
theorem isPoly_of_natDegree {Q : Polynomial ℝ} {m : ℕ} (h : Q.natDegree < m) : IsPoly m fun x => Q.eval x :=
  ⟨fun i => Q.coeff i, fun x => Polynomial.eval_eq_sum_range' h x⟩

omit hn h927 in
theorem valueSide_of {k : Kind} {g : Grid1} {f : ℝ → ℝ} {b c d u : List ℝ} (h0 : g.laplacian false (g.P 0 false f) = .ok u) (h1 : g.H 1 false (ends k g f) = .ok b)
    (h2 : g.d0 true b = .ok c) (h3 : g.H 1 true c = .ok d) : valueSide k g f = .ok (vadd u d) := by
  simp only [valueSide, valueTerm, h0, h1, h2, h3, Bind.bind, Except.bind, pure, Except.pure]

omit hn h927 in
theorem slopeSide_of {k : Kind} {g : Grid1} {f f' : ℝ → ℝ} {b u : List ℝ} (h0 : g.laplacian true (g.P 0 true f) = .ok u) (h1 : g.H 1 false (ends k g f') = .ok b) :
    slopeSide k g f f' = .ok (vadd u b) := by
  simp only [slopeSide, h0, h1, Bind.bind, Except.bind, pure, Except.pure]

omit hn h927 in
theorem ends_chebyshev (g : Grid1) (f : ℝ → ℝ) : ends .chebyshev g f = g.boundary_condition f := rfl

omit hn h927 in
theorem valueTerm_of {k : Kind} {g : Grid1} {f : ℝ → ℝ} {b c d : List ℝ} (h1 : g.H 1 false (ends k g f) = .ok b)
    (h2 : g.d0 true b = .ok c) (h3 : g.H 1 true c = .ok d) : valueTerm k g f = .ok d := by
  simp only [valueTerm, h1, h2, h3, Bind.bind, Except.bind]

omit hn h927 in
theorem valueTerm_length {k : Kind} {g : Grid1} (F : Factor g) (S : Stars g) {f : ℝ → ℝ} {β : ℕ → ℝ} (hβ : ends k g f = tab (g.N 1 false) β) {d : List ℝ} (h : valueTerm k g f = .ok d) :
    d.length = g.N 0 false := by
  obtain ⟨A, A', S0, S1, S0', S1', M⟩ := exists_mats F S false
  rw [valueTerm_m k M hβ] at h
  rw [← Except.ok.inj h, length_tab]

/-- The left-hand side with prescribed values is exact for polynomials of degree at most `n`. -/
theorem valueSide_poly {f f' f'' : ℝ → ℝ} (hf : IsPoly (n + 1) f) (h1 : ∀ x, HasDerivAt f (f' x) x) (h2 : ∀ x, HasDerivAt f' (f'' x) x) :
    valueSide .chebyshev (Chebyshev.make n) f = .ok ((Chebyshev.make n).P 0 false f'') := by
  have hv : validSize .chebyshev n := hn
  have hl : ∀ q, ((Chebyshev.make n).P 0 false q).length = n - 1 := fun q => C11_projection .chebyshev n hv (-1) 1 0 false q
  obtain ⟨b, c, d, e1, e2, e3, e4⟩ := C67_dirichlet_solution n hn h927 f f' f'' hf h1 h2
  have e5 := (e4 _ (hl f)).2 rfl
  rw [← ends_chebyshev] at e1
  rw [valueSide_of e5 e1 e2 e3]
  have hF : Factor (Chebyshev.make n) := grid_factor .chebyshev n hv (-1) 1
  have hS : Stars (Chebyshev.make n) := grid_stars .chebyshev n hv (fun _ => h927) (-1) 1
  have hE : ends .chebyshev (Chebyshev.make n) f = tab ((Chebyshev.make n).N 1 false) (G2.beta (Chebyshev.make n) f) := ends_beta .chebyshev n hv (by norm_num : (-1 : ℝ) < 1) f
  have hd : d.length = n - 1 := (valueTerm_length hF hS hE (valueTerm_of e1 e2 e3)).trans (Chebyshev.isInterval hn (-1) 1).N00
  have e6 : (Chebyshev.make n).P 0 false f'' = tab (n - 1) fun i => f'' (-cos (((i : ℝ) + 1 / 2) * (π / ((n - 1 : ℕ) : ℝ)))) := cheb_P0d_cos n hn f''
  rw [e6]
  obtain ⟨δ, rfl⟩ : ∃ δ, d = tab (n - 1) δ := ⟨_, eq_tab' hd 0⟩
  rw [vsub_tab, vadd_tab]
  exact congrArg _ (tab_congr fun i _ => by ring)

theorem slopeSide_poly {f f' f'' : ℝ → ℝ} (hf : IsPoly n f) (h1 : ∀ x, HasDerivAt f (f' x) x) (h2 : ∀ x, HasDerivAt f' (f'' x) x) :
    slopeSide .chebyshev (Chebyshev.make n) f f' = .ok ((Chebyshev.make n).P 0 true f'') := by
  obtain ⟨y, z, e1, e2, e3⟩ := C67_neumann_exact n hn h927 f f' f'' hf h1 h2
  rw [slopeSide_of e1 (by rw [ends_chebyshev]; exact e2), e3]


omit h927 in
theorem dual_node (i : ℕ) (hi : i < n - 1) : BdC n false (-cos (((i : ℝ) + 1 / 2) * (π / ((n - 1 : ℕ) : ℝ)))) := by
  have hpi := mul_hh_double hn
  simp only [BdC, Bool.false_eq_true, if_false]
  refine Or.inl ⟨n - 1 - 1 - i, ?_⟩
  rw [(hh_double hn).symm, ← cos_pi_sub]
  congr 1
  rw [← hpi, show ((n - 1 : ℕ) : ℝ) = ((n - 1 - 1 - i : ℕ) : ℝ) + 1 + i by exact_mod_cast (by omega : n - 1 = n - 1 - 1 - i + 1 + i)]; ring

omit h927 in
theorem primal_node (i : ℕ) (hi : i ≤ n - 1) : BdC n true (-cos ((i : ℝ) * (π / ((n - 1 : ℕ) : ℝ)))) := by
  have hpi := mul_hh_double hn
  simp only [BdC, if_true]
  refine ⟨n - 1 - i, by omega, ?_⟩
  rw [(hh_double hn).symm, ← cos_pi_sub]
  congr 1
  rw [← hpi, Nat.cast_sub hi]; ring

omit hn h927 in
theorem valueSide_congr {k : Kind} {g : Grid1} {f q : ℝ → ℝ} (h0 : g.P 0 false f = g.P 0 false q) (h1 : ends k g f = ends k g q) : valueSide k g f = valueSide k g q := by
  unfold valueSide valueTerm
  rw [h0, h1]

omit hn h927 in
theorem jet_zero (p : Polynomial ℝ) : jet p 0 = fun x => p.eval x := rfl

omit hn h927 in
theorem jet_one (p : Polynomial ℝ) : jet p 1 = fun x => p.derivative.eval x := rfl

omit hn h927 in
theorem jet_two (p : Polynomial ℝ) : jet p 2 = fun x => p.derivative.derivative.eval x := rfl

open Polynomial.Chebyshev in
/-- The left-hand side with prescribed values, for a Chebyshev polynomial. -/
theorem value_T (m : ℕ) : ∃ q : ℝ → ℝ, valueSide .chebyshev (Chebyshev.make n) (jet (T ℝ m) 0) = .ok ((Chebyshev.make n).P 0 false q) ∧ (∀ x ∈ Set.Icc (-1 : ℝ) 1, |q x| ≤ (m : ℝ) ^ 4) ∧
    (m < n + 1 → q = jet (T ℝ m) 2) := by
  obtain ⟨Q, h1, h2, -, h4, h5⟩ := cheb_one_alias hn false m
  simp only [Bool.false_eq_true, if_false] at h1 h4
  refine ⟨fun x => Q.derivative.derivative.eval x, ?_, h5, fun h => by rw [jet_two, h4 (by omega)]⟩
  have hP : (Chebyshev.make n).P 0 false (jet (T ℝ m) 0) = (Chebyshev.make n).P 0 false fun x => Q.eval x := by
    rw [cheb_P0d_cos n hn, cheb_P0d_cos n hn]
    exact tab_congr fun i hi => (h2 _ (dual_node n hn i hi)).symm
  have hE : ends .chebyshev (Chebyshev.make n) (jet (T ℝ m) 0) = ends .chebyshev (Chebyshev.make n) fun x => Q.eval x := by
    rw [ends_chebyshev, ends_chebyshev]
    exact bc_congr n (h2 (-1) (by simp [BdC])).symm (h2 1 (by simp [BdC])).symm
  rw [valueSide_congr hP hE]
  exact valueSide_poly n hn h927 (isPoly_of_natDegree (by omega)) (fun x => Q.hasDerivAt x) (fun x => Q.derivative.hasDerivAt x)


/-! ## Prescribed slopes -/

omit h927 in
theorem T_dual_node (i : ℕ) : (Polynomial.Chebyshev.T ℝ ((n - 1 : ℕ) : ℤ)).eval (-cos (((i : ℝ) + 1 / 2) * (π / ((n - 1 : ℕ) : ℝ)))) = 0 := by
  rw [T_neg_cos, cos_eq_zero_iff]
  have hN : ((n - 1 : ℕ) : ℝ) ≠ 0 := by
    have : n - 1 ≠ 0 := by omega
    exact_mod_cast this
  refine ⟨((n - 1 : ℕ) : ℤ) - i - 1, ?_⟩
  push_cast
  field_simp
  ring

open Polynomial Polynomial.Chebyshev in
omit h927 in
/-- A function whose integrals over the dual edges are the boundary array. -/
theorem bc_bump (α β : ℝ) : ∃ W : ℝ[X], W.natDegree ≤ n ∧ W.eval 1 = α ∧ W.eval (-1) = β ∧ (∀ i : ℕ, W.eval (-cos (((i : ℝ) + 1 / 2) * (π / ((n - 1 : ℕ) : ℝ)))) = 0) ∧
    ∀ x ∈ Set.Icc (-1 : ℝ) 1, |W.derivative.eval x| ≤ (|α| + |β|) * ((n : ℝ) ^ 2) := by
  set N := n - 1 with hN
  set s := (T ℝ (N : ℤ)).eval (-1) with hs
  have hs1 : |s| ≤ 1 := T_abs_le N (by norm_num)
  have hss : s * s = 1 := by
    rw [hs, T_eval_neg_one]
    rcases Int.units_eq_one_or (N : ℤ).negOnePow with h | h <;> rw [h] <;> norm_num
  refine ⟨C (α / 2) * ((1 + X) * T ℝ (N : ℤ)) + C (β * s / 2) * ((1 - X) * T ℝ (N : ℤ)), ?_, ?_, ?_, fun i => ?_, fun x hx => ?_⟩
  · have hT : (T ℝ (N : ℤ)).natDegree = N := by rw [natDegree_T]; simp
    have h1 : ((1 : ℝ[X]) + X).natDegree ≤ 1 := by
      refine (natDegree_add_le _ _).trans (max_le ?_ natDegree_X_le)
      rw [natDegree_one]; omega
    have h2 : ((1 : ℝ[X]) - X).natDegree ≤ 1 := by
      refine (natDegree_sub_le _ _).trans (max_le ?_ natDegree_X_le)
      rw [natDegree_one]; omega
    refine (natDegree_add_le _ _).trans (max_le ?_ ?_)
    · refine (natDegree_C_mul_le _ _).trans (natDegree_mul_le.trans ?_)
      rw [hT]; omega
    · refine (natDegree_C_mul_le _ _).trans (natDegree_mul_le.trans ?_)
      rw [hT]; omega
  · simp only [eval_add, eval_mul, eval_C, eval_one, eval_X, eval_sub, T_eval_one]; ring
  · simp only [eval_add, eval_mul, eval_C, eval_one, eval_X, eval_sub, ← hs]
    linear_combination β * hss
  · have h := T_dual_node n hn i
    rw [← hN] at h
    rw [eval_add, eval_mul, eval_mul, eval_mul, eval_mul, h]; ring
  · simp only [derivative_add, derivative_mul, derivative_C, derivative_one, derivative_X, derivative_sub, eval_add, eval_mul, eval_C, eval_one, eval_X, eval_sub, eval_zero]
    have h1 := T_abs_le N hx
    have h2 := deriv_T_bound N hx
    set τ := (T ℝ (N : ℤ)).eval x
    set τ' := (derivative (T ℝ (N : ℤ))).eval x
    have hNn : ((N : ℕ) : ℝ) + 1 = n := by exact_mod_cast (by omega : N + 1 = n)
    have hN0 : (0 : ℝ) ≤ N := by positivity
    have k1 : |(0 + 1) * τ + (1 + x) * τ'| ≤ 2 * (n : ℝ) ^ 2 := by
      refine (abs_add_le _ _).trans ?_
      rw [zero_add, one_mul, abs_mul, abs_of_nonneg (by linarith [hx.1] : (0 : ℝ) ≤ 1 + x)]
      have : (1 + x) * |τ'| ≤ 2 * (N : ℝ) ^ 2 := mul_le_mul (by linarith [hx.2]) h2 (abs_nonneg _) (by norm_num)
      rw [← hNn]; nlinarith
    have k2 : |(0 - 1) * τ + (1 - x) * τ'| ≤ 2 * (n : ℝ) ^ 2 := by
      refine (abs_add_le _ _).trans ?_
      rw [zero_sub, neg_one_mul, abs_neg, abs_mul, abs_of_nonneg (by linarith [hx.2] : (0 : ℝ) ≤ 1 - x)]
      have : (1 - x) * |τ'| ≤ 2 * (N : ℝ) ^ 2 := mul_le_mul (by linarith [hx.1]) h2 (abs_nonneg _) (by norm_num)
      rw [← hNn]; nlinarith
    have k3 : |β * s / 2| ≤ |β| / 2 := by
      rw [abs_div, abs_mul, abs_two]
      have := mul_le_mul_of_nonneg_left hs1 (abs_nonneg β)
      linarith
    have k4 : |α / 2| = |α| / 2 := by rw [abs_div, abs_two]
    simp only [zero_mul, zero_add]
    simp only [zero_add] at k1
    refine (abs_add_le _ _).trans ?_
    rw [abs_mul, abs_mul, k4]
    have m1 := mul_le_mul_of_nonneg_left k1 (by positivity : 0 ≤ |α| / 2)
    have m2 := mul_le_mul k3 k2 (abs_nonneg _) (by positivity)
    linarith

omit h927 in
theorem bc_star (f : ℝ → ℝ) : ∃ w : ℝ → ℝ, (Chebyshev.make n).H 1 false ((Chebyshev.make n).boundary_condition f) = .ok ((Chebyshev.make n).P 0 true w) ∧
    ∀ x ∈ Set.Icc (-1 : ℝ) 1, |w x| ≤ (|f 1| + |f (-1)|) * (n : ℝ) ^ 2 := by
  obtain ⟨W, h1, h2, h3, h4, h5⟩ := bc_bump n hn (f 1) (f (-1))
  refine ⟨fun x => W.derivative.eval x, ?_, h5⟩
  have hI := Chebyshev.isInterval hn (-1) 1
  have ftc : ∀ (a b : ℝ), (∫ x in a..b, W.derivative.eval x) = W.eval b - W.eval a := fun a b =>
    intervalIntegral.integral_eq_sub_of_hasDerivAt (fun x _ => W.hasDerivAt x) ((Polynomial.continuous _).intervalIntegrable _ _)
  have hP : (Chebyshev.make n).P 1 false (fun x => W.derivative.eval x) = (Chebyshev.make n).boundary_condition f := by
    rw [cheb_bc n hn]
    have := hI.P1d fun x => W.derivative.eval x
    refine this.trans (tab_congr fun i hi => ?_)
    rw [ftc]
    have e1 : (Chebyshev.make n (-1) 1).xmin = -1 := rfl
    have e2 : (Chebyshev.make n (-1) 1).xmax = 1 := rfl
    have e3 : (Chebyshev.make n (-1) 1).n = n := rfl
    have hi' : i < n := hi
    rw [e1, e2, e3]
    simp only [pt_cos]
    by_cases h0 : i = 0
    · have : 0 < n - 1 := by omega
      have h' : (0 : ℕ) ≠ n - 1 := by omega
      subst h0
      rw [if_pos rfl, if_pos this, if_neg h', if_pos rfl, h4, h3]; ring
    · by_cases h : i < n - 1
      · rw [if_neg h0, if_pos h, if_neg (by omega), if_neg h0, h4, h4]; ring
      · rw [if_neg h0, if_neg h, if_pos (by omega), h4, h2]; ring
  rw [← hP]
  refine (C06_chebyshev_hodge_exact_primal n hn _ (isPoly_of_natDegree ?_)).2
  have := Polynomial.natDegree_derivative_le W
  omega


open Polynomial.Chebyshev in
/-- The left-hand side with prescribed slopes, for a Chebyshev polynomial. -/
theorem slope_T (m : ℕ) : ∃ q : ℝ → ℝ, slopeSide .chebyshev (Chebyshev.make n) (jet (T ℝ m) 0) (jet (T ℝ m) 1) = .ok ((Chebyshev.make n).P 0 true q) ∧
    (∀ x ∈ Set.Icc (-1 : ℝ) 1, |q x| ≤ 9 * (m : ℝ) ^ 4) ∧ (m < n → q = jet (T ℝ m) 2) := by
  have hm4 : (0 : ℝ) ≤ (m : ℝ) ^ 4 := by positivity
  by_cases hm : m < n
  · have hd : (T ℝ (m : ℤ)).natDegree < n := by rw [natDegree_T]; simpa using hm
    refine ⟨jet (T ℝ m) 2, slopeSide_poly n hn h927 (isPoly_of_natDegree hd) (fun x => (T ℝ (m : ℤ)).hasDerivAt x) (fun x => (T ℝ (m : ℤ)).derivative.hasDerivAt x), fun x hx => ?_, fun _ => rfl⟩
    exact (deriv2_T_bound m hx).trans (by linarith)
  obtain ⟨Q, h1, h2, h3, -, h5⟩ := cheb_one_alias hn true m
  simp only [if_true] at h1
  obtain ⟨y, z, e1, e2, e3⟩ := C67_neumann_exact n hn h927 (fun x => Q.eval x) _ _ (isPoly_of_natDegree (by omega)) (fun x => Q.hasDerivAt x) (fun x => Q.derivative.hasDerivAt x)
  obtain ⟨w₁, k1, k2⟩ := bc_star n hn (jet (T ℝ m) 1)
  obtain ⟨w₂, k3, k4⟩ := bc_star n hn fun x => Q.derivative.eval x
  rw [k3] at e2
  obtain rfl := Except.ok.inj e2
  have hP : (Chebyshev.make n).P 0 true (jet (T ℝ m) 0) = (Chebyshev.make n).P 0 true fun x => Q.eval x := by
    rw [cheb_P0_cos n hn, cheb_P0_cos n hn]
    exact tab_congr fun i hi => (h2 _ (primal_node n hn i (by omega))).symm
  have hy : y.length = n := by
    have hv : validSize .chebyshev n := hn
    have l0 : ((Chebyshev.make n).P 0 true fun x => Q.eval x).length = n := C11_projection .chebyshev n hv (-1) 1 0 true _
    obtain ⟨L, hL, eL⟩ := lap_elin (grid_factor .chebyshev n hv (-1) 1) (grid_stars .chebyshev n hv (fun _ => h927) (-1) 1) true
    have := eL _ l0
    have e1' := e1.symm.trans this
    rw [Except.ok.inj e1']
    exact hL.len _ l0
  refine ⟨fun x => Q.derivative.derivative.eval x - w₂ x + w₁ x, ?_, fun x hx => ?_, fun h => absurd h hm⟩
  · rw [slopeSide_of (by rw [hP]; exact e1) (by rw [ends_chebyshev]; exact k1)]
    obtain ⟨υ, rfl⟩ : ∃ υ, y = tab n υ := ⟨_, eq_tab' hy 0⟩
    rw [cheb_P0_cos n hn, cheb_P0_cos n hn, vadd_tab] at e3
    rw [cheb_P0_cos n hn, cheb_P0_cos n hn, vadd_tab]
    refine congrArg _ (tab_congr fun i hi => ?_)
    have := tab_inj.1 e3 i hi
    beta_reduce at this ⊢
    linarith
  · have hnm : (n : ℝ) ≤ m := by exact_mod_cast (by omega : n ≤ m)
    have hsq : (n : ℝ) ^ 2 ≤ (m : ℝ) ^ 2 := pow_le_pow_left₀ (by positivity) hnm 2
    have r1 : (1 : ℝ) ∈ Set.Icc (-1 : ℝ) 1 := by norm_num
    have r2 : (-1 : ℝ) ∈ Set.Icc (-1 : ℝ) 1 := by norm_num
    have p1 : |jet (T ℝ m) 1 1| + |jet (T ℝ m) 1 (-1)| ≤ 2 * (m : ℝ) ^ 2 := by
      have a1 := deriv_T_bound m r1
      have a2 := deriv_T_bound m r2
      rw [jet_one]; linarith
    have p2 : |Q.derivative.eval 1| + |Q.derivative.eval (-1)| ≤ 6 * (m : ℝ) ^ 2 := by
      have a1 := h3 1 r1
      have a2 := h3 (-1) r2
      linarith
    have b1 := (k2 x hx).trans (mul_le_mul p1 hsq (by positivity) (by positivity))
    have b2 := (k4 x hx).trans (mul_le_mul p2 hsq (by positivity) (by positivity))
    have b3 := h5 x hx
    have e4 : (m : ℝ) ^ 2 * (m : ℝ) ^ 2 = (m : ℝ) ^ 4 := by ring
    rw [mul_assoc, e4] at b1 b2
    rw [abs_le] at b1 b2 b3 ⊢
    constructor <;> linarith [b1.1, b1.2, b2.1, b2.2, b3.1, b3.2]

/-! ## Series -/

open Polynomial.Chebyshev in
/-- The bound for the residual of a problem with prescribed values, from the bounds for Chebyshev polynomials. -/
theorem value_residual : ∃ V : ℕ → (Fin 3 → ℝ → ℝ) → ℝ,
    (∀ F, ∃ u, valueSide .chebyshev (Chebyshev.make n) (F 0) = .ok u ∧ u.length = n - 1 ∧ ∀ i < n - 1, u.getD i 0 - ((Chebyshev.make n).P 0 false (F 2)).getD i 0 = V i F) ∧
    ∀ i < n - 1, Functional (V i) ∧ (∀ m < n + 1, V i (jet (T ℝ m)) = 0) ∧ ∀ m : ℕ, |V i (jet (T ℝ m))| ≤ 2 * (m : ℝ) ^ 4 := by
  have hN : (Chebyshev.make n).N 0 false = n - 1 := (Chebyshev.isInterval hn (-1) 1).N00
  obtain ⟨V, h1, h2⟩ := valueSide_functional n hn h927
  have h1' : ∀ F, valueSide .chebyshev (Chebyshev.make n) (F 0) = .ok (tab ((Chebyshev.make n).N 0 false) (V F)) := h1
  rw [hN] at h1'
  have hin : ∀ i < n - 1, -cos (((i : ℝ) + 1 / 2) * (π / ((n - 1 : ℕ) : ℝ))) ∈ Set.Icc (-1 : ℝ) 1 := fun i _ => ⟨by linarith [cos_le_one (((i : ℝ) + 1 / 2) * (π / ((n - 1 : ℕ) : ℝ)))], by linarith [neg_one_le_cos (((i : ℝ) + 1 / 2) * (π / ((n - 1 : ℕ) : ℝ)))]⟩
  refine ⟨fun i F => V F i - F 2 (-cos (((i : ℝ) + 1 / 2) * (π / ((n - 1 : ℕ) : ℝ)))), fun F => ⟨_, h1' F, length_tab _ _, fun i hi => ?_⟩, fun i hi => ?_⟩
  · rw [cheb_P0d_cos n hn, getD_tab hi, getD_tab hi]
  have key : ∀ m : ℕ, ∃ q : ℝ → ℝ, V (jet (T ℝ m)) i = q (-cos (((i : ℝ) + 1 / 2) * (π / ((n - 1 : ℕ) : ℝ)))) ∧ (∀ x ∈ Set.Icc (-1 : ℝ) 1, |q x| ≤ (m : ℝ) ^ 4) ∧ (m < n + 1 → q = jet (T ℝ m) 2) := fun m => by
    obtain ⟨q, k1, k2, k3⟩ := value_T n hn h927 m
    refine ⟨q, ?_, k2, k3⟩
    rw [h1', cheb_P0d_cos n hn] at k1
    exact tab_inj.1 (Except.ok.inj k1) i hi
  refine ⟨(h2 i).sub (Functional.eval 2 (hin i hi)), fun m hm => ?_, fun m => ?_⟩
  · obtain ⟨q, k1, k2, k3⟩ := key m
    beta_reduce
    rw [k1, k3 hm, sub_self]
  · obtain ⟨q, k1, k2, k3⟩ := key m
    have a1 := k2 _ (hin i hi)
    have a2 : |jet (T ℝ m) 2 _| ≤ _ := deriv2_T_bound m (hin i hi)
    have hm4 : (0 : ℝ) ≤ (m : ℝ) ^ 4 := by positivity
    beta_reduce
    rw [k1]
    rw [abs_le] at a1 a2 ⊢
    constructor <;> linarith [a1.1, a1.2, a2.1, a2.2]

open Polynomial.Chebyshev in
/-- The bound for the residual of a problem with prescribed slopes, from the bounds for Chebyshev polynomials. -/
theorem slope_residual : ∃ V : ℕ → (Fin 3 → ℝ → ℝ) → ℝ,
    (∀ F, ∃ u, slopeSide .chebyshev (Chebyshev.make n) (F 0) (F 1) = .ok u ∧ u.length = n ∧ ∀ i < n, u.getD i 0 - ((Chebyshev.make n).P 0 true (F 2)).getD i 0 = V i F) ∧
    ∀ i < n, Functional (V i) ∧ (∀ m < n, V i (jet (T ℝ m)) = 0) ∧ ∀ m : ℕ, |V i (jet (T ℝ m))| ≤ 10 * (m : ℝ) ^ 4 := by
  have hN : (Chebyshev.make n).N 0 true = n := (Chebyshev.isInterval hn (-1) 1).N01
  obtain ⟨V, h1, h2⟩ := slopeSide_functional n hn h927
  have h1' : ∀ F, slopeSide .chebyshev (Chebyshev.make n) (F 0) (F 1) = .ok (tab ((Chebyshev.make n).N 0 true) (V F)) := h1
  rw [hN] at h1'
  have hin : ∀ i : ℕ, -cos ((i : ℝ) * (π / ((n - 1 : ℕ) : ℝ))) ∈ Set.Icc (-1 : ℝ) 1 := fun i => ⟨by linarith [cos_le_one ((i : ℝ) * (π / ((n - 1 : ℕ) : ℝ)))], by linarith [neg_one_le_cos ((i : ℝ) * (π / ((n - 1 : ℕ) : ℝ)))]⟩
  refine ⟨fun i F => V F i - F 2 (-cos ((i : ℝ) * (π / ((n - 1 : ℕ) : ℝ)))), fun F => ⟨_, h1' F, length_tab _ _, fun i hi => ?_⟩, fun i hi => ?_⟩
  · rw [cheb_P0_cos n hn, getD_tab hi, getD_tab hi]
  have key : ∀ m : ℕ, ∃ q : ℝ → ℝ, V (jet (T ℝ m)) i = q (-cos ((i : ℝ) * (π / ((n - 1 : ℕ) : ℝ)))) ∧ (∀ x ∈ Set.Icc (-1 : ℝ) 1, |q x| ≤ 9 * (m : ℝ) ^ 4) ∧ (m < n → q = jet (T ℝ m) 2) := fun m => by
    obtain ⟨q, k1, k2, k3⟩ := slope_T n hn h927 m
    refine ⟨q, ?_, k2, k3⟩
    rw [h1', cheb_P0_cos n hn] at k1
    exact tab_inj.1 (Except.ok.inj k1) i hi
  refine ⟨(h2 i).sub (Functional.eval 2 (hin i)), fun m hm => ?_, fun m => ?_⟩
  · obtain ⟨q, k1, k2, k3⟩ := key m
    beta_reduce
    rw [k1, k3 hm, sub_self]
  · obtain ⟨q, k1, k2, k3⟩ := key m
    have a1 := k2 _ (hin i)
    have a2 : |jet (T ℝ m) 2 _| ≤ _ := deriv2_T_bound m (hin i)
    have hm4 : (0 : ℝ) ≤ (m : ℝ) ^ 4 := by positivity
    beta_reduce
    rw [k1]
    rw [abs_le] at a1 a2 ⊢
    constructor <;> linarith [a1.1, a1.2, a2.1, a2.2]

/-- **C111** (prescribed values): for a function with a Chebyshev series that may be differentiated twice, the left-hand side `Ld(P0d f) + H1(D0(H1d(bc f)))` differs from the samples of `f''` by at
most twice the sum of `m⁴ |c m|` over the `m > n`. -/
theorem C111_value_chebyshev (c : ℕ → ℝ) (F : Fin 3 → ℝ → ℝ) (hF : TwiceExpansion c F) :
    ∃ u, valueSide .chebyshev (Chebyshev.make n) (F 0) = .ok u ∧ u.length = n - 1 ∧ ∀ i < n - 1,
      |u.getD i 0 - ((Chebyshev.make n).P 0 false (F 2)).getD i 0| ≤ 2 * ∑' m : ℕ, ((m + (n + 1) : ℕ) : ℝ) ^ 4 * |c (m + (n + 1))| := by
  obtain ⟨V, h1, h2⟩ := value_residual n hn h927
  obtain ⟨u, g1, g2, g3⟩ := h1 F
  refine ⟨u, g1, g2, fun i hi => ?_⟩
  rw [g3 i hi]
  exact (h2 i hi).1.series _ (h2 i hi).2.1 (h2 i hi).2.2 c F hF.1 hF.2

/-- **C111** (prescribed values, power series). -/
theorem C111_value_power (a : ℕ → ℝ) (F : Fin 3 → ℝ → ℝ) (hF : TwicePower a F) :
    ∃ u, valueSide .chebyshev (Chebyshev.make n) (F 0) = .ok u ∧ u.length = n - 1 ∧ ∀ i < n - 1,
      |u.getD i 0 - ((Chebyshev.make n).P 0 false (F 2)).getD i 0| ≤ 2 * ∑' m : ℕ, ((m + (n + 1) : ℕ) : ℝ) ^ 4 * |a (m + (n + 1))| := by
  obtain ⟨V, h1, h2⟩ := value_residual n hn h927
  obtain ⟨u, g1, g2, g3⟩ := h1 F
  refine ⟨u, g1, g2, fun i hi => ?_⟩
  rw [g3 i hi]
  have hp := (h2 i hi).1.power (h2 i hi).2.1 (h2 i hi).2.2
  exact (h2 i hi).1.series _ (fun m hm => (hp m).1 hm) (fun m => (hp m).2) a F hF.1 hF.2

/-- **C111** (prescribed slopes): the left-hand side `L(P0 f) + H1d(bc f')` differs from the samples of `f''` by at most ten times the sum of `m⁴ |c m|` over the `m ≥ n`. -/
theorem C111_slope_chebyshev (c : ℕ → ℝ) (F : Fin 3 → ℝ → ℝ) (hF : TwiceExpansion c F) :
    ∃ u, slopeSide .chebyshev (Chebyshev.make n) (F 0) (F 1) = .ok u ∧ u.length = n ∧ ∀ i < n,
      |u.getD i 0 - ((Chebyshev.make n).P 0 true (F 2)).getD i 0| ≤ 10 * ∑' m : ℕ, ((m + n : ℕ) : ℝ) ^ 4 * |c (m + n)| := by
  obtain ⟨V, h1, h2⟩ := slope_residual n hn h927
  obtain ⟨u, g1, g2, g3⟩ := h1 F
  refine ⟨u, g1, g2, fun i hi => ?_⟩
  rw [g3 i hi]
  exact (h2 i hi).1.series _ (h2 i hi).2.1 (h2 i hi).2.2 c F hF.1 hF.2

/-- **C111** (prescribed slopes, power series). -/
theorem C111_slope_power (a : ℕ → ℝ) (F : Fin 3 → ℝ → ℝ) (hF : TwicePower a F) :
    ∃ u, slopeSide .chebyshev (Chebyshev.make n) (F 0) (F 1) = .ok u ∧ u.length = n ∧ ∀ i < n,
      |u.getD i 0 - ((Chebyshev.make n).P 0 true (F 2)).getD i 0| ≤ 10 * ∑' m : ℕ, ((m + n : ℕ) : ℝ) ^ 4 * |a (m + n)| := by
  obtain ⟨V, h1, h2⟩ := slope_residual n hn h927
  obtain ⟨u, g1, g2, g3⟩ := h1 F
  refine ⟨u, g1, g2, fun i hi => ?_⟩
  rw [g3 i hi]
  have hp := (h2 i hi).1.power (h2 i hi).2.1 (h2 i hi).2.2
  exact (h2 i hi).1.series _ (fun m hm => (hp m).1 hm) (fun m => (hp m).2) a F hF.1 hF.2

end

/-! ## Two dimensions -/

theorem residual_2d {gx gy : Grid1} (Fx : Factor gx) (Fy : Factor gy) (t : Bool) {z : List ℝ} {fxx fyy : ℝ → ℝ → ℝ} {δ ε : ℝ}
    (h : ∀ j < gy.N 0 t, ∀ i < gx.N 0 t, ∃ u u' : List ℝ, z.getD (j * gx.N 0 t + i) 0 = u.getD i 0 + u'.getD j 0 ∧ |u.getD i 0 - fxx (vx gx t i) (vx gy t j)| ≤ δ ∧
      |u'.getD j 0 - fyy (vx gx t i) (vx gy t j)| ≤ ε) :
    ∃ q, (product gx gy).P 0 t [fun x y => fxx x y + fyy x y] = .ok q ∧ q.length = gy.N 0 t * gx.N 0 t ∧ ∀ k < gy.N 0 t * gx.N 0 t, |z.getD k 0 - q.getD k 0| ≤ δ + ε := by
  refine ⟨_, P0_mtab Fx Fy t _, length_data _ _ _, fun k hk => ?_⟩
  have hc : 0 < gx.N 0 t := Nat.pos_of_ne_zero fun h0 => by rw [h0, mul_zero] at hk; omega
  have hj : k / gx.N 0 t < gy.N 0 t := Nat.div_lt_of_lt_mul (by rwa [mul_comm])
  have hi : k % gx.N 0 t < gx.N 0 t := Nat.mod_lt _ hc
  have e : k / gx.N 0 t * gx.N 0 t + k % gx.N 0 t = k := Nat.div_add_mod' k _
  rw [← e, getD_data hj hi]
  obtain ⟨u, u', h1, h2, h3⟩ := h _ hj _ hi
  rw [h1]
  rw [abs_le] at h2 h3 ⊢
  constructor <;> linarith [h2.1, h2.2, h3.1, h3.2]

theorem tail_le {a A : ℕ → ℝ} (h : ∀ m, |a m| ≤ A m) (sa : Summable fun m : ℕ => (m : ℝ) ^ 4 * |a m|) (sA : Summable fun m : ℕ => (m : ℝ) ^ 4 * A m) (M : ℕ) :
    ∑' m : ℕ, ((m + M : ℕ) : ℝ) ^ 4 * |a (m + M)| ≤ ∑' m : ℕ, ((m + M : ℕ) : ℝ) ^ 4 * A (m + M) :=
  ((summable_nat_add_iff M).2 sa).tsum_le_tsum (fun m => mul_le_mul_of_nonneg_left (h _) (by positivity)) ((summable_nat_add_iff M).2 sA)

/-- Adding a constant to a power series. -/
theorem TwicePower.add_const {a : ℕ → ℝ} {f f' f'' : ℝ → ℝ} (h : TwicePower a ![f, f', f'']) (κ : ℝ) : TwicePower (fun m => a m + if m = 0 then κ else 0) ![fun x => f x + κ, f', f''] := by
  refine ⟨h.1.congr fun m => ?_, fun d x hx => ?_⟩
  · by_cases hm : m = 0
    · simp [hm]
    · simp [hm]
  · have h1 := h.2 d x hx
    have h2 : HasSum (fun m : ℕ => (if m = 0 then κ else 0) * jet (Polynomial.X ^ m) d x) (κ * jet 1 d x) := by
      have : κ * jet 1 d x = (fun m : ℕ => (if m = 0 then κ else 0) * jet (Polynomial.X ^ m) d x) 0 := by simp
      rw [this]
      exact hasSum_single 0 fun m hm => by simp [hm]
    have h3 := h1.add h2
    simp only [← add_mul] at h3
    convert! h3 using 1
    fin_cases d <;> simp [jet]

theorem exp_three : (![exp, exp, exp] : Fin 3 → ℝ → ℝ) = fun _ => exp := by
  funext d; fin_cases d <;> rfl

section
variable (n n' : ℕ) (hn : 2 ≤ n) (hn' : 2 ≤ n') (h927 : n ≤ 927) (h927' : n' ≤ 927)
local notation "gx" => Chebyshev.make n
local notation "gy" => Chebyshev.make n'
local notation "𝔾" => product gx gy
include hn hn' h927 h927'

/-- **C111** (two dimensions, values on the boundary): `f` with the second derivatives `fxx`, `fyy` such that the restrictions to the lines are power series with coefficients at most `A m`, `B m`: the
left-hand side `L0d(P0d f) + H2(D1(H1d(BC0 f)))` differs from the samples of `fxx + fyy` by at most twice the sum of `m⁴ A m` over `m > n` plus twice the sum of `m⁴ B m` over `m > n'`. -/
theorem C111_dual_2d (f : ℝ → ℝ → ℝ) (a b : ℝ → ℕ → ℝ) (A B : ℕ → ℝ) (fx fxx fy fyy : ℝ → ℝ → ℝ)
    (ha : ∀ y ∈ Set.Icc (-1 : ℝ) 1, TwicePower (a y) ![fun x => f x y, fun x => fx x y, fun x => fxx x y])
    (hb : ∀ x ∈ Set.Icc (-1 : ℝ) 1, TwicePower (b x) ![fun y => f x y, fun y => fy x y, fun y => fyy x y])
    (hA : ∀ y ∈ Set.Icc (-1 : ℝ) 1, ∀ m, |a y m| ≤ A m) (hB : ∀ x ∈ Set.Icc (-1 : ℝ) 1, ∀ m, |b x m| ≤ B m)
    (sA : Summable fun m : ℕ => (m : ℝ) ^ 4 * A m) (sB : Summable fun m : ℕ => (m : ℝ) ^ 4 * B m) :
    ∃ p L v w₁ w₂ w₃ q, (𝔾).P 0 false [f] = .ok p ∧ lap2 𝔾 false p = .ok L ∧ (𝔾).BC 1 [f] = .ok v ∧ (𝔾).H 1 false v = .ok w₁ ∧ (𝔾).D 1 true w₁ = .ok w₂ ∧ (𝔾).H 2 true w₂ = .ok w₃ ∧
      (𝔾).P 0 false [fun x y => fxx x y + fyy x y] = .ok q ∧ (vadd L w₃).length = (n' - 1) * (n - 1) ∧ q.length = (n' - 1) * (n - 1) ∧
      ∀ i < (n' - 1) * (n - 1), |(vadd L w₃).getD i 0 - q.getD i 0| ≤
        2 * (∑' m : ℕ, ((m + (n + 1) : ℕ) : ℝ) ^ 4 * A (m + (n + 1))) + 2 * ∑' m : ℕ, ((m + (n' + 1) : ℕ) : ℝ) ^ 4 * B (m + (n' + 1)) := by
  have hv : validSize .chebyshev n := hn
  have hv' : validSize .chebyshev n' := hn'
  have Fx : Factor gx := grid_factor .chebyshev n hv (-1) 1
  have Fy : Factor gy := grid_factor .chebyshev n' hv' (-1) 1
  have Nx : (gx).N 0 false = n - 1 := (Chebyshev.isInterval hn (-1) 1).N00
  have Ny : (gy).N 0 false = n' - 1 := (Chebyshev.isInterval hn' (-1) 1).N00
  obtain ⟨p, L, v, w₁, w₂, w₃, e1, e2, e3, e4, e5, e6, e7, e8⟩ := C110_dual_0 .chebyshev .chebyshev n n' hv hv' (fun _ => h927) (fun _ => h927') (by norm_num : (-1 : ℝ) < 1) (by norm_num : (-1 : ℝ) < 1) f
  have e8' : ∀ j < (gy).N 0 false, ∀ i < (gx).N 0 false, ∃ u u', valueSide .chebyshev gx (fun x => f x (((gy).cells.v false).getD j 0)) = .ok u ∧
        valueSide .chebyshev gy (fun y => f (((gx).cells.v false).getD i 0) y) = .ok u' ∧ (vadd L w₃).getD (j * (gx).N 0 false + i) 0 = u.getD i 0 + u'.getD j 0 := e8
  obtain ⟨q, q1, q2, q3⟩ := residual_2d Fx Fy false (z := vadd L w₃) (fxx := fxx) (fyy := fyy)
    (δ := 2 * ∑' m : ℕ, ((m + (n + 1) : ℕ) : ℝ) ^ 4 * A (m + (n + 1))) (ε := 2 * ∑' m : ℕ, ((m + (n' + 1) : ℕ) : ℝ) ^ 4 * B (m + (n' + 1))) fun j hj i hi => by
      obtain ⟨u, u', g1, g2, g3⟩ := e8' j hj i hi
      have hx := cheb_vx_in n hn false hi
      have hy := cheb_vx_in n' hn' false hj
      obtain ⟨u₁, k1, -, k2⟩ := C111_value_power n hn h927 _ _ (ha _ hy)
      obtain ⟨u₂, k3, -, k4⟩ := C111_value_power n' hn' h927' _ _ (hb _ hx)
      have d1 : u = u₁ := Except.ok.inj (g1.symm.trans k1)
      have d2 : u' = u₂ := Except.ok.inj (g2.symm.trans k3)
      refine ⟨u, u', g3, ?_, ?_⟩
      · rw [d1]
        have := k2 i (by rw [← Nx]; exact hi)
        rw [cheb_P0_getD n hn false _ hi] at this
        exact this.trans (mul_le_mul_of_nonneg_left (tail_le (hA _ hy) (ha _ hy).1 sA _) (by norm_num))
      · rw [d2]
        have := k4 j (by rw [← Ny]; exact hj)
        rw [cheb_P0_getD n' hn' false _ hj] at this
        exact this.trans (mul_le_mul_of_nonneg_left (tail_le (hB _ hx) (hb _ hx).1 sB _) (by norm_num))
  have e7' : (𝔾).N 0 false = .ok (vadd L w₃).length := e7
  rw [N_eq Fx Fy] at e7'
  have e9 : (gy).N 0 false * (gx).N 0 false = (vadd L w₃).length := Except.ok.inj e7'
  rw [Nx, Ny] at e9 q2 q3
  exact ⟨p, L, v, w₁, w₂, w₃, q, e1, e2, e3, e4, e5, e6, q1, e9.symm, q2, q3⟩

/-- **C111** (two dimensions, slopes on the boundary): for `f(x, y) = F 0 x + G 0 y` with power series `F 0`, `G 0`, the left-hand side `L0(P0 f) + H2d(BC1(-f_y, f_x))` differs from the samples of
`f_xx + f_yy` by at most ten times the two rests. -/
theorem C111_primal_2d (a b : ℕ → ℝ) (F G : Fin 3 → ℝ → ℝ) (ha : TwicePower a F) (hb : TwicePower b G) :
    ∃ p L v w q, (𝔾).P 0 true [fun x y => F 0 x + G 0 y] = .ok p ∧ lap2 𝔾 true p = .ok L ∧ (𝔾).BC 2 [fun _ y => -G 1 y, fun x _ => F 1 x] = .ok v ∧ (𝔾).H 2 false v = .ok w ∧
      (𝔾).P 0 true [fun x y => F 2 x + G 2 y] = .ok q ∧ (vadd L w).length = n' * n ∧ q.length = n' * n ∧
      ∀ i < n' * n, |(vadd L w).getD i 0 - q.getD i 0| ≤ 10 * (∑' m : ℕ, ((m + n : ℕ) : ℝ) ^ 4 * |a (m + n)|) + 10 * ∑' m : ℕ, ((m + n' : ℕ) : ℝ) ^ 4 * |b (m + n')| := by
  have hv : validSize .chebyshev n := hn
  have hv' : validSize .chebyshev n' := hn'
  have Fx : Factor gx := grid_factor .chebyshev n hv (-1) 1
  have Fy : Factor gy := grid_factor .chebyshev n' hv' (-1) 1
  have Nx : (gx).N 0 true = n := (Chebyshev.isInterval hn (-1) 1).N01
  have Ny : (gy).N 0 true = n' := (Chebyshev.isInterval hn' (-1) 1).N01
  obtain ⟨p, L, v, w, u, u', e1, e2, e3, e4, e5, e6, e7, e8⟩ := C110_primal_0 .chebyshev .chebyshev n n' hv hv' (fun _ => h927) (fun _ => h927') (F 0) (F 1) (G 0) (G 1)
  obtain ⟨u₁, k1, -, k2⟩ := C111_slope_power n hn h927 a F ha
  obtain ⟨u₂, k3, -, k4⟩ := C111_slope_power n' hn' h927' b G hb
  have d1 : u = u₁ := Except.ok.inj (e6.symm.trans k1)
  have d2 : u' = u₂ := Except.ok.inj (e7.symm.trans k3)
  have e8' : ∀ j < (gy).N 0 true, ∀ i < (gx).N 0 true, (vadd L w).getD (j * (gx).N 0 true + i) 0 = u.getD i 0 + u'.getD j 0 := e8
  obtain ⟨q, q1, q2, q3⟩ := residual_2d Fx Fy true (z := vadd L w) (fxx := fun x _ => F 2 x) (fyy := fun _ y => G 2 y)
    (δ := 10 * ∑' m : ℕ, ((m + n : ℕ) : ℝ) ^ 4 * |a (m + n)|) (ε := 10 * ∑' m : ℕ, ((m + n' : ℕ) : ℝ) ^ 4 * |b (m + n')|) fun j hj i hi => by
      refine ⟨u, u', e8' j hj i hi, ?_, ?_⟩
      · rw [d1]
        have := k2 i (by rw [← Nx]; exact hi)
        rw [cheb_P0_getD n hn true _ hi] at this
        exact this
      · rw [d2]
        have := k4 j (by rw [← Ny]; exact hj)
        rw [cheb_P0_getD n' hn' true _ hj] at this
        exact this
  have e5' : (𝔾).N 0 true = .ok (vadd L w).length := e5
  rw [N_eq Fx Fy] at e5'
  have e9 : (gy).N 0 true * (gx).N 0 true = (vadd L w).length := Except.ok.inj e5'
  rw [Nx, Ny] at e9 q2 q3
  exact ⟨p, L, v, w, q, e1, e2, e3, e4, q1, e9.symm, q2, q3⟩

/-- **C111** (the example `f = exp x + exp y`, slopes): the largest error the script plots is at most ten times the two sums of `m⁴ / m!`. -/
theorem C111_example_primal :
    ∃ p L v w q, (𝔾).P 0 true [fun x y => exp x + exp y] = .ok p ∧ lap2 𝔾 true p = .ok L ∧ (𝔾).BC 2 [fun _ y => -exp y, fun x _ => exp x] = .ok v ∧ (𝔾).H 2 false v = .ok w ∧
      (𝔾).P 0 true [fun x y => exp x + exp y] = .ok q ∧ (vadd L w).length = n' * n ∧ q.length = n' * n ∧
      ∀ i < n' * n, |(vadd L w).getD i 0 - q.getD i 0| ≤ 10 * (∑' m : ℕ, ((m + n : ℕ) : ℝ) ^ 4 / ((m + n).factorial : ℝ)) + 10 * ∑' m : ℕ, ((m + n' : ℕ) : ℝ) ^ 4 / ((m + n').factorial : ℝ) := by
  obtain ⟨p, L, v, w, q, e1, e2, e3, e4, e5, e6, e7, e8⟩ := C111_primal_2d n n' hn hn' h927 h927' _ _ _ _ jet_exp jet_exp
  refine ⟨p, L, v, w, q, e1, e2, e3, e4, e5, e6, e7, fun i hi => (e8 i hi).trans (le_of_eq ?_)⟩
  have e : ∀ M m : ℕ, ((m + M : ℕ) : ℝ) ^ 4 * |(1 : ℝ) / ((m + M).factorial : ℝ)| = ((m + M : ℕ) : ℝ) ^ 4 / ((m + M).factorial : ℝ) := fun M m => by
    rw [abs_of_nonneg (by positivity), mul_one_div]
  rw [tsum_congr (e n), tsum_congr (e n')]

/-- **C111** (the example `f = exp x + exp y`, values): the largest error the script plots is at most twice the two sums of `m⁴ / m!`. -/
theorem C111_example_dual :
    ∃ p L v w₁ w₂ w₃, (𝔾).P 0 false [fun x y => exp x + exp y] = .ok p ∧ lap2 𝔾 false p = .ok L ∧ (𝔾).BC 1 [fun x y => exp x + exp y] = .ok v ∧ (𝔾).H 1 false v = .ok w₁ ∧ (𝔾).D 1 true w₁ = .ok w₂ ∧
      (𝔾).H 2 true w₂ = .ok w₃ ∧ (vadd L w₃).length = (n' - 1) * (n - 1) ∧ p.length = (n' - 1) * (n - 1) ∧
      ∀ i < (n' - 1) * (n - 1), |(vadd L w₃).getD i 0 - p.getD i 0| ≤
        2 * (∑' m : ℕ, ((m + (n + 1) : ℕ) : ℝ) ^ 4 / ((m + (n + 1)).factorial : ℝ)) + 2 * ∑' m : ℕ, ((m + (n' + 1) : ℕ) : ℝ) ^ 4 / ((m + (n' + 1)).factorial : ℝ) := by
  have hE : TwicePower (fun k => 1 / (k.factorial : ℝ)) ![exp, exp, exp] := by rw [exp_three]; exact jet_exp
  have hle : ∀ y ∈ Set.Icc (-1 : ℝ) 1, ∀ m : ℕ, |1 / (m.factorial : ℝ) + if m = 0 then exp y else 0| ≤ 1 / (m.factorial : ℝ) + if m = 0 then exp 1 else 0 := fun y hy m => by
    have h1 : exp y ≤ exp 1 := exp_le_exp.2 hy.2
    have h2 := exp_pos y
    by_cases hm : m = 0
    · simp only [hm, if_true]; rw [abs_of_nonneg (by positivity)]; linarith
    · simp only [hm, if_false, add_zero]; rw [abs_of_nonneg (by positivity)]
  have hs : Summable fun m : ℕ => (m : ℝ) ^ 4 * (1 / (m.factorial : ℝ) + if m = 0 then exp 1 else 0) := jet_exp.1.congr fun m => by
    by_cases hm : m = 0
    · simp [hm]
    · simp only [hm, if_false, add_zero]; rw [abs_of_nonneg (by positivity)]
  obtain ⟨p, L, v, w₁, w₂, w₃, q, e1, e2, e3, e4, e5, e6, e7, e8, e9, e10⟩ := C111_dual_2d n n' hn hn' h927 h927' (fun x y => exp x + exp y) (fun y m => 1 / (m.factorial : ℝ) + if m = 0 then exp y else 0)
    (fun x m => 1 / (m.factorial : ℝ) + if m = 0 then exp x else 0) (fun m => 1 / (m.factorial : ℝ) + if m = 0 then exp 1 else 0) (fun m => 1 / (m.factorial : ℝ) + if m = 0 then exp 1 else 0)
    (fun x _ => exp x) (fun x _ => exp x) (fun _ y => exp y) (fun _ y => exp y) (fun y _ => hE.add_const (exp y)) (fun x _ => by
      have := hE.add_const (exp x)
      simp only [add_comm (exp _) (exp x)] at this
      exact this) hle hle hs hs
  obtain rfl := Except.ok.inj (e1.symm.trans e7)
  refine ⟨p, L, v, w₁, w₂, w₃, e1, e2, e3, e4, e5, e6, e8, e9, fun i hi => (e10 i hi).trans (le_of_eq ?_)⟩
  have e : ∀ M m : ℕ, ((m + (M + 1) : ℕ) : ℝ) ^ 4 * ((1 : ℝ) / ((m + (M + 1)).factorial : ℝ) + if m + (M + 1) = 0 then exp 1 else 0) = ((m + (M + 1) : ℕ) : ℝ) ^ 4 / ((m + (M + 1)).factorial : ℝ) := fun M m => by
    rw [if_neg (by omega), add_zero, mul_one_div]
  rw [tsum_congr (e n), tsum_congr (e n')]

end

-- the hypotheses are met by the exponential function on grids with seven and nine points
example := C111_value_power 7 (by norm_num) (by norm_num) _ _ jet_exp
example := C111_slope_power 7 (by norm_num) (by norm_num) _ _ jet_exp
example := C111_example_dual 7 9 (by norm_num) (by norm_num) (by norm_num) (by norm_num)

/-- A Chebyshev series with infinitely many terms: the coefficients `2⁻ᵐ`. -/
example : ∃ G : Fin 3 → ℝ → ℝ, TwiceExpansion (fun m => (1 / 2 : ℝ) ^ m) G := by
  have hs : Summable fun m : ℕ => (m : ℝ) ^ 4 * |(1 / 2 : ℝ) ^ m| := by
    simp only [abs_of_nonneg (pow_nonneg (by norm_num : (0 : ℝ) ≤ 1 / 2) _)]
    exact summable_pow_mul_geometric_of_norm_lt_one 4 (by norm_num)
  have hs0 : Summable fun m : ℕ => |(1 / 2 : ℝ) ^ m| := by
    simp only [abs_of_nonneg (pow_nonneg (by norm_num : (0 : ℝ) ≤ 1 / 2) _)]
    exact summable_geometric_of_lt_one (by norm_num) (by norm_num)
  refine ⟨fun d x => ∑' m : ℕ, (1 / 2 : ℝ) ^ m * jet (Polynomial.Chebyshev.T ℝ m) d x, hs, fun d x hx => Summable.hasSum ?_⟩
  have hb : ∀ m : ℕ, |jet (Polynomial.Chebyshev.T ℝ m) d x| ≤ (m : ℝ) ^ 4 + 1 := fun m => by
    have h4 : (0 : ℝ) ≤ (m : ℝ) ^ 4 := by positivity
    have h2 : (m : ℝ) ^ 2 ≤ (m : ℝ) ^ 4 + 1 := by nlinarith [sq_nonneg ((m : ℝ) ^ 2 - 1)]
    fin_cases d
    · exact (T_abs_le m hx).trans (by linarith)
    · exact (deriv_T_bound m hx).trans h2
    · exact (deriv2_T_bound m hx).trans (by linarith)
  refine Summable.of_norm_bounded (hs.add hs0) fun m => ?_
  rw [Real.norm_eq_abs, abs_mul]
  have := mul_le_mul_of_nonneg_left (hb m) (abs_nonneg ((1 / 2 : ℝ) ^ m))
  linarith

end Dec.Props
