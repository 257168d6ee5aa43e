import Verif.Props.Reconstruction
import Verif.Props.Poisson
import Mathlib.Analysis.SpecialFunctions.Trigonometric.Deriv
import Mathlib.Analysis.Analytic.IsolatedZeros
import Mathlib.Analysis.Analytic.Uniqueness

set_option linter.unusedSimpArgs false
set_option linter.unusedVariables false

/-! # C86: reconstruction and the derivative -/

namespace Dec.Props

open Finset Real G2 Sp

/-! ## The derivative of the Dirichlet kernel -/

/-- The kernel of the 0-forms is differentiated by the kernel of the 1-forms. -/
theorem hasDerivAt_Ak {N : ℕ} (hN : 0 < N) (x : ℝ) : HasDerivAt (Ak N) (beta0 N (x + π / N) - beta0 N (x - π / N)) x := by
  have hN' : (N : ℝ) ≠ 0 := by positivity
  have hNr : (0 : ℝ) < N := by positivity
  have hc : ∀ n : ℕ, HasDerivAt (fun x : ℝ => cos (n * x)) (-(n * sin (n * x))) x := fun n => by
    have h : HasDerivAt (fun x : ℝ => (n : ℝ) * x) n x := by simpa using (hasDerivAt_id x).const_mul (n : ℝ)
    convert h.cos using 1; ring
  have hterm : ∀ n : ℕ, 0 < n → n < N → (n : ℝ) * cos (n * (x + π / N)) / sin (n * π / N) / N - n * cos (n * (x - π / N)) / sin (n * π / N) / N = -(2 / N * (n * sin (n * x))) := by
    intro n h0 h1
    have hs : sin (n * π / N) ≠ 0 := by
      refine (sin_pos_of_pos_of_lt_pi (by positivity) ?_).ne'
      rw [div_lt_iff₀ hNr]
      have : (n : ℝ) < N := by exact_mod_cast h1
      nlinarith [pi_pos]
    have e1 : (n : ℝ) * (x + π / N) = n * x + n * π / N := by ring
    have e2 : (n : ℝ) * (x - π / N) = n * x - n * π / N := by ring
    rw [e1, e2, cos_add, cos_sub]
    field_simp
    ring
  have hsum : ∀ s : Finset ℕ, HasDerivAt (fun x : ℝ => ∑ n ∈ s, cos (n * x)) (∑ n ∈ s, -(n * sin (n * x))) x := fun s =>
    HasDerivAt.fun_sum fun n _ => hc n
  by_cases h : N % 2 = 0
  · have e : Ak N = fun x => (1 + 2 * ∑ n ∈ Ico 1 (N / 2), cos (n * x) + cos ((N / 2 : ℕ) * x)) / N := by
      funext x; unfold Ak; rw [if_pos h]
    rw [e]
    have hd := ((((hsum (Ico 1 (N / 2))).const_mul 2).const_add 1).add (hc (N / 2))).div_const (N : ℝ)
    refine hd.congr_deriv (Eq.symm ?_)
    unfold beta0
    rw [if_pos h, if_pos h]
    have h2 : ((N / 2 : ℕ) : ℝ) * 2 = N := by exact_mod_cast (by omega : N / 2 * 2 = N)
    have hS : ∑ n ∈ Ico 1 (N / 2 + 1), (n : ℝ) * cos (n * (x + π / N)) / sin (n * π / N) / N - ∑ n ∈ Ico 1 (N / 2 + 1), (n : ℝ) * cos (n * (x - π / N)) / sin (n * π / N) / N
        = ∑ n ∈ Ico 1 (N / 2 + 1), -(2 / N * (n * sin (n * x))) := by
      rw [← sum_sub_distrib]
      exact sum_congr rfl fun n hn => hterm n (by have := mem_Ico.1 hn; omega) (by have := mem_Ico.1 hn; omega)
    rw [sum_Ico_succ_top (by omega)] at hS
    have hp : (N : ℝ) * (π / N) = π := mul_div_cancel₀ _ hN'
    have e1 : (N : ℝ) * (x + π / N) / 2 = (N / 2 : ℕ) * x + π / 2 := by
      linear_combination hp / 2 - x / 2 * h2
    have e2 : (N : ℝ) * (x - π / N) / 2 = (N / 2 : ℕ) * x - π / 2 := by
      linear_combination -hp / 2 - x / 2 * h2
    rw [e1, e2, cos_add_pi_div_two, cos_sub_pi_div_two, mul_sum]
    have hS2 : ∑ n ∈ Ico 1 (N / 2), -(2 / (N : ℝ) * (n * sin (n * x))) = (∑ n ∈ Ico 1 (N / 2), 2 * -((n : ℝ) * sin (n * x))) / N := by
      rw [sum_div]; exact sum_congr rfl fun n _ => by ring
    rw [sum_Ico_succ_top (by omega), sum_Ico_succ_top (by omega : 1 ≤ N / 2), hS2] at hS
    rw [sum_Ico_succ_top (by omega), sum_Ico_succ_top (by omega)]
    have h3 : ((N / 2 : ℕ) : ℝ) / N = 1 / 2 := by
      rw [div_eq_div_iff hN' (by norm_num)]; linarith
    linear_combination hS - sin ((N / 2 : ℕ) * x) * h3
  · have e : Ak N = fun x => (1 + 2 * ∑ n ∈ Ico 1 ((N - 1) / 2 + 1), cos (n * x)) / N := by
      funext x; unfold Ak; rw [if_neg h]
    rw [e]
    have hd := (((hsum (Ico 1 ((N - 1) / 2 + 1))).const_mul 2).const_add 1).div_const (N : ℝ)
    refine hd.congr_deriv (Eq.symm ?_)
    unfold beta0
    rw [if_neg h, if_neg h, add_sub_add_left_eq_sub, ← sum_sub_distrib, mul_sum, sum_div]
    refine sum_congr rfl fun n hn => ?_
    rw [hterm n (by have := mem_Ico.1 hn; omega) (by have := mem_Ico.1 hn; omega)]
    ring

/-- Differentiating moves the centre of the last cosine by half a cell. -/
theorem IsTrigAt.deriv {N : ℕ} (hN : 0 < N) {x₀ φ : ℝ} (hφ : φ = x₀ + π / N ∨ x₀ = φ + π / N) {p : ℝ → ℝ} (h : IsTrigAt N x₀ p) :
    ∃ q, IsTrigAt N φ q ∧ ∀ θ, HasDerivAt p (q θ) θ := by
  obtain ⟨q, c, hq, hc, e⟩ := h
  obtain ⟨q', hq', hd⟩ := hq.deriv
  obtain rfl : p = fun θ => q θ + c * cos ((N / 2 : ℕ) * (θ - x₀)) := funext e
  have hcos : ∀ θ, HasDerivAt (fun θ => cos ((N / 2 : ℕ) * (θ - x₀))) (-((N / 2 : ℕ) * sin ((N / 2 : ℕ) * (θ - x₀)))) θ := fun θ => by
    have h1 : HasDerivAt (fun θ : ℝ => ((N / 2 : ℕ) : ℝ) * (θ - x₀)) (N / 2 : ℕ) θ := by simpa using ((hasDerivAt_id θ).sub_const x₀).const_mul ((N / 2 : ℕ) : ℝ)
    exact h1.cos.congr_deriv (by ring)
  by_cases h2 : N % 2 = 0
  · have h2' : ((N / 2 : ℕ) : ℝ) * 2 = N := by exact_mod_cast (by omega : N / 2 * 2 = N)
    have hp : (N : ℝ) * (π / N) = π := mul_div_cancel₀ _ (by positivity)
    have hp2 : ((N / 2 : ℕ) : ℝ) * (π / N) = π / 2 := by linear_combination hp / 2 + π / N / 2 * h2'
    rcases hφ with rfl | rfl
    · refine ⟨_, ⟨q', -(c * (N / 2 : ℕ)), hq', fun h => by omega, fun _ => rfl⟩, fun θ => ?_⟩
      refine ((hd θ).add ((hcos θ).const_mul c)).congr_deriv ?_
      rw [show ((N / 2 : ℕ) : ℝ) * (θ - (x₀ + π / N)) = (N / 2 : ℕ) * (θ - x₀) - π / 2 by linear_combination -hp2, cos_sub_pi_div_two]
      ring
    · refine ⟨_, ⟨q', c * (N / 2 : ℕ), hq', fun h => by omega, fun _ => rfl⟩, fun θ => ?_⟩
      refine ((hd θ).add ((hcos θ).const_mul c)).congr_deriv ?_
      rw [show ((N / 2 : ℕ) : ℝ) * (θ - (φ + π / N)) = (N / 2 : ℕ) * (θ - φ) - π / 2 by linear_combination -hp2, sin_sub_pi_div_two]
      ring
  · rw [hc (by omega)]
    refine ⟨_, .of_trig hq', fun θ => ?_⟩
    simpa using hd θ

/-- The two families whose 1-forms contain the derivatives of their 0-forms. -/
theorem determined_deriv (k : Kind) (hk : k ≠ .regular) (n : ℕ) (hn : validSize k n) (t : Bool) {f : ℝ → ℝ} (hf : Determined k n 0 t f) :
    ∃ f', Determined k n 1 t f' ∧ ∀ x, HasDerivAt f (f' x) x := by
  cases k
  · cases t
    · exact IsTrigAt.deriv hn (.inr (by simp)) hf
    · exact IsTrigAt.deriv hn (.inl (by simp)) hf
  · exact absurd rfl hk
  · have h2 : 2 ≤ n := hn
    cases t
    · have hf0 : IsPoly (n - 1) f := by simpa [Determined] using hf
      obtain ⟨P, hP, e⟩ := hf0.exists_eval
      obtain rfl : f = fun x => P.eval x := funext e
      refine ⟨fun x => P.derivative.eval x, ?_, fun x => P.hasDerivAt x⟩
      have := isPoly_mono (show n - 1 - 1 ≤ n by omega) (isPoly_deriv hf0 fun x => P.hasDerivAt x)
      simpa [Determined] using this
    · have hf0 : IsPoly n f := by simpa [Determined] using hf
      obtain ⟨P, hP, e⟩ := hf0.exists_eval
      obtain rfl : f = fun x => P.eval x := funext e
      refine ⟨fun x => P.derivative.eval x, ?_, fun x => P.hasDerivAt x⟩
      have := isPoly_deriv hf0 fun x => P.hasDerivAt x
      simpa [Determined] using this

theorem IsTrigAt.periodic {N : ℕ} {x₀ : ℝ} {p : ℝ → ℝ} (h : IsTrigAt N x₀ p) : Function.Periodic p (2 * π) := by
  obtain ⟨q, c, hq, hc, e⟩ := h
  intro x
  rw [e, e, hq.periodic x, show ((N / 2 : ℕ) : ℝ) * (x + 2 * π - x₀) = (N / 2 : ℕ) * (x - x₀) + (N / 2 : ℕ) * (2 * π) by ring, cos_add_nat_mul_two_pi]

/-- Projection, derivative and boundary term together. -/
theorem D_P_primal (k : Kind) (hk : k ≠ .regular) (n : ℕ) (hn : validSize k n) {f f' : ℝ → ℝ} (hf : Determined k n 0 true f) (hf' : Determined k n 1 true f')
    (hd : ∀ x, HasDerivAt f (f' x) x) : (grid₀ k n).D 0 true ((grid₀ k n).P 0 true f) = some ((grid₀ k n).P 1 true f') := by
  have hc : Continuous f' := ((spans' k n hn).space 1 true).cont f' hf'
  cases k
  · exact C07_periodic n 0 (2 * π) (by have := pi_pos; linarith) f f' (fun s _ => hd s) (hc.intervalIntegrable _ _) (by have := IsTrigAt.periodic hf 0; rw [zero_add] at this; exact this.symm)
  · exact absurd rfl hk
  · exact C07_interval .chebyshev n hn (-1) 1 (by norm_num) f f' (fun s _ => hd s) (hc.intervalIntegrable _ _)

/-! ## The derivative of a reconstruction is the reconstruction of the derivative -/

/-- **C86** (periodic and Chebyshev grids of every size): an array of primal 0-form coefficients reconstructs to a differentiable function, and the array of its
discrete derivative reconstructs to the derivative of that function. -/
theorem C86_primal (k : Kind) (hk : k ≠ .regular) (n : ℕ) (hn : validSize k n) (a : List ℝ) (ha : a.length = (grid₀ k n).N 0 true) :
    ∃ f da, Differentiable ℝ f ∧ (∀ x ∈ Inside k 0, (grid₀ k n).R 0 true a x = some (f x)) ∧ (grid₀ k n).D 0 true a = some da ∧
      ∀ x ∈ Inside k 1, (grid₀ k n).R 1 true da x = some (deriv f x) := by
  obtain ⟨f, hf, hP, hR⟩ := C70_reconstruction_determined k n hn 0 true a ha
  obtain ⟨f', hf', hd⟩ := determined_deriv k hk n hn true hf
  obtain rfl : deriv f = f' := funext fun x => (hd x).deriv
  have hD := D_P_primal k hk n hn hf hf' hd
  rw [hP] at hD
  exact ⟨f, _, fun x => (hd x).differentiableAt, hR, hD, fun x hx => C70_reconstruct k n hn 1 true _ hf' x hx⟩

/-- **C86** (dual 0-forms, periodic grids). -/
theorem C86_dual_periodic (n : ℕ) (hn : 1 ≤ n) (a : List ℝ) (ha : a.length = n) :
    ∃ f da, Differentiable ℝ f ∧ (∀ x ∈ Inside .periodic 0, (Periodic.make n).R 0 false a x = some (f x)) ∧ (Periodic.make n).D 0 false a = some da ∧
      ∀ x ∈ Inside .periodic 1, (Periodic.make n).R 1 false da x = some (deriv f x) := by
  obtain ⟨f, hf, hP, hR⟩ := C70_reconstruction_determined .periodic n hn 0 false a ha
  obtain ⟨f', hf', hd⟩ := determined_deriv .periodic (by simp) n hn false hf
  obtain rfl : deriv f = f' := funext fun x => (hd x).deriv
  have hc : Continuous (deriv f) := ((spans' .periodic n hn).space 1 false).cont _ hf'
  have hD := C08_periodic n 0 (2 * π) (by have := pi_pos; linarith) f (deriv f) hd (fun a b => hc.intervalIntegrable a b) (by rw [sub_zero]; exact IsTrigAt.periodic hf)
  have hP' : (Periodic.make n).P 0 false f = a := hP
  rw [hP'] at hD
  exact ⟨f, _, fun x => (hd x).differentiableAt, hR, hD, fun x hx => C70_reconstruct .periodic n hn 1 false _ hf' x hx⟩

/-- **C86** (dual 0-forms, Chebyshev grids): here the discrete derivative needs the values of the reconstruction at the two ends, as boundary condition. -/
theorem C86_dual_chebyshev (n : ℕ) (hn : 2 ≤ n) (a : List ℝ) (ha : a.length = n - 1) :
    ∃ f da, Differentiable ℝ f ∧ (∀ x ∈ Set.Icc (-1) 1, (Chebyshev.make n).R 0 false a x = some (f x)) ∧ (Chebyshev.make n).D 0 false a = some da ∧
      ∀ x ∈ Set.Ioo (-1) 1, (Chebyshev.make n).R 1 false (vadd da ((Chebyshev.make n).boundary_condition f)) x = some (deriv f x) := by
  have hv : validSize .chebyshev n := hn
  obtain ⟨f, hf, hP, hR⟩ := C70_reconstruction_determined .chebyshev n hv 0 false a (ha.trans (Chebyshev.isInterval hn (-1) 1).N00.symm)
  obtain ⟨f', hf', hd⟩ := determined_deriv .chebyshev (by simp) n hv false hf
  obtain rfl : deriv f = f' := funext fun x => (hd x).deriv
  have hc : Continuous (deriv f) := ((spans' .chebyshev n hv).space 1 false).cont _ hf'
  have hD := C08_interval .chebyshev n hn (-1) 1 (by norm_num) f (deriv f) (fun s _ => hd s) (hc.intervalIntegrable _ _)
  have hP' : (Chebyshev.make n).P 0 false f = a := hP
  replace hD : ((Chebyshev.make n).D 0 false ((Chebyshev.make n).P 0 false f)).map (vadd · ((Chebyshev.make n).boundary_condition f)) = some ((Chebyshev.make n).P 1 false (deriv f)) := hD
  rw [hP'] at hD
  obtain ⟨da, hda, e⟩ := Option.map_eq_some_iff.1 hD
  refine ⟨f, da, fun x => (hd x).differentiableAt, hR, hda, fun x hx => ?_⟩
  rw [e]
  exact C70_reconstruct .chebyshev n hv 1 false _ hf' x hx

example : ∃ a : List ℝ, a.length = (grid₀ .chebyshev 3).N 0 true ∧ a ≠ [] := ⟨[0, 1, 0], (Chebyshev.isInterval (n := 3) (by norm_num) (-1) 1).N01.symm, by simp⟩

/-! ## Edge functions -/

/-- A function of the right space whose projection is a unit array is the basis function. -/
theorem B_of_P {g : Grid1} {V : Fin 2 → Bool → (ℝ → ℝ) → Prop} {dom : Fin 2 → Bool → Set ℝ} (s : Spans g V dom) (d : Fin 2) (t : Bool) {j : ℕ} (hj : j < g.N d t) {f : ℝ → ℝ}
    (hf : V d t f) (hP : g.P d t f = tab (g.N d t) fun i => if i = j then 1 else 0) {x : ℝ} (hx : x ∈ dom d t) : g.B d t j x = some (f x) := by
  obtain ⟨b, hb, hB⟩ := s.rep d t j hj
  rw [hB x hx, s.uniq d t b f hb hf (by rw [hP]; exact s.P_rep d t hj hb hB) x hx]

/-- **C86** (`doc/bases.rst`): the Chebyshev basis 1-form `n` is minus the sum of the derivatives of the basis 0-forms `0, …, n`. -/
theorem C86_edge_chebyshev (N : ℕ) (hN : 2 ≤ N) :
    ∃ f : ℕ → ℝ → ℝ, (∀ k < N, Differentiable ℝ (f k) ∧ ∀ x ∈ Set.Icc (-1) 1, psi0 N k x = some (f k x)) ∧
      ∀ n < N - 1, ∀ x ∈ Set.Ioo (-1) 1, psi1 N n x = some (-∑ k ∈ range (n + 1), deriv (f k) x) := by
  have hv : validSize .chebyshev N := hN
  have s := spans' .chebyshev N hv
  have hI := Chebyshev.isInterval hN (-1) 1
  have N01 : (grid₀ .chebyshev N).N 0 true = N := hI.N01
  have N11 : (grid₀ .chebyshev N).N 1 true = N - 1 := hI.N11
  have h := s.rep 0 true
  rw [N01] at h
  choose! f hf hB using h
  have h2 : ∀ k < N, ∃ f', Determined .chebyshev N 1 true f' ∧ ∀ x, HasDerivAt (f k) (f' x) x := fun k hk => determined_deriv .chebyshev (by simp) N hv true (hf k hk)
  refine ⟨f, fun k hk => ⟨fun x => ?_, fun x hx => hB k hk x hx⟩, fun n hn x hx => ?_⟩
  · obtain ⟨f', -, hd⟩ := h2 k hk; exact (hd x).differentiableAt
  · have h3 : ∀ k < N, Determined .chebyshev N 1 true (deriv (f k)) := fun k hk => by
      obtain ⟨f', hf', hd⟩ := h2 k hk
      obtain rfl : deriv (f k) = f' := funext fun x => (hd x).deriv
      exact hf'
    have hF : Determined .chebyshev N 1 true fun x => ∑ k ∈ range (n + 1), (-1) * deriv (f k) x :=
      (s.space 1 true).sum _ (fun k x => (-1) * deriv (f k) x) fun k hk => (s.space 1 true).smul (-1) _ (h3 k (by omega))
    have hP : (grid₀ .chebyshev N).P 1 true (fun x => ∑ k ∈ range (n + 1), (-1) * deriv (f k) x) = tab ((grid₀ .chebyshev N).N 1 true) fun i => if i = n then 1 else 0 := by
      rw [s.P_lin 1 true (n + 1) (fun _ => -1) (fun k => deriv (f k)) fun k hk => h3 k (by omega)]
      refine tab_congr fun i hi => ?_
      rw [N11] at hi
      have e : ∀ k ∈ range (n + 1), (-1) * ((grid₀ .chebyshev N).P 1 true (deriv (f k))).getD i 0 = (if i = k then 1 else 0) - (if i + 1 = k then 1 else 0) := fun k hk => by
        have hk' : k < N := by have := mem_range.1 hk; omega
        have h4 := D_P_primal .chebyshev (by simp) N hv (hf k hk') (h3 k hk') fun x => by
          obtain ⟨f', -, hd⟩ := h2 k hk'; exact (hd x).differentiableAt.hasDerivAt
        rw [s.P_rep 0 true (by rw [N01]; exact hk') (hf k hk') (hB k hk'), show (grid₀ .chebyshev N).D 0 true _ = some (diff _) from hI.D0 _, N01, diff_tab] at h4
        rw [← Option.some.inj h4, getD_tab hi]
        ring
      rw [sum_congr rfl e, sum_sub_distrib, sum_ite_eq, sum_ite_eq]
      simp only [mem_range]
      by_cases h5 : i = n
      · subst h5; simp
      · by_cases h6 : i < n
        · rw [if_pos (by omega), if_pos (by omega), if_neg h5]; ring
        · rw [if_neg (by omega), if_neg (by omega), if_neg h5]; ring
    have := B_of_P s 1 true (j := n) (by rw [N11]; exact hn) hF hP (x := x) hx
    rw [show (grid₀ .chebyshev N).B 1 true n x = psi1 N n x from rfl] at this
    rw [this]; congr 1
    rw [← sum_neg_distrib]
    exact sum_congr rfl fun k _ => by ring

/-- **C86**: the derivatives of the periodic basis 0-forms are differences of neighbouring basis 1-forms, primal and dual. -/
theorem C86_edge_periodic (N : ℕ) (hN : 1 ≤ N) :
    ∃ f g : ℕ → ℝ → ℝ, (∀ k < N, ∀ x ∈ Set.Ico 0 (2 * π), phi0 N k x = some (f k x)) ∧ (∀ k < N, ∀ x ∈ Set.Ico 0 (2 * π), phid0 N k x = some (g k x)) ∧
      (∀ k < N, ∀ x, phi1 N ((k + N - 1) % N) x = (phi1 N k x).map (· + deriv (f k) x)) ∧
      (∀ k < N, ∀ x, phid1 N k x = (phid1 N ((k + 1) % N) x).map (· + deriv (g k) x)) ∧ ∀ k < N, Differentiable ℝ (f k) ∧ Differentiable ℝ (g k) := by
  have hN' : 0 < N := hN
  have hpos := hh_pos hN'
  have hm := mul_hh hN'
  have hhd : hh N = 2 * π / N := rfl
  have hb := beta0_periodic N
  have hA : ∀ c x : ℝ, HasDerivAt (fun x => Ak N (x - c)) (beta0 N (x - c + π / N) - beta0 N (x - c - π / N)) x := fun c x => by
    simpa using (hasDerivAt_Ak hN' (x - c)).comp_sub_const x c
  have h2 : π / N = hh N / 2 := by rw [hhd]; ring
  refine ⟨fun k x => Ak N (x - 2 * π / N * k), fun k x => Ak N (x - 2 * π / N * (k + 1 / 2)), fun k hk x hx => ?_, fun k hk x hx => ?_, fun k hk x => ?_, fun k hk x => ?_,
    fun k hk => ⟨fun x => (hA _ x).differentiableAt, fun x => (hA _ x).differentiableAt⟩⟩
  · have hk1 : ((k : ℝ) + 1) * hh N ≤ 2 * π := by
      rw [← hm]; exact mul_le_mul_of_nonneg_right (by exact_mod_cast hk) hpos.le
    have hk0 : 0 ≤ (k : ℝ) * hh N := by positivity
    exact alpha_some hN' (by rw [← hhd]; linarith [hx.1]) (by rw [← hhd]; linarith [hx.2])
  · have hk1 : ((k : ℝ) + 1) * hh N ≤ 2 * π := by
      rw [← hm]; exact mul_le_mul_of_nonneg_right (by exact_mod_cast hk) hpos.le
    have hk0 : 0 ≤ (k : ℝ) * hh N := by positivity
    exact alpha_some hN' (by rw [← hhd]; linarith [hx.1]) (by rw [← hhd]; linarith [hx.2])
  · rw [(hA (2 * π / N * k) x).deriv]
    show some (beta0 N _) = some (beta0 N _ + _)
    congr 1
    have e2 : x - 2 * π / N * (k + 1 / 2) = x - 2 * π / N * k - π / N := by ring
    rw [e2]
    rcases Nat.eq_zero_or_pos k with rfl | hk0
    · rw [Nat.zero_add, Nat.mod_eq_of_lt (by omega : N - 1 < N), Nat.cast_pred hN']
      have e1 : x - 2 * π / N * ((N : ℝ) - 1 + 1 / 2) = x - 2 * π / N * (0 : ℕ) + π / N - 2 * π := by
        have : 2 * π / N * N = 2 * π := by field_simp
        push_cast
        linear_combination -this
      rw [e1, hb.sub_eq]; ring
    · rw [show k + N - 1 = k - 1 + N by omega, Nat.add_mod_right, Nat.mod_eq_of_lt (by omega : k - 1 < N), Nat.cast_pred hk0]
      have e1 : x - 2 * π / N * ((k : ℝ) - 1 + 1 / 2) = x - 2 * π / N * k + π / N := by ring
      rw [e1]; ring
  · rw [(hA (2 * π / N * (k + 1 / 2)) x).deriv]
    show some (beta0 N _) = some (beta0 N _ + _)
    congr 1
    have e2 : x - 2 * π / N * k = x - 2 * π / N * (k + 1 / 2) + π / N := by ring
    rw [e2]
    by_cases h : k + 1 < N
    · rw [Nat.mod_eq_of_lt h]
      have e1 : x - 2 * π / N * ((k + 1 : ℕ) : ℝ) = x - 2 * π / N * (k + 1 / 2) - π / N := by push_cast; ring
      rw [e1]; ring
    · have hk' : k + 1 = N := by omega
      rw [hk', Nat.mod_self]
      have e1 : x - 2 * π / N * ((0 : ℕ) : ℝ) = x - 2 * π / N * (k + 1 / 2) - π / N + 2 * π := by
        have h3 : 2 * π / N * N = 2 * π := by field_simp
        have h4 : (k : ℝ) + 1 = N := by exact_mod_cast hk'
        push_cast
        linear_combination 2 * π / N * h4 + h3
      rw [e1, hb]; ring

/-- **C86** (`doc/bases.rst`): the antisymmetric basis 1-forms of the regular grid are minus the sums of the derivatives of its basis 0-forms. -/
theorem C86_edge_regular (N : ℕ) (hN : 2 ≤ N) :
    ∃ f : ℕ → ℝ → ℝ, (∀ k < N, Differentiable ℝ (f k) ∧ ∀ x ∈ Set.Icc 0 π, kappa0 N k x = some (f k x)) ∧
      ∀ n < N - 1, ∀ x, kappa1 N n x = -∑ k ∈ range (n + 1), deriv (f k) x := by
  have hM : 0 < 2 * N - 2 := by omega
  have hpi := pi_pos
  have hMr : (0 : ℝ) < (2 * N - 2 : ℕ) := by exact_mod_cast hM
  have hlast : 2 * π / (2 * N - 2 : ℕ) * ((N - 1 : ℕ) : ℝ) = π := by
    have := mul_hh_double hN
    unfold hh at this; linarith
  have hA : ∀ c x : ℝ, HasDerivAt (fun x => Ak (2 * N - 2) (x + c)) (beta0 (2 * N - 2) (x + c + π / (2 * N - 2 : ℕ)) - beta0 (2 * N - 2) (x + c - π / (2 * N - 2 : ℕ))) x := fun c x => by
    simpa using (hasDerivAt_Ak hM (x + c)).comp_add_const x c
  obtain ⟨f, hf⟩ : ∃ f : ℕ → ℝ → ℝ, ∀ k, f k = fun x => if k = 0 then Ak (2 * N - 2) (x + 0) else if k = N - 1 then Ak (2 * N - 2) (x + -π)
      else Ak (2 * N - 2) (x + -(2 * π / (2 * N - 2 : ℕ) * k)) + Ak (2 * N - 2) (x + 2 * π / (2 * N - 2 : ℕ) * k) := ⟨_, fun _ => rfl⟩
  have hd0 : ∀ x, deriv (f 0) x = beta0 (2 * N - 2) (x + 0 + π / (2 * N - 2 : ℕ)) - beta0 (2 * N - 2) (x + 0 - π / (2 * N - 2 : ℕ)) := fun x => by
    rw [hf]; simp only [if_true]; exact (hA 0 x).deriv
  have hmid : ∀ k, 0 < k → k < N - 1 → f k = fun x => Ak (2 * N - 2) (x + -(2 * π / (2 * N - 2 : ℕ) * k)) + Ak (2 * N - 2) (x + 2 * π / (2 * N - 2 : ℕ) * k) := fun k h0 h1 => by
    rw [hf]; funext x; rw [if_neg (by omega), if_neg (by omega)]
  refine ⟨f, fun k hk => ⟨fun x => ?_, fun x hx => ?_⟩, fun n hn x => ?_⟩
  · by_cases h0 : k = 0
    · subst h0; rw [hf]; simp only [if_true]; exact (hA 0 x).differentiableAt
    · by_cases h1 : k = N - 1
      · rw [hf]; simp only [if_neg h0, if_pos h1]; exact (hA _ x).differentiableAt
      · rw [hmid k (by omega) (by omega)]; exact (hA _ x).differentiableAt.add (hA _ x).differentiableAt
  · have hx0 := hx.1
    have hx1 := hx.2
    unfold kappa0
    by_cases h0 : k = 0
    · subst h0
      rw [if_pos (.inl rfl), alpha_some hM (by push_cast; linarith) (by push_cast; linarith), hf]; simp
    · by_cases h1 : k = N - 1
      · rw [if_pos (.inr h1), hf, h1, alpha_some hM (by rw [hlast]; linarith) (by rw [hlast]; linarith), hlast]
        beta_reduce
        rw [if_neg (by omega), if_pos rfl]; rfl
      · rw [if_neg (by omega), hmid k (by omega) (by omega)]
        have hk0 : (0 : ℝ) < k := by exact_mod_cast (by omega : 0 < k)
        have hk1 : (k : ℝ) < (N - 1 : ℕ) := by exact_mod_cast (by omega : k < N - 1)
        refine pair_alpha hM (by positivity) ?_ hx0 hx1
        calc 2 * π / (2 * N - 2 : ℕ) * (k : ℝ) < 2 * π / (2 * N - 2 : ℕ) * ((N - 1 : ℕ) : ℝ) := mul_lt_mul_of_pos_left hk1 (by positivity)
          _ = π := hlast
  · induction n with
    | zero =>
      rw [sum_range_one, hd0, kappa1_split]
      have e1 : x + -(2 * π / (2 * N - 2 : ℕ) * (((0 : ℕ) : ℝ) + 1 / 2)) = x + 0 - π / (2 * N - 2 : ℕ) := by push_cast; ring
      have e2 : x + 2 * π / (2 * N - 2 : ℕ) * (((0 : ℕ) : ℝ) + 1 / 2) = x + 0 + π / (2 * N - 2 : ℕ) := by push_cast; ring
      rw [e1, e2]; ring
    | succ n ih =>
      rw [sum_range_succ, neg_add, ← ih (by omega), hmid (n + 1) (by omega) hn]
      rw [((hA (-(2 * π / (2 * N - 2 : ℕ) * ((n + 1 : ℕ) : ℝ))) x).fun_add (hA (2 * π / (2 * N - 2 : ℕ) * ((n + 1 : ℕ) : ℝ)) x)).deriv, kappa1_split, kappa1_split]
      have e1 : x + -(2 * π / (2 * N - 2 : ℕ) * (((n + 1 : ℕ) : ℝ) + 1 / 2)) = x + -(2 * π / (2 * N - 2 : ℕ) * ((n + 1 : ℕ) : ℝ)) - π / (2 * N - 2 : ℕ) := by ring
      have e2 : x + 2 * π / (2 * N - 2 : ℕ) * (((n + 1 : ℕ) : ℝ) + 1 / 2) = x + 2 * π / (2 * N - 2 : ℕ) * ((n + 1 : ℕ) : ℝ) + π / (2 * N - 2 : ℕ) := by ring
      have e3 : x + -(2 * π / (2 * N - 2 : ℕ) * ((n : ℝ) + 1 / 2)) = x + -(2 * π / (2 * N - 2 : ℕ) * ((n + 1 : ℕ) : ℝ)) + π / (2 * N - 2 : ℕ) := by push_cast; ring
      have e4 : x + 2 * π / (2 * N - 2 : ℕ) * ((n : ℝ) + 1 / 2) = x + 2 * π / (2 * N - 2 : ℕ) * ((n + 1 : ℕ) : ℝ) - π / (2 * N - 2 : ℕ) := by push_cast; ring
      rw [e1, e2, e3, e4]; ring

/-! ## What does not hold -/

theorem IsTrig.analytic {K : ℕ} {p : ℝ → ℝ} (h : IsTrig K p) : AnalyticOnNhd ℝ p Set.univ := by
  obtain ⟨a, b, e⟩ := h
  rw [show p = fun θ => ∑ k ∈ range (K + 1), (a k * cos (k * θ) + b k * sin (k * θ)) from funext e]
  have : ContDiff ℝ ⊤ fun θ : ℝ => ∑ k ∈ range (K + 1), (a k * cos (k * θ) + b k * sin (k * θ)) := by fun_prop
  exact contDiff_omega_iff_analyticOnNhd.1 this

/-- **C86** (regular grids): the basis 1-forms that the grid uses are the symmetric ones, and then the reconstruction of the discrete derivative is the derivative of the
reconstruction for constant arrays only. -/
theorem C86_regular (n : ℕ) (hn : 2 ≤ n) (a : List ℝ) (ha : a.length = n) :
    (∃ f da, Differentiable ℝ f ∧ (∀ x ∈ Set.Icc 0 π, (Regular.make n).R 0 true a x = some (f x)) ∧ (Regular.make n).D 0 true a = some da ∧
      ∀ x ∈ Set.Ioo 0 π, (Regular.make n).R 1 true da x = some (deriv f x)) ↔ ∃ c, a = List.replicate n c := by
  have hv : validSize .regular n := hn
  have s := spans' .regular n hv
  have hI := Regular.isInterval hn 0 π
  have N01 : (grid₀ .regular n).N 0 true = n := hI.N01
  have N11 : (grid₀ .regular n).N 1 true = n - 1 := hI.N11
  constructor
  · rintro ⟨f, da, hfd, hf, hD, hR⟩
    obtain ⟨q, hq, hP, hq'⟩ := C70_reconstruction_determined .regular n hv 0 true a (ha.trans N01.symm)
    have hl : da.length = (grid₀ .regular n).N 1 true := by
      have h1 : some (diff a) = some da := (hI.D0 a).symm.trans hD
      rw [N11, ← Option.some.inj h1, eq_tab' ha 0, diff_tab, length_tab]
    obtain ⟨g, hg, hPg, hg'⟩ := C70_reconstruction_determined .regular n hv 1 true da hl
    have hqc : IsCos (n - 1) q := by simpa [Determined] using hq
    have hgc : IsCos (n - 1 - 1) g := by simpa [Determined] using hg
    obtain ⟨q', hq1, hq2⟩ := hqc.isTrig.deriv
    have e1 : ∀ x ∈ Set.Ioo 0 π, q' x = g x := fun x hx => by
      have h1 : f =ᶠ[nhds x] q := by
        filter_upwards [isOpen_Ioo.mem_nhds hx] with y hy
        exact Option.some.inj ((hf y (Set.Ioo_subset_Icc_self hy)).symm.trans (hq' y (Set.Ioo_subset_Icc_self hy)))
      rw [← (hq2 x).deriv, ← h1.deriv_eq]
      exact Option.some.inj ((hR x hx).symm.trans (hg' x (Set.Ioo_subset_Icc_self hx)))
    have e2 : q' = g := by
      refine AnalyticOnNhd.eq_of_eventuallyEq (IsTrig.analytic hq1) (IsTrig.analytic hgc.isTrig) (z₀ := π / 2) ?_
      filter_upwards [isOpen_Ioo.mem_nhds (show π / 2 ∈ Set.Ioo 0 π from ⟨by positivity, by linarith [pi_pos]⟩)] with y hy using e1 y hy
    have hodd : ∀ x, q' (-x) = -q' x := fun x => by
      have h1 : HasDerivAt (fun y => q (-y)) (-q' (-x)) x := by
        exact ((hq2 (-x)).scomp x (hasDerivAt_neg x)).congr_deriv (by simp)
      rw [show (fun y => q (-y)) = q from funext fun y => hqc.even y] at h1
      rw [h1.unique (hq2 x) |>.symm, neg_neg]
    have hz : ∀ x, q' x = 0 := fun x => by
      have h1 := hodd x
      rw [e2, hgc.even] at h1
      rw [e2]; linarith
    have hc : ∀ x, q x = q 0 := fun x =>
      is_const_of_deriv_eq_zero (fun y => (hq2 y).differentiableAt) (fun y => by rw [(hq2 y).deriv, hz]) x 0
    refine ⟨q 0, ?_⟩
    rw [← hP, P0_tab s.factor, N01, replicate_tab]
    exact tab_congr fun i _ => hc _
  · rintro ⟨c, rfl⟩
    have hd : Determined .regular n 0 true fun _ => c := by
      simp only [Determined]
      exact ⟨fun k => if k = 0 then c else 0, fun θ => by simp [sum_ite_eq]⟩
    have hP : (grid₀ .regular n).P 0 true (fun _ => c) = List.replicate n c := by
      rw [P0_tab s.factor, N01, replicate_tab]
    have hz : Determined .regular n 1 true fun _ => 0 := (s.space 1 true).zero
    have hPz : (grid₀ .regular n).P 1 true (fun _ => 0) = diff (List.replicate n c) := by
      rw [P1_tab s.factor, N11, replicate_tab, diff_tab]
      exact tab_congr fun i hi => by simp
    refine ⟨fun _ => c, diff (List.replicate n c), by fun_prop, fun x hx => ?_, hI.D0 _, fun x hx => ?_⟩
    · rw [← hP]; exact C70_reconstruct .regular n hv 0 true _ hd x hx
    · rw [← hPz, deriv_const]; exact C70_reconstruct .regular n hv 1 true _ hz x (Set.Ioo_subset_Icc_self hx)

/-- **C86**: on a regular grid with at least two vertices there is an array for which they differ. -/
theorem C86_regular_differs (n : ℕ) (hn : 2 ≤ n) : ∃ a : List ℝ, a.length = n ∧
    ¬ ∃ f da, Differentiable ℝ f ∧ (∀ x ∈ Set.Icc 0 π, (Regular.make n).R 0 true a x = some (f x)) ∧ (Regular.make n).D 0 true a = some da ∧
      ∀ x ∈ Set.Ioo 0 π, (Regular.make n).R 1 true da x = some (deriv f x) := by
  refine ⟨tab n fun i => i, length_tab _ _, fun h => ?_⟩
  obtain ⟨c, hc⟩ := (C86_regular n hn _ (length_tab _ _)).1 h
  have h0 : (tab n fun i => (i : ℝ)).getD 0 0 = c := by rw [hc]; simp [List.getD_eq_getElem?_getD, List.getElem?_replicate, show 0 < n by omega]
  have h1 : (tab n fun i => (i : ℝ)).getD 1 0 = c := by rw [hc]; simp [List.getD_eq_getElem?_getD, List.getElem?_replicate, show 1 < n by omega]
  rw [getD_tab (by omega)] at h0 h1
  rw [← h0] at h1
  simp at h1

/-- **C86**: contrary to `doc/bases.rst`, the dual basis 1-forms of the Chebyshev grid are not combinations of the derivatives of the basis 0-forms. -/
theorem C86_dual_edge_chebyshev (N : ℕ) (hN : 2 ≤ N) (f : ℕ → ℝ → ℝ) (hf : ∀ k < N, ∀ x ∈ Set.Icc (-1) 1, psi0 N k x = some (f k x)) :
    ¬ ∀ j < N, ∃ c : ℕ → ℝ, ∀ x ∈ Set.Ioo (-1) 1, psid1 N j x = some (∑ k ∈ range N, c k * deriv (f k) x) := by
  intro h
  choose! c hc using h
  have hv : validSize .chebyshev N := hN
  have s := spans' .chebyshev N hv
  have hI := Chebyshev.isInterval hN (-1) 1
  have N01 : (grid₀ .chebyshev N).N 0 true = N := hI.N01
  have N10 : (grid₀ .chebyshev N).N 1 false = N := hI.N10
  have h0 := s.rep 0 true
  rw [N01] at h0
  choose! q hq hB using h0
  have hq' : ∀ k < N, ∃ q', IsPoly (N - 1) q' ∧ ∀ x ∈ Set.Ioo (-1) 1, deriv (f k) x = q' x := fun k hk => by
    obtain ⟨q', h1, h2⟩ := determined_deriv .chebyshev (by simp) N hv true (hq k hk)
    refine ⟨q', by simpa [Determined] using h1, fun x hx => ?_⟩
    rw [← (h2 x).deriv]
    refine Filter.EventuallyEq.deriv_eq ?_
    filter_upwards [isOpen_Ioo.mem_nhds hx] with y hy
    exact Option.some.inj ((hf k hk y (Set.Ioo_subset_Icc_self hy)).symm.trans (hB k hk y (Set.Ioo_subset_Icc_self hy)))
  choose! q' hqp hqe using hq'
  have hX : Determined .chebyshev N 1 false fun x => x ^ (N - 1) := by
    simp only [Determined]
    refine ⟨fun k => if k = N - 1 then 1 else 0, fun x => ?_⟩
    have : N - 1 < N := by omega
    simp [sum_ite_eq, this]
  have hF : IsPoly (N - 1) fun x => ∑ j ∈ range N, ((grid₀ .chebyshev N).P 1 false fun x => x ^ (N - 1)).getD j 0 * ∑ k ∈ range N, c j k * q' k x :=
    (space_poly (N - 1)).sum _ (fun j x => ((grid₀ .chebyshev N).P 1 false fun x => x ^ (N - 1)).getD j 0 * ∑ k ∈ range N, c j k * q' k x) fun j hj =>
      (space_poly (N - 1)).smul _ _ ((space_poly (N - 1)).sum _ (fun k x => c j k * q' k x) fun k hk => (space_poly (N - 1)).smul _ _ (hqp k hk))
  have hR : ∀ x ∈ Set.Ioo (-1 : ℝ) 1, (x : ℝ) ^ (N - 1) = ∑ j ∈ range N, ((grid₀ .chebyshev N).P 1 false fun x => x ^ (N - 1)).getD j 0 * ∑ k ∈ range N, c j k * q' k x := fun x hx => by
    have h1 := C70_reconstruct .chebyshev N hv 1 false _ hX x hx
    have h2 : (grid₀ .chebyshev N).R 1 false ((grid₀ .chebyshev N).P 1 false fun x => x ^ (N - 1)) x
        = some (∑ j ∈ range ((grid₀ .chebyshev N).N 1 false), ((grid₀ .chebyshev N).P 1 false fun x => x ^ (N - 1)).getD j 0 * ∑ k ∈ range N, c j k * q' k x) := by
      unfold Grid1.R
      refine foldl_oadd (fun j => ∑ k ∈ range N, c j k * q' k x) _ fun j hj => ?_
      rw [N10] at hj
      rw [show (grid₀ .chebyshev N).B 1 false j x = psid1 N j x from rfl, hc j hj x hx]
      congr 1
      exact sum_congr rfl fun k hk => by rw [hqe k (mem_range.1 hk) x hx]
    rw [N10] at h2
    exact Option.some.inj (h1.symm.trans h2)
  obtain ⟨P, hP, e⟩ := hF.exists_eval
  have hpoly : (Polynomial.X : Polynomial ℝ) ^ (N - 1) = P := by
    refine Polynomial.eq_of_infinite_eval_eq _ _ (Set.Infinite.mono ?_ (Set.Ioo_infinite (show (-1 : ℝ) < 1 by norm_num)))
    intro x hx
    show Polynomial.eval x _ = Polynomial.eval x _
    rw [Polynomial.eval_pow, Polynomial.eval_X, ← e x]
    exact hR x hx
  rw [← hpoly, Polynomial.degree_X_pow] at hP
  exact lt_irrefl _ hP

example : ∃ f : ℕ → ℝ → ℝ, ∀ k < 3, ∀ x ∈ Set.Icc (-1) 1, psi0 3 k x = some (f k x) := by
  obtain ⟨f, hf, -⟩ := C86_edge_chebyshev 3 (by norm_num)
  exact ⟨f, fun k hk => (hf k hk).2⟩

/-! ## `alpha0_alt` -/

/-- **C86**: away from the multiples of `2π`, `alpha0_alt` has the cosine factor of `alpha0` in the wrong parity. -/
theorem C86_alt (N : ℕ) (hN : 1 ≤ N) (x : ℝ) (h0 : 0 < x) (h1 : x < 2 * π) :
    ∃ y, (N % 2 = 0 → alpha0_alt N x = some y ∧ alpha0 N x = some (y * cos (x / 2))) ∧ (N % 2 = 1 → alpha0 N x = some y ∧ alpha0_alt N x = some (y * cos (x / 2))) := by
  have hs : sin (x / 2) ≠ 0 := (sin_pos_of_pos_of_lt_pi (by linarith) (by linarith)).ne'
  refine ⟨sin (N * x / 2) / sin (x / 2) / N, fun h => ?_, fun h => ?_⟩
  · have : (-1 : ℝ) ^ N = 1 := Even.neg_one_pow (Nat.even_iff.2 h)
    constructor
    · unfold alpha0_alt; rw [if_neg h0.ne', if_neg hs, this]; congr 1; ring
    · unfold alpha0; rw [if_neg h0.ne', if_neg hs, if_pos h]; congr 1
      rw [div_div_eq_mul_div]; ring
  · have : (-1 : ℝ) ^ N = -1 := Odd.neg_one_pow (Nat.odd_iff.2 h)
    constructor
    · unfold alpha0; rw [if_neg h0.ne', if_neg hs, if_neg (by omega)]
    · unfold alpha0_alt; rw [if_neg h0.ne', if_neg hs, this]; congr 1; ring

/-- **C86**: so between `0` and `2π` it agrees with `alpha0` at the nodes only. -/
theorem C86_alt_agrees_iff (N : ℕ) (hN : 1 ≤ N) (x : ℝ) (h0 : 0 < x) (h1 : x < 2 * π) : alpha0_alt N x = alpha0 N x ↔ ∃ i : ℕ, x = i * (2 * π / N) := by
  have hs : 0 < sin (x / 2) := sin_pos_of_pos_of_lt_pi (by linarith) (by linarith)
  have hNr : (0 : ℝ) < N := by exact_mod_cast hN
  have hc : cos (x / 2) ≠ 1 := fun h => by
    have := sin_sq_add_cos_sq (x / 2)
    rw [h] at this
    nlinarith
  have key : alpha0_alt N x = alpha0 N x ↔ sin (N * x / 2) / sin (x / 2) / N = 0 := by
    have hs' := hs.ne'
    rcases Nat.mod_two_eq_zero_or_one N with h | h
    · have hp : (-1 : ℝ) ^ N = 1 := Even.neg_one_pow (Nat.even_iff.2 h)
      have a1 : alpha0_alt N x = some (sin (N * x / 2) / sin (x / 2) / N) := by
        unfold alpha0_alt; rw [if_neg h0.ne', if_neg hs', hp]; congr 1; ring
      have a2 : alpha0 N x = some (sin (N * x / 2) / sin (x / 2) / N * cos (x / 2)) := by
        unfold alpha0; rw [if_neg h0.ne', if_neg hs', if_pos h]; congr 1; rw [div_div_eq_mul_div]; ring
      rw [a1, a2, Option.some.injEq]
      constructor
      · intro e
        have : sin (N * x / 2) / sin (x / 2) / N * (1 - cos (x / 2)) = 0 := by linarith
        rcases mul_eq_zero.1 this with h | h
        · exact h
        · exact absurd (by linarith) hc
      · intro e; rw [e]; ring
    · have hp : (-1 : ℝ) ^ N = -1 := Odd.neg_one_pow (Nat.odd_iff.2 h)
      have a1 : alpha0_alt N x = some (sin (N * x / 2) / sin (x / 2) / N * cos (x / 2)) := by
        unfold alpha0_alt; rw [if_neg h0.ne', if_neg hs', hp]; congr 1; ring
      have a2 : alpha0 N x = some (sin (N * x / 2) / sin (x / 2) / N) := by
        unfold alpha0; rw [if_neg h0.ne', if_neg hs', if_neg (by omega)]
      rw [a1, a2, Option.some.injEq]
      constructor
      · intro e
        have : sin (N * x / 2) / sin (x / 2) / N * (1 - cos (x / 2)) = 0 := by linarith
        rcases mul_eq_zero.1 this with h | h
        · exact h
        · exact absurd (by linarith) hc
      · intro e; rw [e]; ring
  rw [key, div_eq_zero_iff, div_eq_zero_iff, or_iff_left hNr.ne', or_iff_left hs.ne', sin_eq_zero_iff]
  constructor
  · rintro ⟨m, hm⟩
    have hm0 : (0 : ℝ) < m := by
      have : 0 < (m : ℝ) * π := by rw [hm]; positivity
      exact (pos_iff_pos_of_mul_pos this).2 pi_pos
    have hm0' : 0 < m := by exact_mod_cast hm0
    refine ⟨m.toNat, ?_⟩
    have : ((m.toNat : ℕ) : ℝ) = m := by exact_mod_cast congrArg (Int.cast (R := ℝ)) (Int.toNat_of_nonneg hm0'.le)
    rw [this]; field_simp; linarith
  · rintro ⟨i, rfl⟩
    exact ⟨i, by push_cast; field_simp⟩

example : (1 : ℕ) ≤ 5 ∧ (0 : ℝ) < 1 ∧ (1 : ℝ) < 2 * π := ⟨by norm_num, by norm_num, by linarith [pi_gt_three]⟩

end Dec.Props
