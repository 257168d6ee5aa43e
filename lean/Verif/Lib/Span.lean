import Verif.Props.Lagrange
import Verif.Props.Grid2Exact
import Verif.Props.ChebyshevInjective

set_option linter.unusedSimpArgs false
set_option linter.unusedVariables false

/-! # The functions spanned by the basis functions of a grid -/

namespace Dec

open Finset Real Sp MeasureTheory

/-- A cosine polynomial of degree `K` is a polynomial of degree `K` in `-cos`. -/
theorem IsCos.isPoly {K : ℕ} {q : ℝ → ℝ} (hq : IsCos K q) : ∃ P, IsPoly (K + 1) P ∧ ∀ θ, q θ = P (-cos θ) := by
  have h1 : ∀ k : ℕ, (∃ P, IsPoly (k + 1) P ∧ ∀ θ : ℝ, cos (k * θ) = P (-cos θ)) ∧ (∃ P, IsPoly (k + 2) P ∧ ∀ θ : ℝ, cos ((k + 1 : ℕ) * θ) = P (-cos θ)) := by
    intro k
    induction k with
    | zero =>
      refine ⟨⟨fun _ => 1, ⟨fun _ => 1, fun x => by simp⟩, fun θ => by simp⟩, ⟨fun x => -x, ⟨fun i => if i = 1 then -1 else 0, fun x => ?_⟩, fun θ => by simp⟩⟩
      simp [sum_range_succ]
    | succ k ih =>
      refine ⟨ih.2, ?_⟩
      obtain ⟨⟨P, hP, eP⟩, ⟨Q, hQ, eQ⟩⟩ := ih
      have hX : IsPoly 2 fun x : ℝ => -2 * x := ⟨fun i => if i = 1 then -2 else 0, fun x => by simp [sum_range_succ]⟩
      refine ⟨fun x => -2 * x * Q x + -1 * P x, Props.isPoly_add (Props.isPoly_mul (by omega) hX hQ) (Props.isPoly_smul _ (Props.isPoly_mono (by omega) hP)), fun θ => ?_⟩
      beta_reduce
      rw [← eP, ← eQ]
      have e1 : ((k + 1 + 1 : ℕ) : ℝ) * θ = ((k + 1 : ℕ) : ℝ) * θ + θ := by push_cast; ring
      have e2 : (k : ℝ) * θ = ((k + 1 : ℕ) : ℝ) * θ - θ := by push_cast; ring
      rw [e1, e2, cos_add, cos_sub]; ring
  choose P hP eP using fun k => (h1 k).1
  obtain ⟨a, ha⟩ := hq
  refine ⟨fun x => ∑ k ∈ range (K + 1), a k * P k x, ?_, fun θ => by rw [ha]; exact sum_congr rfl fun k _ => by rw [eP]⟩
  exact (Props.space_poly (K + 1)).sum (K + 1) (fun k x => a k * P k x) fun k hk => Props.isPoly_smul _ (Props.isPoly_mono (by omega) (hP k))

theorem IsTrigAt.res {N : ℕ} (hN : 0 < N) {x₀ : ℝ} {p : ℝ → ℝ} (h : IsTrigAt N x₀ p) : Res N x₀ p := by
  obtain ⟨q, c, hq, hc, e⟩ := h
  have h1 := Res_of_isTrig (N := N) (by omega) hq x₀
  by_cases hN2 : N % 2 = 0
  · have h2 := Res.cos_nyquist (m := N / 2) (by omega) x₀
    rw [show 2 * (N / 2) = N by omega] at h2
    exact (h1.add (h2.const_mul c)).congr e
  · refine h1.congr fun θ => ?_
    rw [e, hc (by omega)]; ring

theorem IsTrigAt.of_trig {N : ℕ} {x₀ : ℝ} {p : ℝ → ℝ} (h : IsTrig ((N - 1) / 2) p) : IsTrigAt N x₀ p := ⟨p, 0, h, fun _ => rfl, fun θ => by ring⟩

theorem IsTrigAt.nyquist {N : ℕ} (hN : N % 2 = 0) (x₀ c : ℝ) {p q : ℝ → ℝ} (hq : IsTrig ((N - 1) / 2) q) (e : ∀ θ, p θ = q θ + c * cos ((N / 2 : ℕ) * (θ - x₀))) :
    IsTrigAt N x₀ p := ⟨q, c, hq, fun h => by omega, e⟩

theorem space_trigAt (N : ℕ) (x₀ : ℝ) : FnSpace (IsTrigAt N x₀) where
  zero := .of_trig (IsTrig.zero _)
  add f g hf hg := by
    obtain ⟨q, c, hq, hc, e⟩ := hf
    obtain ⟨q', c', hq', hc', e'⟩ := hg
    exact ⟨fun θ => q θ + q' θ, c + c', hq.add hq', fun h => by rw [hc h, hc' h, add_zero], fun θ => by beta_reduce; rw [e, e']; ring⟩
  smul k f hf := by
    obtain ⟨q, c, hq, hc, e⟩ := hf
    exact ⟨fun θ => k * q θ, k * c, hq.const_mul k, fun h => by rw [hc h, mul_zero], fun θ => by beta_reduce; rw [e]; ring⟩
  cont f hf := by
    obtain ⟨q, c, hq, hc, e⟩ := hf
    rw [show f = fun θ => q θ + c * cos ((N / 2 : ℕ) * (θ - x₀)) from funext e]
    exact hq.continuous.add (by fun_prop)

/-- The kernels of the periodic grid are determined by their values around their centre. -/
theorem Ak_at {N : ℕ} (hN : 0 < N) : IsTrigAt N 0 (Ak N) := by
  by_cases h : N % 2 = 0
  · have e : ∀ x, Ak N x = (1 / N) * (1 + 2 * ∑ n ∈ Ico 1 (N / 2), cos (n * x)) + (1 / N) * cos ((N / 2 : ℕ) * (x - 0)) := fun x => by
      unfold Ak; rw [if_pos h, sub_zero]; ring
    refine .nyquist h 0 _ (IsTrig.const_mul (IsTrig.add (isTrig_const _ 1) (IsTrig.const_mul (IsTrig.sum _ fun n hn => isTrig_cos_nat ?_) 2)) _) e
    have := mem_Ico.1 hn; omega
  · have e : ∀ x, Ak N x = (1 / N) * (1 + 2 * ∑ n ∈ Ico 1 ((N - 1) / 2 + 1), cos (n * x)) := fun x => by
      unfold Ak; rw [if_neg h]; ring
    refine .of_trig (IsTrig.congr (IsTrig.const_mul (IsTrig.add (isTrig_const _ 1) (IsTrig.const_mul (IsTrig.sum _ fun n hn => isTrig_cos_nat ?_) 2)) _) e)
    have := mem_Ico.1 hn; omega

theorem beta0_at {N : ℕ} (hN : 0 < N) : IsTrigAt N 0 (beta0 N) := by
  by_cases h : N % 2 = 0
  · have e : ∀ x, beta0 N x = (1 / (2 * π) + ∑ n ∈ Ico 1 (N / 2), (n / sin (n * π / N) / N) * cos (n * x))
        + ((N / 2 : ℕ) / sin ((N / 2 : ℕ) * π / N) / N - 1 / 4) * cos ((N / 2 : ℕ) * (x - 0)) := fun x => by
      unfold beta0; rw [if_pos h, sub_zero, sum_Ico_succ_top (by omega)]
      have : (N : ℝ) * x / 2 = (N / 2 : ℕ) * x := by
        have : ((N / 2 : ℕ) : ℝ) * 2 = N := by exact_mod_cast (by omega : N / 2 * 2 = N)
        linear_combination (-x / 2) * this
      have hs : ∑ n ∈ Ico 1 (N / 2), (n : ℝ) * cos (n * x) / sin (n * π / N) / N = ∑ n ∈ Ico 1 (N / 2), (n / sin (n * π / N) / N) * cos (n * x) :=
        sum_congr rfl fun n _ => by ring
      rw [this, hs]
      ring
    exact .nyquist h 0 _ (IsTrig.add (isTrig_const _ _) (IsTrig.sum _ fun n hn => IsTrig.const_mul (isTrig_cos_nat (by have := mem_Ico.1 hn; omega)) _)) e
  · have := beta0_isTrig N
    rw [show N / 2 = (N - 1) / 2 by omega] at this
    exact .of_trig this

/-- Shifting a kernel to another node. -/
theorem IsTrigAt.shift {N : ℕ} (hN : 0 < N) {p : ℝ → ℝ} (h : IsTrigAt N 0 p) (φ : ℝ) (j : ℕ) : IsTrigAt N φ fun x => p (x - (φ + j * hh N)) := by
  obtain ⟨q, c, hq, hc, e⟩ := h
  have h1 := hq.comp_add (-(φ + j * hh N))
  by_cases hN2 : N % 2 = 0
  · refine ⟨_, c * (-1) ^ j, h1, fun h => by omega, fun θ => ?_⟩
    beta_reduce
    rw [e, ← sub_eq_add_neg θ, sub_zero]
    have e1 : ((N / 2 : ℕ) : ℝ) * (θ - (φ + j * hh N)) = (N / 2 : ℕ) * (θ - φ) - j * π := by
      have h2 : ((N / 2 : ℕ) : ℝ) * hh N = π := by
        have : ((N / 2 : ℕ) : ℝ) * 2 = N := by exact_mod_cast (by omega : N / 2 * 2 = N)
        have h3 := mul_hh hN
        rw [← this] at h3
        linear_combination h3 / 2
      linear_combination (-(j : ℝ)) * h2
    rw [e1, cos_sub_nat_mul_pi]; ring
  · refine ⟨_, 0, h1, fun h => rfl, fun θ => ?_⟩
    beta_reduce
    rw [e, hc (by omega), ← sub_eq_add_neg θ]; ring

open G2

/-- The basis functions of `g` belong to the spaces `V` (on `dom`), in which a function is determined by its projection. -/
structure Spans (g : Grid1) (V : Fin 2 → Bool → (ℝ → ℝ) → Prop) (dom : Fin 2 → Bool → Set ℝ) : Prop where
  factor : Factor g
  dual : DualBasis g
  space : ∀ d t, FnSpace (V d t)
  rep : ∀ d t, ∀ j < g.N d t, ∃ b, V d t b ∧ ∀ x ∈ dom d t, g.B d t j x = some (b x)
  v : ∀ t, ∀ i < g.N 0 t, vx g t i ∈ dom 0 t
  e : ∀ t, ∀ i < g.N 1 t, Set.Ioo (lo g t i) (hi g t i) ⊆ dom 1 t
  uniq : ∀ d t f h, V d t f → V d t h → g.P d t f = g.P d t h → ∀ x ∈ dom d t, f x = h x

namespace Spans

variable {g : Grid1} {V : Fin 2 → Bool → (ℝ → ℝ) → Prop} {dom : Fin 2 → Bool → Set ℝ}

theorem P_rep (s : Spans g V dom) (d : Fin 2) (t : Bool) {j : ℕ} (hj : j < g.N d t) {b : ℝ → ℝ} (hb : V d t b) (hB : ∀ x ∈ dom d t, g.B d t j x = some (b x)) :
    g.P d t b = tab (g.N d t) fun i => if i = j then 1 else 0 := by
  obtain rfl | rfl : d = 0 ∨ d = 1 := by omega
  · rw [P0_tab s.factor]
    refine tab_congr fun i hi => ?_
    have h1 := s.dual.v0 t i hi j hj
    have h2 := hB _ (s.v t i hi)
    unfold vx at h2 ⊢
    rw [h2] at h1
    exact Option.some.inj h1
  · rw [P1_tab s.factor]
    refine tab_congr fun i hi => ?_
    have h1 := s.dual.e1 t i hi j hj
    exact (OInt.of_cont h1.le ((s.space 1 t).cont b hb) (fun x hx => hB x (s.e t i hi hx)) rfl).val.symm.trans h1.val

theorem R_eq (s : Spans g V dom) (d : Fin 2) (t : Bool) (a : List ℝ) (b : ℕ → ℝ → ℝ) (hB : ∀ j < g.N d t, ∀ x ∈ dom d t, g.B d t j x = some (b j x)) {x : ℝ} (hx : x ∈ dom d t) :
    g.R d t a x = some (∑ j ∈ range (g.N d t), a.getD j 0 * b j x) := by
  unfold Grid1.R
  exact foldl_oadd (fun j => b j x) _ fun j hj => hB j hj x hx

theorem P_lin (s : Spans g V dom) (d : Fin 2) (t : Bool) (m : ℕ) (a : ℕ → ℝ) (b : ℕ → ℝ → ℝ) (hb : ∀ j < m, V d t (b j)) :
    g.P d t (fun x => ∑ j ∈ range m, a j * b j x) = tab (g.N d t) fun i => ∑ j ∈ range m, a j * (g.P d t (b j)).getD i 0 := by
  obtain rfl | rfl : d = 0 ∨ d = 1 := by omega
  · rw [P0_tab s.factor]
    refine tab_congr fun i hi => sum_congr rfl fun j _ => ?_
    rw [P0_tab s.factor, getD_tab hi]
  · rw [P1_tab s.factor]
    refine tab_congr fun i hi => ?_
    rw [intervalIntegral.integral_finsetSum fun j hj => (((s.space 1 t).cont _ (hb j (mem_range.1 hj))).const_mul (a j)).intervalIntegrable _ _]
    refine sum_congr rfl fun j _ => ?_
    rw [intervalIntegral.integral_const_mul, P1_tab s.factor, getD_tab hi]

/-- Reconstruction inverts projection. -/
theorem R_P (s : Spans g V dom) (d : Fin 2) (t : Bool) {f : ℝ → ℝ} (hf : V d t f) {x : ℝ} (hx : x ∈ dom d t) : g.R d t (g.P d t f) x = some (f x) := by
  have h := s.rep d t
  choose! b hb hB using h
  rw [s.R_eq d t _ b hB hx]
  congr 1
  have hF : V d t fun x => ∑ j ∈ range (g.N d t), (g.P d t f).getD j 0 * b j x := (s.space d t).sum _ (fun j x => (g.P d t f).getD j 0 * b j x) fun j hj => (s.space d t).smul _ _ (hb j hj)
  refine s.uniq d t _ f hF hf ?_ x hx
  have hl : (g.P d t f).length = g.N d t := by
    obtain rfl | rfl : d = 0 ∨ d = 1 := by omega
    · rw [P0_tab s.factor, length_tab]
    · rw [P1_tab s.factor, length_tab]
  rw [s.P_lin d t _ (fun j => (g.P d t f).getD j 0) b hb]
  conv_rhs => rw [eq_tab' hl 0]
  refine tab_congr fun i hi => ?_
  rw [sum_eq_single i]
  · rw [s.P_rep d t hi (hb i hi) (hB i hi), getD_tab hi, if_pos rfl, mul_one]
  · intro j hj hne
    rw [s.P_rep d t (mem_range.1 hj) (hb j (mem_range.1 hj)) (hB j (mem_range.1 hj)), getD_tab hi, if_neg (Ne.symm hne), mul_zero]
  · intro h; exact absurd (mem_range.2 hi) h

end Spans


namespace Props

/-! ## The three families -/

/-- The functions spanned by the basis functions of a grid. -/
def Spanned : Kind → ℕ → Fin 2 → Bool → (ℝ → ℝ) → Prop
  | .periodic, n, d, t => IsTrigAt n (Periodic.ph n d t)
  | .regular, n, d, t => Resolved .regular ((grid₀ .regular n).N d t)
  | .chebyshev, n, d, t => Resolved .chebyshev ((grid₀ .chebyshev n).N d t)

/-- Where the basis functions are evaluated without NaN. -/
noncomputable def Dom : Kind → ℕ → Fin 2 → Bool → Set ℝ
  | .periodic, n, 0, true => Set.Ioo (-hh n) (2 * π)
  | .periodic, n, 0, false => Set.Ioo (-(hh n / 2)) (2 * π + hh n / 2)
  | .periodic, _, 1, _ => Set.univ
  | .regular, _, _, _ => Set.Icc 0 π
  | .chebyshev, _, 0, _ => Set.Icc (-1) 1
  | .chebyshev, _, 1, _ => Set.Ioo (-1) 1

theorem periodic_spans {n : ℕ} (hn : 1 ≤ n) : Spans (grid₀ .periodic n) (Spanned .periodic n) (Dom .periodic n) where
  factor := grid₀_factor .periodic n hn
  dual := Periodic.dualBasis hn
  space d t := space_trigAt _ _
  rep d t j hj' := by
    have hj : j < n := hj'
    have hpos := hh_pos (show 0 < n by omega)
    have hN := mul_hh (show 0 < n by omega)
    have hjn : ((j : ℝ) + 1) * hh n ≤ 2 * π := by
      rw [← hN]; exact mul_le_mul_of_nonneg_right (by exact_mod_cast hj) hpos.le
    have hj0 : 0 ≤ (j : ℝ) * hh n := by positivity
    have e0 : 2 * π / n * (j : ℝ) = 0 + j * hh n := by unfold hh; ring
    have e1 : 2 * π / n * ((j : ℝ) + 1 / 2) = hh n / 2 + j * hh n := by unfold hh; ring
    obtain rfl | rfl : d = 0 ∨ d = 1 := by omega
    all_goals cases t
    · refine ⟨fun x => Ak n (x - (hh n / 2 + j * hh n)), IsTrigAt.shift hn (Ak_at hn) (hh n / 2) j, fun x hx => ?_⟩
      have h1 : -(hh n / 2) < x := hx.1
      have h2 : x < 2 * π + hh n / 2 := hx.2
      show alpha n (j + 1 / 2) x = _
      rw [alpha_some hn (by rw [e1]; linarith) (by rw [e1]; linarith), e1]
    · refine ⟨fun x => Ak n (x - (0 + j * hh n)), IsTrigAt.shift hn (Ak_at hn) 0 j, fun x hx => ?_⟩
      have h1 : -hh n < x := hx.1
      have h2 : x < 2 * π := hx.2
      show alpha n j x = _
      rw [alpha_some hn (by rw [e0]; linarith) (by rw [e0]; linarith), e0]
    · refine ⟨fun x => beta0 n (x - (0 + j * hh n)), IsTrigAt.shift hn (beta0_at hn) 0 j, fun x _ => ?_⟩
      show some (Sp.beta n j x) = _
      unfold Sp.beta; rw [e0]
    · refine ⟨fun x => beta0 n (x - (hh n / 2 + j * hh n)), IsTrigAt.shift hn (beta0_at hn) (hh n / 2) j, fun x _ => ?_⟩
      show some (Sp.beta n (j + 1 / 2) x) = _
      unfold Sp.beta; rw [e1]
  v t i hi' := by
    have hi : i < n := hi'
    have hpos := hh_pos (show 0 < n by omega)
    have hN := mul_hh (show 0 < n by omega)
    have hin : ((i : ℝ) + 1) * hh n ≤ 2 * π := by
      rw [← hN]; exact mul_le_mul_of_nonneg_right (by exact_mod_cast hi) hpos.le
    have hi0 : 0 ≤ (i : ℝ) * hh n := by positivity
    cases t
    · have hv : (Periodic.make n).cells.v false = tab n fun i => (0 : ℝ) + (i + 1 / 2) * ((2 * π - 0) / n) := Periodic.verts_dual_tab n 0 (2 * π)
      show vx (Periodic.make n) false i ∈ Set.Ioo (-(hh n / 2)) (2 * π + hh n / 2)
      rw [vx_tab hv hi, show (0 : ℝ) + (i + 1 / 2) * ((2 * π - 0) / n) = i * hh n + hh n / 2 by unfold hh; ring]
      exact ⟨by linarith, by linarith⟩
    · have hv : (Periodic.make n).cells.v true = tab n fun i => (0 : ℝ) + i * ((2 * π - 0) / n) := Periodic.verts_tab n 0 (2 * π)
      show vx (Periodic.make n) true i ∈ Set.Ioo (-(hh n)) (2 * π)
      rw [vx_tab hv hi, show (0 : ℝ) + i * ((2 * π - 0) / n) = i * hh n by unfold hh; ring]
      exact ⟨by linarith, by linarith⟩
  e t i hi x _ := by
    show x ∈ Dom .periodic n 1 t
    unfold Dom; trivial
  uniq d t f h hf hh' e x _ := by
    replace hf := hf.res hn
    replace hh' := hh'.res hn
    have key : ∀ φ, Res n φ f → Res n φ h → samp n φ f = samp n φ h → f x = h x := fun φ h1 h2 h3 => by
      unfold samp at h3
      rw [tab_inj] at h3
      exact h1.unique h2 h3 x
    have hinv : ∀ {a b : List ℝ}, a = b → Sp.Hinv a = Sp.Hinv b := fun h => by rw [h]
    obtain rfl | rfl : d = 0 ∨ d = 1 := by omega
    all_goals cases t
    · replace e : (Periodic.make n).P 0 false f = (Periodic.make n).P 0 false h := e
      rw [Periodic.P0d_samp, Periodic.P0d_samp] at e
      exact key _ hf hh' e
    · replace e : (Periodic.make n).P 0 true f = (Periodic.make n).P 0 true h := e
      rw [Periodic.P0_samp, Periodic.P0_samp] at e
      exact key _ hf hh' e
    · replace e : (Periodic.make n).P 1 false f = (Periodic.make n).P 1 false h := e
      replace hf : Res n 0 f := hf
      replace hh' : Res n 0 h := hh'
      rw [Periodic.P1d_hh, Periodic.P1d_hh] at e
      have := hinv e
      rw [hf.Hinv, hh'.Hinv] at this
      exact key _ hf hh' this
    · replace e : (Periodic.make n).P 1 true f = (Periodic.make n).P 1 true h := e
      replace hf : Res n (hh n / 2) f := hf
      replace hh' : Res n (hh n / 2) h := hh'
      rw [Periodic.P1_hh, Periodic.P1_hh] at e
      have := hinv e
      rw [hf.Hinv, hh'.Hinv] at this
      exact key _ hf hh' this

/-- The cells of an interval grid lie inside the interval. -/
theorem interval_inside (k : IKind) {n : ℕ} (hn : 2 ≤ n) {a b : ℝ} (hab : a < b) :
    (∀ t, ∀ i < (intervalGrid k n a b).N 0 t, vx (intervalGrid k n a b) t i ∈ Set.Icc a b) ∧
    (∀ t, ∀ i < (intervalGrid k n a b).N 1 t, Set.Ioo (lo (intervalGrid k n a b) t i) (hi (intervalGrid k n a b) t i) ⊆ Set.Ioo a b) ∧
    (∀ i < (intervalGrid k n a b).N 0 false, vx (intervalGrid k n a b) false i ∈ Set.Ioo a b) := by
  obtain ⟨v, w, hg, ho⟩ := exists_isInterval k hn hab
  have hf := hg.first; have hl := hg.last
  have e3 := hg.verts; have e4 := hg.verts_dual; have e5 := hg.edges; have e6 := hg.edges_dual
  have n1 := hg.N01; have n2 := hg.N00; have n3 := hg.N11; have n4 := hg.N10
  simp only [intervalGrid_n, intervalGrid_xmin, intervalGrid_xmax] at hf hl e3 e4 e5 e6 n1 n2 n3 n4
  have hm : ∀ i < n - 1, v i < v (i + 1) := fun i hi => (ho i hi).1.trans (ho i hi).2
  have hv : ∀ i ≤ n - 1, a ≤ v i ∧ v i ≤ b := fun i hi => by
    have h1 := mono_lt hm (Nat.zero_le i) (by omega)
    have h2 := mono_lt hm hi le_rfl
    rw [hf] at h1; rw [hl] at h2
    exact ⟨h1, h2⟩
  have hw : ∀ i < n - 1, a < w i ∧ w i < b := fun i hi => ⟨(hv i (by omega)).1.trans_lt (ho i hi).1, (ho i hi).2.trans_le (hv (i + 1) (by omega)).2⟩
  refine ⟨fun t i hi => ?_, fun t i h x hx => ?_, fun i hi => ?_⟩
  · cases t
    · rw [n2] at hi; rw [vx_tab e4 hi]; exact ⟨(hw i hi).1.le, (hw i hi).2.le⟩
    · rw [n1] at hi; rw [vx_tab e3 hi]; exact hv i (by omega)
  · cases t
    · rw [n4] at h
      rw [lo_tab e6 h, hi_tab e6 h] at hx
      refine ⟨lt_of_le_of_lt ?_ hx.1, lt_of_lt_of_le hx.2 ?_⟩
      · by_cases h0 : i = 0
        · rw [if_pos h0]
        · rw [if_neg h0]; exact (hw _ (by omega)).1.le
      · by_cases h0 : i < n - 1
        · rw [if_pos h0]; exact (hw _ h0).2.le
        · rw [if_neg h0]
    · rw [n3] at h
      rw [lo_tab e5 h, hi_tab e5 h] at hx
      exact ⟨(hv i (by omega)).1.trans_lt hx.1, hx.2.trans_le (hv _ (by omega)).2⟩
  · rw [n2] at hi; rw [vx_tab e4 hi]; exact hw i hi


theorem kappa1_split (N n : ℕ) (x : ℝ) : kappa1 N n x = beta0 (2 * N - 2) (x + -(2 * π / (2 * N - 2 : ℕ) * (n + 1 / 2))) - beta0 (2 * N - 2) (x + 2 * π / (2 * N - 2 : ℕ) * (n + 1 / 2)) := by
  unfold kappa1; rw [beta_reflect]; rfl

theorem kappa1_symm_split (N n : ℕ) (x : ℝ) : kappa1_symm N n x = beta0 (2 * N - 2) (x + -(2 * π / (2 * N - 2 : ℕ) * (n + 1 / 2))) + beta0 (2 * N - 2) (x + 2 * π / (2 * N - 2 : ℕ) * (n + 1 / 2)) := by
  unfold kappa1_symm; rw [beta_reflect]; rfl

theorem kappad1_symm_split (N n : ℕ) (x : ℝ) : kappad1_symm N n x = beta0 (2 * N - 2) (x + -(2 * π / (2 * N - 2 : ℕ) * n)) + beta0 (2 * N - 2) (x + 2 * π / (2 * N - 2 : ℕ) * n) := by
  unfold kappad1_symm; rw [beta_reflect]; rfl

theorem betaA_split (N n : ℕ) (x : ℝ) : betaA N n x = beta0 (2 * N - 2) (x + -(2 * π / (2 * N - 2 : ℕ) * n)) - beta0 (2 * N - 2) (x + 2 * π / (2 * N - 2 : ℕ) * n) := by
  unfold betaA; rw [beta_reflect]; rfl

theorem beta0_flip (M : ℕ) (a x : ℝ) : beta0 M (-x + a) = beta0 M (x + -a) := by
  rw [← beta0_even]; congr 1; ring

theorem beta0_flip' (M : ℕ) (a x : ℝ) : beta0 M (-x + -a) = beta0 M (x + a) := by
  rw [← beta0_even]; congr 1; ring

theorem beta0_deg (N : ℕ) : IsTrig (N - 1) (beta0 (2 * N - 2)) := by
  have := beta0_isTrig (2 * N - 2)
  rwa [show (2 * N - 2) / 2 = N - 1 by omega] at this

theorem kappad1_symm_cos (N n : ℕ) : IsCos (N - 1) (kappad1_symm N n) := by
  refine IsTrig.isCos ((((beta0_deg N).comp_add _).add ((beta0_deg N).comp_add _)).congr (kappad1_symm_split N n)) fun x => ?_
  rw [kappad1_symm_split, kappad1_symm_split, beta0_flip', beta0_flip, add_comm]

theorem half_node {N : ℕ} (hN : 2 ≤ N) (i : ℕ) : cos ((N - 1 : ℕ) * (2 * π / (2 * N - 2 : ℕ) * (i + 1 / 2))) = 0 := by
  have hlast : 2 * π / (2 * N - 2 : ℕ) * ((N - 1 : ℕ) : ℝ) = π := by
    have := mul_hh_double hN
    unfold hh at this; linarith
  rw [show ((N - 1 : ℕ) : ℝ) * (2 * π / (2 * N - 2 : ℕ) * (i + 1 / 2)) = (2 * π / (2 * N - 2 : ℕ) * ((N - 1 : ℕ) : ℝ)) * (i + 1 / 2) by ring, hlast,
    show π * ((i : ℝ) + 1 / 2) = i * π + π / 2 by ring, cos_add, sin_nat_mul_pi]; simp

theorem kappa1_symm_cos {N : ℕ} (hN : 2 ≤ N) (n : ℕ) : IsCos (N - 2) (kappa1_symm N n) := by
  have hN2 : (2 * N - 2) / 2 = N - 1 := by omega
  have hlow : IsTrig (N - 2) (fun x => 1 / (2 * π) + ∑ k ∈ Ico 1 (N - 1), (k / sin (k * π / (2 * N - 2 : ℕ)) / (2 * N - 2 : ℕ)) * cos (k * x)) :=
    IsTrig.add (isTrig_const _ _) (IsTrig.sum _ fun k hk => IsTrig.const_mul (isTrig_cos_nat (by have := mem_Ico.1 hk; omega)) _)
  have e : ∃ c, ∀ x, beta0 (2 * N - 2) x = (1 / (2 * π) + ∑ k ∈ Ico 1 (N - 1), (k / sin (k * π / (2 * N - 2 : ℕ)) / (2 * N - 2 : ℕ)) * cos (k * x)) + c * cos ((N - 1 : ℕ) * x) := by
    refine ⟨(N - 1 : ℕ) / sin ((N - 1 : ℕ) * π / (2 * N - 2 : ℕ)) / (2 * N - 2 : ℕ) - 1 / 4, fun x => ?_⟩
    unfold beta0
    rw [if_pos (by omega), hN2, sum_Ico_succ_top (by omega)]
    have h1 : ((2 * N - 2 : ℕ) : ℝ) * x / 2 = (N - 1 : ℕ) * x := by
      have : ((2 * N - 2 : ℕ) : ℝ) = 2 * (N - 1 : ℕ) := by exact_mod_cast (by omega : 2 * N - 2 = 2 * (N - 1))
      rw [this]; ring
    have hs : ∑ k ∈ Ico 1 (N - 1), (k : ℝ) * cos (k * x) / sin (k * π / (2 * N - 2 : ℕ)) / (2 * N - 2 : ℕ)
        = ∑ k ∈ Ico 1 (N - 1), (k / sin (k * π / (2 * N - 2 : ℕ)) / (2 * N - 2 : ℕ)) * cos (k * x) := sum_congr rfl fun k _ => by ring
    rw [h1, hs]; ring
  obtain ⟨c, hc⟩ := e
  have hcos := half_node hN n
  generalize ha : 2 * π / (2 * N - 2 : ℕ) * ((n : ℝ) + 1 / 2) = a at hcos
  refine IsTrig.isCos (((hlow.comp_add (-a)).add (hlow.comp_add a)).congr fun x => ?_) fun x => ?_
  · rw [kappa1_symm_split, ha, hc, hc, mul_add ((N - 1 : ℕ) : ℝ) x (-a), mul_add ((N - 1 : ℕ) : ℝ) x a, mul_neg, cos_add, cos_add, cos_neg, sin_neg, hcos]; ring
  · rw [kappa1_symm_split, kappa1_symm_split, beta0_flip', beta0_flip, add_comm]

theorem regular_spans {n : ℕ} (hn : 2 ≤ n) : Spans (grid₀ .regular n) (Spanned .regular n) (Dom .regular n) := by
  have hI := Regular.isInterval hn 0 π
  have N00 : (grid₀ .regular n).N 0 false = n - 1 := hI.N00
  have N01 : (grid₀ .regular n).N 0 true = n := hI.N01
  have N10 : (grid₀ .regular n).N 1 false = n := hI.N10
  have N11 : (grid₀ .regular n).N 1 true = n - 1 := hI.N11
  have hin := interval_inside .regular hn pi_pos
  exact {
    factor := grid₀_factor .regular n hn
    dual := Regular.dualBasis hn
    space := fun d t => resolved_space .regular _
    rep := fun d t j hj => by
      obtain rfl | rfl : d = 0 ∨ d = 1 := by omega
      all_goals cases t
      · rw [N00] at hj
        obtain ⟨q, hq, e⟩ := kappad0_cos hn hj
        refine ⟨q, ?_, fun x hx => e x hx.1 hx.2⟩
        show IsCos ((grid₀ .regular n).N 0 false - 1) q
        rw [N00]; exact hq
      · rw [N01] at hj
        obtain ⟨q, hq, e⟩ := kappa0_cos hn hj
        refine ⟨q, ?_, fun x hx => e x hx.1 hx.2⟩
        show IsCos ((grid₀ .regular n).N 0 true - 1) q
        rw [N01]; exact hq
      · refine ⟨kappad1_symm n j, ?_, fun x hx => rfl⟩
        show IsCos ((grid₀ .regular n).N 1 false - 1) _
        rw [N10]; exact kappad1_symm_cos n j
      · refine ⟨kappa1_symm n j, ?_, fun x hx => rfl⟩
        show IsCos ((grid₀ .regular n).N 1 true - 1) _
        rw [N11]; exact kappa1_symm_cos hn j
    v := fun t i hi => hin.1 t i hi
    e := fun t i h x hx => Set.Ioo_subset_Icc_self (hin.2.1 t i h hx)
    uniq := fun d t f h hf hh' e x _ => by
      have h0 : ∀ {f h : ℝ → ℝ}, IsCos (n - 1) f → IsCos (n - 1) h → (Regular.make n).P 0 true f = (Regular.make n).P 0 true h → f x = h x := fun {f h} hf hh' e => by
        rw [hI.P0, hI.P0, tab_inj] at e
        refine cos_unique0 hn hf hh' (fun j hj => ?_) x
        have := e j hj
        rw [hh_double hn]; simpa using this
      have h1 : ∀ {f h : ℝ → ℝ}, IsCos (n - 2) f → IsCos (n - 2) h → (Regular.make n).P 0 false f = (Regular.make n).P 0 false h → f x = h x := fun {f h} hf hh' e => by
        rw [hI.P0d, hI.P0d, tab_inj] at e
        refine cos_unique1 hn hf hh' (fun j hj => ?_) x
        have := e j hj
        rw [hh_double hn, show π / ((n - 1 : ℕ) : ℝ) / 2 + j * (π / ((n - 1 : ℕ) : ℝ)) = 0 + ((j : ℝ) + 1 / 2) * ((π - 0) / ((n - 1 : ℕ) : ℝ)) by ring]
        exact this
      obtain rfl | rfl : d = 0 ∨ d = 1 := by omega
      all_goals cases t
      · replace hf : IsCos ((grid₀ .regular n).N 0 false - 1) f := hf
        replace hh' : IsCos ((grid₀ .regular n).N 0 false - 1) h := hh'
        rw [N00] at hf hh'
        exact h1 hf hh' e
      · replace hf : IsCos ((grid₀ .regular n).N 0 true - 1) f := hf
        replace hh' : IsCos ((grid₀ .regular n).N 0 true - 1) h := hh'
        rw [N01] at hf hh'
        exact h0 hf hh' e
      · replace hf : IsCos ((grid₀ .regular n).N 1 false - 1) f := hf
        replace hh' : IsCos ((grid₀ .regular n).N 1 false - 1) h := hh'
        rw [N10] at hf hh'
        have a1 := (C04_regular_hodge_exact_primal n (n - 1) hn le_rfl f hf).2
        have a2 := (C04_regular_hodge_exact_primal n (n - 1) hn le_rfl h hh').2
        replace e : (Regular.make n).P 1 false f = (Regular.make n).P 1 false h := e
        rw [e, a2] at a1
        exact h0 hf hh' (Except.ok.inj a1).symm
      · replace hf : IsCos ((grid₀ .regular n).N 1 true - 1) f := hf
        replace hh' : IsCos ((grid₀ .regular n).N 1 true - 1) h := hh'
        rw [N11] at hf hh'
        have a1 := (C04_regular_hodge_exact_dual n (n - 2) hn le_rfl f hf).2
        have a2 := (C04_regular_hodge_exact_dual n (n - 2) hn le_rfl h hh').2
        replace e : (Regular.make n).P 1 true f = (Regular.make n).P 1 true h := e
        rw [e, a2] at a1
        exact h1 hf hh' (Except.ok.inj a1).symm }


/-! ## The Chebyshev grid -/

theorem kappa1_sin (N n : ℕ) : IsSin (N - 1) (kappa1 N n) := by
  refine IsTrig.isSin ((((beta0_deg N).comp_add _).sub ((beta0_deg N).comp_add _)).congr (kappa1_split N n)) fun x => ?_
  rw [kappa1_split, kappa1_split, beta0_flip', beta0_flip]; ring

theorem deltaf_sin {N : ℕ} (hN : 2 ≤ N) : IsSin N (deltaf N) := by
  have h1 : IsCos (N - 1) (Ak (2 * N - 2)) := by
    have := (Ak_isTrig (2 * N - 2)).isCos (Ak_even _)
    rwa [show (2 * N - 2) / 2 = N - 1 by omega] at this
  have hc : ((N - 1 : ℕ) : ℝ) = N - 1 := by rw [Nat.cast_sub (by omega)]; simp
  have h2 := Chebyshev.IsCos.mul_sin ((h1.const_mul (((N : ℝ) - 1) ^ 2)).add ((isCos_cos (m := N - 1) le_rfl).const_mul (1 / 2)))
  rw [hc, show N - 1 + 1 = N by omega] at h2
  exact h2

theorem IsTrig_flip {K : ℕ} {p : ℝ → ℝ} (h : IsTrig K p) : IsTrig K fun x => p (π - x) := by
  refine ((h.comp_add π).comp_neg).congr fun x => ?_
  congr 1; ring

theorem kd1_sin {N : ℕ} (hN : 2 ≤ N) {n : ℕ} : IsSin N (kd1 N n) := by
  have h1 : IsTrig N (deltaf N) := (deltaf_sin hN).isTrig
  have h2 := IsTrig_flip h1
  have o1 : ∀ x, deltaf N (-x) = -deltaf N x := (deltaf_sin hN).odd
  have o2 : ∀ x, deltaf N (π - -x) = -deltaf N (π - x) := fun x => by
    rw [← o1, ← h1.periodic (-(π - x))]; congr 1; ring
  have h3 : IsTrig N (betaA N n) := ((((beta0_deg N).comp_add _).sub ((beta0_deg N).comp_add _)).congr (betaA_split N n)).mono (by omega)
  have o3 : ∀ x, betaA N n (-x) = -betaA N n x := fun x => by
    rw [betaA_split, betaA_split, beta0_flip', beta0_flip]; ring
  by_cases e0 : n = 0
  · refine IsTrig.isSin (h1.congr fun x => by unfold kd1; rw [if_pos e0]) fun x => ?_
    unfold kd1; rw [if_pos e0, if_pos e0, o1]
  · by_cases e1 : n = N - 1
    · refine IsTrig.isSin (h2.congr fun x => by unfold kd1; rw [if_neg e0, if_pos e1]) fun x => ?_
      unfold kd1; rw [if_neg e0, if_pos e1, if_neg e0, if_pos e1, o2]
    · have e : ∀ x, kd1 N n x = betaA N n x - (2 * gamma (2 * N - 2) n * deltaf N x + 2 * gamma (2 * N - 2) (N - n - 1) * deltaf N (π - x)) := fun x => by
        unfold kd1; rw [if_neg e0, if_neg e1]
      refine IsTrig.isSin ((h3.sub ((h1.const_mul _).add (h2.const_mul _))).congr e) fun x => ?_
      rw [e, e, o1, o2, o3]; ring

/-- An odd trigonometric polynomial divided by the sine is a polynomial in `-cos`. -/
theorem IsSin.poly {K : ℕ} (hK : 1 ≤ K) {u : ℝ → ℝ} (hu : IsSin K u) : ∃ P, IsPoly K P ∧ ∀ θ, u θ = P (-cos θ) * sin θ := by
  obtain ⟨v, hv, e⟩ := hu.div
  obtain ⟨P, hP, e'⟩ := hv.isPoly
  rw [show K - 1 + 1 = K by omega] at hP
  exact ⟨P, hP, fun θ => by rw [e, e']⟩

theorem angle {x : ℝ} (h0 : -1 ≤ x) (h1 : x ≤ 1) : -cos (arccos (-x)) = x := by rw [cos_arccos (by linarith) (by linarith)]; ring

theorem sin_angle {x : ℝ} (h0 : -1 < x) (h1 : x < 1) : Real.sqrt (1 - x ^ 2) = sin (arccos (-x)) ∧ sin (arccos (-x)) ≠ 0 := by
  have h2 : Real.sqrt (1 - x ^ 2) = sin (arccos (-x)) := by rw [sin_arccos, neg_sq]
  exact ⟨h2, by rw [← h2]; exact (Real.sqrt_pos.2 (by nlinarith)).ne'⟩

theorem psi1_poly {N : ℕ} (hN : 2 ≤ N) (n : ℕ) : ∃ P, IsPoly (N - 1) P ∧ ∀ x, -1 < x → x < 1 → psi1 N n x = some (P x) := by
  obtain ⟨P, hP, e⟩ := IsSin.poly (by omega) (kappa1_sin N n)
  refine ⟨P, hP, fun x h0 h1 => ?_⟩
  obtain ⟨s1, s2⟩ := sin_angle h0 h1
  unfold psi1 odiv
  rw [s1, if_neg s2, Option.map_some, e, mul_div_cancel_right₀ _ s2, angle h0.le h1.le]

theorem psid1_poly {N : ℕ} (hN : 2 ≤ N) (n : ℕ) : ∃ P, IsPoly N P ∧ ∀ x, -1 ≤ x → x ≤ 1 → psid1 N n x = some (P (fixSingularity x)) := by
  obtain ⟨P, hP, e⟩ := IsSin.poly (by omega) (kd1_sin hN (n := n))
  refine ⟨P, hP, fun x h0 h1 => ?_⟩
  have hb : -1 < fixSingularity x ∧ fixSingularity x < 1 := by
    unfold fixSingularity
    by_cases hx : x = -1
    · rw [if_pos hx, hx]; norm_num
    · rw [if_neg hx]
      by_cases hx' : x = 1
      · rw [if_pos hx', hx']; norm_num
      · rw [if_neg hx']; exact ⟨lt_of_le_of_ne h0 (Ne.symm hx), lt_of_le_of_ne h1 hx'⟩
  unfold psid1
  generalize fixSingularity x = y at *
  obtain ⟨s1, s2⟩ := sin_angle hb.1 hb.2
  have h3 : 0 < arccos (-y) := arccos_pos.2 (by linarith)
  have h4 : arccos (-y) < π := by
    rcases lt_or_eq_of_le (arccos_le_pi (-y)) with h | h
    · exact h
    · exact absurd (arccos_eq_pi.1 h) (by linarith)
  simp only
  unfold odiv
  rw [s1, if_neg s2, kappad1_eq hN n h3 h4, Option.map_some, e, mul_div_cancel_right₀ _ s2, angle hb.1.le hb.2.le]

theorem fix_inside {x : ℝ} (h0 : -1 < x) (h1 : x < 1) : fixSingularity x = x := by
  unfold fixSingularity; rw [if_neg h0.ne', if_neg h1.ne]

theorem chebyshev_spans {n : ℕ} (hn : 2 ≤ n) : Spans (grid₀ .chebyshev n) (Spanned .chebyshev n) (Dom .chebyshev n) := by
  have hI := Chebyshev.isInterval hn (-1) 1
  have N00 : (grid₀ .chebyshev n).N 0 false = n - 1 := hI.N00
  have N01 : (grid₀ .chebyshev n).N 0 true = n := hI.N01
  have N10 : (grid₀ .chebyshev n).N 1 false = n := hI.N10
  have N11 : (grid₀ .chebyshev n).N 1 true = n - 1 := hI.N11
  have hin := interval_inside .chebyshev hn (a := -1) (b := 1) (by norm_num)
  exact {
    factor := grid₀_factor .chebyshev n hn
    dual := Chebyshev.dualBasis hn
    space := fun d t => resolved_space .chebyshev _
    rep := fun d t j hj => by
      obtain rfl | rfl : d = 0 ∨ d = 1 := by omega
      all_goals cases t
      · rw [N00] at hj
        obtain ⟨q, hq, e⟩ := kappad0_cos hn hj
        obtain ⟨P, hP, e'⟩ := hq.isPoly
        refine ⟨P, ?_, fun x hx => ?_⟩
        · show IsPoly ((grid₀ .chebyshev n).N 0 false) P
          rw [N00]; rwa [show n - 2 + 1 = n - 1 by omega] at hP
        · show kappad0 n j (arccos (-x)) = _
          rw [e _ (arccos_nonneg _) (arccos_le_pi _), e', angle hx.1 hx.2]
      · rw [N01] at hj
        obtain ⟨q, hq, e⟩ := kappa0_cos hn hj
        obtain ⟨P, hP, e'⟩ := hq.isPoly
        refine ⟨P, ?_, fun x hx => ?_⟩
        · show IsPoly ((grid₀ .chebyshev n).N 0 true) P
          rw [N01]; rwa [show n - 1 + 1 = n by omega] at hP
        · show kappa0 n j (arccos (-x)) = _
          rw [e _ (arccos_nonneg _) (arccos_le_pi _), e', angle hx.1 hx.2]
      · obtain ⟨P, hP, e⟩ := psid1_poly hn j
        refine ⟨P, ?_, fun x hx => ?_⟩
        · show IsPoly ((grid₀ .chebyshev n).N 1 false) P
          rw [N10]; exact hP
        · have h0 : -1 < x := hx.1
          have h1 : x < 1 := hx.2
          show psid1 n j x = _
          rw [e x h0.le h1.le, fix_inside h0 h1]
      · obtain ⟨P, hP, e⟩ := psi1_poly hn j
        refine ⟨P, ?_, fun x hx => e x hx.1 hx.2⟩
        show IsPoly ((grid₀ .chebyshev n).N 1 true) P
        rw [N11]; exact hP
    v := fun t i hi => hin.1 t i hi
    e := fun t i h x hx => hin.2.1 t i h hx
    uniq := fun d t f h hf hh' e x hx => by
      have hx' : -1 ≤ x ∧ x ≤ 1 := by
        obtain rfl | rfl : d = 0 ∨ d = 1 := by omega
        · exact hx
        · exact Set.Ioo_subset_Icc_self hx
      have h0 : ∀ {f h : ℝ → ℝ}, IsPoly n f → IsPoly n h → (Chebyshev.make n).P 0 true f = (Chebyshev.make n).P 0 true h → f x = h x := fun {f h} hf hh' e => by
        rw [Chebyshev.P0 hn, Chebyshev.P0 hn, tab_inj] at e
        have := cos_unique0 hn (hf.isCos (K := n - 1) (by omega)) (hh'.isCos (K := n - 1) (by omega)) (fun j hj => e j hj) (arccos (-x))
        simpa only [angle hx'.1 hx'.2] using this
      have h1 : ∀ {f h : ℝ → ℝ}, IsPoly (n - 1) f → IsPoly (n - 1) h → (Chebyshev.make n).P 0 false f = (Chebyshev.make n).P 0 false h → f x = h x := fun {f h} hf hh' e => by
        rw [Chebyshev.P0d hn, Chebyshev.P0d hn, tab_inj] at e
        have := cos_unique1 hn (hf.isCos (K := n - 2) (by omega)) (hh'.isCos (K := n - 2) (by omega)) (fun j hj => e j hj) (arccos (-x))
        simpa only [angle hx'.1 hx'.2] using this
      obtain rfl | rfl : d = 0 ∨ d = 1 := by omega
      all_goals cases t
      · replace hf : IsPoly ((grid₀ .chebyshev n).N 0 false) f := hf
        replace hh' : IsPoly ((grid₀ .chebyshev n).N 0 false) h := hh'
        rw [N00] at hf hh'
        exact h1 hf hh' e
      · replace hf : IsPoly ((grid₀ .chebyshev n).N 0 true) f := hf
        replace hh' : IsPoly ((grid₀ .chebyshev n).N 0 true) h := hh'
        rw [N01] at hf hh'
        exact h0 hf hh' e
      · replace hf : IsPoly ((grid₀ .chebyshev n).N 1 false) f := hf
        replace hh' : IsPoly ((grid₀ .chebyshev n).N 1 false) h := hh'
        rw [N10] at hf hh'
        have a1 := (C06_chebyshev_hodge_exact_primal n hn f hf).2
        have a2 := (C06_chebyshev_hodge_exact_primal n hn h hh').2
        replace e : (Chebyshev.make n).P 1 false f = (Chebyshev.make n).P 1 false h := e
        rw [e, a2] at a1
        exact h0 hf hh' (Except.ok.inj a1).symm
      · replace hf : IsPoly ((grid₀ .chebyshev n).N 1 true) f := hf
        replace hh' : IsPoly ((grid₀ .chebyshev n).N 1 true) h := hh'
        rw [N11] at hf hh'
        have a1 := (C06_chebyshev_hodge_exact_dual n hn f hf).1
        have a2 := (C06_chebyshev_hodge_exact_dual n hn h hh').1
        replace e : (Chebyshev.make n).P 1 true f = (Chebyshev.make n).P 1 true h := e
        refine h1 hf hh' (C05_dual_star_injective n hn (-1) 1 _ _ ?_ ?_ ?_)
        · show ((Chebyshev.make n).P 0 false f).length = _
          rw [Chebyshev.P0d hn, length_tab]
        · show ((Chebyshev.make n).P 0 false h).length = _
          rw [Chebyshev.P0d hn, length_tab]
        · exact a1.trans ((congrArg _ e).trans a2.symm) }

theorem spans (k : Kind) (n : ℕ) (hn : validSize k n) : Spans (grid₀ k n) (Spanned k n) (Dom k n) := by
  cases k
  · exact periodic_spans hn
  · exact regular_spans hn
  · exact chebyshev_spans hn

end Props

end Dec
