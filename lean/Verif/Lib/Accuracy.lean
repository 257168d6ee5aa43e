import Verif.Props.StarMatrix
import Mathlib.MeasureTheory.Integral.DominatedConvergence

set_option linter.unusedSimpArgs false
set_option linter.unusedVariables false

/-! The errors of the stars and of the reconstruction on a function that is the sum of a series. -/

namespace Dec.Props

open Finset Real G2 Sp

/-- All the vertices (`d = 0`), or the closures of all the edges (`d = 1`), lie in `I`. -/
def CellsIn (g : Grid1) (I : Set ℝ) (d : Fin 2) (t : Bool) : Prop :=
  match d with
  | 0 => ∀ i < g.N 0 t, vx g t i ∈ I
  | 1 => ∀ i < g.N 1 t, lo g t i ≤ hi g t i ∧ Set.Icc (lo g t i) (hi g t i) ⊆ I

section
variable {g : Grid1} {V : Fin 2 → Bool → (ℝ → ℝ) → Prop} {dom : Fin 2 → Bool → Set ℝ} {I : Set ℝ}

/-- The terms `e k` of a sum vanish for `k < K` and are bounded by the summable `a k`. -/
theorem series_error {e a : ℕ → ℝ} {E : ℝ} (K : ℕ) (ha : Summable a) (he : HasSum e E) (h0 : ∀ k < K, e k = 0) (hb : ∀ k, |e k| ≤ a k) :
    |E| ≤ ∑' k, a (k + K) := by
  have h1 : HasSum (fun k => e (k + K)) E := by
    have := (hasSum_nat_add_iff' K).2 he
    rwa [sum_eq_zero fun k hk => h0 k (mem_range.1 hk), sub_zero] at this
  have h2 := tsum_of_norm_bounded (f := fun k => e (k + K)) ((summable_nat_add_iff K).2 ha).hasSum fun k => by
    rw [Real.norm_eq_abs]; exact hb (k + K)
  rwa [h1.tsum_eq, Real.norm_eq_abs] at h2

/-- The projection of the sum of a series is the sum of the projections of its terms. -/
theorem P_hasSum {ι : Type*} [Countable ι] (hg : Factor g) {u : ι → ℝ → ℝ} {A : ι → ℝ} {f : ℝ → ℝ} (d : Fin 2) (t : Bool) (hI : CellsIn g I d t) (hu : ∀ k, Continuous (u k))
    (hA : Summable A) (hb : ∀ k, ∀ x ∈ I, |u k x| ≤ A k) (hf : ∀ x ∈ I, HasSum (fun k => u k x) (f x)) {i : ℕ} (hi : i < g.N d t) :
    HasSum (fun k => pe g d t (u k) i) (pe g d t f i) := by
  obtain rfl | rfl : d = 0 ∨ d = 1 := by omega
  · rw [pe0 hg t f hi]
    have e : (fun k => pe g 0 t (u k) i) = fun k => u k (vx g t i) := funext fun k => pe0 hg t (u k) hi
    rw [e]
    exact hf _ (hI i hi)
  · obtain ⟨hle, hsub⟩ := hI i hi
    rw [pe1 hg t f hi]
    have e : (fun k => pe g 1 t (u k) i) = fun k => ∫ x in (lo g t i)..(G2.hi g t i), u k x := funext fun k => pe1 hg t (u k) hi
    rw [e]
    have h1 := intervalIntegral.hasSum_intervalIntegral_of_summable_norm (a := lo g t i) (b := G2.hi g t i) (f := fun k => (⟨u k, hu k⟩ : C(ℝ, ℝ))) ?_
    · have h2 : (∫ x in (lo g t i)..(G2.hi g t i), ∑' k, (⟨u k, hu k⟩ : C(ℝ, ℝ)) x) = ∫ x in (lo g t i)..(G2.hi g t i), f x := by
        refine intervalIntegral.integral_congr fun x hx => ?_
        rw [Set.uIcc_of_le hle] at hx
        exact (hf x (hsub hx)).tsum_eq
      rw [h2] at h1
      exact h1
    · have hpos : ∀ k, 0 ≤ A k := fun k => (abs_nonneg _).trans (hb k _ (hsub ⟨le_refl _, hle⟩))
      refine Summable.of_nonneg_of_le (fun k => norm_nonneg _) (fun k => ?_) hA
      refine (ContinuousMap.norm_le _ (hpos k)).2 fun x => ?_
      have hx : ∀ y : ℝ, y ∈ Set.uIcc (lo g t i) (G2.hi g t i) → ‖u k y‖ ≤ A k := fun y hy => by
        rw [Set.uIcc_of_le hle] at hy
        exact hb k y (hsub hy)
      exact hx x.1 x.2

/-- Two functions that differ by at most `c` have projections that differ by at most `c` times the size of the cell. -/
theorem P_bound (hg : Factor g) {u q : ℝ → ℝ} {c : ℝ} (d : Fin 2) (t : Bool) (hI : CellsIn g I d t) (hu : Continuous u) (hq : Continuous q)
    (h : ∀ x ∈ I, |q x - u x| ≤ c) {i : ℕ} (hi : i < g.N d t) : |pe g d t q i - pe g d t u i| ≤ c * pe g d t (fun _ => 1) i := by
  obtain rfl | rfl : d = 0 ∨ d = 1 := by omega
  · rw [pe0 hg t q hi, pe0 hg t u hi, pe0 hg t _ hi, mul_one]
    exact h _ (hI i hi)
  · obtain ⟨hle, hsub⟩ := hI i hi
    rw [pe1 hg t q hi, pe1 hg t u hi, pe1 hg t _ hi, ← intervalIntegral.integral_sub (hq.intervalIntegrable _ _) (hu.intervalIntegrable _ _)]
    have := intervalIntegral.norm_integral_le_of_norm_le_const (a := lo g t i) (b := G2.hi g t i) (f := fun x => q x - u x) (C := c) fun x hx => by
      rw [Set.uIoc_of_le hle] at hx
      exact h x (hsub ⟨hx.1.le, hx.2⟩)
    rw [Real.norm_eq_abs, abs_of_nonneg (sub_nonneg.2 hle)] at this
    simpa using this

/-- What is known about the terms of a series `f = ∑ u k`: it converges absolutely in `I`, and each term `u k` has the same projection as some `q k` of the
space `V`, which is not larger, and which is `u k` itself for `k < K`. -/
structure Aliased (g : Grid1) (V : (ℝ → ℝ) → Prop) (I : Set ℝ) (d : Fin 2) (t : Bool) (K : ℕ) (u q : ℕ → ℝ → ℝ) (A : ℕ → ℝ) (f : ℝ → ℝ) : Prop where
  cont : ∀ k, Continuous (u k)
  sum : Summable A
  bound : ∀ k, ∀ x ∈ I, |u k x| ≤ A k
  has : ∀ x ∈ I, HasSum (fun k => u k x) (f x)
  mem : ∀ k, V (q k)
  same : ∀ k, g.P d t (q k) = g.P d t (u k)
  qbound : ∀ k, ∀ x ∈ I, |q k x| ≤ A k
  low : ∀ k < K, q k = u k

variable {u q : ℕ → ℝ → ℝ} {A : ℕ → ℝ} {f : ℝ → ℝ} {K : ℕ}

theorem Aliased.diff {V : (ℝ → ℝ) → Prop} {d : Fin 2} {t : Bool} (h : Aliased g V I d t K u q A f) (k : ℕ) : ∀ x ∈ I, |q k x - u k x| ≤ 2 * A k := fun x hx => by
  have h1 := abs_sub (q k x) (u k x)
  have h2 := h.bound k x hx
  have h3 := h.qbound k x hx
  linarith

theorem star_error (s : Spans g V dom) {d : Fin 2} {t : Bool} (hH : ∀ f, V d t f → g.H d t (g.P d t f) = .ok (g.P (1 - d) (!t) f))
    (hI : CellsIn g I d t) (hI' : CellsIn g I (1 - d) (!t)) (h : Aliased g (V d t) I d t K u q A f) :
    ∃ b, g.H d t (g.P d t f) = .ok b ∧ b.length = g.N (1 - d) (!t) ∧
      ∀ i < g.N (1 - d) (!t), |b.getD i 0 - (g.P (1 - d) (!t) f).getD i 0| ≤ 2 * (∑' k, A (k + K)) * (g.P (1 - d) (!t) fun _ => 1).getD i 0 := by
  obtain ⟨b, hb, hB, hr⟩ := spans_reps s d t
  have hlen : ∀ f, (g.P d t f).length = g.N d t := fun f => by
    obtain rfl | rfl : d = 0 ∨ d = 1 := by omega
    · rw [P0_tab s.factor]; simp
    · rw [P1_tab s.factor]; simp
  have hlen' : ∀ f, (g.P (1 - d) (!t) f).length = g.N (1 - d) (!t) := fun f => by
    obtain rfl | rfl : d = 0 ∨ d = 1 := by omega
    · rw [show (1 - 0 : Fin 2) = 1 from rfl, P1_tab s.factor]; simp
    · rw [show (1 - 1 : Fin 2) = 0 from rfl, P0_tab s.factor]; simp
  -- the star is a matrix
  have hmat : ∀ f : ℝ → ℝ, ∃ c, g.H d t (g.P d t f) = .ok c ∧ c.length = g.N (1 - d) (!t) ∧
      ∀ i < g.N (1 - d) (!t), c.getD i 0 = ∑ j ∈ range (g.N d t), pe g d t f j * pe g (1 - d) (!t) (b j) i := fun f => by
    obtain ⟨h1, h2⟩ := hr (g.P d t f) (hlen f)
    refine ⟨g.P (1 - d) (!t) fun x => ∑ j ∈ range (g.N d t), (g.P d t f).getD j 0 * b j x, ?_, hlen' _, fun i hi => ?_⟩
    · conv_lhs => rw [← h2]
      exact hH _ h1
    · show pe g (1 - d) (!t) _ i = _
      obtain rfl | rfl : d = 0 ∨ d = 1 := by omega
      · have hi' : i < g.N 1 (!t) := hi
        show pe g 1 (!t) _ i = ∑ j ∈ range (g.N 0 t), pe g 0 t f j * pe g 1 (!t) (b j) i
        rw [pe1 s.factor _ _ hi', intervalIntegral.integral_finsetSum fun j hj => (((s.space 0 t).cont _ (hb j (mem_range.1 hj))).const_mul _).intervalIntegrable _ _]
        refine sum_congr rfl fun j _ => ?_
        rw [intervalIntegral.integral_const_mul, pe1 s.factor _ _ hi']; rfl
      · have hi' : i < g.N 0 (!t) := hi
        show pe g 0 (!t) _ i = ∑ j ∈ range (g.N 1 t), pe g 1 t f j * pe g 0 (!t) (b j) i
        rw [pe0 s.factor _ _ hi']
        refine sum_congr rfl fun j _ => ?_
        rw [pe0 s.factor _ _ hi']; rfl
  obtain ⟨c, hc, hcl, hci⟩ := hmat f
  refine ⟨c, hc, hcl, fun i hi => ?_⟩
  have hqc : ∀ k, Continuous (q k) := fun k => (s.space d t).cont _ (h.mem k)
  have h1 : HasSum (fun k => pe g (1 - d) (!t) (q k) i) (c.getD i 0) := by
    rw [hci i hi]
    have e : (fun k => pe g (1 - d) (!t) (q k) i) = fun k => ∑ j ∈ range (g.N d t), pe g d t (u k) j * pe g (1 - d) (!t) (b j) i := by
      funext k
      obtain ⟨c', hc', _, hci'⟩ := hmat (q k)
      rw [hH _ (h.mem k)] at hc'
      injection hc' with hc'
      have := hci' i hi
      rw [← hc'] at this
      refine Eq.trans this (sum_congr rfl fun j _ => ?_)
      unfold pe
      rw [h.same k]
    rw [e]
    exact hasSum_sum fun j hj => (P_hasSum s.factor d t hI h.cont h.sum h.bound h.has (mem_range.1 hj)).mul_right _
  have h2 := P_hasSum s.factor (1 - d) (!t) hI' h.cont h.sum h.bound h.has hi
  have h3 := h1.sub h2
  have h4 := series_error K (h.sum.mul_left (2 : ℝ) |>.mul_right (pe g (1 - d) (!t) (fun _ => 1) i)) h3
    (fun k hk => by rw [h.low k hk, sub_self]) (fun k => P_bound s.factor (1 - d) (!t) hI' (h.cont k) (hqc k) (h.diff k) hi)
  rw [tsum_mul_right, tsum_mul_left] at h4
  exact h4

theorem reconstruct_error (s : Spans g V dom) {d : Fin 2} {t : Bool} (hI : CellsIn g I d t) (h : Aliased g (V d t) I d t K u q A f) {x : ℝ} (hx : x ∈ dom d t) (hxI : x ∈ I) :
    ∃ y, g.R d t (g.P d t f) x = some y ∧ |y - f x| ≤ 2 * ∑' k, A (k + K) := by
  obtain ⟨b, hb, hB, hr⟩ := spans_reps s d t
  refine ⟨_, s.R_eq d t _ b hB hx, ?_⟩
  have h1 : HasSum (fun k => q k x) (∑ j ∈ range (g.N d t), (g.P d t f).getD j 0 * b j x) := by
    have e : (fun k => q k x) = fun k => ∑ j ∈ range (g.N d t), pe g d t (u k) j * b j x := by
      funext k
      have h2 := s.R_P d t (h.mem k) hx
      rw [s.R_eq d t _ b hB hx, h.same k] at h2
      exact (Option.some.inj h2).symm
    rw [e]
    exact hasSum_sum fun j hj => (P_hasSum s.factor d t hI h.cont h.sum h.bound h.has (mem_range.1 hj)).mul_right _
  have h4 := series_error K (h.sum.mul_left (2 : ℝ)) (h1.sub (h.has x hxI)) (fun k hk => by rw [h.low k hk, sub_self]) (fun k => h.diff k x hxI)
  rwa [tsum_mul_left] at h4

end

end Dec.Props
