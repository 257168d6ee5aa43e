import Verif.Props.Accuracy2
import Verif.Props.DformEval
import Verif.Props.BasisDerivative
import Verif.Lib.SymmetryDet

set_option linter.unusedSimpArgs false
set_option linter.unusedVariables false

/-! # C106: how large the errors of the wedge product and of the contraction are, for forms that the grid does not resolve -/

namespace Dec.Props

open Finset Real G2 Sp

/-! ## Specification -/

/-- A continuous function, with the period `2π` if the grid is a circle. -/
def Nice (k : Kind) (f : ℝ → ℝ) : Prop := Continuous f ∧ (k = .periodic → Function.Periodic f (2 * π))

/-- The grid recovers the function up to `ε`: the reconstruction of its projection is nowhere further from it. -/
def Recovers (k : Kind) (n : ℕ) (d : Fin 2) (t : Bool) (ε : ℝ) (f : ℝ → ℝ) : Prop :=
  ∀ x ∈ Inside k d, ∃ y, (grid₀ k n).R d t ((grid₀ k n).P d t f) x = some y ∧ |y - f x| ≤ ε

/-! ## The function that has the same projection -/

theorem refine_det {k : Kind} {n : ℕ} (h : Refinable k n) : ∃ M p, RefExact (grid₀ k n) (Determined k n) (Unrefined k n) M p := by
  obtain ⟨M, p, r⟩ := grid₀_refine h
  refine ⟨M, p, r.pos, (spans' k n h.1).space, r.spaceQ, fun d t f hf => ?_, r.points, fun d t f hf => ?_, r.U⟩
  · cases k
    · have hn : 1 ≤ n := h.1
      have hf : IsTrigAt n (if (d = 0) = (t = true) then 0 else π / n) f := hf
      have := hf.trig hn
      obtain rfl | rfl : d = 0 ∨ d = 1 := by omega
      exacts [this.continuous, this.mono (Nat.div_le_self n 2)]
    · exact absurd rfl h.2.1
    · have hn : 2 ≤ n := h.1
      have hf : IsPoly (if (d = 0) = (t = true) then n else n - 1) f := hf
      obtain rfl | rfl : d = 0 ∨ d = 1 := by omega
      · exact hf.continuous
      · exact isPoly_mono (by split_ifs <;> omega) hf
  · obtain ⟨pts, h1, h2⟩ := refine_determined h d t f hf
    rw [r.points] at h1
    obtain rfl := Except.ok.inj h1
    rw [h2, map_tab]

theorem whole_of_inside {k : Kind} {d : Fin 2} {x : ℝ} (hx : x ∈ Inside k d) : x ∈ Whole k := by
  cases k
  · exact Set.mem_univ x
  · obtain rfl | rfl : d = 0 ∨ d = 1 := by omega
    all_goals exact hx
  · obtain rfl | rfl : d = 0 ∨ d = 1 := by omega
    · exact hx
    · exact Set.Ioo_subset_Icc_self hx

/-- A bound of the difference inside the interval holds everywhere. -/
theorem inside_whole {k : Kind} (hk : k ≠ .regular) (d : Fin 2) {p f : ℝ → ℝ} {ε : ℝ} (hp : Nice k p) (hf : Nice k f) (h : ∀ x ∈ Inside k d, |p x - f x| ≤ ε) :
    ∀ x ∈ Whole k, |p x - f x| ≤ ε := by
  cases k
  · intro x _
    have hP : Function.Periodic (fun x => |p x - f x|) (2 * π) := fun x => by
      show |p (x + 2 * π) - f (x + 2 * π)| = |p x - f x|
      rw [hp.2 rfl x, hf.2 rfl x]
    obtain ⟨y, hy, e⟩ := hP.exists_mem_Ico₀ two_pi_pos x
    rw [show |p x - f x| = |p y - f y| from e]
    exact h y hy
  · exact absurd rfl hk
  · obtain rfl | rfl : d = 0 ∨ d = 1 := by omega
    · exact h
    · have hc : Continuous (fun x => |p x - f x|) := (hp.1.sub hf.1).abs
      intro x hx
      have := ContinuousWithinAt.closure_le (f := fun x => |p x - f x|) (g := fun _ => ε) (s := Set.Ioo (-1 : ℝ) 1) (x := x)
        (by rw [closure_Ioo (by norm_num)]; exact hx) hc.continuousWithinAt continuousWithinAt_const (fun y hy => h y hy)
      exact this

theorem determined_nice {k : Kind} {n : ℕ} (hn : validSize k n) {d : Fin 2} {t : Bool} {p : ℝ → ℝ} (hp : Determined k n d t p) : Nice k p := by
  refine ⟨(spans' k n hn).space d t |>.cont p hp, fun h => ?_⟩
  subst h
  exact IsTrigAt.periodic (N := n) hp

theorem same_projection {k : Kind} {n : ℕ} (hr : Refinable k n) (d : Fin 2) (t : Bool) {ε : ℝ} {f : ℝ → ℝ} (hf : Nice k f) (h : Recovers k n d t ε f) :
    ∃ p, Determined k n d t p ∧ (grid₀ k n).P d t p = (grid₀ k n).P d t f ∧ ∀ x ∈ Whole k, |p x - f x| ≤ ε := by
  have hl : ((grid₀ k n).P d t f).length = (grid₀ k n).N d t := by rw [pe_tab (grid₀_factor k n hr.1)]; simp
  obtain ⟨p, h1, h2, h3⟩ := C70_reconstruction_determined k n hr.1 d t _ hl
  refine ⟨p, h1, h2, inside_whole hr.2.1 d (determined_nice hr.1 h1) hf fun x hx => ?_⟩
  obtain ⟨y, g1, g2⟩ := h x hx
  rw [h3 x hx] at g1
  rw [Option.some.inj g1]
  exact g2

/-! ## Products in one dimension -/

section
variable {g : Grid1} {V : Fin 2 → Bool → (ℝ → ℝ) → Prop} {Q : Fin 2 → (ℝ → ℝ) → Prop} {M : ℕ} {p : ℕ → ℝ} (h : RefExact g V Q M p) (hF : Factor g)
include h hF

theorem refExact_wedge1 (d e : Fin 2) (hde : d.val + e.val ≤ 1) (s t u : Bool) {a b : ℝ → ℝ} (ha : V d s a) (hb : V e t b)
    (hq : ¬ (s = t ∧ t = u ∧ d = 0 ∧ e = 0) → Q (Fin.ofNat 2 (d.val + e.val)) fun x => a x * b x) :
    Dec.wedge1 g.T g.U d s e t u (g.P d s a) (g.P e t b) = .ok (g.P (Fin.ofNat 2 (d.val + e.val)) u fun x => a x * b x) := by
  by_cases hc : s = t ∧ t = u ∧ d = 0 ∧ e = 0
  · obtain ⟨rfl, rfl, rfl, rfl⟩ := hc
    unfold Dec.wedge1
    rw [if_neg (by decide), if_pos (by simp), P0_tab hF, P0_tab hF, bop_mul (n := g.N 0 s) (fun _ _ => rfl) (by simp) (by simp)]
    unfold vmul; rw [zipWith_tab]
    exact congrArg _ (P0_tab hF s fun x => a x * b x).symm
  · obtain ⟨w, hw1, hw2⟩ := sym_wedge hde
    unfold Dec.wedge1
    rw [if_neg (by omega), if_neg hc, h.T d s a ha, h.T e t b hb]
    simp only [bind, Except.bind, hw1]
    rw [bop_mul hw2 (n := M) (by simp) (by simp)]
    unfold vmul; rw [zipWith_tab]
    exact h.U _ u _ (hq hc)

omit hF in
theorem refExact_contraction1 (s t u : Bool) {a b : ℝ → ℝ} (ha : V 1 s a) (hb : V 1 t b) (hq : Q 0 fun x => a x * b x) :
    Dec.contraction1 g.T g.U s 1 t u (g.P 1 s a) (g.P 1 t b) = .ok (g.P 0 u fun x => a x * b x) := by
  unfold Dec.contraction1
  rw [if_neg (by decide), h.T 1 s a ha, h.T 1 t b hb]
  simp only [bind, Except.bind, Sym.contraction_1d]
  simp only [Option.getD_some, List.getD_cons_zero]
  rw [bop_mul (n := M) (fun _ _ => rfl) (by simp) (by simp)]
  unfold vmul; rw [zipWith_tab]
  exact h.U 0 u _ hq
end


theorem det_product {k : Kind} {n : ℕ} (h : Refinable k n) (d e : Fin 2) (s t : Bool) (hfit : k = .chebyshev → ¬ (d = 0 ∧ s = true ∧ e = 1 ∧ t = false) ∧ ¬ (d = 1 ∧ s = false ∧ e = 0 ∧ t = true))
    {a b : ℝ → ℝ} (ha : Determined k n d s a) (hb : Determined k n e t b) : Unrefined k n (d + e) fun x => a x * b x := by
  have ca := (determined_nice h.1 ha).1
  have cb := (determined_nice h.1 hb).1
  cases k
  · have hn : 1 ≤ n := h.1
    have ha : IsTrigAt n (if (d = 0) = (s = true) then 0 else π / n) a := ha
    have hb : IsTrigAt n (if (e = 0) = (t = true) then 0 else π / n) b := hb
    have := ((ha.trig hn).mul (hb.trig hn)).mono (show n / 2 + n / 2 ≤ n by omega)
    generalize d + e = m
    obtain rfl | rfl : m = 0 ∨ m = 1 := by omega
    exacts [ca.mul cb, this]
  · exact absurd rfl h.2.1
  · have hn : 2 ≤ n := h.1
    obtain ⟨f1, f2⟩ := hfit rfl
    have ha : IsPoly (if (d = 0) = (s = true) then n else n - 1) a := ha
    have hb : IsPoly (if (e = 0) = (t = true) then n else n - 1) b := hb
    obtain rfl | rfl : d = 0 ∨ d = 1 := by omega
    all_goals obtain rfl | rfl : e = 0 ∨ e = 1 := by omega
    · exact ca.mul cb
    · refine isPoly_mul (M := 2 * n - 2) ?_ ha hb
      cases s <;> cases t <;> simp at f1 ⊢ <;> omega
    · refine isPoly_mul (M := 2 * n - 2) ?_ ha hb
      cases s <;> cases t <;> simp at f2 ⊢ <;> omega
    · exact ca.mul cb

theorem product_error {a b p q ε δ F G : ℝ} (h1 : |p - a| ≤ ε) (h2 : |q - b| ≤ δ) (h3 : |a| ≤ F) (h4 : |b| ≤ G) : |p * q - a * b| ≤ ε * G + F * δ + ε * δ := by
  have e : p * q - a * b = (p - a) * b + a * (q - b) + (p - a) * (q - b) := by ring
  have hε := (abs_nonneg _).trans h1
  have hF := (abs_nonneg _).trans h3
  rw [e]
  refine (abs_add_le _ _).trans (add_le_add ((abs_add_le _ _).trans (add_le_add ?_ ?_)) ?_)
  all_goals rw [abs_mul]
  · exact mul_le_mul h1 h4 (abs_nonneg _) hε
  · exact mul_le_mul h3 h2 (abs_nonneg _) hF
  · exact mul_le_mul h1 h2 (abs_nonneg _) hε

theorem fin_add (d e : Fin 2) (h : d.val + e.val ≤ 1) : Fin.ofNat 2 (d.val + e.val) = d + e := by
  obtain rfl | rfl : d = 0 ∨ d = 1 := by omega
  all_goals obtain rfl | rfl : e = 0 ∨ e = 1 := by omega
  all_goals rfl

theorem grid₀_products {k : Kind} {n : ℕ} (h : Refinable k n) : (grid₀ k n).W = some (Dec.wedge1 (grid₀ k n).T (grid₀ k n).U) ∧ (grid₀ k n).C = some (Dec.contraction1 (grid₀ k n).T (grid₀ k n).U) := by
  cases k
  · exact ⟨rfl, rfl⟩
  · exact absurd rfl h.2.1
  · exact ⟨rfl, rfl⟩

section
variable (k : Kind) (n : ℕ) (hr : Refinable k n) (s t u : Bool) (f g : ℝ → ℝ) (hf : Nice k f) (hg : Nice k g) (ε δ F G : ℝ)
  (hF : ∀ x ∈ Whole k, |f x| ≤ F) (hG : ∀ x ∈ Whole k, |g x| ≤ G)
include hr hf hg hF hG

/-- **C106**: on a periodic or Chebyshev grid, let the functions `f` and `g` (or the 1-forms `f dx`, `g dx`) be bounded by `F` and `G`, and let the grid recover
them up to `ε` and `δ`.  Then the discrete wedge product of their projections differs from the projection of their product, on every cell, by at most
`ε G + F δ + ε δ` times the size of the cell.  (Not for a primal 0-form and a dual 1-form on a Chebyshev grid, whose product has too high a degree.) -/
theorem C106_wedge_error (d e : Fin 2) (hde : d.val + e.val ≤ 1)
    (hfit : k = .chebyshev → ¬ (d = 0 ∧ s = true ∧ e = 1 ∧ t = false) ∧ ¬ (d = 1 ∧ s = false ∧ e = 0 ∧ t = true))
    (h : Recovers k n d s ε f) (h' : Recovers k n e t δ g) :
    ∃ w c, (grid₀ k n).W = some w ∧ w d s e t u ((grid₀ k n).P d s f) ((grid₀ k n).P e t g) = .ok c ∧ c.length = (grid₀ k n).N (d + e) u ∧
      ∀ i < (grid₀ k n).N (d + e) u, |c.getD i 0 - ((grid₀ k n).P (d + e) u fun x => f x * g x).getD i 0|
        ≤ (ε * G + F * δ + ε * δ) * ((grid₀ k n).P (d + e) u fun _ => 1).getD i 0 := by
  obtain ⟨p, hp, ep, bp⟩ := same_projection hr d s hf h
  obtain ⟨q, hq, eq, bq⟩ := same_projection hr e t hg h'
  obtain ⟨M, pt, rx⟩ := refine_det hr
  have hfac := grid₀_factor k n hr.1
  have hU := det_product hr d e s t hfit hp hq
  have hw := refExact_wedge1 rx hfac d e hde s t u hp hq (fun _ => by rw [fin_add d e hde]; exact hU)
  rw [fin_add d e hde, ep, eq] at hw
  refine ⟨_, _, (grid₀_products hr).1, hw, by rw [pe_tab hfac]; simp, fun i hi => ?_⟩
  exact P_bound hfac (d + e) u (cells_in k n hr.1 (d + e) u) (hf.1.mul hg.1) ((determined_nice hr.1 hp).1.mul (determined_nice hr.1 hq).1)
    (fun x hx => product_error (bp x hx) (bq x hx) (hF x hx) (hG x hx)) hi

/-- **C106**: likewise for the contraction of a vector field with a 1-form. -/
theorem C106_contraction_error (h : Recovers k n 1 s ε f) (h' : Recovers k n 1 t δ g) :
    ∃ w c, (grid₀ k n).C = some w ∧ w s 1 t u ((grid₀ k n).P 1 s f) ((grid₀ k n).P 1 t g) = .ok c ∧ c.length = (grid₀ k n).N 0 u ∧
      ∀ i < (grid₀ k n).N 0 u, |c.getD i 0 - ((grid₀ k n).P 0 u fun x => f x * g x).getD i 0| ≤ ε * G + F * δ + ε * δ := by
  obtain ⟨p, hp, ep, bp⟩ := same_projection hr 1 s hf h
  obtain ⟨q, hq, eq, bq⟩ := same_projection hr 1 t hg h'
  obtain ⟨M, pt, rx⟩ := refine_det hr
  have hfac := grid₀_factor k n hr.1
  have hw := refExact_contraction1 rx s t u hp hq (det_product hr 1 1 s t (fun _ => by simp) hp hq)
  rw [ep, eq] at hw
  refine ⟨_, _, (grid₀_products hr).2, hw, by rw [pe_tab hfac]; simp, fun i hi => ?_⟩
  have := P_bound hfac 0 u (cells_in k n hr.1 0 u) (hf.1.mul hg.1) ((determined_nice hr.1 hp).1.mul (determined_nice hr.1 hq).1)
    (fun x hx => product_error (bp x hx) (bq x hx) (hF x hx) (hG x hx)) hi
  rwa [pe0 hfac u (fun _ => 1) hi, mul_one] at this
end

/-! ## Series -/

/-- The sum of all the amplitudes of a series, which bounds the function. -/
noncomputable def totalAmplitude (k : Kind) (c s : ℕ → ℝ) : ℝ := ∑' m, amplitude k c s m

theorem expansion_bound {k : Kind} {c s : ℕ → ℝ} {f : ℝ → ℝ} (hf : Expansion k c s f) {x : ℝ} (hx : x ∈ Whole k) : |f x| ≤ totalAmplitude k c s := by
  have := tsum_of_norm_bounded (f := fun m => term k c s m x) hf.1.hasSum fun m => by rw [Real.norm_eq_abs]; exact term_bound k c s m hx
  rwa [(hf.2 x hx).tsum_eq, Real.norm_eq_abs] at this

theorem expansion_nice {k : Kind} {c s : ℕ → ℝ} {f : ℝ → ℝ} (hf : Expansion k c s f) (hc : Continuous f) : Nice k f := by
  refine ⟨hc, fun h x => ?_⟩
  subst h
  have h1 := hf.2 (x + 2 * π) (Set.mem_univ _)
  have h2 := hf.2 x (Set.mem_univ _)
  have e : (fun m => term .periodic c s m (x + 2 * π)) = fun m => term .periodic c s m x := by
    funext m
    show c m * cos (m * (x + 2 * π)) + s m * sin (m * (x + 2 * π)) = c m * cos (m * x) + s m * sin (m * x)
    rw [mul_add, cos_add_nat_mul_two_pi, sin_add_nat_mul_two_pi]
  rw [e] at h1
  exact h1.unique h2

/-- **C106**: for the sums of two absolutely convergent series, in terms of their coefficients. -/
theorem C106_wedge_series (k : Kind) (n : ℕ) (hr : Refinable k n) (d e : Fin 2) (hde : d.val + e.val ≤ 1) (hc : k = .chebyshev → d = 0 ∧ e = 0) (s t u : Bool)
    (c b c' b' : ℕ → ℝ) (f g : ℝ → ℝ) (hf : Expansion k c b f) (hg : Expansion k c' b' g) (cf : Continuous f) (cg : Continuous g) :
    ∃ w a, (grid₀ k n).W = some w ∧ w d s e t u ((grid₀ k n).P d s f) ((grid₀ k n).P e t g) = .ok a ∧ a.length = (grid₀ k n).N (d + e) u ∧
      ∀ i < (grid₀ k n).N (d + e) u, |a.getD i 0 - ((grid₀ k n).P (d + e) u fun x => f x * g x).getD i 0|
        ≤ (2 * tail k c b ((grid₀ k n).N d s) * totalAmplitude k c' b' + totalAmplitude k c b * (2 * tail k c' b' ((grid₀ k n).N e t))
            + 2 * tail k c b ((grid₀ k n).N d s) * (2 * tail k c' b' ((grid₀ k n).N e t))) * ((grid₀ k n).P (d + e) u fun _ => 1).getD i 0 :=
  C106_wedge_error k n hr s t u f g (expansion_nice hf cf) (expansion_nice hg cg) _ _ _ _ (fun x hx => expansion_bound hf hx) (fun x hx => expansion_bound hg hx) d e hde
    (fun h => by obtain ⟨rfl, rfl⟩ := hc h; simp) (fun x hx => C80_reconstruction_error k n hr.1 d s (fun h => (hc h).1) c b f hf x hx)
    (fun x hx => C80_reconstruction_error k n hr.1 e t (fun h => (hc h).2) c' b' g hg x hx)

/-- The grids recover the function in the limit. -/
def Recoverable (k : Kind) (d : Fin 2) (t : Bool) (f : ℝ → ℝ) : Prop := ∀ ε > 0, ∃ n₀, ∀ n ≥ n₀, validSize k n → Recovers k n d t ε f

/-- Every sum of an absolutely convergent series is recovered. -/
theorem expansion_recoverable (k : Kind) (d : Fin 2) (t : Bool) (hc : k = .chebyshev → d = 0) (c s : ℕ → ℝ) (f : ℝ → ℝ) (hf : Expansion k c s f) : Recoverable k d t f := fun ε hε => by
  obtain ⟨n₀, h⟩ := C80_convergence k d t hc c s f hf ε hε
  refine ⟨n₀, fun n hn hv x hx => ?_⟩
  obtain ⟨y, h1, h2⟩ := (h n hn hv).2 x hx
  exact ⟨y, h1, h2.le⟩

theorem small_errors {F G η : ℝ} (hη : 0 < η) (hF : 0 ≤ F) (hG : 0 ≤ G) : ∃ ε > 0, ε * G + F * ε + ε * ε ≤ η := by
  refine ⟨min 1 (η / (F + G + 1)), by positivity, ?_⟩
  set ε := min 1 (η / (F + G + 1)) with hε
  have h1 : ε ≤ 1 := min_le_left _ _
  have h2 : ε ≤ η / (F + G + 1) := min_le_right _ _
  have h3 : 0 < ε := by positivity
  rw [le_div_iff₀ (by positivity)] at h2
  nlinarith

/-- **C106**: as the grid is refined, the errors of the wedge product tend to zero, uniformly on all the cells (relative to their size). -/
theorem C106_convergence (k : Kind) (d e : Fin 2) (hde : d.val + e.val ≤ 1) (s t u : Bool)
    (hfit : k = .chebyshev → ¬ (d = 0 ∧ s = true ∧ e = 1 ∧ t = false) ∧ ¬ (d = 1 ∧ s = false ∧ e = 0 ∧ t = true)) (f g : ℝ → ℝ) (hf : Nice k f) (hg : Nice k g)
    (F G : ℝ) (hF : ∀ x ∈ Whole k, |f x| ≤ F) (hG : ∀ x ∈ Whole k, |g x| ≤ G) (h : Recoverable k d s f) (h' : Recoverable k e t g) (η : ℝ) (hη : 0 < η) :
    ∃ n₀, ∀ n ≥ n₀, Refinable k n → ∃ w c, (grid₀ k n).W = some w ∧ w d s e t u ((grid₀ k n).P d s f) ((grid₀ k n).P e t g) = .ok c ∧ c.length = (grid₀ k n).N (d + e) u ∧
      ∀ i < (grid₀ k n).N (d + e) u, |c.getD i 0 - ((grid₀ k n).P (d + e) u fun x => f x * g x).getD i 0| ≤ η * ((grid₀ k n).P (d + e) u fun _ => 1).getD i 0 := by
  have h0 : (0 : ℝ) ∈ Whole k := by
    cases k
    · exact Set.mem_univ _
    · exact ⟨le_refl _, pi_pos.le⟩
    · exact ⟨by norm_num, by norm_num⟩
  obtain ⟨ε, hε, hle⟩ := small_errors hη ((abs_nonneg _).trans (hF 0 h0)) ((abs_nonneg _).trans (hG 0 h0))
  obtain ⟨n₁, h1⟩ := h ε hε
  obtain ⟨n₂, h2⟩ := h' ε hε
  refine ⟨max n₁ n₂, fun n hn hr => ?_⟩
  obtain ⟨w, c, g1, g2, g3, g4⟩ := C106_wedge_error k n hr s t u f g hf hg ε ε F G hF hG d e hde hfit (h1 n ((le_max_left _ _).trans hn) hr.1) (h2 n ((le_max_right _ _).trans hn) hr.1)
  exact ⟨w, c, g1, g2, g3, fun i hi => (g4 i hi).trans (mul_le_mul_of_nonneg_right hle (size_nonneg (grid₀_factor k n hr.1) (d + e) u (cells_in k n hr.1 (d + e) u) hi))⟩

/-- **C106**: likewise for the contraction. -/
theorem C106_contraction_convergence (k : Kind) (s t u : Bool) (f g : ℝ → ℝ) (hf : Nice k f) (hg : Nice k g)
    (F G : ℝ) (hF : ∀ x ∈ Whole k, |f x| ≤ F) (hG : ∀ x ∈ Whole k, |g x| ≤ G) (h : Recoverable k 1 s f) (h' : Recoverable k 1 t g) (η : ℝ) (hη : 0 < η) :
    ∃ n₀, ∀ n ≥ n₀, Refinable k n → ∃ w c, (grid₀ k n).C = some w ∧ w s 1 t u ((grid₀ k n).P 1 s f) ((grid₀ k n).P 1 t g) = .ok c ∧ c.length = (grid₀ k n).N 0 u ∧
      ∀ i < (grid₀ k n).N 0 u, |c.getD i 0 - ((grid₀ k n).P 0 u fun x => f x * g x).getD i 0| ≤ η := by
  have h0 : (0 : ℝ) ∈ Whole k := by
    cases k
    · exact Set.mem_univ _
    · exact ⟨le_refl _, pi_pos.le⟩
    · exact ⟨by norm_num, by norm_num⟩
  obtain ⟨ε, hε, hle⟩ := small_errors hη ((abs_nonneg _).trans (hF 0 h0)) ((abs_nonneg _).trans (hG 0 h0))
  obtain ⟨n₁, h1⟩ := h ε hε
  obtain ⟨n₂, h2⟩ := h' ε hε
  refine ⟨max n₁ n₂, fun n hn hr => ?_⟩
  obtain ⟨w, c, g1, g2, g3, g4⟩ := C106_contraction_error k n hr s t u f g hf hg ε ε F G hF hG (h1 n ((le_max_left _ _).trans hn) hr.1) (h2 n ((le_max_right _ _).trans hn) hr.1)
  exact ⟨w, c, g1, g2, g3, fun i hi => (g4 i hi).trans hle⟩

/-- A concrete case: a function with infinitely many coefficients, which no grid resolves, and its square. -/
example : ∃ f, Nice .periodic f ∧ Recoverable .periodic 0 true f ∧ Recoverable .periodic 1 false f ∧ (∀ x ∈ Whole .periodic, |f x| ≤ 2) ∧ f 0 = 2 := by
  have hs : Summable fun m : ℕ => ((1 : ℝ) / 2) ^ m := summable_geometric_of_lt_one (by norm_num) (by norm_num)
  have hE := expansion_example
  have hc : Continuous fun x => ∑' m : ℕ, (1 / 2 : ℝ) ^ m * cos (m * x) := by
    refine continuous_tsum (fun m => by fun_prop) hs fun m x => ?_
    rw [Real.norm_eq_abs, abs_mul, abs_of_pos (by positivity)]
    exact mul_le_of_le_one_right (by positivity) (abs_cos_le_one _)
  have ht : totalAmplitude .periodic (fun m => (1 / 2) ^ m) (fun _ => 0) = 2 := by
    refine (tsum_congr fun m => ?_).trans tsum_geometric_two
    show |((1 : ℝ) / 2) ^ m| + |(0 : ℝ)| = _
    rw [abs_of_pos (by positivity)]; simp
  refine ⟨_, expansion_nice hE hc, expansion_recoverable _ _ _ (by simp) _ _ _ hE, expansion_recoverable _ _ _ (by simp) _ _ _ hE, fun x hx => (expansion_bound hE hx).trans ht.le, ?_⟩
  exact (tsum_congr fun m => by simp).trans tsum_geometric_two

end Dec.Props
