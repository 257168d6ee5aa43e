import Verif.Props.Scaling
import Verif.Props.ChebyshevCalculus

/-!
# C124: pull-backs by affine maps

`/repo/doc/wedge.rst`: "The wedge product is independent of the metric, i.e. it is a homomorphism under a pull-back."
-/

namespace Dec.Props

open Real Dec.Sp MeasureTheory

/-- The affine map from `[a, b]` onto `[c, d]`. -/
noncomputable def affine (a b c d x : ℝ) : ℝ := c + (d - c) / (b - a) * (x - a)

/-- The pull-back along this map: `f` becomes `f ∘ φ`, and `f dx` becomes `(f ∘ φ) φ' dx`. -/
noncomputable def pullback (a b c d : ℝ) (e : Fin 2) (f : ℝ → ℝ) (x : ℝ) : ℝ :=
  if e = 0 then f (affine a b c d x) else f (affine a b c d x) * ((d - c) / (b - a))

/-- `affine` is onto and takes the ends to the ends; `pullback` of a 1-form has the factor that is the derivative. -/
example (a b c d : ℝ) (h : a < b) : affine a b c d a = c ∧ affine a b c d b = d ∧ ∀ x, HasDerivAt (affine a b c d) ((d - c) / (b - a)) x := by
  have : b - a ≠ 0 := by linarith
  refine ⟨by simp [affine], by unfold affine; field_simp; ring, fun x => ?_⟩
  have := (((hasDerivAt_id x).sub_const a).const_mul ((d - c) / (b - a))).const_add c
  rw [mul_one] at this
  exact this

theorem affine_toInterval (k : Kind) {a b : ℝ} (hab : a < b) (c d x : ℝ) : affine a b c d (toInterval k a b x) = toInterval k c d x := by
  have h := (defaultLength_pos k).ne'
  have : b - a ≠ 0 := by linarith
  unfold affine toInterval
  field_simp
  ring

/-- **C124** (projections): the projection of the pull-back is the projection, on the grid of the same kind and size on the other interval. -/
theorem C124_projection (k : Kind) (n : ℕ) (hn : minSize k ≤ n) {a b c d : ℝ} (hab : a < b) (hcd : c < d) (e : Fin 2) (t : Bool) (f : ℝ → ℝ) :
    (grid k n a b).P e t (pullback a b c d e f) = (grid k n c d).P e t f := by
  have hL := (defaultLength_pos k).ne'
  have h0 : b - a ≠ 0 := by linarith
  obtain rfl | rfl : e = 0 ∨ e = 1 := by omega
  · rw [(stretch k n hn hab _ t).1, (stretch k n hn hcd f t).1]
    simp only [pullback, if_true, affine_toInterval k hab]
  · rw [(stretch k n hn hab _ t).2, (stretch k n hn hcd f t).2]
    have hf : (fun x => pullback a b c d 1 f (toInterval k a b x)) = fun x => (d - c) / (b - a) * f (toInterval k c d x) := by
      funext x
      simp only [pullback, if_neg (show (1 : Fin 2) ≠ 0 by decide), affine_toInterval k hab]
      ring
    rw [hf]
    have := P1_smul (standardGrid k n).cells t ((d - c) / (b - a)) fun x => f (toInterval k c d x)
    unfold Grid1.P
    rw [this, smul_smul']
    congr 1
    field_simp

/-- **C124** (operators): the derivative, the Hodge star, refinement, unrefinement, the wedge product and the contraction are the same functions of arrays on every interval. -/
theorem C124_operators (k : Kind) (n : ℕ) (a b c d : ℝ) :
    (grid k n a b).D = (grid k n c d).D ∧ (grid k n a b).H = (grid k n c d).H ∧ (grid k n a b).T = (grid k n c d).T ∧ (grid k n a b).U = (grid k n c d).U ∧
      (grid k n a b).wedge = (grid k n c d).wedge ∧ (grid k n a b).contraction = (grid k n c d).contraction := by
  cases k <;> exact ⟨rfl, rfl, rfl, rfl, rfl, rfl⟩

/-- **C124** (the pull-back is a homomorphism): the wedge product of the pull-backs of two forms is the wedge product of the forms. -/
theorem C124_wedge (k : Kind) (n : ℕ) (hn : minSize k ≤ n) {a b c d : ℝ} (hab : a < b) (hcd : c < d) (p q : Fin 2) (s t u : Bool) (f g : ℝ → ℝ) :
    (grid k n a b).wedge p s q t u ((grid k n a b).P p s (pullback a b c d p f)) ((grid k n a b).P q t (pullback a b c d q g))
      = (grid k n c d).wedge p s q t u ((grid k n c d).P p s f) ((grid k n c d).P q t g) := by
  rw [C124_projection k n hn hab hcd, C124_projection k n hn hab hcd, (C124_operators k n a b c d).2.2.2.2.1]

/-- **C124** (the pull-back and the derivative): likewise for the derivative. -/
theorem C124_derivative (k : Kind) (n : ℕ) (hn : minSize k ≤ n) {a b c d : ℝ} (hab : a < b) (hcd : c < d) (e : Fin 2) (t : Bool) (f : ℝ → ℝ) :
    (grid k n a b).D e t ((grid k n a b).P e t (pullback a b c d e f)) = (grid k n c d).D e t ((grid k n c d).P e t f) := by
  rw [C124_projection k n hn hab hcd, (C124_operators k n a b c d).1]

/-- A pull-back of a product is the product of the pull-backs. -/
theorem pullback_mul (a b c d : ℝ) (p q : Fin 2) (hpq : p.val + q.val ≤ 1) (f g : ℝ → ℝ) :
    (fun x => pullback a b c d p f x * pullback a b c d q g x) = pullback a b c d (Fin.ofNat 2 (p.val + q.val)) fun x => f x * g x := by
  funext x
  obtain rfl | rfl : p = 0 ∨ p = 1 := by omega
  all_goals obtain rfl | rfl : q = 0 ∨ q = 1 := by omega
  all_goals first
    | (exfalso; revert hpq; decide)
    | (simp [pullback]; done)
    | (simp [pullback]; ring)

/-- **C124** (exactness on every interval): where the wedge product of the projections of two forms is the projection of their product on one interval, it is so for the pull-backs on every other. -/
theorem C124_wedge_transfer (k : Kind) (n : ℕ) (hn : minSize k ≤ n) {a b c d : ℝ} (hab : a < b) (hcd : c < d) (p q : Fin 2) (hpq : p.val + q.val ≤ 1) (s t u : Bool) (f g : ℝ → ℝ)
    (h : (grid k n c d).wedge p s q t u ((grid k n c d).P p s f) ((grid k n c d).P q t g) = .ok ((grid k n c d).P (Fin.ofNat 2 (p.val + q.val)) u fun x => f x * g x)) :
    (grid k n a b).wedge p s q t u ((grid k n a b).P p s (pullback a b c d p f)) ((grid k n a b).P q t (pullback a b c d q g))
      = .ok ((grid k n a b).P (Fin.ofNat 2 (p.val + q.val)) u fun x => pullback a b c d p f x * pullback a b c d q g x) := by
  rw [C124_wedge k n hn hab hcd, h, pullback_mul a b c d p q hpq, C124_projection k n hn hab hcd]

/-- The integral of a form over the cells of `[a, b]` in terms of the default interval. -/
theorem standard_P (k : Kind) (n : ℕ) (hn : minSize k ≤ n) {a b : ℝ} (hab : a < b) (e : Fin 2) (t : Bool) (f : ℝ → ℝ) :
    (grid k n a b).P e t f = (standardGrid k n).P e t (fun x => (if e = 0 then 1 else (b - a) / (defaultMax k - defaultMin k)) * f (toInterval k a b x)) := by
  obtain rfl | rfl : e = 0 ∨ e = 1 := by omega
  · rw [(stretch k n hn hab f t).1]
    simp
  · rw [(stretch k n hn hab f t).2]
    simp only [if_neg (show (1 : Fin 2) ≠ 0 by decide)]
    exact (P1_smul _ _ _ _).symm

theorem trig_times {K : ℕ} {f : ℝ → ℝ} (h : IsTrig K f) (c : ℝ) : IsTrig K fun x => c * f x := by
  obtain ⟨p, q, e⟩ := h
  exact ⟨fun i => c * p i, fun i => c * q i, fun x => by beta_reduce; rw [e, Finset.mul_sum]; exact Finset.sum_congr rfl fun i _ => by ring⟩

/-- **C124** (wedge product on periodic grids): it is exact for resolved functions on every interval. -/
theorem C124_wedge_exact_periodic (n K L : ℕ) (hK : 2 * K < n) (hL : 2 * L < n) {a b : ℝ} (hab : a < b) (f g : ℝ → ℝ) (hf : IsTrig K fun x => f (toInterval .periodic a b x))
    (hg : IsTrig L fun x => g (toInterval .periodic a b x)) (p q : Fin 2) (hpq : p.val + q.val ≤ 1) (s t u : Bool) :
    (Periodic.make n a b).wedge p s q t u ((Periodic.make n a b).P p s f) ((Periodic.make n a b).P q t g) = .ok ((Periodic.make n a b).P (Fin.ofNat 2 (p.val + q.val)) u fun x => f x * g x) := by
  have hn : minSize .periodic ≤ n := by show 1 ≤ n; omega
  have e := standard_P .periodic n hn hab
  simp only [grid] at e
  rw [e p, e q, e (Fin.ofNat 2 (p.val + q.val)), show (Periodic.make n a b).wedge = (Periodic.make n).wedge from rfl]
  refine (C21_periodic_wedge_exact n K L hK hL _ _ (trig_times hf _) (trig_times hg _) p q hpq s t u).trans ?_
  refine congrArg Except.ok (congrArg _ (funext fun x => ?_))
  obtain rfl | rfl : p = 0 ∨ p = 1 := by omega
  all_goals obtain rfl | rfl : q = 0 ∨ q = 1 := by omega
  all_goals first
    | (exfalso; revert hpq; decide)
    | (simp; done)
    | (simp; ring)

/-- **C124** (defect): on a periodic grid over `[a, b]` the contraction of two resolved 1-forms is their product times the square of the length of the interval over `2 π`. -/
theorem C124_contraction_off_periodic (n K L : ℕ) (hK : 2 * K < n) (hL : 2 * L < n) {a b : ℝ} (hab : a < b) (X f : ℝ → ℝ) (hX : IsTrig K fun x => X (toInterval .periodic a b x))
    (hf : IsTrig L fun x => f (toInterval .periodic a b x)) (s t u : Bool) :
    (Periodic.make n a b).contraction s 1 t u ((Periodic.make n a b).P 1 s X) ((Periodic.make n a b).P 1 t f)
      = .ok (smul (((b - a) / (2 * π)) ^ 2) ((Periodic.make n a b).P 0 u fun x => X x * f x)) := by
  have hn : minSize .periodic ≤ n := by show 1 ≤ n; omega
  have e := standard_P .periodic n hn hab
  simp only [grid] at e
  rw [e 1, e 1, e 0, show (Periodic.make n a b).contraction = (Periodic.make n).contraction from rfl]
  refine (C24_periodic_contraction_exact n K L hK hL _ _ (trig_times hX _) (trig_times hf _) s t u).trans ?_
  refine congrArg Except.ok ?_
  refine Eq.trans ?_ (P0_smul (Periodic.make n).cells u (((b - a) / (2 * π)) ^ 2) _)
  refine congrArg _ (funext fun x => ?_)
  simp only [if_neg (show (1 : Fin 2) ≠ 0 by decide), if_true, defaultMin, defaultMax, sub_zero]
  ring

theorem poly_times {K : ℕ} {f : ℝ → ℝ} (h : IsPoly K f) (c : ℝ) : IsPoly K fun x => c * f x := by
  obtain ⟨p, e⟩ := h
  exact ⟨fun i => c * p i, fun x => by beta_reduce; rw [e, Finset.mul_sum]; exact Finset.sum_congr rfl fun i _ => by ring⟩

/-- **C124** (wedge product on Chebyshev grids): it is exact for resolved functions on every interval. -/
theorem C124_wedge_exact_chebyshev (n : ℕ) (hn : 2 ≤ n) (p q : Fin 2) (hpq : p.val + q.val ≤ 1) (s t u : Bool) (h1 : p = 1 → s = true → n ≤ 927) (h2 : q = 1 → t = true → n ≤ 927)
    (K L : ℕ) (hK : K ≤ (Chebyshev.make n).N p s) (hL : L ≤ (Chebyshev.make n).N q t) (hKL : p.val + q.val = 1 → K + L ≤ 2 * n - 1) {a b : ℝ} (hab : a < b)
    (f g : ℝ → ℝ) (hf : IsPoly K fun x => f (toInterval .chebyshev a b x)) (hg : IsPoly L fun x => g (toInterval .chebyshev a b x)) :
    (Chebyshev.make n a b).wedge p s q t u ((Chebyshev.make n a b).P p s f) ((Chebyshev.make n a b).P q t g)
      = .ok ((Chebyshev.make n a b).P (Fin.ofNat 2 (p.val + q.val)) u fun x => f x * g x) := by
  have e := standard_P .chebyshev n hn hab
  simp only [grid] at e
  rw [e p, e q, e (Fin.ofNat 2 (p.val + q.val)), show (Chebyshev.make n a b).wedge = (Chebyshev.make n).wedge from rfl]
  refine (C21_chebyshev_wedge_exact n hn p q hpq s t u h1 h2 K L hK hL hKL _ _ (poly_times hf _) (poly_times hg _)).trans ?_
  refine congrArg Except.ok (congrArg _ (funext fun x => ?_))
  obtain rfl | rfl : p = 0 ∨ p = 1 := by omega
  all_goals obtain rfl | rfl : q = 0 ∨ q = 1 := by omega
  all_goals first
    | (exfalso; revert hpq; decide)
    | (simp; done)
    | (simp; ring)

/-- **C124** (defect): on a Chebyshev grid over `[a, b]` the contraction of two resolved 1-forms is their product times the square of half the length of the interval. -/
theorem C124_contraction_off_chebyshev (n : ℕ) (hn : 2 ≤ n) (s t u : Bool) (h1 : s = true → n ≤ 927) (h2 : t = true → n ≤ 927) {a b : ℝ} (hab : a < b)
    (X f : ℝ → ℝ) (hX : IsPoly ((Chebyshev.make n).N 1 s) fun x => X (toInterval .chebyshev a b x)) (hf : IsPoly ((Chebyshev.make n).N 1 t) fun x => f (toInterval .chebyshev a b x)) :
    (Chebyshev.make n a b).contraction s 1 t u ((Chebyshev.make n a b).P 1 s X) ((Chebyshev.make n a b).P 1 t f)
      = .ok (smul (((b - a) / 2) ^ 2) ((Chebyshev.make n a b).P 0 u fun x => X x * f x)) := by
  have e := standard_P .chebyshev n hn hab
  simp only [grid] at e
  rw [e 1, e 1, e 0, show (Chebyshev.make n a b).contraction = (Chebyshev.make n).contraction from rfl]
  refine (C24_chebyshev_contraction_exact n hn s t u h1 h2 _ _ (poly_times hX _) (poly_times hf _)).trans ?_
  refine congrArg Except.ok ?_
  refine Eq.trans ?_ (P0_smul (Chebyshev.make n).cells u (((b - a) / 2) ^ 2) _)
  refine congrArg _ (funext fun x => ?_)
  simp only [if_neg (show (1 : Fin 2) ≠ 0 by decide), if_true, defaultMin, defaultMax]
  ring

/-- Constants are resolved on every interval: the contraction of `dx` and `dx` on `[0, 1]` is 1/4, not 1, on a Chebyshev grid. -/
theorem C124_unit_interval (n : ℕ) (hn : 2 ≤ n) (h : n ≤ 927) (s t u : Bool) :
    (Chebyshev.make n 0 1).contraction s 1 t u ((Chebyshev.make n 0 1).P 1 s fun _ => 1) ((Chebyshev.make n 0 1).P 1 t fun _ => 1)
      = .ok (smul (1 / 4) ((Chebyshev.make n 0 1).P 0 u fun _ => 1)) := by
  have hc : ∀ N, 1 ≤ N → IsPoly N fun _ => (1 : ℝ) := fun N hN => ⟨fun k => if k = 0 then 1 else 0, fun x => by
    rw [Finset.sum_eq_single_of_mem 0 (Finset.mem_range.2 hN) (by intro k _ hk; simp [hk])]; simp⟩
  have := C124_contraction_off_chebyshev n hn s t u (fun _ => h) (fun _ => h) zero_lt_one (fun _ => 1) (fun _ => 1) (hc _ ?_) (hc _ ?_)
  · rw [this]; norm_num
  · cases s <;> simp [Chebyshev.make] <;> omega
  · cases t <;> simp [Chebyshev.make] <;> omega

/-- Resolved functions on `[0, 1]`. -/
example : IsTrig 1 (fun x => (fun y => cos (2 * π * y)) (toInterval .periodic 0 1 x)) ∧ 2 * 1 < 3 := by
  refine ⟨?_, by norm_num⟩
  have : (fun x : ℝ => (fun y => cos (2 * π * y)) (toInterval .periodic 0 1 x)) = fun x => cos ((1 : ℕ) * x) := by
    funext x
    simp only [toInterval, defaultMin, defaultMax]
    congr 1
    have := pi_pos.ne'
    field_simp
    push_cast
    ring
  rw [this]
  exact isTrig_cos_nat le_rfl

end Dec.Props
