import Verif.Lib.Tensor
import Verif.Lib.Exact2
import Verif.Props.Grid2Wedge

set_option linter.unusedSimpArgs false
set_option linter.unusedVariables false

/-! # Exactness on product grids: C58, C59, C60, C61 -/

namespace Dec.Props

open Finset Real G2 Sp

/-- A grid of the given kind on its default interval: `Grid_1D.periodic(n)`, `Grid_1D.regular(n)`, `Grid_1D.chebyshev(n)`. -/
noncomputable def grid₀ : Kind → ℕ → Grid1
  | .periodic, n => Periodic.make n
  | .regular, n => Regular.make n
  | .chebyshev, n => Chebyshev.make n

/-- The functions that `N` numbers determine on a grid of the given kind: trigonometric polynomials, cosine polynomials, or polynomials. -/
def Resolved : Kind → ℕ → (ℝ → ℝ) → Prop
  | .periodic, N => IsTrig ((N - 1) / 2)
  | .regular, N => IsCos (N - 1)
  | .chebyshev, N => IsPoly N

theorem grid₀_eq (k : Kind) (n : ℕ) : ∃ a b, grid₀ k n = grid k n a b := by
  cases k
  · exact ⟨0, 2 * π, rfl⟩
  · exact ⟨0, π, rfl⟩
  · exact ⟨-1, 1, rfl⟩

theorem grid₀_factor (k : Kind) (n : ℕ) (hn : validSize k n) : Factor (grid₀ k n) := by
  obtain ⟨a, b, h⟩ := grid₀_eq k n
  rw [h]; exact grid_factor k n hn a b

theorem isPoly_add {m : ℕ} {f g : ℝ → ℝ} (hf : IsPoly m f) (hg : IsPoly m g) : IsPoly m fun x => f x + g x := by
  obtain ⟨a, ha⟩ := hf
  obtain ⟨b, hb⟩ := hg
  exact ⟨fun k => a k + b k, fun x => by beta_reduce; rw [ha, hb, ← sum_add_distrib]; exact sum_congr rfl fun k _ => by ring⟩

theorem isPoly_smul {m : ℕ} (c : ℝ) {f : ℝ → ℝ} (hf : IsPoly m f) : IsPoly m fun x => c * f x := by
  obtain ⟨a, ha⟩ := hf
  exact ⟨fun k => c * a k, fun x => by beta_reduce; rw [ha, mul_sum]; exact sum_congr rfl fun k _ => by ring⟩

theorem space_trig (K : ℕ) : FnSpace (IsTrig K) := ⟨IsTrig.zero K, fun _ _ h h' => h.add h', fun c _ h => h.const_mul c, fun _ h => h.continuous⟩
theorem space_cos (K : ℕ) : FnSpace (IsCos K) := ⟨isCos_const K 0, fun _ _ h h' => h.add h', fun c _ h => h.const_mul c, fun _ h => h.isTrig.continuous⟩
theorem space_poly (m : ℕ) : FnSpace (IsPoly m) :=
  ⟨⟨fun _ => 0, fun x => by simp⟩, fun _ _ h h' => isPoly_add h h', fun c _ h => isPoly_smul c h, fun _ h => h.continuous⟩

theorem resolved_space (k : Kind) (N : ℕ) : FnSpace (Resolved k N) := by
  cases k
  · exact space_trig _
  · exact space_cos _
  · exact space_poly _

theorem grid₀_star (k : Kind) (n : ℕ) (hn : validSize k n) (h927 : k = .chebyshev → n ≤ 927) :
    StarExact (grid₀ k n) fun d t => Resolved k ((grid₀ k n).N d t) where
  space d t := resolved_space k _
  exact d t f hf := by
    cases k
    · have hn' : 1 ≤ n := hn
      have hN : (grid₀ .periodic n).N d t = n := rfl
      rw [hN] at hf
      have := C02_periodic_hodge_exact n ((n - 1) / 2) (by omega) f hf t
      obtain rfl | rfl : d = 0 ∨ d = 1 := by omega
      exacts [this.1, this.2]
    · have hn' : 2 ≤ n := hn
      have hg := Regular.isInterval hn' 0 π
      have h1 := C04_regular_hodge_exact_primal n (n - 1) hn' le_rfl f
      have h2 := C04_regular_hodge_exact_dual n (n - 2) hn' le_rfl f
      obtain rfl | rfl : d = 0 ∨ d = 1 := by omega
      all_goals cases t
      · exact (h2 (by have := hf; rwa [show (grid₀ .regular n).N 0 false = n - 1 from hg.N00] at this)).1
      · exact (h1 (by have := hf; rwa [show (grid₀ .regular n).N 0 true = n from hg.N01] at this)).1
      · exact (h1 (by have := hf; rwa [show (grid₀ .regular n).N 1 false = n from hg.N10] at this)).2
      · exact (h2 (by have := hf; rwa [show (grid₀ .regular n).N 1 true = n - 1 from hg.N11] at this)).2
    · have hn' : 2 ≤ n := hn
      have hg := Chebyshev.isInterval hn' (-1) 1
      have h1 := C06_chebyshev_hodge_exact_primal n hn' f
      have h2 := C06_chebyshev_hodge_exact_dual n hn' f
      obtain rfl | rfl : d = 0 ∨ d = 1 := by omega
      all_goals cases t
      · exact (h2 (by have := hf; rwa [show (grid₀ .chebyshev n).N 0 false = n - 1 from hg.N00] at this)).1
      · exact (h1 (by have := hf; rwa [show (grid₀ .chebyshev n).N 0 true = n from hg.N01] at this)).1
      · exact (h1 (by have := hf; rwa [show (grid₀ .chebyshev n).N 1 false = n from hg.N10] at this)).2
      · exact (h2 (by have := hf; rwa [show (grid₀ .chebyshev n).N 1 true = n - 1 from hg.N11] at this)).2 (h927 rfl)

variable (k k' : Kind) (n n' : ℕ) (hn : validSize k n) (hn' : validSize k' n')
include hn hn'

/-- **C58.** On every product of grids on their default intervals, the discrete Hodge star of the projection of a resolved form is the projection of its
continuous Hodge star: `*f = f dx∧dy`, `*(f dx + g dy) = -g dx + f dy`, `*(f dx∧dy) = f`. -/
theorem C58_hodge_exact (h : k = .chebyshev → n ≤ 927) (h' : k' = .chebyshev → n' ≤ 927) (t : Bool) (f g : ℝ → ℝ → ℝ) :
    (Tensor (Resolved k ((grid₀ k n).N 0 t)) (Resolved k' ((grid₀ k' n').N 0 t)) f →
      ∃ a b, (product (grid₀ k n) (grid₀ k' n')).P 0 t [f] = .ok a ∧ (product (grid₀ k n) (grid₀ k' n')).H 0 t a = .ok b ∧
        (product (grid₀ k n) (grid₀ k' n')).P 2 (!t) [f] = .ok b) ∧
    (Tensor (Resolved k ((grid₀ k n).N 1 t)) (Resolved k' ((grid₀ k' n').N 0 t)) f →
      Tensor (Resolved k ((grid₀ k n).N 0 t)) (Resolved k' ((grid₀ k' n').N 1 t)) g →
      ∃ a b, (product (grid₀ k n) (grid₀ k' n')).P 1 t [f, g] = .ok a ∧ (product (grid₀ k n) (grid₀ k' n')).H 1 t a = .ok b ∧
        (product (grid₀ k n) (grid₀ k' n')).P 1 (!t) [fun x y => -g x y, f] = .ok b) ∧
    (Tensor (Resolved k ((grid₀ k n).N 1 t)) (Resolved k' ((grid₀ k' n').N 1 t)) f →
      ∃ a b, (product (grid₀ k n) (grid₀ k' n')).P 2 t [f] = .ok a ∧ (product (grid₀ k n) (grid₀ k' n')).H 2 t a = .ok b ∧
        (product (grid₀ k n) (grid₀ k' n')).P 0 (!t) [f] = .ok b) := by
  have hx := grid₀_factor k n hn
  have hy := grid₀_factor k' n' hn'
  have sx := grid₀_star k n hn h
  have sy := grid₀_star k' n' hn' h'
  exact ⟨star0_exact hx hy sx sy t, star1_exact hx hy sx sy t, star2_exact hx hy sx sy t⟩

/-- A concrete case: `f = sin x`, `g = cos x * y` on the product of a periodic grid with 5 and a Chebyshev grid with 3 vertices. -/
example : Tensor (Resolved .periodic ((grid₀ .periodic 5).N 1 true)) (Resolved .chebyshev ((grid₀ .chebyshev 3).N 0 true)) (fun x y => sin ((1 : ℕ) * x) * y ^ 2) ∧
    Tensor (Resolved .periodic ((grid₀ .periodic 5).N 0 true)) (Resolved .chebyshev ((grid₀ .chebyshev 3).N 1 true)) (fun x y => cos ((2 : ℕ) * x) * y) :=
  ⟨Tensor.single (a := fun x => sin ((1 : ℕ) * x)) (b := fun y => y ^ 2) (isTrig_sin_nat (by simp [grid₀, Periodic.make]))
      ⟨fun k => if k = 2 then 1 else 0, fun x => by simp [grid₀, Chebyshev.make]⟩,
    Tensor.single (a := fun x => cos ((2 : ℕ) * x)) (b := fun y => y) (isTrig_cos_nat (by simp [grid₀, Periodic.make]))
      ⟨fun k => if k = 1 then 1 else 0, fun x => by simp [grid₀, Chebyshev.make]⟩⟩

omit hn hn'

/-! ## C59, C60, C61 -/

/-- The functions whose values on the refined grid determine their projection: any continuous function for values at points; for integrals over edges,
trigonometric polynomials of degree at most `n` on a periodic grid and polynomials of degree at most `2 n - 3` on a Chebyshev grid. -/
def Unrefined (k : Kind) (n : ℕ) : Fin 2 → (ℝ → ℝ) → Prop
  | 0 => Continuous
  | 1 => match k with
    | .periodic => IsTrig n
    | .chebyshev => IsPoly (2 * n - 2)
    | .regular => fun _ => False

theorem isPoly_mono {m m' : ℕ} (h : m ≤ m') {f : ℝ → ℝ} (hf : IsPoly m f) : IsPoly m' f := by
  obtain ⟨a, ha⟩ := hf
  refine ⟨fun k => if k < m then a k else 0, fun x => ?_⟩
  rw [ha, ← sum_subset (range_mono h) (fun k _ hk => by beta_reduce; rw [if_neg (by simpa using hk), zero_mul])]
  exact sum_congr rfl fun k hk => by beta_reduce; rw [if_pos (mem_range.1 hk)]

theorem space_continuous : FnSpace (fun f : ℝ → ℝ => Continuous f) :=
  ⟨continuous_const, fun _ _ h h' => h.add h', fun c _ h => continuous_const.mul h, fun _ h => h⟩

theorem grid₀_refine {k : Kind} {n : ℕ} (h : Refinable k n) :
    ∃ M p, RefExact (grid₀ k n) (fun d t => Resolved k ((grid₀ k n).N d t)) (Unrefined k n) M p := by
  obtain ⟨hn, hr, h927⟩ := h
  cases k
  · have hn' : 1 ≤ n := hn
    have hpts := Periodic.points_samp n
    refine ⟨2 * n, fun j => id (0 + j * hh (2 * n)), by omega, fun d t => resolved_space _ _, fun d => ?_, fun d t f hf => ?_, hpts, fun d t f hf => ?_, fun d t f hf => ?_⟩
    · obtain rfl | rfl : d = 0 ∨ d = 1 := by omega
      exacts [space_continuous, space_trig _]
    · replace hf : IsTrig ((n - 1) / 2) f := hf
      obtain rfl | rfl : d = 0 ∨ d = 1 := by omega
      exacts [hf.continuous, hf.mono (by omega)]
    · exact Periodic.T_exact d t (Res_of_isTrig (K := (n - 1) / 2) (by omega) hf _)
    · obtain rfl | rfl : d = 0 ∨ d = 1 := by omega
      · cases t
        · show Periodic.U 0 false (samp (2 * n) 0 f) = _
          rw [Periodic.U_00]; unfold Periodic.U0d; rw [Periodic.stride2'_samp, zero_add]; exact congrArg _ (Periodic.P0d_samp n f).symm
        · show Periodic.U 0 true (samp (2 * n) 0 f) = _
          rw [Periodic.U_01]; unfold Periodic.U0; rw [Periodic.stride2_samp]; exact congrArg _ (Periodic.P0_samp n f).symm
      · exact Periodic.U_exact hf 1 t
  · exact absurd rfl hr
  · have hn' : 2 ≤ n := hn
    have hpts := Chebyshev.points_csamp hn'
    have hN : ∀ d t, (grid₀ .chebyshev n).N d t ≤ n := fun d t => by
      have hg := Chebyshev.isInterval hn' (-1) 1
      obtain rfl | rfl : d = 0 ∨ d = 1 := by omega
      all_goals cases t
      · exact hg.N00.le.trans (by show n - 1 ≤ n; omega)
      · exact hg.N01.le
      · exact hg.N10.le
      · exact hg.N11.le.trans (by show n - 1 ≤ n; omega)
    refine ⟨2 * n - 1, _, by omega, fun d t => resolved_space _ _, fun d => ?_, fun d t f hf => ?_, hpts, fun d t f hf => ?_, fun d t f hf => ?_⟩
    · obtain rfl | rfl : d = 0 ∨ d = 1 := by omega
      exacts [space_continuous, space_poly _]
    · have hf : IsPoly _ f := hf
      obtain rfl | rfl : d = 0 ∨ d = 1 := by omega
      exacts [hf.continuous, isPoly_mono ((hN 1 t).trans (by omega)) hf]
    · obtain ⟨pts, e1, e2, -⟩ := C19_chebyshev_refine_samples n hn' d t (fun _ _ => h927 rfl) f hf
      rw [hpts] at e1
      cases e1
      have := e2
      unfold Chebyshev.csamp at this; rw [map_tab] at this
      exact this
    · have hc : Continuous f := by
        obtain rfl | rfl : d = 0 ∨ d = 1 := by omega
        exacts [hf, IsPoly.continuous (m := 2 * n - 2) hf]
      obtain ⟨pts, e1, e2⟩ := C19_chebyshev_unrefine_exact n hn' d t f hc (fun h => by subst h; exact hf)
      rw [hpts] at e1
      cases e1
      have := e2
      unfold Chebyshev.csamp at this; rw [map_tab] at this
      exact this

section
variable {k k' : Kind} {n n' : ℕ} (h : Refinable k n) (h' : Refinable k' n')
include h h'

/-- **C59.** On a product of periodic and Chebyshev grids, refining the projection of a resolved form gives the values of its components at `g.points`,
and unrefining values at `g.points` gives the projection, also of forms of about twice that resolution. -/
theorem C59_refine_samples : ∃ X Y, (product (grid₀ k n) (grid₀ k' n')).points = .ok (X, Y) ∧
    (∀ d t σ, TensorForm (fun d => Resolved k ((grid₀ k n).N d t)) (fun d => Resolved k' ((grid₀ k' n').N d t)) d σ →
      ∃ a, (product (grid₀ k n) (grid₀ k' n')).P d t σ = .ok a ∧ (product (grid₀ k n) (grid₀ k' n')).T d t a = .ok (σ.map fun f => map2 f X Y)) ∧
    (∀ d t σ, TensorForm (Unrefined k n) (Unrefined k' n') d σ →
      ∃ a, (product (grid₀ k n) (grid₀ k' n')).P d t σ = .ok a ∧ (product (grid₀ k n) (grid₀ k' n')).U d t (σ.map fun f => map2 f X Y) = .ok a) := by
  obtain ⟨M, p, rx⟩ := grid₀_refine h
  obtain ⟨M', p', ry⟩ := grid₀_refine h'
  have hx := grid₀_factor k n h.1
  have hy := grid₀_factor k' n' h'.1
  have e : (fun f : ℝ → ℝ → ℝ => map2 f (sample M M' p p' fun x _ => x) (sample M M' p p' fun _ y => y)) = sample M M' p p' := by
    funext f; unfold sample; rw [map2_mtab]
  refine ⟨_, _, points_mtab hx hy rx ry, fun d t σ hσ => ?_, fun d t σ hσ => ?_⟩
  · rw [e]; exact T_sample hx hy rx ry d t σ hσ
  · rw [e]; exact U_sample hx hy rx ry d t σ hσ

/-- **C60.** On a product of periodic and Chebyshev grids, the discrete wedge product of the projections of two resolved forms is the projection of their
exterior product, provided the exterior product can be unrefined (no condition for two functions on the same side). -/
theorem C60_wedge_exact (d₀ d₁ : Fin 3) (hd : d₀.val + d₁.val ≤ 2) (s t u : Bool) (α β : List (ℝ → ℝ → ℝ))
    (hα : TensorForm (fun d => Resolved k ((grid₀ k n).N d s)) (fun d => Resolved k' ((grid₀ k' n').N d s)) d₀ α)
    (hβ : TensorForm (fun d => Resolved k ((grid₀ k n).N d t)) (fun d => Resolved k' ((grid₀ k' n').N d t)) d₁ β)
    (hp : ¬ (s = t ∧ t = u ∧ d₀ = 0 ∧ d₁ = 0) → TensorForm (Unrefined k n) (Unrefined k' n') (Fin.ofNat 3 (d₀.val + d₁.val)) (wedgeForm d₀ d₁ α β)) :
    ∃ a b c, (product (grid₀ k n) (grid₀ k' n')).P d₀ s α = .ok a ∧ (product (grid₀ k n) (grid₀ k' n')).P d₁ t β = .ok b ∧
      (product (grid₀ k n) (grid₀ k' n')).wedge d₀ s d₁ t u a b = .ok c ∧
      (product (grid₀ k n) (grid₀ k' n')).P (Fin.ofNat 3 (d₀.val + d₁.val)) u (wedgeForm d₀ d₁ α β) = .ok c := by
  obtain ⟨M, p, rx⟩ := grid₀_refine h
  obtain ⟨M', p', ry⟩ := grid₀_refine h'
  exact wedge_exact (grid₀_factor k n h.1) (grid₀_factor k' n' h'.1) rx ry d₀ d₁ hd s t u α β hα hβ hp

/-- **C61.** The same for the contraction of a vector field (given as a 1-form) and a form of degree 1 or 2. -/
theorem C61_contraction_exact (d : Fin 3) (hd : d ≠ 0) (s t u : Bool) (X β : List (ℝ → ℝ → ℝ))
    (hX : TensorForm (fun d => Resolved k ((grid₀ k n).N d s)) (fun d => Resolved k' ((grid₀ k' n').N d s)) 1 X)
    (hβ : TensorForm (fun d => Resolved k ((grid₀ k n).N d t)) (fun d => Resolved k' ((grid₀ k' n').N d t)) d β)
    (hp : TensorForm (Unrefined k n) (Unrefined k' n') (d - 1) (contractForm d X β)) :
    ∃ a b c, (product (grid₀ k n) (grid₀ k' n')).P 1 s X = .ok a ∧ (product (grid₀ k n) (grid₀ k' n')).P d t β = .ok b ∧
      (product (grid₀ k n) (grid₀ k' n')).contraction s d t u a b = .ok c ∧
      (product (grid₀ k n) (grid₀ k' n')).P (d - 1) u (contractForm d X β) = .ok c := by
  obtain ⟨M, p, rx⟩ := grid₀_refine h
  obtain ⟨M', p', ry⟩ := grid₀_refine h'
  exact contraction_exact (grid₀_factor k n h.1) (grid₀_factor k' n' h'.1) rx ry d hd s t u X β hX hβ hp

end

section
variable {V W V' W' Q R : Fin 2 → (ℝ → ℝ) → Prop} (sQ : ∀ d, FnSpace (Q d))
  (hQ : ∀ d d' e a b, V d a → V' d' b → Q e fun x => a x * b x) (hR : ∀ d d' e a b, W d a → W' d' b → R e fun x => a x * b x)
include sQ hQ hR

theorem wedgeForm_tensor {d₀ d₁ : Fin 3} (hd : d₀.val + d₁.val ≤ 2) {α β : List (ℝ → ℝ → ℝ)} (hα : TensorForm V W d₀ α) (hβ : TensorForm V' W' d₁ β) :
    TensorForm Q R (Fin.ofNat 3 (d₀.val + d₁.val)) (wedgeForm d₀ d₁ α β) := by
  rcases TensorForm.cases hα with ⟨rfl, f, rfl, hf⟩ | ⟨rfl, f, g, rfl, hf, hg⟩ | ⟨rfl, f, rfl, hf⟩ <;>
  rcases TensorForm.cases hβ with ⟨rfl, f', rfl, hf'⟩ | ⟨rfl, f', g', rfl, hf', hg'⟩ | ⟨rfl, f', rfl, hf'⟩
  · exact hf.mul (hQ _ _ _) (hR _ _ _) hf'
  · exact ⟨hf.mul (hQ _ _ _) (hR _ _ _) hf', hf.mul (hQ _ _ _) (hR _ _ _) hg'⟩
  · exact hf.mul (hQ _ _ _) (hR _ _ _) hf'
  · exact ⟨hf.mul (hQ _ _ _) (hR _ _ _) hf', hg.mul (hQ _ _ _) (hR _ _ _) hf'⟩
  · have := (hf.mul (hQ 1 0 1) (hR 0 1 1) hg').add ((hg.mul (hQ 0 1 1) (hR 1 0 1) hf').neg (sQ 1))
    simp only [← sub_eq_add_neg] at this
    exact this
  · exact absurd hd (by decide)
  · exact hf.mul (hQ _ _ _) (hR _ _ _) hf'
  · exact absurd hd (by decide)
  · exact absurd hd (by decide)

theorem contractForm_tensor {d : Fin 3} (hd : d ≠ 0) {X β : List (ℝ → ℝ → ℝ)} (hX : TensorForm V W 1 X) (hβ : TensorForm V' W' d β) :
    TensorForm Q R (d - 1) (contractForm d X β) := by
  rcases TensorForm.cases hX with ⟨h, _⟩ | ⟨-, X, Y, rfl, hX, hY⟩ | ⟨h, _⟩
  · cases h
  rotate_left
  · cases h
  rcases TensorForm.cases hβ with ⟨rfl, f', rfl, hf'⟩ | ⟨rfl, f', g', rfl, hf', hg'⟩ | ⟨rfl, f', rfl, hf'⟩
  · exact absurd rfl hd
  · exact (hX.mul (hQ 1 1 0) (hR 0 0 0) hf').add (hY.mul (hQ 0 0 0) (hR 1 1 0) hg')
  · exact ⟨(hY.mul (hQ 0 1 1) (hR 1 1 0) hf').neg (sQ 1), hX.mul (hQ 1 1 0) (hR 0 1 1) hf'⟩

end

theorem trig_product {n : ℕ} (hn : 1 ≤ n) (d e : Fin 2) (t t' : Bool) (d' : Fin 2) (a b : ℝ → ℝ) (ha : Resolved .periodic ((grid₀ .periodic n).N d t) a)
    (hb : Resolved .periodic ((grid₀ .periodic n).N d' t') b) : Unrefined .periodic n e fun x => a x * b x := by
  replace ha : IsTrig ((n - 1) / 2) a := ha
  replace hb : IsTrig ((n - 1) / 2) b := hb
  obtain rfl | rfl : e = 0 ∨ e = 1 := by omega
  exacts [ha.continuous.mul hb.continuous, (ha.mul hb).mono (by omega)]

theorem unrefined_space {k : Kind} (h : k ≠ .regular) (n : ℕ) (d : Fin 2) : FnSpace (Unrefined k n d) := by
  obtain rfl | rfl : d = 0 ∨ d = 1 := by omega
  · exact space_continuous
  · cases k
    · exact space_trig _
    · exact absurd rfl h
    · exact space_poly _

/-- **C60** and **C61** on products of periodic grids: no further condition is needed, every product of resolved forms can be unrefined. -/
theorem C60_wedge_exact_periodic (n n' : ℕ) (hn : 1 ≤ n) (hn' : 1 ≤ n') (d₀ d₁ : Fin 3) (hd : d₀.val + d₁.val ≤ 2) (s t u : Bool) (α β : List (ℝ → ℝ → ℝ))
    (hα : TensorForm (fun _ => IsTrig ((n - 1) / 2)) (fun _ => IsTrig ((n' - 1) / 2)) d₀ α)
    (hβ : TensorForm (fun _ => IsTrig ((n - 1) / 2)) (fun _ => IsTrig ((n' - 1) / 2)) d₁ β) :
    ∃ a b c, (product (Periodic.make n) (Periodic.make n')).P d₀ s α = .ok a ∧ (product (Periodic.make n) (Periodic.make n')).P d₁ t β = .ok b ∧
      (product (Periodic.make n) (Periodic.make n')).wedge d₀ s d₁ t u a b = .ok c ∧
      (product (Periodic.make n) (Periodic.make n')).P (Fin.ofNat 3 (d₀.val + d₁.val)) u (wedgeForm d₀ d₁ α β) = .ok c := by
  have hp : Kind.periodic ≠ .regular := by decide
  exact C60_wedge_exact (k := .periodic) (k' := .periodic) ⟨hn, hp, by simp⟩ ⟨hn', hp, by simp⟩ d₀ d₁ hd s t u α β hα hβ fun _ =>
    wedgeForm_tensor (unrefined_space hp n) (fun d d' e a b ha hb => trig_product hn d e true true d' a b ha hb) (fun d d' e a b ha hb => trig_product hn' d e true true d' a b ha hb) hd hα hβ

theorem C61_contraction_exact_periodic (n n' : ℕ) (hn : 1 ≤ n) (hn' : 1 ≤ n') (d : Fin 3) (hd : d ≠ 0) (s t u : Bool) (X β : List (ℝ → ℝ → ℝ))
    (hX : TensorForm (fun _ => IsTrig ((n - 1) / 2)) (fun _ => IsTrig ((n' - 1) / 2)) 1 X)
    (hβ : TensorForm (fun _ => IsTrig ((n - 1) / 2)) (fun _ => IsTrig ((n' - 1) / 2)) d β) :
    ∃ a b c, (product (Periodic.make n) (Periodic.make n')).P 1 s X = .ok a ∧ (product (Periodic.make n) (Periodic.make n')).P d t β = .ok b ∧
      (product (Periodic.make n) (Periodic.make n')).contraction s d t u a b = .ok c ∧
      (product (Periodic.make n) (Periodic.make n')).P (d - 1) u (contractForm d X β) = .ok c := by
  have hp : Kind.periodic ≠ .regular := by decide
  exact C61_contraction_exact (k := .periodic) (k' := .periodic) ⟨hn, hp, by simp⟩ ⟨hn', hp, by simp⟩ d hd s t u X β hX hβ
    (contractForm_tensor (unrefined_space hp n) (fun d d' e a b ha hb => trig_product hn d e true true d' a b ha hb) (fun d d' e a b ha hb => trig_product hn' d e true true d' a b ha hb) hd hX hβ)

/-- Concrete 1-forms on the periodic grid with 3 by 5 vertices. -/
example : TensorForm (fun _ => IsTrig ((3 - 1) / 2)) (fun _ => IsTrig ((5 - 1) / 2)) 1
    [fun x y => sin ((1 : ℕ) * x) * cos ((2 : ℕ) * y), fun x y => cos ((1 : ℕ) * x) * sin ((1 : ℕ) * y)] :=
  ⟨Tensor.single (a := fun x => sin ((1 : ℕ) * x)) (b := fun y => cos ((2 : ℕ) * y)) (isTrig_sin_nat (by norm_num)) (isTrig_cos_nat (by norm_num)),
    Tensor.single (a := fun x => cos ((1 : ℕ) * x)) (b := fun y => sin ((1 : ℕ) * y)) (isTrig_cos_nat (by norm_num)) (isTrig_sin_nat (by norm_num))⟩

/-- A concrete case of the conditions of `C60` and `C61` on a product of Chebyshev grids with 3 vertices: the primal 1-forms `y dx` and `x dy`, their
exterior product `x y dx∧dy` and their contraction. -/
example : Refinable .chebyshev 3 ∧
    TensorForm (fun d => Resolved .chebyshev ((grid₀ .chebyshev 3).N d true)) (fun d => Resolved .chebyshev ((grid₀ .chebyshev 3).N d true)) 1 [fun x y => 1 * y, fun x y => 0 * 1] ∧
    TensorForm (fun d => Resolved .chebyshev ((grid₀ .chebyshev 3).N d true)) (fun d => Resolved .chebyshev ((grid₀ .chebyshev 3).N d true)) 1 [fun x y => 0 * 1, fun x y => x * 1] ∧
    TensorForm (Unrefined .chebyshev 3) (Unrefined .chebyshev 3) 2 (wedgeForm 1 1 [fun x y => 1 * y, fun x y => 0 * 1] [fun x y => 0 * 1, fun x y => x * 1]) := by
  have p0 : ∀ m, IsPoly m (fun _ => 0) := fun m => ⟨fun _ => 0, fun x => by simp⟩
  have p1 : ∀ m, IsPoly (m + 1) (fun _ => 1) := fun m => ⟨fun k => if k = 0 then 1 else 0, fun x => by simp⟩
  have px : ∀ m, IsPoly (m + 2) (fun x => x) := fun m => ⟨fun k => if k = 1 then 1 else 0, fun x => by simp⟩
  have e11 : (grid₀ .chebyshev 3).N 1 true = 2 := rfl
  have e01 : (grid₀ .chebyshev 3).N 0 true = 3 := rfl
  refine ⟨⟨by norm_num [validSize], by decide, by norm_num⟩, ⟨Tensor.single (a := fun _ => 1) (b := fun y => y) (p1 1) (px 1), Tensor.single (a := fun _ => 0) (b := fun _ => 1) (p0 3) (p1 1)⟩,
    ⟨Tensor.single (a := fun _ => 0) (b := fun _ => 1) (p0 2) (p1 2), Tensor.single (a := fun x => x) (b := fun _ => 1) (px 1) (p1 1)⟩, ?_⟩
  refine ⟨1, fun _ x => x, fun _ y => y, fun _ _ => ⟨px 2, px 2⟩, fun x y => ?_⟩
  simp; ring

end Dec.Props
