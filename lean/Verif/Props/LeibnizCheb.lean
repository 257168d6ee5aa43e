import Verif.Props.AccuracyProducts2
import Verif.Props.ReconstructCalculus
import Verif.Props.Grid2Leibniz
import Verif.Props.Poisson2

set_option linter.unusedSimpArgs false
set_option linter.unusedVariables false

/-! # C122: the Leibniz rule on grids with boundaries -/

namespace Dec.Props

open Finset Real G2 Sp

/-! ## Smooth functions of an axis -/

/-- Continuously differentiable, and periodic on a periodic axis. -/
def SmoothOn (k : Kind) (f : ℝ → ℝ) : Prop := ContDiff ℝ 1 f ∧ (k = .periodic → Function.Periodic f (2 * π))

theorem space_smooth (k : Kind) : FnSpace (SmoothOn k) where
  zero := ⟨contDiff_const, fun _ _ => rfl⟩
  add f g hf hg := ⟨hf.1.add hg.1, fun h x => by beta_reduce; rw [hf.2 h x, hg.2 h x]⟩
  smul c f hf := ⟨contDiff_const.mul hf.1, fun h x => by beta_reduce; rw [hf.2 h x]⟩
  cont f hf := hf.1.continuous

theorem SmoothOn.mul {k : Kind} {f g : ℝ → ℝ} (hf : SmoothOn k f) (hg : SmoothOn k g) : SmoothOn k fun x => f x * g x :=
  ⟨hf.1.mul hg.1, fun h x => by beta_reduce; rw [hf.2 h x, hg.2 h x]⟩

theorem determined_smoothOn {k : Kind} (hk : k ≠ .regular) {n : ℕ} (hn : validSize k n) {d : Fin 2} {t : Bool} {f : ℝ → ℝ} (hf : Determined k n d t f) : SmoothOn k f :=
  ⟨determined_contDiff k hk n hn t d hf, fun h => by subst h; exact IsTrigAt.periodic hf⟩

theorem smoothOn_tensor {k k' : Kind} {f : ℝ → ℝ → ℝ} (h : Tensor (SmoothOn k) (SmoothOn k') f) : Smooth2 f :=
  tensor_smooth' (fun _ h => h.1) (fun _ h => h.1) h

theorem smoothOn_px {k k' : Kind} (hk : k = .periodic) {f : ℝ → ℝ → ℝ} (h : Tensor (SmoothOn k) (SmoothOn k') f) (y : ℝ) : Function.Periodic (fun x => f x y) (2 * π) := by
  obtain ⟨m, a, b, hab, he⟩ := h
  intro x
  simp only [he]
  refine sum_congr rfl fun j hj => ?_
  rw [(hab j (mem_range.1 hj)).1.2 hk x]

/-- Projection commutes with the derivative of primal forms. -/
theorem D_smooth {k k' : Kind} {n n' : ℕ} (hn : validSize k n) (hn' : validSize k' n') {d : Fin 3} (hd : d ≠ 2) {σ : List (ℝ → ℝ → ℝ)}
    (h : TensorForm (fun _ => SmoothOn k) (fun _ => SmoothOn k') d σ) :
    ((product (grid₀ k n) (grid₀ k' n')).P d true σ >>= (product (grid₀ k n) (grid₀ k' n')).D d true) = (product (grid₀ k n) (grid₀ k' n')).P (d + 1) true (dForm d σ) := by
  obtain ⟨x0, x1, hlt, hper, e⟩ := grid₀_ends k n
  obtain ⟨y0, y1, hlt', hper', e'⟩ := grid₀_ends k' n'
  have px : ∀ {f : ℝ → ℝ → ℝ}, Tensor (SmoothOn k) (SmoothOn k') f → PeriodicX k x0 x1 f := fun hf hk y => by
    rw [hper hk]; exact smoothOn_px hk hf y
  have py : ∀ {f : ℝ → ℝ → ℝ}, Tensor (SmoothOn k) (SmoothOn k') f → PeriodicY k' y0 y1 f := fun hf hk x => by
    rw [hper' hk]; exact smoothOn_px hk hf.swap x
  rw [e, e']
  rcases TensorForm.cases h with ⟨rfl, f, rfl, hf⟩ | ⟨rfl, f, g, rfl, hf, hg⟩ | ⟨rfl, f, rfl, hf⟩
  · exact C27_primal_0 k k' n n' hn hn' x0 x1 y0 y1 hlt hlt' f (smoothOn_tensor hf) (px hf) (py hf)
  · exact C27_primal_1 k k' n n' hn hn' x0 x1 y0 y1 hlt hlt' f g (smoothOn_tensor hf) (smoothOn_tensor hg) (px hg) (py hf)
  · exact absurd rfl hd

theorem dForm_wedge' {k k' : Kind} {d₀ d₁ : Fin 3} (hd : d₀.val + d₁.val ≤ 1) {α β : List (ℝ → ℝ → ℝ)}
    (hα : TensorForm (fun _ => SmoothOn k) (fun _ => SmoothOn k') d₀ α) (hβ : TensorForm (fun _ => SmoothOn k) (fun _ => SmoothOn k') d₁ β) :
    dForm (d₀.val + d₁.val) (wedgeForm d₀ d₁ α β) = comb ((-1) ^ d₀.val) (wedgeForm (d₀.val + 1) d₁ (dForm d₀ α) β) (wedgeForm d₀ (d₁.val + 1) α (dForm d₁ β)) := by
  have mx : ∀ {f g : ℝ → ℝ → ℝ}, Smooth2 f → Smooth2 g → ∀ x y, dX (fun x y => f x y * g x y) x y = dX f x y * g x y + f x y * dX g x y :=
    fun hf hg x y => ((hf.dX x y).mul (hg.dX x y)).deriv
  have my : ∀ {f g : ℝ → ℝ → ℝ}, Smooth2 f → Smooth2 g → ∀ x y, dY (fun x y => f x y * g x y) x y = dY f x y * g x y + f x y * dY g x y :=
    fun hf hg x y => ((hf.dY x y).mul (hg.dY x y)).deriv
  rcases TensorForm.cases hα with ⟨rfl, f, rfl, hf⟩ | ⟨rfl, f, g, rfl, hf, hg⟩ | ⟨rfl, f, rfl, hf⟩
  · rcases TensorForm.cases hβ with ⟨rfl, f', rfl, hf'⟩ | ⟨rfl, f', g', rfl, hf', hg'⟩ | ⟨rfl, f', rfl, hf'⟩
    · have h1 := smoothOn_tensor hf
      have h2 := smoothOn_tensor hf'
      show [_, _] = [_, _]
      refine congrArg₂ (fun u v => [u, v]) ?_ ?_ <;> funext x y
      · rw [mx h1 h2]; simp
      · rw [my h1 h2]; simp
    · have h1 := smoothOn_tensor hf
      have h2 := smoothOn_tensor hf'
      have h3 := smoothOn_tensor hg'
      show [_] = [_]
      refine congrArg (fun u => [u]) ?_
      funext x y
      rw [mx h1 h3, my h1 h2]; simp; ring
    · exact absurd hd (by decide)
  · rcases TensorForm.cases hβ with ⟨rfl, f', rfl, hf'⟩ | ⟨rfl, f', g', rfl, hf', hg'⟩ | ⟨rfl, f', rfl, hf'⟩
    · have h1 := smoothOn_tensor hf
      have h2 := smoothOn_tensor hg
      have h3 := smoothOn_tensor hf'
      show [_] = [_]
      refine congrArg (fun u => [u]) ?_
      funext x y
      rw [mx h2 h3, my h1 h3]; simp; ring
    · exact absurd hd (by decide)
    · exact absurd hd (by decide)
  · exact absurd hd (by show ¬ (2 + d₁.val ≤ 1); omega)

/-- Products of functions that primal forms determine can be unrefined. -/
theorem primal_product {k : Kind} {n : ℕ} (h : Refinable k n) (d d' : Fin 2) (a b : ℝ → ℝ) (ha : Determined k n d true a) (hb : Determined k n d' true b) :
    Unrefined k n (d + d') fun x => a x * b x := by
  obtain ⟨hn, hk, -⟩ := h
  have hc : Continuous fun x => a x * b x := (determined_smoothOn hk hn ha).1.continuous.mul (determined_smoothOn hk hn hb).1.continuous
  cases k
  · have hn1 : 1 ≤ n := hn
    have ha : IsTrigAt n (if (d = 0) = (true = true) then 0 else π / n) a := ha
    have hb : IsTrigAt n (if (d' = 0) = (true = true) then 0 else π / n) b := hb
    have hm := ((ha.trig hn1).mul (hb.trig hn1)).mono (show n / 2 + n / 2 ≤ n by omega)
    obtain h0 | h0 : d + d' = 0 ∨ d + d' = 1 := by omega
    all_goals rw [h0]
    exacts [hc, hm]
  · exact absurd rfl hk
  · have hn2 : 2 ≤ n := hn
    obtain rfl | rfl : d = 0 ∨ d = 1 := by omega
    all_goals obtain rfl | rfl : d' = 0 ∨ d' = 1 := by omega
    · exact hc
    · have ha : IsPoly n a := by simpa [Determined] using ha
      have hb : IsPoly (n - 1) b := by simpa [Determined] using hb
      exact isPoly_mul (M := 2 * n - 2) (by omega) ha hb
    · have ha : IsPoly (n - 1) a := by simpa [Determined] using ha
      have hb : IsPoly n b := by simpa [Determined] using hb
      exact isPoly_mul (M := 2 * n - 2) (by omega) ha hb
    · exact hc

theorem unrefined_wedge {k k' : Kind} {n n' : ℕ} (h : Refinable k n) (h' : Refinable k' n') {e₀ e₁ : Fin 3} (he : e₀.val + e₁.val ≤ 2) {α β : List (ℝ → ℝ → ℝ)}
    (hα : TensorForm (fun e => Determined k n e true) (fun e => Determined k' n' e true) e₀ α)
    (hβ : TensorForm (fun e => Determined k n e true) (fun e => Determined k' n' e true) e₁ β) :
    TensorForm (Unrefined k n) (Unrefined k' n') (deg2 e₀ e₁) (wedgeForm e₀ e₁ α β) :=
  wedgeForm_tensor' (unrefined_space h.2.1 n) (primal_product h) (primal_product h') he hα hβ

/-! ## The rule -/

/-- **C122**: on a product of periodic and Chebyshev grids (Chebyshev axes with at most 927 vertices), for all arrays of coefficients of primal forms `a`, `b` whose degrees have
a sum of at most one, `d(a ∧ b) = da ∧ b + (-1)^deg(a) a ∧ db`, exactly. -/
theorem C122_leibniz (k k' : Kind) (n n' : ℕ) (h : Refinable k n) (h' : Refinable k' n') (d₀ d₁ : Fin 3) (hd : d₀.val + d₁.val ≤ 1) (a b : List ℝ)
    (ha : (product (grid₀ k n) (grid₀ k' n')).N d₀ true = .ok a.length) (hb : (product (grid₀ k n) (grid₀ k' n')).N d₁ true = .ok b.length) :
    ∃ ab dab da db x y, (product (grid₀ k n) (grid₀ k' n')).wedge d₀ true d₁ true true a b = .ok ab ∧
      (product (grid₀ k n) (grid₀ k' n')).D (d₀ + d₁) true ab = .ok dab ∧
      (product (grid₀ k n) (grid₀ k' n')).D d₀ true a = .ok da ∧ (product (grid₀ k n) (grid₀ k' n')).D d₁ true b = .ok db ∧
      (product (grid₀ k n) (grid₀ k' n')).wedge (d₀ + 1) true d₁ true true da b = .ok x ∧
      (product (grid₀ k n) (grid₀ k' n')).wedge d₀ true (d₁ + 1) true true a db = .ok y ∧
      dab = vadd x (y.map ((-1 : ℝ) ^ d₀.val * ·)) := by
  have hx := grid₀_factor k n h.1
  have hy := grid₀_factor k' n' h'.1
  obtain ⟨M, p, rx⟩ := refine_det h
  obtain ⟨M', p', ry⟩ := refine_det h'
  obtain ⟨α, -, hα, pα, -⟩ := C70_reconstruction_determined_2d k k' n n' h.1 h'.1 d₀ true a ha
  obtain ⟨β, -, hβ, pβ, -⟩ := C70_reconstruction_determined_2d k k' n n' h.1 h'.1 d₁ true b hb
  have sm : ∀ {d : Fin 3} {σ : List (ℝ → ℝ → ℝ)}, TensorForm (fun e => Determined k n e true) (fun e => Determined k' n' e true) d σ →
      TensorForm (fun _ => SmoothOn k) (fun _ => SmoothOn k') d σ := fun hσ =>
    tensorForm_mono (fun d f hf => determined_smoothOn h.2.1 h.1 hf) (fun d f hf => determined_smoothOn h'.2.1 h'.1 hf) hσ
  have h0 : d₀ ≠ 2 := by rintro rfl; exact absurd hd (by show ¬ (2 + d₁.val ≤ 1); omega)
  have h1 : d₁ ≠ 2 := by rintro rfl; exact absurd hd (by show ¬ (d₀.val + 2 ≤ 1); omega)
  have v0 : (d₀ + 1).val = d₀.val + 1 := (by decide : ∀ d : Fin 3, d ≠ 2 → (d + 1).val = d.val + 1) d₀ h0
  have v1 : (d₁ + 1).val = d₁.val + 1 := (by decide : ∀ d : Fin 3, d ≠ 2 → (d + 1).val = d.val + 1) d₁ h1
  have dα := dForm_tensor ((spans' k n h.1).space 1 true) (fun f hf => determined_deriv k h.2.1 n h.1 true hf) (fun f hf => determined_deriv k' h'.2.1 n' h'.1 true hf) h0 hα
  have dβ := dForm_tensor ((spans' k n h.1).space 1 true) (fun f hf => determined_deriv k h.2.1 n h.1 true hf) (fun f hf => determined_deriv k' h'.2.1 n' h'.1 true hf) h1 hβ
  have dsm := fun {d : Fin 3} (hd2 : d ≠ 2) {σ : List (ℝ → ℝ → ℝ)} {l : List ℝ} (hσ : TensorForm (fun e => Determined k n e true) (fun e => Determined k' n' e true) d σ)
      (pσ : (product (grid₀ k n) (grid₀ k' n')).P d true σ = .ok l) => by
    have := D_smooth h.1 h'.1 hd2 (sm hσ)
    rw [pσ] at this
    exact this
  have hdd : deg2 d₀ d₁ ≠ 2 := (by decide : ∀ d e : Fin 3, d.val + e.val ≤ 1 → deg2 d e ≠ 2) d₀ d₁ hd
  have vd : (deg2 d₀ d₁).val = d₀.val + d₁.val := (by decide : ∀ d e : Fin 3, d.val + e.val ≤ 1 → (deg2 d e).val = d.val + e.val) d₀ d₁ hd
  have ed : d₀ + d₁ = deg2 d₀ d₁ := (by decide : ∀ d e : Fin 3, d.val + e.val ≤ 1 → d + e = deg2 d e) d₀ d₁ hd
  have ex : deg2 (d₀ + 1) d₁ = deg2 d₀ d₁ + 1 := (by decide : ∀ d e : Fin 3, d.val + e.val ≤ 1 → deg2 (d + 1) e = deg2 d e + 1) d₀ d₁ hd
  have ey : deg2 d₀ (d₁ + 1) = deg2 d₀ d₁ + 1 := (by decide : ∀ d e : Fin 3, d.val + e.val ≤ 1 → deg2 d (e + 1) = deg2 d e + 1) d₀ d₁ hd
  obtain ⟨_, _, ab, e1, e2, e3, e4⟩ := wedge_exact hx hy rx ry d₀ d₁ (by omega) true true true α β hα hβ fun _ => unrefined_wedge h h' (by omega) hα hβ
  rw [pα] at e1; cases e1
  rw [pβ] at e2; cases e2
  have wx := unrefined_wedge h h' (e₀ := d₀ + 1) (e₁ := d₁) (by omega) dα hβ
  have wy := unrefined_wedge h h' (e₀ := d₀) (e₁ := d₁ + 1) (by omega) hα dβ
  obtain ⟨da, _, x, x1, x2, x3, x4⟩ := wedge_exact hx hy rx ry (d₀ + 1) d₁ (by omega) true true true _ β dα hβ fun _ => wx
  rw [pβ] at x2; cases x2
  obtain ⟨_, db, y, y1, y2, y3, y4⟩ := wedge_exact hx hy rx ry d₀ (d₁ + 1) (by omega) true true true α _ hα dβ fun _ => wy
  rw [pα] at y1; cases y1
  have hab := D_smooth h.1 h'.1 hdd (wedgeForm_tensor' (V := fun _ => SmoothOn k) (W := fun _ => SmoothOn k') (V' := fun _ => SmoothOn k) (W' := fun _ => SmoothOn k')
    (Q := fun _ => SmoothOn k) (R := fun _ => SmoothOn k') (fun _ => space_smooth k) (fun _ _ _ _ h1 h2 => h1.mul h2) (fun _ _ _ _ h1 h2 => h1.mul h2) (by omega) (sm hα) (sm hβ))
  replace hab : ((product (grid₀ k n) (grid₀ k' n')).P (deg2 d₀ d₁) true (wedgeForm d₀ d₁ α β) >>= (product (grid₀ k n) (grid₀ k' n')).D (deg2 d₀ d₁) true)
    = (product (grid₀ k n) (grid₀ k' n')).P (deg2 d₀ d₁ + 1) true (dForm (deg2 d₀ d₁).val (wedgeForm d₀ d₁ α β)) := hab
  rw [e4] at hab
  replace hab : (product (grid₀ k n) (grid₀ k' n')).D (deg2 d₀ d₁) true ab = (product (grid₀ k n) (grid₀ k' n')).P (deg2 d₀ d₁ + 1) true (dForm (deg2 d₀ d₁).val (wedgeForm d₀ d₁ α β)) := hab
  rw [ex] at x4 wx
  rw [ey] at y4 wy
  have := P_comb hx hy (unrefined_space h.2.1 n) (unrefined_space h'.2.1 n') true wx wy ((-1) ^ d₀.val) x4 y4
  rw [v0, v1, ← dForm_wedge' hd (sm hα) (sm hβ), ← vd, ← hab] at this
  refine ⟨ab, _, da, db, x, y, e3, ed ▸ this, (dsm h0 hα pα).trans x1, (dsm h1 hβ pβ).trans y2, x3, y3, rfl⟩

/-! ## One dimension, with boundary terms -/

/-- The derivative of a discrete 0-form that represents the function `f`: on dual cells it includes the boundary term, as in the property C08. -/
noncomputable def fullD (g : Grid1) (t : Bool) (f : ℝ → ℝ) (a : List ℝ) : Option (List ℝ) :=
  if t then g.D 0 true a else (g.D 0 false a).map (vadd · (g.boundary_condition f))

theorem fullD_P (n : ℕ) (hn : 2 ≤ n) (t : Bool) (f f' : ℝ → ℝ) (hd : ∀ x, HasDerivAt f (f' x) x) (hc : Continuous f') :
    fullD (Chebyshev.make n) t f ((Chebyshev.make n).P 0 t f) = some ((Chebyshev.make n).P 1 t f') := by
  cases t
  · exact C08_interval .chebyshev n hn (-1) 1 (by norm_num) f f' (fun s _ => hd s) (hc.intervalIntegrable _ _)
  · exact C07_interval .chebyshev n hn (-1) 1 (by norm_num) f f' (fun s _ => hd s) (hc.intervalIntegrable _ _)

theorem cheb_P1_add (n : ℕ) (hn : 2 ≤ n) (t : Bool) {f g : ℝ → ℝ} (hf : Continuous f) (hg : Continuous g) :
    (Chebyshev.make n).P 1 t (fun x => f x + g x) = vadd ((Chebyshev.make n).P 1 t f) ((Chebyshev.make n).P 1 t g) := by
  have hI := Chebyshev.isInterval hn (-1) 1
  cases t
  · rw [hI.P1d, hI.P1d, hI.P1d, vadd_tab]
    exact tab_congr fun i _ => intervalIntegral.integral_add (hf.intervalIntegrable _ _) (hg.intervalIntegrable _ _)
  · rw [hI.P1, hI.P1, hI.P1, vadd_tab]
    exact tab_congr fun i _ => intervalIntegral.integral_add (hf.intervalIntegrable _ _) (hg.intervalIntegrable _ _)

/-- **C122**: on a Chebyshev grid with at most 927 vertices the rule holds for all arrays `a`, `b` on any sides and with the result on any side, when the derivatives of dual
forms include the boundary term of the functions that the arrays represent. -/
theorem C122_sides (n : ℕ) (hn : 2 ≤ n) (h927 : n ≤ 927) (s t u : Bool) (a b : List ℝ) (ha : a.length = (Chebyshev.make n).N 0 s) (hb : b.length = (Chebyshev.make n).N 0 t) :
    ∃ f g, (∀ x ∈ Set.Icc (-1 : ℝ) 1, (Chebyshev.make n).R 0 s a x = some (f x)) ∧ (∀ x ∈ Set.Icc (-1 : ℝ) 1, (Chebyshev.make n).R 0 t b x = some (g x)) ∧
      ∃ da db ab dab x y, fullD (Chebyshev.make n) s f a = some da ∧ fullD (Chebyshev.make n) t g b = some db ∧
        (Chebyshev.make n).wedge 0 s 0 t u a b = .ok ab ∧ fullD (Chebyshev.make n) u (fun x => f x * g x) ab = some dab ∧
        (Chebyshev.make n).wedge 1 s 0 t u da b = .ok x ∧ (Chebyshev.make n).wedge 0 s 1 t u a db = .ok y ∧ dab = vadd x y := by
  have hI := Chebyshev.isInterval hn (-1) 1
  have N0 : ∀ t, (Chebyshev.make n).N 0 t = if t then n else n - 1 := fun t => by cases t <;> rfl
  have N1 : ∀ t, (Chebyshev.make n).N 1 t = if t then n - 1 else n := fun t => by cases t <;> rfl
  obtain ⟨f, hf, pf, rf⟩ := C70_reconstruction_determined .chebyshev n hn 0 s a ha
  obtain ⟨g, hg, pg, rg⟩ := C70_reconstruction_determined .chebyshev n hn 0 t b hb
  replace pf : (Chebyshev.make n).P 0 s f = a := pf
  replace pg : (Chebyshev.make n).P 0 t g = b := pg
  have hf : IsPoly (if s then n else n - 1) f := by cases s <;> simpa [Determined] using hf
  have hg : IsPoly (if t then n else n - 1) g := by cases t <;> simpa [Determined] using hg
  have ex : ∀ {m : ℕ} {f : ℝ → ℝ}, IsPoly m f → ∃ f', (∀ x, HasDerivAt f (f' x) x) ∧ IsPoly (m - 1) f' := fun {m f} hf => by
    obtain ⟨P, -, e⟩ := hf.exists_eval
    obtain rfl : f = fun x => P.eval x := funext e
    exact ⟨fun x => P.derivative.eval x, fun x => P.hasDerivAt x, isPoly_deriv hf fun x => P.hasDerivAt x⟩
  obtain ⟨f', df, hf'⟩ := ex hf
  obtain ⟨g', dg, hg'⟩ := ex hg
  have w0 := C21_chebyshev_wedge_exact n hn 0 0 (by decide) s t u (fun h => absurd h (by decide)) (fun h => absurd h (by decide)) _ _ (le_of_eq (N0 s).symm) (le_of_eq (N0 t).symm)
    (fun h => absurd h (by decide)) f g hf hg
  have w1 := C21_chebyshev_wedge_exact n hn 1 0 (by decide) s t u (fun _ _ => h927) (fun h => absurd h (by decide)) _ _
    (show (if s then n else n - 1) - 1 ≤ _ by rw [N1]; split_ifs <;> omega) (le_of_eq (N0 t).symm) (fun _ => by split_ifs <;> omega) f' g hf' hg
  have w2 := C21_chebyshev_wedge_exact n hn 0 1 (by decide) s t u (fun h => absurd h (by decide)) (fun _ _ => h927) _ _ (le_of_eq (N0 s).symm)
    (show (if t then n else n - 1) - 1 ≤ _ by rw [N1]; split_ifs <;> omega) (fun _ => by split_ifs <;> omega) f g' hf hg'
  have da := fullD_P n hn s f f' df hf'.continuous
  have db := fullD_P n hn t g g' dg hg'.continuous
  have dab := fullD_P n hn u (fun x => f x * g x) (fun x => f' x * g x + f x * g' x) (fun x => (df x).mul (dg x)) ((hf'.continuous.mul hg.continuous).add (hf.continuous.mul hg'.continuous))
  have sum := cheb_P1_add n hn u (f := fun x => f' x * g x) (g := fun x => f x * g' x) (hf'.continuous.mul hg.continuous) (hf.continuous.mul hg'.continuous)
  rw [pf] at w0 w2 da
  rw [pg] at w0 w1 db
  exact ⟨f, g, rf, rg, (Chebyshev.make n).P 1 s f', (Chebyshev.make n).P 1 t g', (Chebyshev.make n).P 0 u (fun x => f x * g x),
    (Chebyshev.make n).P 1 u (fun x => f' x * g x + f x * g' x), (Chebyshev.make n).P 1 u (fun x => f' x * g x), (Chebyshev.make n).P 1 u (fun x => f x * g' x),
    da, db, w0, dab, w1, w2, sum⟩

/-- **C122**: in particular on the primal side no boundary term occurs and the rule holds for the derivative of the library itself. -/
theorem C122_leibniz_1d (n : ℕ) (hn : 2 ≤ n) (h927 : n ≤ 927) (a b : List ℝ) (ha : a.length = n) (hb : b.length = n) :
    ∃ da db ab dab x y, (Chebyshev.make n).D 0 true a = some da ∧ (Chebyshev.make n).D 0 true b = some db ∧
      (Chebyshev.make n).wedge 0 true 0 true true a b = .ok ab ∧ (Chebyshev.make n).D 0 true ab = some dab ∧
      (Chebyshev.make n).wedge 1 true 0 true true da b = .ok x ∧ (Chebyshev.make n).wedge 0 true 1 true true a db = .ok y ∧ dab = vadd x y := by
  obtain ⟨f, g, -, -, h⟩ := C122_sides n hn h927 true true true a b ha hb
  simpa only [fullD, if_true] using h

/-- **C122** (the limit of the rule): on the dual side the rule is false for the derivative of the library without boundary terms, on every Chebyshev grid, already for the
constant one: `d(1 ∧ 1) = d1` but `d1 ∧ 1 + 1 ∧ d1 = 2 d1`, and `d1` is 1 at the first edge. -/
theorem C122_dual_fails (n : ℕ) (hn : 2 ≤ n) :
    ∃ one d1, one = List.replicate (n - 1) (1 : ℝ) ∧ (Chebyshev.make n).D 0 false one = some d1 ∧ (Chebyshev.make n).wedge 0 false 0 false false one one = .ok one ∧
      (Chebyshev.make n).wedge 1 false 0 false false d1 one = .ok d1 ∧ (Chebyshev.make n).wedge 0 false 1 false false one d1 = .ok d1 ∧
      d1.getD 0 0 = 1 ∧ d1 ≠ vadd d1 d1 := by
  have hI := Chebyshev.isInterval hn (-1) 1
  have h1 : IsPoly 1 fun _ : ℝ => (1 : ℝ) := ⟨fun _ => 1, fun x => by simp⟩
  have p1 : (Chebyshev.make n).P 0 false (fun _ => 1) = List.replicate (n - 1) 1 := by rw [hI.P0d, replicate_tab]; rfl
  obtain ⟨d1, hd⟩ : ∃ d1, (Chebyshev.make n).D 0 false (List.replicate (n - 1) 1) = some d1 := ⟨_, rfl⟩
  have e1 : d1 = tab n fun i => (if i < n - 1 then 1 else 0) - if i = 0 then 0 else 1 := by
    rw [← p1, hI.D0d, hI.P0d, hI.diff_zero_pad] at hd
    exact (Option.some.inj hd).symm
  have hl : d1.length = (Chebyshev.make n).N 1 false := by rw [e1, length_tab]; rfl
  obtain ⟨q, hq, pq, -⟩ := C70_reconstruction_determined .chebyshev n hn 1 false d1 hl
  replace pq : (Chebyshev.make n).P 1 false q = d1 := pq
  have hq : IsPoly n q := by simpa [Determined] using hq
  have hN0 : (Chebyshev.make n).N 0 false = n - 1 := rfl
  have hN1 : (Chebyshev.make n).N 1 false = n := rfl
  have w1 := C21_chebyshev_wedge_exact n hn 1 0 (by decide) false false false (fun _ h => absurd h (by decide)) (fun h => absurd h (by decide)) n 1 (by rw [hN1]) (by rw [hN0]; omega)
    (fun _ => by omega) q (fun _ => 1) hq h1
  have w2 := C21_chebyshev_wedge_exact n hn 0 1 (by decide) false false false (fun h => absurd h (by decide)) (fun _ h => absurd h (by decide)) 1 n (by rw [hN0]; omega) (by rw [hN1])
    (fun _ => by omega) (fun _ => 1) q h1 hq
  have w0 := C21_chebyshev_wedge_exact n hn 0 0 (by decide) false false false (fun h => absurd h (by decide)) (fun h => absurd h (by decide)) 1 1 (by rw [hN0]; omega) (by rw [hN0]; omega)
    (fun h => absurd h (by decide)) (fun _ => 1) (fun _ => 1) h1 h1
  simp only [mul_one, one_mul, pq, p1] at w0 w1 w2
  have h0 : d1.getD 0 0 = 1 := by
    rw [e1, getD_tab (by omega)]
    simp only [if_true, sub_zero]
    rw [if_pos (by omega)]
  refine ⟨_, d1, rfl, hd, w0.trans (congrArg _ p1), w1.trans (congrArg _ pq), w2.trans (congrArg _ pq), h0, fun h => ?_⟩
  have h2 : (vadd d1 d1).getD 0 0 = 2 := by
    rw [e1, vadd_tab, getD_tab (by omega)]
    simp only [if_true, sub_zero]
    rw [if_pos (by omega)]; norm_num
  rw [← h, h0] at h2
  norm_num at h2

/-- A concrete case: all arrays on a Chebyshev grid with three vertices, and on its product with a periodic grid with two. -/
example : 2 ≤ 3 ∧ 3 ≤ 927 ∧ ([1, -2, 5] : List ℝ).length = 3 ∧ Refinable .chebyshev 3 ∧ Refinable .periodic 2 ∧
    (product (grid₀ .periodic 2) (grid₀ .chebyshev 3)).N 0 true = .ok ([1, -2, 3, 0, 5, 7] : List ℝ).length :=
  ⟨by norm_num, by norm_num, rfl, ⟨by norm_num [validSize], by simp, fun _ => by norm_num⟩, ⟨by norm_num [validSize], by simp, by simp⟩,
    N_eq (grid₀_factor .periodic 2 (by norm_num [validSize])) (grid₀_factor .chebyshev 3 (by norm_num [validSize])) 0 true⟩

end Dec.Props
