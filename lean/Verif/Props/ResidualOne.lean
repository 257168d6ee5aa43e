import Verif.Props.Residual
import Verif.Props.LaplaceOne
import Verif.Props.Grid2Commute
import Mathlib.Analysis.Calculus.FDeriv.Symmetric

set_option linter.unusedSimpArgs false
set_option linter.unusedVariables false

/-!
# C113: the left-hand sides for 1-forms of the Poisson example on Chebyshev grids (`/repo/doc/plot/cheb/poisson2d_cheb.py:35-43`)
-/

namespace Dec.Props

open Real Finset Dec.G2 Dec.Sp

theorem vadd_assoc' {m : ℕ} {x y z : List ℝ} (hx : x.length = m) (hy : y.length = m) (hz : z.length = m) : vadd (vadd x y) z = vadd x (vadd y z) := by
  obtain ⟨f, rfl⟩ : ∃ f, x = tab m f := ⟨_, eq_tab' hx 0⟩
  obtain ⟨g, rfl⟩ : ∃ g, y = tab m g := ⟨_, eq_tab' hy 0⟩
  obtain ⟨h, rfl⟩ : ∃ h, z = tab m h := ⟨_, eq_tab' hz 0⟩
  simp only [vadd_tab]
  exact tab_congr fun _ _ => add_assoc _ _ _

/-- The mixed derivatives of a function with continuously differentiable derivatives agree. -/
theorem mixed_eq {f : ℝ → ℝ → ℝ} (hf : Smooth2 f) (hfx : Smooth2 (dX f)) (hfy : Smooth2 (dY f)) : dX (dY f) = dY (dX f) := by
  funext x y
  set F : ℝ × ℝ → ℝ := fun p => f p.1 p.2 with hF
  set F' : ℝ × ℝ → (ℝ × ℝ →L[ℝ] ℝ) := fun p => dX f p.1 p.2 • ContinuousLinearMap.fst ℝ ℝ ℝ + dY f p.1 p.2 • ContinuousLinearMap.snd ℝ ℝ ℝ with hF'
  have dF : Differentiable ℝ F := ContDiff.differentiable hf (by norm_num)
  have part : ∀ (g : ℝ → ℝ → ℝ) (L : ℝ × ℝ →L[ℝ] ℝ) (x y : ℝ), HasFDerivAt (fun p : ℝ × ℝ => g p.1 p.2) L (x, y) → dX g x y = L (1, 0) ∧ dY g x y = L (0, 1) := fun g L x y h => by
    constructor
    · have h1 : HasDerivAt (fun s : ℝ => ((s, y) : ℝ × ℝ)) (1, 0) x := (hasDerivAt_id x).prodMk (hasDerivAt_const x y)
      exact (h.comp_hasDerivAt x h1).deriv
    · have h1 : HasDerivAt (fun s : ℝ => ((x, s) : ℝ × ℝ)) (0, 1) y := (hasDerivAt_const y x).prodMk (hasDerivAt_id y)
      exact (h.comp_hasDerivAt y h1).deriv
  have h1 : ∀ p, HasFDerivAt F (F' p) p := fun p => by
    have h := (dF p).hasFDerivAt
    have e := part f _ p.1 p.2 h
    refine h.congr_fderiv ?_
    refine ContinuousLinearMap.ext fun v => ?_
    have hv : v = v.1 • ((1, 0) : ℝ × ℝ) + v.2 • ((0, 1) : ℝ × ℝ) := by ext <;> simp
    show _ = dX f p.1 p.2 * v.1 + dY f p.1 p.2 * v.2
    rw [e.1, e.2]
    conv_lhs => rw [hv]
    rw [map_add, map_smul, map_smul, smul_eq_mul, smul_eq_mul, mul_comm, mul_comm v.2]
  have hdx := (ContDiff.differentiable hfx (by norm_num)) (x, y) |>.hasFDerivAt
  have hdy := (ContDiff.differentiable hfy (by norm_num)) (x, y) |>.hasFDerivAt
  have h2 : HasFDerivAt F' _ (x, y) := (hdx.smul_const (ContinuousLinearMap.fst ℝ ℝ ℝ)).add (hdy.smul_const (ContinuousLinearMap.snd ℝ ℝ ℝ))
  have h3 := second_derivative_symmetric h1 h2 (1, 0) (0, 1)
  simp at h3
  rw [(part (dY f) _ x y hdy).1, (part (dX f) _ x y hdx).2]
  exact h3

section
variable (k k' : Kind) (n n' : ℕ) (hn : validSize k n) (hn' : validSize k' n') (h927 : k = .chebyshev → n ≤ 927) (h927' : k' = .chebyshev → n' ≤ 927) (xmin xmax ymin ymax : ℝ)
  (hab : xmin < xmax) (hab' : ymin < ymax)

local notation "gx" => grid k n xmin xmax
local notation "gy" => grid k' n' ymin ymax
local notation "𝔾" => product (grid k n xmin xmax) (grid k' n' ymin ymax)
local notation "𝔫" => count (grid k n xmin xmax) (grid k' n' ymin ymax)

include hn hn' h927 h927' hab hab'

/-- **C113** (primal): for every field `(f_x, f_y)`, the left-hand side for 1-forms with prescribed normal component and curl (which is zero), `L1(P1(f_x, f_y)) + H1d(BC0 0) + D0(H2d(BC1(-f_y, f_x)))`,
is the derivative of the left-hand side for the 0-form `f` with prescribed normal derivative, `L0(P0 f) + H2d(BC1(-f_y, f_x))`. -/
theorem C113_primal (f : ℝ → ℝ → ℝ) (hf : Smooth2 f) (hp : PeriodicX k xmin xmax f) (hp' : PeriodicY k' ymin ymax f) :
    ∃ p L v w p₁ L₁ c₀ c₁ w₁, (𝔾).P 0 true [f] = .ok p ∧ lap2 𝔾 true p = .ok L ∧ (𝔾).BC 2 [fun x y => -dY f x y, dX f] = .ok v ∧ (𝔾).H 2 false v = .ok w ∧
      (𝔾).P 1 true [dX f, dY f] = .ok p₁ ∧ lapOne 𝔾 true p₁ = .ok L₁ ∧ (𝔾).BC 1 [fun _ _ => 0] = .ok c₀ ∧ (𝔾).H 1 false c₀ = .ok c₁ ∧ (𝔾).D 0 true w = .ok w₁ ∧
      (𝔾).D 0 true (vadd L w) = .ok (vadd (vadd L₁ c₁) w₁) ∧ L.length = w.length ∧ (𝔾).N 0 true = .ok (vadd L w).length := by
  obtain ⟨δ, η, C⟩ := exists_calc₀ k k' n n' hn hn' xmin xmax ymin ymax h927 h927'
  have Fx := grid_factor k n hn xmin xmax
  have Fy := grid_factor k' n' hn' ymin ymax
  have hc := C27_primal_0 k k' n n' hn hn' xmin xmax ymin ymax hab hab' f hf hp hp'
  rw [P0_mtab Fx Fy] at hc
  have e0 := P0_mtab Fx Fy true f
  generalize hP : (mtab ((gy).N 0 true) ((gx).N 0 true) fun j i => f (vx gx true i) (vx gy true j)).data = p at hc e0
  have lp : p.length = 𝔫 0 true := by rw [← hP]; exact length_data _ _ _
  have hc' : (𝔾).D 0 true p = (𝔾).P 1 true [dX f, dY f] := hc
  rw [C.o.D 0 true (by decide) p lp] at hc'
  have l1 := C.lD0 lp
  have z0 : (𝔾).BC 1 [fun _ _ => 0] = .ok (List.replicate (𝔫 1 false) 0) := by
    rw [BC1_mtab Fx Fy]
    refine congrArg _ ?_
    have hb : ∀ (g : Grid1) i, G2.beta g (fun _ => (0 : ℝ)) i = 0 := fun g i => by unfold G2.beta; split_ifs <;> simp
    simp only [hb]
    have hz : ∀ r c : ℕ, (mtab r c fun _ _ => (0 : ℝ)).data = List.replicate (r * c) 0 := fun r c => (replicate_tab _ _).symm
    rw [hz, hz, List.replicate_append_replicate]
    rfl
  obtain ⟨v, hv⟩ : ∃ v, (𝔾).BC 2 [fun x y => -dY f x y, dX f] = .ok v := ⟨_, BC2_mtab Fx Fy _ _⟩
  have lv : v.length = 𝔫 2 false := by
    have := (BC2_mtab Fx Fy (fun x y => -dY f x y) (dX f)).symm.trans hv
    rw [← Except.ok.inj this]; exact length_data _ _ _
  have hz := lin_zero (C.o.linH 1 false)
  have lw : (η 2 false v).length = 𝔫 0 true := C.lH2 lv
  have lL : (η 2 false (δ 1 false (η 1 true (δ 0 true p)))).length = 𝔫 0 true := C.lH2' (s := true) (C.lD1 (C.lH l1))
  refine ⟨p, _, v, _, _, _, _, _, _, e0, C.lap2 true lp, hv, C.o.H 2 false v lv, hc'.symm, C.lapOne true l1, z0, (C.o.H 1 false _ (by simp)).trans (by rw [hz]), C.o.D 0 true (by decide) _ lw, ?_,
    lL.trans lw.symm, ?_⟩
  · have lad : (vadd (η 2 false (δ 1 false (η 1 true (δ 0 true p)))) (η 2 false v)).length = 𝔫 0 true := by simp only [vadd, List.length_zipWith]; omega
    refine (C.o.D 0 true (by decide) _ lad).trans (congrArg _ ?_)
    rw [(C.o.linD 0 true (by decide)).add _ _ lL lw]
    refine congrArg (fun s => vadd s _) ?_
    have z1 := lin_zero (C.o.linH 2 true)
    have z2 := lin_zero (C.o.linD 0 false (by decide))
    rw [C.dd true p lp, z1]
    have e : δ 0 false (List.replicate (𝔫 0 false) 0) = List.replicate (𝔫 1 false) 0 := z2
    have e' : η 1 false (List.replicate (𝔫 1 false) 0) = List.replicate (𝔫 1 true) 0 := hz
    show _ = vadd (vadd _ (η 1 false (δ 0 false (List.replicate (𝔫 0 false) 0)))) _
    rw [e, e', vadd_zero_right (C.lE l1)]
    exact (vadd_zero_right (C.lE l1)).symm
  · refine (count_iff k k' n n' hn hn' xmin xmax ymin ymax 0 true _).2 ?_
    show (vadd (η 2 false (δ 1 false (η 1 true (δ 0 true p)))) (η 2 false v)).length = _
    simp only [vadd, List.length_zipWith]; omega

/-- **C113** (dual): for every field `(f_x, f_y)` and every function `q`, the left-hand side for 1-forms with prescribed tangential component and divergence,
`L1d(P1d(f_x, f_y)) + H1(D0(H2d(BC1(f_x, f_y)))) + BC0 q`, is the derivative of the left-hand side for the 0-form `f` with prescribed values, `L0d(P0d f) + H2(D1(H1d(BC0 f)))`, plus `BC0 q`. -/
theorem C113_dual (f q : ℝ → ℝ → ℝ) (hf : Smooth2 f) (hfx : Smooth2 (dX f)) (hfy : Smooth2 (dY f)) (hp : PeriodicX k xmin xmax f) (hp' : PeriodicY k' ymin ymax f) :
    ∃ p L v w₁ w₂ w₃ p₁ L₁ b₁ b₂ b₃ b₄ c u, (𝔾).P 0 false [f] = .ok p ∧ lap2 𝔾 false p = .ok L ∧ (𝔾).BC 1 [f] = .ok v ∧ (𝔾).H 1 false v = .ok w₁ ∧ (𝔾).D 1 true w₁ = .ok w₂ ∧ (𝔾).H 2 true w₂ = .ok w₃ ∧
      (𝔾).P 1 false [dX f, dY f] = .ok p₁ ∧ lapOne 𝔾 false p₁ = .ok L₁ ∧ (𝔾).BC 2 [dX f, dY f] = .ok b₁ ∧ (𝔾).H 2 false b₁ = .ok b₂ ∧ (𝔾).D 0 true b₂ = .ok b₃ ∧ (𝔾).H 1 true b₃ = .ok b₄ ∧
      (𝔾).BC 1 [q] = .ok c ∧ (𝔾).D 0 false (vadd L w₃) = .ok u ∧ vadd (vadd L₁ b₄) c = vadd u c ∧ u.length = c.length ∧ L₁.length = b₄.length ∧ b₄.length = c.length ∧
      (𝔾).N 0 false = .ok (vadd L w₃).length := by
  obtain ⟨δ, η, C⟩ := exists_calc₀ k k' n n' hn hn' xmin xmax ymin ymax h927 h927'
  have Fx := grid_factor k n hn xmin xmax
  have Fy := grid_factor k' n' hn' ymin ymax
  obtain ⟨u, v, h1, h2, h3, h4⟩ := C27_dual_0 k k' n n' hn hn' xmin xmax ymin ymax hab hab' f hf hp hp'
  have q1 : PeriodicX k xmin xmax (dY f) := fun hk y x => by
    show deriv (fun s => f (x + (xmax - xmin)) s) y = deriv (fun s => f x s) y
    rw [show (fun s => f (x + (xmax - xmin)) s) = fun s => f x s from funext fun s => hp hk s x]
  have q2 : PeriodicY k' ymin ymax (dX f) := fun hk x y => by
    show deriv (fun s => f s (y + (ymax - ymin))) x = deriv (fun s => f s y) x
    rw [show (fun s => f s (y + (ymax - ymin))) = fun s => f s y from funext fun s => hp' hk s y]
  obtain ⟨u', b₁, g1, g2, g3, g4⟩ := C27_dual_1 k k' n n' hn hn' xmin xmax ymin ymax hab hab' (dX f) (dY f) hfx hfy q1 q2
  rw [P0_mtab Fx Fy] at h1
  have e0 := P0_mtab Fx Fy false f
  generalize hP : (mtab ((gy).N 0 false) ((gx).N 0 false) fun j i => f (vx gx false i) (vx gy false j)).data = p at h1 e0
  have lp : p.length = 𝔫 0 false := by rw [← hP]; exact length_data _ _ _
  have h1' : (𝔾).D 0 false p = .ok u := h1
  obtain rfl := Except.ok.inj ((C.o.D 0 false (by decide) p lp).symm.trans h1')
  have l1 := C.lD0 lp
  have lv : v.length = 𝔫 1 false := h4.symm.trans l1
  obtain ⟨c, hc⟩ : ∃ c, (𝔾).BC 1 [q] = .ok c := ⟨_, BC1_mtab Fx Fy _⟩
  have lc : c.length = 𝔫 1 false := by
    rw [← Except.ok.inj ((BC1_mtab Fx Fy q).symm.trans hc), List.length_append, length_data, length_data]; rfl
  have lp1 : (vadd (δ 0 false p) v).length = 𝔫 1 false := by simp only [vadd, List.length_zipWith]; omega
  rw [h3] at g1
  have g1' : (𝔾).D 1 false (vadd (δ 0 false p) v) = .ok u' := g1
  obtain rfl := Except.ok.inj ((C.o.D 1 false (by decide) _ lp1).symm.trans g1')
  have lb : b₁.length = 𝔫 2 false := g4.symm.trans (C.lD1 lp1)
  -- the curl of a gradient
  have hz : vadd (δ 1 false (vadd (δ 0 false p) v)) b₁ = List.replicate (𝔫 2 false) 0 := by
    have e : (fun x y => dX (dY f) x y - dY (dX f) x y) = fun _ _ => 0 := by funext x y; rw [mixed_eq hf hfx hfy, sub_self]
    rw [e, P2_mtab Fx Fy] at g3
    rw [← Except.ok.inj g3]
    have : (fun j i => Integrate.P2r (fun _ _ => (0 : ℝ)) (lo gx false i) (lo gy false j) (hi gx false i) (hi gy false j)) = fun _ _ => 0 := by
      funext j i; simp [Integrate.P2r]
    rw [this]
    exact (replicate_tab _ _).symm
  have lV : (η 2 true (δ 1 true (η 1 false v))).length = 𝔫 0 false := C.lH2 (s := true) (C.lD1 (C.lH (s := false) lv))
  have lL : (η 2 true (δ 1 true (η 1 false (δ 0 false p)))).length = 𝔫 0 false := C.lH2 (s := true) (C.lD1 (C.lH (s := false) l1))
  have lad : (vadd (η 2 true (δ 1 true (η 1 false (δ 0 false p)))) (η 2 true (δ 1 true (η 1 false v)))).length = 𝔫 0 false := by simp only [vadd, List.length_zipWith]; omega
  have lu : (δ 0 false (vadd (η 2 true (δ 1 true (η 1 false (δ 0 false p)))) (η 2 true (δ 1 true (η 1 false v))))).length = 𝔫 1 false := C.lD0 lad
  have lb2 : (η 2 false b₁).length = 𝔫 0 true := C.lH2 lb
  have lb4 : (η 1 true (δ 0 true (η 2 false b₁))).length = 𝔫 1 false := C.lH (s := true) (C.lD0 lb2)
  have lE : (δ 0 false (η 2 true (δ 1 true (η 1 false (vadd (δ 0 false p) v))))).length = 𝔫 1 false := C.lE (s := false) lp1
  have lC : (η 1 true (δ 0 true (η 2 false (δ 1 false (vadd (δ 0 false p) v))))).length = 𝔫 1 false := C.lC (s := false) lp1
  refine ⟨p, _, v, _, _, _, _, _, b₁, _, _, _, c, _, e0, C.lap2 false lp, h2, C.o.H 1 false v lv, C.o.D 1 true (by decide) _ (C.lH (s := false) lv), C.o.H 2 true _ (C.lD1 (C.lH (s := false) lv)), h3,
    C.lapOne false lp1, g2, C.o.H 2 false b₁ lb, C.o.D 0 true (by decide) _ lb2, C.o.H 1 true _ (C.lD0 lb2), hc, C.o.D 0 false (by decide) _ lad, ?_, lu.trans lc.symm, ?_, lb4.trans lc.symm,
    (count_iff k k' n n' hn hn' xmin xmax ymin ymax 0 false _).2 lad⟩
  · refine congrArg (fun s => vadd s c) ?_
    -- the second part vanishes
    have e1 : vadd (η 1 true (δ 0 true (η 2 false (δ 1 false (vadd (δ 0 false p) v))))) (η 1 true (δ 0 true (η 2 false b₁))) = List.replicate (𝔫 1 false) 0 := by
      have a1 := (C.o.linH 2 false).add _ _ (C.lD1 lp1) lb
      have a2 := (C.o.linD 0 true (by decide)).add _ _ (C.lH2 (s := false) (C.lD1 lp1)) lb2
      have a3 := (C.o.linH 1 true).add _ _ (C.lD0 (s := true) (C.lH2 (s := false) (C.lD1 lp1))) (C.lD0 (s := true) lb2)
      rw [← a3, ← a2, ← a1, hz]
      have z1 : η 2 false (List.replicate (𝔫 2 false) 0) = List.replicate (𝔫 0 true) 0 := lin_zero (C.o.linH 2 false)
      have z2 : δ 0 true (List.replicate (𝔫 0 true) 0) = List.replicate (𝔫 1 true) 0 := lin_zero (C.o.linD 0 true (by decide))
      have z3 : η 1 true (List.replicate (𝔫 1 true) 0) = List.replicate (𝔫 1 false) 0 := lin_zero (C.o.linH 1 true)
      rw [z1, z2, z3]
    -- the first part
    have e2 : δ 0 false (η 2 true (δ 1 true (η 1 false (vadd (δ 0 false p) v)))) = δ 0 false (vadd (η 2 true (δ 1 true (η 1 false (δ 0 false p)))) (η 2 true (δ 1 true (η 1 false v)))) := by
      rw [(C.o.linH 1 false).add _ _ l1 lv, (C.o.linD 1 true (by decide)).add _ _ (C.lH (s := false) l1) (C.lH (s := false) lv),
        (C.o.linH 2 true).add _ _ (C.lD1 (C.lH (s := false) l1)) (C.lD1 (C.lH (s := false) lv))]
    show vadd (vadd (δ 0 false (η 2 true (δ 1 true (η 1 false (vadd (δ 0 false p) v))))) (η 1 true (δ 0 true (η 2 false (δ 1 false (vadd (δ 0 false p) v)))))) (η 1 true (δ 0 true (η 2 false b₁))) = _
    rw [vadd_assoc' lE lC lb4, e1, vadd_zero_right lE, e2]
    rfl
  · show (vadd (δ 0 false (η 2 true (δ 1 true (η 1 false (vadd (δ 0 false p) v))))) (η 1 true (δ 0 true (η 2 false (δ 1 false (vadd (δ 0 false p) v)))))).length = _
    refine Eq.trans ?_ lb4.symm
    exact (show ∀ x y : List ℝ, (vadd x y).length = min x.length y.length from fun _ _ => List.length_zipWith) _ _ |>.trans (by rw [lE, lC, min_self])

end

/-! ## Differences of arrays that are close -/

theorem d0_table (k : Kind) (n : ℕ) (hn : validSize k n) {xmin xmax : ℝ} (hab : xmin < xmax) (t : Bool) :
    ∃ D : (ℕ → ℝ) → ℕ → ℝ, (∀ x, (grid k n xmin xmax).d0 t (tab ((grid k n xmin xmax).N 0 t) x) = .ok (tab ((grid k n xmin xmax).N 1 t) (D x))) ∧
      ∀ x y E, 0 ≤ E → (∀ i < (grid k n xmin xmax).N 0 t, |x i - y i| ≤ E) → ∀ i < (grid k n xmin xmax).N 1 t, |D x i - D y i| ≤ 2 * E := by
  have key : ∀ (k : IKind) (hn : 2 ≤ n), ∃ D : (ℕ → ℝ) → ℕ → ℝ, (∀ x, (intervalGrid k n xmin xmax).d0 t (tab ((intervalGrid k n xmin xmax).N 0 t) x) = .ok (tab ((intervalGrid k n xmin xmax).N 1 t) (D x))) ∧
      ∀ x y E, 0 ≤ E → (∀ i < (intervalGrid k n xmin xmax).N 0 t, |x i - y i| ≤ E) → ∀ i < (intervalGrid k n xmin xmax).N 1 t, |D x i - D y i| ≤ 2 * E := fun k hn => by
    obtain ⟨v, w, hg, -⟩ := exists_isInterval k hn hab
    cases t
    · refine ⟨fun x i => (if i < (intervalGrid k n xmin xmax).n - 1 then x i else 0) - (if i = 0 then 0 else x (i - 1)), fun x => ?_, fun x y E hE h i hi => ?_⟩
      · rw [(interval_d0 hg _).2, hg.N00, hg.N10, hg.diff_zero_pad]
      · rw [hg.N00] at h
        rw [hg.N10] at hi
        have h2 := hg.two_le
        have e1 : |(if i < (intervalGrid k n xmin xmax).n - 1 then x i else 0) - (if i < (intervalGrid k n xmin xmax).n - 1 then y i else 0)| ≤ E := by
          by_cases hc : i < (intervalGrid k n xmin xmax).n - 1
          · simp only [if_pos hc]; exact h i hc
          · simp only [if_neg hc, sub_zero, abs_zero]; exact hE
        have e2 : |(if i = 0 then 0 else x (i - 1)) - (if i = 0 then 0 else y (i - 1))| ≤ E := by
          by_cases hc : i = 0
          · simp only [if_pos hc, sub_zero, abs_zero]; exact hE
          · simp only [if_neg hc]; exact h _ (by omega)
        rw [abs_le] at e1 e2 ⊢
        constructor <;> linarith [e1.1, e1.2, e2.1, e2.2]
    · refine ⟨fun x i => x (i + 1) - x i, fun x => ?_, fun x y E hE h i hi => ?_⟩
      · rw [(interval_d0 hg _).1, hg.N01, hg.N11, diff_tab]
      · rw [hg.N01] at h
        rw [hg.N11] at hi
        have e1 := abs_le.1 (h i (by omega))
        have e2 := abs_le.1 (h (i + 1) (by omega))
        rw [abs_le]
        constructor <;> linarith [e1.1, e1.2, e2.1, e2.2]
  cases k
  · have hn : 0 < n := hn
    cases t
    · refine ⟨fun x i => x i - x ((i + n - 1) % n), fun x => ?_, fun x y E hE h i hi => ?_⟩
      · show Except.ok (Periodic.D0d (tab n x)) = _
        rw [D0d_tab]; rfl
      · have e1 := abs_le.1 (h i hi)
        have e2 := abs_le.1 (h ((i + n - 1) % n) (Nat.mod_lt (i + n - 1) hn))
        beta_reduce
        rw [abs_le]
        constructor <;> linarith [e1.1, e1.2, e2.1, e2.2]
    · refine ⟨fun x i => x ((i + 1) % n) - x i, fun x => ?_, fun x y E hE h i hi => ?_⟩
      · show Except.ok (Periodic.D0 (tab n x)) = _
        rw [D0_tab]; rfl
      · have e1 := abs_le.1 (h i hi)
        have e2 := abs_le.1 (h ((i + 1) % n) (Nat.mod_lt (i + 1) hn))
        beta_reduce
        rw [abs_le]
        constructor <;> linarith [e1.1, e1.2, e2.1, e2.2]
  · exact key .regular hn
  · exact key .chebyshev hn

theorem D0_close (k k' : Kind) (n n' : ℕ) (hn : validSize k n) (hn' : validSize k' n') {xmin xmax ymin ymax : ℝ} (hab : xmin < xmax) (hab' : ymin < ymax) (t : Bool) (a b a' b' : List ℝ)
    (ha : a.length = count (grid k n xmin xmax) (grid k' n' ymin ymax) 0 t) (hb : b.length = count (grid k n xmin xmax) (grid k' n' ymin ymax) 0 t)
    (ha' : (product (grid k n xmin xmax) (grid k' n' ymin ymax)).D 0 t a = .ok a') (hb' : (product (grid k n xmin xmax) (grid k' n' ymin ymax)).D 0 t b = .ok b') (E : ℝ) (hE : 0 ≤ E)
    (h : ∀ i < a.length, |a.getD i 0 - b.getD i 0| ≤ E) : a'.length = count (grid k n xmin xmax) (grid k' n' ymin ymax) 1 t ∧ b'.length = a'.length ∧ ∀ i < a'.length, |a'.getD i 0 - b'.getD i 0| ≤ 2 * E := by
  have Fx := grid_factor k n hn xmin xmax
  have Fy := grid_factor k' n' hn' ymin ymax
  obtain ⟨D, d1, d2⟩ := d0_table k n hn hab t
  obtain ⟨D', d1', d2'⟩ := d0_table k' n' hn' hab' t
  generalize grid k n xmin xmax = gx at *
  generalize grid k' n' ymin ymax = gy at *
  obtain ⟨F, rfl⟩ := flat0 (show a.length = gy.N 0 t * gx.N 0 t from ha)
  obtain ⟨G, rfl⟩ := flat0 (show b.length = gy.N 0 t * gx.N 0 t from hb)
  have h' : ∀ j < gy.N 0 t, ∀ i < gx.N 0 t, |F j i - G j i| ≤ E := fun j hj i hi => by
    have := h (j * gx.N 0 t + i) (by rw [length_data]; exact idx_lt hj hi)
    rwa [getD_data hj hi, getD_data hj hi] at this
  have e : ∀ F, (product gx gy).D 0 t (mtab (gy.N 0 t) (gx.N 0 t) F).data = .ok ((mtab (gy.N 0 t) (gx.N 1 t) fun j => D (F j)).data ++ (mtab (gy.N 1 t) (gx.N 0 t) fun j i => D' (fun j => F j i) j).data) := fun F =>
    D0_mtab Fx Fy t (fun j _ => d1 _) (fun i _ => d1' _)
  rw [e] at ha' hb'
  obtain rfl := Except.ok.inj ha'
  obtain rfl := Except.ok.inj hb'
  refine ⟨by rw [List.length_append, length_data, length_data]; rfl, by simp only [List.length_append, length_data], fun i hi => ?_⟩
  rw [List.length_append, length_data, length_data] at hi
  by_cases hc : i < gy.N 0 t * gx.N 1 t
  · have hpos : 0 < gx.N 1 t := Nat.pos_of_ne_zero fun h0 => by rw [h0, mul_zero] at hc; omega
    have hj : i / gx.N 1 t < gy.N 0 t := Nat.div_lt_of_lt_mul (by rwa [mul_comm])
    have hi' : i % gx.N 1 t < gx.N 1 t := Nat.mod_lt _ hpos
    rw [List.getD_append _ _ _ _ (by rw [length_data]; exact hc), List.getD_append _ _ _ _ (by rw [length_data]; exact hc), ← Nat.div_add_mod' i (gx.N 1 t), getD_data hj hi', getD_data hj hi']
    exact d2 _ _ E hE (fun l hl => h' _ hj l hl) _ hi'
  · obtain ⟨l, rfl⟩ : ∃ l, i = gy.N 0 t * gx.N 1 t + l := ⟨i - gy.N 0 t * gx.N 1 t, by omega⟩
    have hl : l < gy.N 1 t * gx.N 0 t := by omega
    have hpos : 0 < gx.N 0 t := Nat.pos_of_ne_zero fun h0 => by rw [h0, mul_zero] at hl; omega
    have hj : l / gx.N 0 t < gy.N 1 t := Nat.div_lt_of_lt_mul (by rwa [mul_comm])
    have hi' : l % gx.N 0 t < gx.N 0 t := Nat.mod_lt _ hpos
    rw [List.getD_append_right _ _ _ _ (by rw [length_data]; omega), List.getD_append_right _ _ _ _ (by rw [length_data]; omega), length_data, length_data, Nat.add_sub_cancel_left,
      ← Nat.div_add_mod' l (gx.N 0 t), getD_data hj hi', getD_data hj hi']
    exact d2' _ _ E hE (fun m hm => h' m hm _ hi') _ hj

/-! ## The example of the script -/

theorem dX_exp : dX (fun x y => exp x + exp y) = fun x _ => exp x := by
  funext x y
  exact ((Real.hasDerivAt_exp x).add_const _).deriv

theorem dY_exp : dY (fun x y => exp x + exp y) = fun _ y => exp y := by
  funext x y
  exact ((Real.hasDerivAt_exp y).const_add _).deriv

section
variable (n n' : ℕ) (hn : 2 ≤ n) (hn' : 2 ≤ n') (h927 : n ≤ 927) (h927' : n' ≤ 927)

local notation "𝔾" => product (grid Kind.chebyshev n (-1) 1) (grid Kind.chebyshev n' (-1) 1)

include hn hn' h927 h927'

/-- **C113** (the example `f1 = (exp x, exp y)`, normal component and curl prescribed): the largest error the script plots is at most twenty times the two sums of `m⁴ / m!`. -/
theorem C113_example_primal :
    ∃ p L c₀ c₁ v w w₁, (𝔾).P 1 true [fun x _ => exp x, fun _ y => exp y] = .ok p ∧ lapOne 𝔾 true p = .ok L ∧ (𝔾).BC 1 [fun _ _ => 0] = .ok c₀ ∧ (𝔾).H 1 false c₀ = .ok c₁ ∧
      (𝔾).BC 2 [fun _ y => -exp y, fun x _ => exp x] = .ok v ∧ (𝔾).H 2 false v = .ok w ∧ (𝔾).D 0 true w = .ok w₁ ∧
      (𝔾).N 1 true = .ok (vadd (vadd L c₁) w₁).length ∧ (vadd (vadd L c₁) w₁).length = p.length ∧
      ∀ i < p.length, |(vadd (vadd L c₁) w₁).getD i 0 - p.getD i 0| ≤ 20 * (∑' m : ℕ, ((m + n : ℕ) : ℝ) ^ 4 / ((m + n).factorial : ℝ)) + 20 * ∑' m : ℕ, ((m + n' : ℕ) : ℝ) ^ 4 / ((m + n').factorial : ℝ) := by
  have hv : validSize .chebyshev n := hn
  have hv' : validSize .chebyshev n' := hn'
  have h11 : (-1 : ℝ) < 1 := by norm_num
  have hs : Smooth2 fun x y => exp x + exp y := by unfold Smooth2; fun_prop
  have hp : PeriodicX .chebyshev (-1) 1 fun x y => exp x + exp y := fun h => by cases h
  have hp' : PeriodicY .chebyshev (-1) 1 fun x y => exp x + exp y := fun h => by cases h
  obtain ⟨p, L, v, w, p₁, L₁, c₀, c₁, w₁, e1, e2, e3, e4, e5, e6, e7, e8, e9, e10, e11, e12⟩ :=
    C113_primal .chebyshev .chebyshev n n' hv hv' (fun _ => h927) (fun _ => h927') (-1) 1 (-1) 1 h11 h11 _ hs hp hp'
  have hq := C27_primal_0 .chebyshev .chebyshev n n' hv hv' (-1) 1 (-1) 1 h11 h11 _ hs hp hp'
  rw [e1, e5] at hq
  rw [dX_exp, dY_exp] at e5 e3
  obtain ⟨p', L', v', w', q, g1, g2, g3, g4, g5, g6, g7, g8⟩ := C111_example_primal n n' hn hn' h927 h927'
  obtain rfl := Except.ok.inj (e1.symm.trans g1)
  obtain rfl := Except.ok.inj (e2.symm.trans g2)
  obtain rfl := Except.ok.inj (e3.symm.trans g3)
  obtain rfl := Except.ok.inj (e4.symm.trans g4)
  obtain rfl := Except.ok.inj (g1.symm.trans g5)
  have la := (count_iff .chebyshev .chebyshev n n' hv hv' (-1) 1 (-1) 1 0 true _).1 e12
  have nn : ∀ M : ℕ, 0 ≤ ∑' m : ℕ, ((m + M : ℕ) : ℝ) ^ 4 / ((m + M).factorial : ℝ) := fun M => tsum_nonneg fun m => by positivity
  obtain ⟨k1, k2, k3⟩ := D0_close .chebyshev .chebyshev n n' hv hv' h11 h11 true (vadd L w) p (vadd (vadd L₁ c₁) w₁) p₁ la (g7.trans (g6.symm.trans la)) e10 hq _
    (add_nonneg (mul_nonneg (by norm_num) (nn n)) (mul_nonneg (by norm_num) (nn n'))) (fun i hi => g8 i (by rw [← g6]; exact hi))
  refine ⟨p₁, L₁, c₀, c₁, v, w, w₁, e5, e6, e7, e8, e3, e4, e9, (count_iff .chebyshev .chebyshev n n' hv hv' (-1) 1 (-1) 1 1 true _).2 k1, k2.symm, fun i hi => (k3 i (by rw [← k2]; exact hi)).trans (le_of_eq (by ring))⟩

/-- **C113** (the example `f1 = (exp x, exp y)`, tangential component and divergence prescribed): the largest error the script plots is at most four times the two sums of `m⁴ / m!`. -/
theorem C113_example_dual :
    ∃ p L b₁ b₂ b₃ b₄ c, (𝔾).P 1 false [fun x _ => exp x, fun _ y => exp y] = .ok p ∧ lapOne 𝔾 false p = .ok L ∧ (𝔾).BC 2 [fun x _ => exp x, fun _ y => exp y] = .ok b₁ ∧ (𝔾).H 2 false b₁ = .ok b₂ ∧
      (𝔾).D 0 true b₂ = .ok b₃ ∧ (𝔾).H 1 true b₃ = .ok b₄ ∧ (𝔾).BC 1 [fun x y => exp x + exp y] = .ok c ∧
      (𝔾).N 1 false = .ok (vadd (vadd L b₄) c).length ∧ (vadd (vadd L b₄) c).length = p.length ∧
      ∀ i < p.length, |(vadd (vadd L b₄) c).getD i 0 - p.getD i 0| ≤
        4 * (∑' m : ℕ, ((m + (n + 1) : ℕ) : ℝ) ^ 4 / ((m + (n + 1)).factorial : ℝ)) + 4 * ∑' m : ℕ, ((m + (n' + 1) : ℕ) : ℝ) ^ 4 / ((m + (n' + 1)).factorial : ℝ) := by
  have hv : validSize .chebyshev n := hn
  have hv' : validSize .chebyshev n' := hn'
  have h11 : (-1 : ℝ) < 1 := by norm_num
  have hs : Smooth2 fun x y => exp x + exp y := by unfold Smooth2; fun_prop
  have hsx : Smooth2 (dX fun x y => exp x + exp y) := by rw [dX_exp]; unfold Smooth2; fun_prop
  have hsy : Smooth2 (dY fun x y => exp x + exp y) := by rw [dY_exp]; unfold Smooth2; fun_prop
  have hp : PeriodicX .chebyshev (-1) 1 fun x y => exp x + exp y := fun h => by cases h
  have hp' : PeriodicY .chebyshev (-1) 1 fun x y => exp x + exp y := fun h => by cases h
  obtain ⟨p, L, v, w₁, w₂, w₃, p₁, L₁, b₁, b₂, b₃, b₄, c, u, e1, e2, e3, e4, e5, e6, e7, e8, e9, e10, e11, e12, e13, e14, e15, e16, e17, e18, e19⟩ :=
    C113_dual .chebyshev .chebyshev n n' hv hv' (fun _ => h927) (fun _ => h927') (-1) 1 (-1) 1 h11 h11 _ (fun x y => exp x + exp y) hs hsx hsy hp hp'
  obtain ⟨u', c', r1, r2, r3, r4⟩ := C27_dual_0 .chebyshev .chebyshev n n' hv hv' (-1) 1 (-1) 1 h11 h11 _ hs hp hp'
  rw [e1] at r1
  rw [dX_exp, dY_exp] at e7 e9 r3
  obtain rfl := Except.ok.inj (e13.symm.trans r2)
  obtain rfl := Except.ok.inj (e7.symm.trans r3)
  obtain ⟨p', L', v', w₁', w₂', w₃', g1, g2, g3, g4, g5, g6, g7, g8, g9⟩ := C111_example_dual n n' hn hn' h927 h927'
  obtain rfl := Except.ok.inj (e1.symm.trans g1)
  obtain rfl := Except.ok.inj (e2.symm.trans g2)
  obtain rfl := Except.ok.inj (e3.symm.trans g3)
  obtain rfl := Except.ok.inj (e4.symm.trans g4)
  obtain rfl := Except.ok.inj (e5.symm.trans g5)
  obtain rfl := Except.ok.inj (e6.symm.trans g6)
  have la := (count_iff .chebyshev .chebyshev n n' hv hv' (-1) 1 (-1) 1 0 false _).1 e19
  have nn : ∀ M : ℕ, 0 ≤ ∑' m : ℕ, ((m + M : ℕ) : ℝ) ^ 4 / ((m + M).factorial : ℝ) := fun M => tsum_nonneg fun m => by positivity
  obtain ⟨k1, k2, k3⟩ := D0_close .chebyshev .chebyshev n n' hv hv' h11 h11 false (vadd L w₃) p u u' la (g8.trans (g7.symm.trans la)) e14 r1 _
    (add_nonneg (mul_nonneg (by norm_num) (nn (n + 1))) (mul_nonneg (by norm_num) (nn (n' + 1)))) (fun i hi => g9 i (by rw [← g7]; exact hi))
  have ladd : ∀ x y : List ℝ, (vadd x y).length = min x.length y.length := fun _ _ => List.length_zipWith
  have l1 : (vadd u c).length = u.length := by rw [ladd, e16, min_self]
  have l2 : (vadd u' c).length = u.length := by rw [ladd, ← r4, min_self, k2]
  refine ⟨_, L₁, b₁, b₂, b₃, b₄, c, e7, e8, e9, e10, e11, e12, e13, (count_iff .chebyshev .chebyshev n n' hv hv' (-1) 1 (-1) 1 1 false _).2 (by rw [e15, l1, k1]), by rw [e15, l1, l2], fun i hi => ?_⟩
  rw [l2] at hi
  rw [e15]
  have sum : ∀ x : List ℝ, x.length = u.length → (vadd x c).getD i 0 = x.getD i 0 + c.getD i 0 := fun x hx => by
    obtain ⟨f, rfl⟩ : ∃ f, x = tab u.length f := ⟨_, eq_tab' hx 0⟩
    obtain ⟨g, hg⟩ : ∃ g, c = tab u.length g := ⟨_, eq_tab' e16.symm 0⟩
    rw [hg, vadd_tab, getD_tab hi, getD_tab hi, getD_tab hi]
  rw [sum u rfl, sum u' k2]
  have := k3 i hi
  rw [show u.getD i 0 + c.getD i 0 - (u'.getD i 0 + c.getD i 0) = u.getD i 0 - u'.getD i 0 by ring]
  exact this.trans (le_of_eq (by ring))

end

-- the hypotheses are met by the script's function, and by one that is not a sum, on grids of all kinds
example := C113_example_primal 7 9 (by norm_num) (by norm_num) (by norm_num) (by norm_num)
example := C113_example_dual 7 9 (by norm_num) (by norm_num) (by norm_num) (by norm_num)
example := C113_primal .chebyshev .periodic 7 4 (show 2 ≤ 7 by norm_num) (show 0 < 4 by norm_num) (fun _ => by norm_num) (fun h => by cases h) (-1) 1 0 (2 * Real.pi) (by norm_num) (by positivity)
  (fun x y => x ^ 2 * sin y) (by unfold Smooth2; fun_prop) (fun h => by cases h) (fun _ x y => by simp)

end Dec.Props
