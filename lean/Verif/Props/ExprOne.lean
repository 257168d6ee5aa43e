import Verif.Props.ExprBoundary

set_option linter.unusedSimpArgs false
set_option linter.unusedVariables false

/-! # C97: whole expressions on one-dimensional grids

The one-dimensional version of C90 and C96: the discrete value of an expression is the projection of its symbolic value, and its values at points are the values of the symbolic form. -/

namespace Dec.Props

open Finset Real G2 Decform Discretise

/-- A form of a chart with one coordinate, and not the integer `0`. -/
def asForm1 : Sym.Val Smooth1 → Except Err (Sym.Form Smooth1)
  | .form f => .ok f
  | .zero => .error .typeError

/-- The expressions of C89 with symbolic forms of a chart with one coordinate (`/repo/dec/symbolic.py`, `/repo/dec/symform.py`). A multiple is written `f * c`. -/
noncomputable def Expr.symb1 (ω : ℕ → Sym.Form Smooth1) : Expr → Except Err (Sym.Form Smooth1)
  | .var i => .ok (ω i)
  | .add a b => do let x ← a.symb1 ω; let y ← b.symb1 ω; x.add y
  | .sub a b => do let x ← a.symb1 ω; let y ← b.symb1 ω; x.sub y
  | .neg a => do let x ← a.symb1 ω; x.neg
  | .scale c a => do let x ← a.symb1 ω; x.binaryScalar (· * ·) (algebraMap ℝ Smooth1 c)
  | .der a => do let x ← a.symb1 ω; let y ← D1 (.form x); asForm1 y
  | .star a => do let x ← a.symb1 ω; let y ← Sym.H (.form x); asForm1 y
  | .wedge a b _ => do let x ← a.symb1 ω; let y ← b.symb1 ω; let z ← Sym.W (.form x) (.form y); asForm1 z
  | .contr a b _ => do let x ← a.symb1 ω; let y ← b.symb1 ω; let z ← Sym.C (.form x) (.form y); asForm1 z

/-- The derivative of a discrete form `x` that discretises the function `f`: `x.D`, to which `g.boundary_condition(f)` is added if the grid is an interval and `x` is dual
(`/repo/dec/grid1_sym_test.py:115-130`). -/
noncomputable def derBC1 (h : Heap) (g : Grid1) (interval : Bool) (f : Sym.Form Smooth1) (x : DForm) : Except Err DForm := do
  match ← D h x with
  | some y => match f.comps with
    | [c] => if x.isprimal || !interval then .ok y else binary .add y (.array (g.boundary_condition c.1))
    | _ => .error .valueError
  | none => .error .typeError

/-- The expressions of C89 with discrete forms, every derivative of a dual form on an interval completed with the boundary condition of the symbolic value of the operand. -/
noncomputable def Expr.evalBC1 (h : Heap) (g : Grid1) (interval : Bool) (ω : ℕ → Sym.Form Smooth1) (env : ℕ → DForm) : Expr → Except Err DForm
  | .var i => .ok (env i)
  | .add a b => do let x ← a.evalBC1 h g interval ω env; let y ← b.evalBC1 h g interval ω env; binary .add x (.form y)
  | .sub a b => do let x ← a.evalBC1 h g interval ω env; let y ← b.evalBC1 h g interval ω env; binary .sub x (.form y)
  | .neg a => do let x ← a.evalBC1 h g interval ω env; .ok (Decform.neg x)
  | .scale c a => do let x ← a.evalBC1 h g interval ω env; binary .rmul x (.scalar c)
  | .der a => do let x ← a.evalBC1 h g interval ω env; let f ← a.symb1 ω; derBC1 h g interval f x
  | .star a => do let x ← a.evalBC1 h g interval ω env; H h x
  | .wedge a b u => do let x ← a.evalBC1 h g interval ω env; let y ← b.evalBC1 h g interval ω env; W h x y u
  | .contr a b u => do let x ← a.evalBC1 h g interval ω env; let y ← b.evalBC1 h g interval ω env; C h x y u

/-- A symbolic form of the stated degree on the chart `i` of the line, with a component limited to `m`. -/
def Limited1 (k : Kind) (m i d : ℕ) (f : Sym.Form Smooth1) : Prop := ∃ c, f = ⟨d, ⟨i, 1⟩, [c]⟩ ∧ BandLimited k m c.1

section
variable {k : Kind} {n m l i : ℕ}

theorem Limited1.mono {d : ℕ} {f : Sym.Form Smooth1} (h : m ≤ l) (hf : Limited1 k m i d f) : Limited1 k l i d f := by
  obtain ⟨c, rfl, hc⟩ := hf
  exact ⟨c, rfl, hc.mono h⟩

theorem Fits.trig {n m : ℕ} (h : Fits .periodic n m) : 2 * m < n := h

theorem wedge1 (hm : Fits k n (m + l)) {a b : ℝ → ℝ} (ha : BandLimited k m a) (hb : BandLimited k l b) (d e : Fin 2) (hde : d.val + e.val ≤ 1) (s t u : Bool) :
    (grid₀ k n).wedge d s e t u ((grid₀ k n).P d s a) ((grid₀ k n).P e t b) = .ok ((grid₀ k n).P (Fin.ofNat 2 (d.val + e.val)) u fun x => a x * b x) := by
  cases k
  · have := hm.trig
    exact C21_periodic_wedge_exact n m l (by omega) (by omega) a b ha hb d e hde s t u
  · exact hm.elim
  · have h1 := hm.1
    have e : ∀ (d : Fin 2) t, n - 1 ≤ (grid₀ .chebyshev n).N d t := by
      intro d t
      obtain rfl | rfl : d = 0 ∨ d = 1 := by omega
      all_goals cases t <;> simp [grid₀, Chebyshev.make]
    exact C21_chebyshev_wedge_exact n (by omega) d _ hde s t u (fun _ _ => hm.2) (fun _ _ => hm.2) (m + 1) (l + 1) (le_trans (by omega) (e _ _)) (le_trans (by omega) (e _ _))
      (fun _ => by omega) a b ha hb

theorem contraction1 (hm : Fits k n (m + l)) {a b : ℝ → ℝ} (ha : BandLimited k m a) (hb : BandLimited k l b) (s t u : Bool) :
    (grid₀ k n).contraction s 1 t u ((grid₀ k n).P 1 s a) ((grid₀ k n).P 1 t b) = .ok ((grid₀ k n).P 0 u fun x => a x * b x) := by
  cases k
  · have := hm.trig
    exact C24_periodic_contraction_exact n m l (by omega) (by omega) a b ha hb s t u
  · exact hm.elim
  · have h1 := hm.1
    have e : ∀ (d : Fin 2) t, n - 1 ≤ (grid₀ .chebyshev n).N d t := by
      intro d t
      obtain rfl | rfl : d = 0 ∨ d = 1 := by omega
      all_goals cases t <;> simp [grid₀, Chebyshev.make]
    exact C24_chebyshev_contraction_exact n (by omega) s t u (fun _ => hm.2) (fun _ => hm.2) a b (isPoly_mono (le_trans (by omega) (e _ _)) ha) (isPoly_mono (le_trans (by omega) (e _ _)) hb)

/-- Projection onto a one-dimensional grid is linear. -/
theorem P_lc1 (hm : Fits k n m) (d : Fin 2) (t : Bool) {a b : ℝ → ℝ} (ha : Continuous a) (hb : Continuous b) (r s : ℝ) :
    ((grid₀ k n).P d t a).length = ((grid₀ k n).P d t b).length ∧
      (grid₀ k n).P d t (fun x => r * a x + s * b x) = List.zipWith (fun x y => r * x + s * y) ((grid₀ k n).P d t a) ((grid₀ k n).P d t b) := by
  obtain ⟨p, q, e⟩ := grid₀_eq k n
  have vn := hm.usable.1
  refine ⟨by rw [e, P_length k n vn, P_length k n vn], ?_⟩
  generalize grid₀ k n = g
  obtain rfl | rfl : d = 0 ∨ d = 1 := by omega
  · show List.map _ _ = List.zipWith _ (List.map _ _) (List.map _ _)
    rw [List.zipWith_map, List.zipWith_self]
  · show List.zipWith _ _ _ = List.zipWith _ (List.zipWith _ _ _) (List.zipWith _ _ _)
    generalize (g.cells.e t).1 = X
    generalize (g.cells.e t).2 = Y
    refine List.ext_getElem (by simp) fun j h1 h2 => ?_
    simp only [List.getElem_zipWith]
    exact int_lc ha hb r s _ _

theorem Limited1.lc (hk : k ≠ .regular) {r s : ℝ} {a b : Smooth1} (ha : BandLimited k m a.1) (hb : BandLimited k m b.1) : BandLimited k m (r • a + s • b).1 :=
  (bandLimited_space hk m).add _ _ ((bandLimited_space hk m).smul r _ ha) ((bandLimited_space hk m).smul s _ hb)

theorem D1_fun (i : ℕ) (c : Smooth1) : D1 (.form (⟨0, ⟨i, 1⟩, [c]⟩ : Sym.Form Smooth1)) = .ok (.form ⟨1, ⟨i, 1⟩, [Smooth1.dx c]⟩) := by sym_simp

theorem derBC1_exact {h : Heap} {addr : ℕ} (hg : h addr = ops1 (grid₀ k n)) (hm : Fits k n m) {c : Smooth1} (hc : BandLimited k m c.1) (t : Bool) :
    derBC1 h (grid₀ k n) (decide (k ≠ .periodic)) ⟨0, ⟨i, 1⟩, [c]⟩ ⟨0, t, addr, (grid₀ k n).P 0 t c.1⟩ = .ok ⟨1, t, addr, (grid₀ k n).P 1 t (Smooth1.dx c).1⟩ := by
  cases k
  · have hp : Function.Periodic c.1 (2 * π - 0) := by rw [sub_zero]; exact IsTrig.periodic hc
    obtain ⟨df, x, y, h1, h2, h3, h4⟩ := C66_1d_derivative_periodic h addr 0 (2 * π) (by positivity) i c n hg hp t
    rw [D1_fun] at h1
    obtain rfl : _ = df := by have := Except.ok.inj h1; injection this
    have e2 := disc1 (Periodic.make n 0 (2 * π)) addr 0 i c t
    have e4 := disc1 (Periodic.make n 0 (2 * π)) addr 1 i (Smooth1.dx c) t
    rw [show (0 : Fin 2).val = 0 from rfl] at e2
    rw [show (1 : Fin 2).val = 1 from rfl] at e4
    rw [e2] at h2
    rw [e4] at h4
    obtain rfl : _ = x := by have := Except.ok.inj h2; injection this
    obtain rfl : _ = y := by have := Except.ok.inj h4; injection this
    simp only [derBC1]
    erw [h3]
    simp [bind, Except.bind]
    rfl
  · exact hm.elim
  · obtain ⟨df, h1, ⟨x, y, a2, a3, a4⟩, x', y', z, b2, b3, b4, b5⟩ := C66_1d_derivative h addr (-1) 1 (by norm_num) i c .chebyshev n (by have := hm.1; omega) hg
    rw [D1_fun] at h1
    obtain rfl : _ = df := by have := Except.ok.inj h1; injection this
    have e2 := fun t => disc1 (intervalGrid .chebyshev n (-1) 1) addr 0 i c t
    have e4 := fun t => disc1 (intervalGrid .chebyshev n (-1) 1) addr 1 i (Smooth1.dx c) t
    simp only [show (0 : Fin 2).val = 0 from rfl] at e2
    simp only [show (1 : Fin 2).val = 1 from rfl] at e4
    have hG : grid₀ .chebyshev n = intervalGrid .chebyshev n (-1) 1 := rfl
    rw [hG]
    cases t
    · rw [e2] at b2
      rw [e4] at b5
      obtain rfl : _ = x' := by have := Except.ok.inj b2; injection this
      obtain rfl : _ = z := by have := Except.ok.inj b5; injection this
      simp only [derBC1, b3, bind, Except.bind]
      simpa using b4
    · rw [e2] at a2
      rw [e4] at a4
      obtain rfl : _ = x := by have := Except.ok.inj a2; injection this
      obtain rfl : _ = y := by have := Except.ok.inj a4; injection this
      simp only [derBC1, a3, bind, Except.bind]
      simp

theorem band_deriv1 {c : Smooth1} (hc : BandLimited k m c.1) : BandLimited k m (Smooth1.dx c).1 := by
  obtain ⟨f', h1, h2⟩ := hc.deriv
  have : (Smooth1.dx c).1 = f' := funext fun x => (h2 x).deriv
  rw [this]; exact h1

theorem hodge1 (hm : Fits k n m) {c : ℝ → ℝ} (hc : BandLimited k m c) (d : Fin 2) (t : Bool) : (grid₀ k n).H d t ((grid₀ k n).P d t c) = .ok ((grid₀ k n).P (1 - d) (!t) c) :=
  (grid₀_star k n hm.usable.1 hm.usable.2.2).exact d t c (hm.resolved d t hc)

end

/-- The array of `z` is the projection of the component of `s`, and the component is limited. -/
structure Projects (k : Kind) (n m i addr d : ℕ) (t : Bool) (s : Sym.Form Smooth1) (z : DForm) : Prop where
  ex : ∃ (D : Fin 2) (c : Smooth1), D.val = d ∧ s = ⟨d, ⟨i, 1⟩, [c]⟩ ∧ BandLimited k m c.1 ∧ z = ⟨d, t, addr, (grid₀ k n).P D t c.1⟩

section
variable {k : Kind} {n m l i addr : ℕ} {h : Heap} (hg : h addr = ops1 (grid₀ k n))

theorem Projects.mono {d : ℕ} {t : Bool} {s : Sym.Form Smooth1} {z : DForm} (hml : m ≤ l) (p : Projects k n m i addr d t s z) : Projects k n l i addr d t s z := by
  obtain ⟨D, c, h1, h2, h3, h4⟩ := p
  exact ⟨D, c, h1, h2, h3.mono hml, h4⟩

theorem mkForm1 (D : Fin 2) (i : ℕ) (c : Smooth1) : Sym.mkForm D.val ⟨i, 1⟩ [c] = .ok ⟨D.val, ⟨i, 1⟩, [c]⟩ := by
  obtain rfl | rfl : D = 0 ∨ D = 1 := by omega
  all_goals simp

theorem step_lc1 (hm : Fits k n m) {d : ℕ} {t : Bool} {f f' : Sym.Form Smooth1} {z z' : DForm} (hf : Projects k n m i addr d t f z) (hf' : Projects k n m i addr d t f' z') (r s : ℝ) :
    ∃ g, Sym.mkForm f.degree f.grid (List.zipWith (fun a b => r • a + s • b) f.comps f'.comps) = .ok g ∧ f.degree = f'.degree ∧ f.grid = f'.grid ∧ SameKind z z' ∧ z.array.length = z'.array.length ∧
      Projects k n m i addr d t g ⟨z.degree, z.isprimal, z.grid, List.zipWith (fun a b => r * a + s * b) z.array z'.array⟩ := by
  obtain ⟨D, c, rfl, rfl, hc, rfl⟩ := hf
  obtain ⟨D', c', e, rfl, hc', rfl⟩ := hf'
  obtain rfl : D' = D := Fin.ext e
  obtain ⟨l1, l2⟩ := P_lc1 (n := n) hm D' t hc.smooth.continuous hc'.smooth.continuous r s
  refine ⟨⟨D'.val, ⟨i, 1⟩, [r • c + s • c']⟩, mkForm1 D' i _, rfl, rfl, ⟨rfl, rfl, rfl⟩, l1, D', r • c + s • c', rfl, rfl, Limited1.lc hm.not_regular hc hc', ?_⟩
  show DForm.mk _ _ _ _ = DForm.mk _ _ _ _
  rw [← l2]; rfl

include hg in
theorem symb_exact1 {Γ : ℕ → ℕ × Bool} {ω : ℕ → Sym.Form Smooth1} {env : ℕ → DForm} (hω : ∀ j, Projects k n m i addr (Γ j).1 (Γ j).2 (ω j) (env j))
    {E : Expr} {d : ℕ} {t : Bool} (hE : HasType 1 true Γ E d t) (hm : Fits k n (E.order * m)) :
    ∃ s z, E.symb1 ω = .ok s ∧ E.evalBC1 h (grid₀ k n) (decide (k ≠ .periodic)) ω env = .ok z ∧ Projects k n (E.order * m) i addr d t s z := by
  induction hE with
  | var j hj => exact ⟨_, _, rfl, rfl, (hω j).mono (by simp [Expr.order])⟩
  | @add a b d t ha hb iha ihb =>
    have la : a.order ≤ (Expr.add a b).order := le_max_left _ _
    have lb : b.order ≤ (Expr.add a b).order := le_max_right _ _
    obtain ⟨x, p, x1, x2, x3⟩ := iha (hm.mono (Nat.mul_le_mul_right _ la))
    obtain ⟨y, q, y1, y2, y3⟩ := ihb (hm.mono (Nat.mul_le_mul_right _ lb))
    obtain ⟨g, g1, g2, g3, g4, g5, g6⟩ := step_lc1 hm (x3.mono (Nat.mul_le_mul_right _ la)) (y3.mono (Nat.mul_le_mul_right _ lb)) 1 1
    simp only [one_smul, one_mul] at g1 g6
    refine ⟨g, _, ?_, ?_, g6⟩
    · simp only [Expr.symb1, x1, y1, bind, Except.bind, Sym.Form.add, Sym.Form.binary, g2, g3, ne_eq, not_true_eq_false, if_false]
      rw [← g2, ← g3]; exact g1
    · simp only [Expr.evalBC1, x2, y2, bind, Except.bind]
      exact binary_form .add g4 g5
  | @sub a b d t ha hb iha ihb =>
    have la : a.order ≤ (Expr.sub a b).order := le_max_left _ _
    have lb : b.order ≤ (Expr.sub a b).order := le_max_right _ _
    obtain ⟨x, p, x1, x2, x3⟩ := iha (hm.mono (Nat.mul_le_mul_right _ la))
    obtain ⟨y, q, y1, y2, y3⟩ := ihb (hm.mono (Nat.mul_le_mul_right _ lb))
    obtain ⟨g, g1, g2, g3, g4, g5, g6⟩ := step_lc1 hm (x3.mono (Nat.mul_le_mul_right _ la)) (y3.mono (Nat.mul_le_mul_right _ lb)) 1 (-1)
    simp only [one_smul, one_mul, neg_smul, neg_mul, ← sub_eq_add_neg] at g1 g6
    refine ⟨g, _, ?_, ?_, g6⟩
    · simp only [Expr.symb1, x1, y1, bind, Except.bind, Sym.Form.sub, Sym.Form.binary, g2, g3, ne_eq, not_true_eq_false, if_false]
      rw [← g2, ← g3]; exact g1
    · simp only [Expr.evalBC1, x2, y2, bind, Except.bind]
      exact binary_form .sub g4 g5
  | @neg a d t ha iha =>
    obtain ⟨x, p, x1, x2, x3⟩ := iha hm
    obtain ⟨g, g1, g2, g3, g4, g5, g6⟩ := step_lc1 hm x3 x3 (-1) 0
    simp only [neg_smul, one_smul, neg_mul, one_mul, zero_smul, zero_mul, add_zero, List.zipWith_self] at g1 g6
    refine ⟨g, _, ?_, ?_, g6⟩
    · simp only [Expr.symb1, x1, bind, Except.bind, Sym.Form.neg]
      exact g1
    · simp only [Expr.evalBC1, x2, bind, Except.bind]
      rfl
  | @scale a d t r ha iha =>
    obtain ⟨x, p, x1, x2, x3⟩ := iha hm
    obtain ⟨g, g1, g2, g3, g4, g5, g6⟩ := step_lc1 hm x3 x3 r 0
    simp only [zero_smul, zero_mul, add_zero, List.zipWith_self] at g1 g6
    refine ⟨g, _, ?_, ?_, g6⟩
    · simp only [Expr.symb1, x1, bind, Except.bind, Sym.Form.binaryScalar]
      rw [← g1]
      refine congrArg _ (List.map_congr_left fun c _ => ?_)
      rw [Algebra.smul_def, mul_comm]
    · simp only [Expr.evalBC1, x2, bind, Except.bind]
      rfl
  | @der a d t ha hd iha =>
    obtain ⟨x, p, x1, x2, D, c, x3, rfl, x4, rfl⟩ := iha hm
    obtain rfl : d = 0 := by omega
    obtain rfl : D = 0 := Fin.ext x3
    refine ⟨⟨1, ⟨i, 1⟩, [Smooth1.dx c]⟩, _, ?_, ?_, 1, Smooth1.dx c, rfl, rfl, band_deriv1 x4, rfl⟩
    · simp only [Expr.symb1, x1, bind, Except.bind]
      rw [D1_fun]
      rfl
    · simp only [Expr.evalBC1, x2, x1, bind, Except.bind]
      exact derBC1_exact hg hm x4 t
  | @star a d t ha iha =>
    obtain ⟨x, p, x1, x2, D, c, x3, rfl, x4, rfl⟩ := iha hm
    subst x3
    refine ⟨⟨1 - D.val, ⟨i, 1⟩, [c]⟩, _, ?_, ?_, 1 - D, c, (by decide : ∀ d : Fin 2, (1 - d).val = 1 - d.val) D, rfl, x4, rfl⟩
    · simp only [Expr.symb1, x1, bind, Except.bind]
      rw [show Sym.H (.form (⟨D.val, ⟨i, 1⟩, [c]⟩ : Sym.Form Smooth1)) = .ok (.form ⟨1 - D.val, ⟨i, 1⟩, [c]⟩) by
        obtain rfl | rfl : D = 0 ∨ D = 1 := by omega
        all_goals sym_simp]
      rfl
    · simp only [Expr.evalBC1, x2, bind, Except.bind]
      exact dec_H1 hg D t _ _ (hodge1 hm x4 D t)
  | @wedge a b d e s t u hp ha hb hd iha ihb =>
    have la : a.order ≤ (Expr.wedge a b u).order := Nat.le_add_right _ _
    have lb : b.order ≤ (Expr.wedge a b u).order := Nat.le_add_left _ _
    have e0 : (Expr.wedge a b u).order * m = a.order * m + b.order * m := Nat.add_mul _ _ _
    obtain ⟨x, p, x1, x2, D, c, x3, rfl, x4, rfl⟩ := iha (hm.mono (Nat.mul_le_mul_right _ la))
    obtain ⟨y, q, y1, y2, D', c', y3, rfl, y4, rfl⟩ := ihb (hm.mono (Nat.mul_le_mul_right _ lb))
    subst x3 y3
    rw [e0] at hm ⊢
    refine ⟨⟨D.val + D'.val, ⟨i, 1⟩, [c * c']⟩, _, ?_, ?_, Fin.ofNat 2 (D.val + D'.val), c * c', ofNat2 hd, rfl, x4.mul y4, rfl⟩
    · simp only [Expr.symb1, x1, y1, bind, Except.bind]
      rw [sym_W1 D D' hd i c c', ofNat2 hd]
      rfl
    · simp only [Expr.evalBC1, x2, y2, bind, Except.bind]
      exact dec_W1 hg D D' s t u _ _ _ (wedge1 hm x4 y4 D D' hd s t u)
  | @contr a b e s t u hp ha hb hd iha ihb =>
    have la : a.order ≤ (Expr.contr a b u).order := Nat.le_add_right _ _
    have lb : b.order ≤ (Expr.contr a b u).order := Nat.le_add_left _ _
    have e0 : (Expr.contr a b u).order * m = a.order * m + b.order * m := Nat.add_mul _ _ _
    obtain ⟨x, p, x1, x2, D, c, x3, rfl, x4, rfl⟩ := iha (hm.mono (Nat.mul_le_mul_right _ la))
    obtain ⟨y, q, y1, y2, D', c', y3, rfl, y4, rfl⟩ := ihb (hm.mono (Nat.mul_le_mul_right _ lb))
    obtain rfl : D = 1 := Fin.ext x3
    obtain rfl : D' = 1 := by omega
    obtain rfl : e = 1 := y3.symm
    rw [e0] at hm ⊢
    refine ⟨⟨0, ⟨i, 1⟩, [c * c']⟩, _, ?_, ?_, 0, c * c', rfl, rfl, x4.mul y4, rfl⟩
    · simp only [Expr.symb1, x1, y1, bind, Except.bind]
      rw [show Sym.C (.form (⟨1, ⟨i, 1⟩, [c]⟩ : Sym.Form Smooth1)) (.form ⟨1, ⟨i, 1⟩, [c']⟩) = .ok (.form ⟨0, ⟨i, 1⟩, [c * c']⟩) by sym_simp]
      rfl
    · simp only [Expr.evalBC1, x2, y2, bind, Except.bind]
      exact dec_C1 hg 1 s t u _ _ _ (contraction1 hm x4 y4 s t u)
end


/-! ## C97 -/

/-- The symbolic form `c` (degree 0) or `c dx` (degree 1) on the chart `i`. -/
def symb1Form (i : ℕ) (d : Fin 2) (c : Smooth1) : Sym.Form Smooth1 := ⟨d.val, ⟨i, 1⟩, [c]⟩

/-- **C97.** On a periodic or Chebyshev grid, take symbolic forms with components `c j`, and let the discrete variables be their projections. Every well-typed expression evaluates on both sides, and the
array of the discrete value is the projection of the component of the symbolic value, as long as no product of variables exceeds what the grid resolves. -/
theorem C97_exact (k : Kind) (n : ℕ) (h : Heap) (addr : ℕ) (hg : h addr = ops1 (grid₀ k n)) (m i : ℕ) (D : ℕ → Fin 2) (side : ℕ → Bool) (c : ℕ → Smooth1) (hc : ∀ j, BandLimited k m (c j).1)
    (E : Expr) (d : Fin 2) (t : Bool) (hE : HasType 1 true (fun j => ((D j).val, side j)) E d.val t) (hm : Fits k n (E.order * m)) :
    ∃ s, E.symb1 (fun j => symb1Form i (D j) (c j)) = .ok (symb1Form i d s) ∧
      E.evalBC1 h (grid₀ k n) (decide (k ≠ .periodic)) (fun j => symb1Form i (D j) (c j)) (fun j => ⟨(D j).val, side j, addr, (grid₀ k n).P (D j) (side j) (c j).1⟩) =
        .ok ⟨d.val, t, addr, (grid₀ k n).P d t s.1⟩ := by
  obtain ⟨s, z, h1, h2, D', e, h3, rfl, -, rfl⟩ := symb_exact1 (Γ := fun j => ((D j).val, side j)) hg (fun j => ⟨D j, c j, rfl, rfl, hc j, rfl⟩) hE hm
  obtain rfl : D' = d := Fin.ext h3
  exact ⟨e, h1, h2⟩

/-- **C97.** Evaluating the discrete value at a point of the interval gives the value of the symbolic component there. -/
theorem C97_values (k : Kind) (n : ℕ) (h : GHeap) (addr : ℕ) (hg : h addr = .one (grid₀ k n)) (m i : ℕ) (D : ℕ → Fin 2) (side : ℕ → Bool) (c : ℕ → Smooth1) (hc : ∀ j, BandLimited k m (c j).1)
    (E : Expr) (d : Fin 2) (t : Bool) (hE : HasType 1 true (fun j => ((D j).val, side j)) E d.val t) (hm : Fits k n (E.order * m)) :
    ∃ s z, E.symb1 (fun j => symb1Form i (D j) (c j)) = .ok (symb1Form i d s) ∧
      E.evalBC1 (heapOf h) (grid₀ k n) (decide (k ≠ .periodic)) (fun j => symb1Form i (D j) (c j)) (fun j => ⟨(D j).val, side j, addr, (grid₀ k n).P (D j) (side j) (c j).1⟩) = .ok z ∧
      ∀ x ∈ Inside k d, R h z [x] = .ok [some (s.1 x)] := by
  obtain ⟨s, z, h1, h2, D', e, h3, rfl, h4, rfl⟩ := symb_exact1 (h := heapOf h) (addr := addr) (Γ := fun j => ((D j).val, side j)) (show (h addr).ops = _ by rw [hg]; rfl)
    (fun j => ⟨D j, c j, rfl, rfl, hc j, rfl⟩) hE hm
  obtain rfl : D' = d := Fin.ext h3
  exact ⟨e, _, h1, h2, fun x hx => C93_evaluate_projection k n hm.usable.1 h ⟨D'.val, t, addr, (grid₀ k n).P D' t e.1⟩ hg D' rfl e.1 (hm.determined D' t h4) rfl x hx⟩

/-- **C97.** Where only primal forms are differentiated, or the grid is periodic, the expression is evaluated without boundary terms. -/
theorem C97_no_boundary (h : Heap) (g : Grid1) (interval : Bool) (ω : ℕ → Sym.Form Smooth1) (env : ℕ → DForm) (Γ : ℕ → ℕ × Bool) (hside : ∀ j, (env j).isprimal = (Γ j).2)
    (E : Expr) (hD : interval = false ∨ E.dersPrimal Γ) (z : DForm) (hz : E.evalBC1 h g interval ω env = .ok z) : E.eval h env = .ok z ∧ z.isprimal = E.side Γ := by
  have hb : ∀ {op : BinOp} {x y : DForm} {o : Operand}, binary op x o = .ok y → y.isprimal = x.isprimal := by
    intro op x y o hxy
    cases o with
    | form w =>
      simp only [binary] at hxy
      split_ifs at hxy
      obtain ⟨a, -, ha⟩ := bind_ok hxy
      obtain rfl := Except.ok.inj ha
      rfl
    | scalar r => obtain rfl := Except.ok.inj hxy; rfl
    | array w =>
      obtain ⟨a, -, ha⟩ := bind_ok hxy
      obtain rfl := Except.ok.inj ha
      rfl
  induction E generalizing z with
  | var j =>
    obtain rfl := Except.ok.inj hz
    exact ⟨rfl, hside j⟩
  | add a b iha ihb =>
    obtain ⟨x, hx, hz⟩ := bind_ok hz
    obtain ⟨y, hy, hz⟩ := bind_ok hz
    obtain ⟨a1, a2⟩ := iha (hD.imp_right And.left) x hx
    obtain ⟨b1, b2⟩ := ihb (hD.imp_right And.right) y hy
    exact ⟨by simp only [Expr.eval, a1, b1, bind, Except.bind]; exact hz, (hb hz).trans a2⟩
  | sub a b iha ihb =>
    obtain ⟨x, hx, hz⟩ := bind_ok hz
    obtain ⟨y, hy, hz⟩ := bind_ok hz
    obtain ⟨a1, a2⟩ := iha (hD.imp_right And.left) x hx
    obtain ⟨b1, b2⟩ := ihb (hD.imp_right And.right) y hy
    exact ⟨by simp only [Expr.eval, a1, b1, bind, Except.bind]; exact hz, (hb hz).trans a2⟩
  | neg a iha =>
    obtain ⟨x, hx, hz⟩ := bind_ok hz
    obtain ⟨a1, a2⟩ := iha hD x hx
    obtain rfl := Except.ok.inj hz
    exact ⟨by simp only [Expr.eval, a1, bind, Except.bind], a2⟩
  | scale r a iha =>
    obtain ⟨x, hx, hz⟩ := bind_ok hz
    obtain ⟨a1, a2⟩ := iha hD x hx
    exact ⟨by simp only [Expr.eval, a1, bind, Except.bind]; exact hz, (hb hz).trans a2⟩
  | der a iha =>
    obtain ⟨x, hx, hz⟩ := bind_ok hz
    obtain ⟨f, hf, hz⟩ := bind_ok hz
    obtain ⟨a1, a2⟩ := iha (hD.imp_right And.right) x hx
    have hcond : (x.isprimal || !interval) = true := by
      rcases hD with rfl | hD
      · simp
      · rw [a2, hD.1]; rfl
    obtain ⟨o, ho, hz⟩ := bind_ok hz
    have hop : ∀ y, o = some y → y.isprimal = x.isprimal := by
      rintro y rfl
      obtain ⟨u, -, hu⟩ := bind_ok ho
      cases u with
      | none => cases Except.ok.inj hu
      | some u =>
        have := Except.ok.inj hu
        injection this with this
        rw [← this]
    cases o with
    | none => cases hz
    | some y =>
      have hzy : z = y := by
        simp only at hz
        cases hcs : f.comps with
        | nil => rw [hcs] at hz; cases hz
        | cons c cs =>
          cases cs with
          | nil =>
            rw [hcs] at hz
            simp only [hcond, if_true] at hz
            exact (Except.ok.inj hz).symm
          | cons c' cs => rw [hcs] at hz; cases hz
      subst hzy
      exact ⟨by simp only [Expr.eval, a1, ho, bind, Except.bind], (hop z rfl).trans a2⟩
  | star a iha =>
    obtain ⟨x, hx, hz⟩ := bind_ok hz
    obtain ⟨a1, a2⟩ := iha hD x hx
    refine ⟨by simp only [Expr.eval, a1, bind, Except.bind]; exact hz, ?_⟩
    obtain ⟨u, -, hu⟩ := bind_ok hz
    obtain rfl := Except.ok.inj hu
    show (!x.isprimal) = !_
    rw [a2]
  | wedge a b u iha ihb =>
    obtain ⟨x, hx, hz⟩ := bind_ok hz
    obtain ⟨y, hy, hz⟩ := bind_ok hz
    obtain ⟨a1, a2⟩ := iha (hD.imp_right And.left) x hx
    obtain ⟨b1, b2⟩ := ihb (hD.imp_right And.right) y hy
    refine ⟨by simp only [Expr.eval, a1, b1, bind, Except.bind]; exact hz, ?_⟩
    unfold W at hz
    split_ifs at hz
    obtain ⟨v, -, hv⟩ := bind_ok hz
    obtain rfl := Except.ok.inj hv
    rfl
  | contr a b u iha ihb =>
    obtain ⟨x, hx, hz⟩ := bind_ok hz
    obtain ⟨y, hy, hz⟩ := bind_ok hz
    obtain ⟨a1, a2⟩ := iha (hD.imp_right And.left) x hx
    obtain ⟨b1, b2⟩ := ihb (hD.imp_right And.right) y hy
    refine ⟨by simp only [Expr.eval, a1, b1, bind, Except.bind]; exact hz, ?_⟩
    unfold C at hz
    split_ifs at hz
    obtain ⟨v, -, hv⟩ := bind_ok hz
    obtain rfl := Except.ok.inj hv
    rfl

/-- **C97.** The second derivative on a Chebyshev grid: for the projection `f` of a polynomial `c` of degree at most `n - 2`, `(f.D.H.D + g.boundary_condition(c')).H` is defined and its value at every
point of `[-1, 1]` is `c''`. -/
theorem C97_laplacian (n m : ℕ) (hm : Fits .chebyshev n m) (h : GHeap) (addr : ℕ) (hg : h addr = .one (Chebyshev.make n)) (c : Smooth1) (hc : IsPoly (m + 1) c.1) :
    ∃ u v w y z, D (heapOf h) ⟨0, true, addr, (Chebyshev.make n).P 0 true c.1⟩ = .ok (some u) ∧ H (heapOf h) u = .ok v ∧ D (heapOf h) v = .ok (some w) ∧
      binary .add w (.array ((Chebyshev.make n).boundary_condition (deriv c.1))) = .ok y ∧ H (heapOf h) y = .ok z ∧
      ∀ x ∈ Set.Icc (-1 : ℝ) 1, R h z [x] = .ok [some (deriv (deriv c.1) x)] := by
  have hb : BandLimited .chebyshev m c.1 := hc
  have hg' : heapOf h addr = ops1 (grid₀ .chebyshev n) := by show (h addr).ops = _; rw [hg]; rfl
  have e1 := derBC1_exact (i := 0) hg' hm hb true
  have e2 := dec_H1 hg' 1 true _ _ (hodge1 hm (band_deriv1 hb) 1 true)
  have e3 := derBC1_exact (i := 0) hg' hm (band_deriv1 hb) false
  have e4 := dec_H1 hg' 1 false _ _ (hodge1 hm (band_deriv1 (band_deriv1 hb)) 1 false)
  unfold derBC1 at e1 e3
  obtain ⟨o1, p1, q1⟩ := bind_ok e1
  obtain ⟨o3, p3, q3⟩ := bind_ok e3
  cases o1 with
  | none => cases q1
  | some u =>
    cases o3 with
    | none => cases q3
    | some w =>
      simp only [ne_eq, reduceCtorEq, not_false_eq_true, decide_true, Bool.not_true, Bool.or_false, if_true, Bool.false_eq_true, if_false] at q1 q3
      obtain rfl := Except.ok.inj q1
      refine ⟨_, _, w, _, _, p1, e2, p3, q3, e4, fun x hx => ?_⟩
      exact C93_evaluate_projection .chebyshev n hm.usable.1 h ⟨0, true, addr, (grid₀ .chebyshev n).P 0 true (Smooth1.dx (Smooth1.dx c)).1⟩ hg 0 rfl _
        (hm.determined 0 true (band_deriv1 (band_deriv1 hb))) rfl x hx

/-! ## Concrete cases -/

/-- `x³` on the line. -/
noncomputable def cube1 : Smooth1 := ⟨fun x => x ^ 3, by show ContDiff ℝ (⊤ : ℕ∞) fun x : ℝ => x ^ 3; exact contDiff_id.pow 3⟩

/-- A Chebyshev grid with 5 vertices resolves `x³`, and the expression `f.D ∧ (f.H.D).H` with it needs 8 vertices. -/
example : Fits .chebyshev 5 3 ∧ IsPoly (3 + 1) cube1.1 ∧ HasType 1 true (fun _ => (0, true)) (.wedge (.der (.var 0)) (.star (.der (.star (.der (.var 0))))) true) 1 true ∧
    Fits .chebyshev 8 ((Expr.wedge (.der (.var 0)) (.star (.der (.star (.der (.var 0))))) true).order * 3) := by
  refine ⟨⟨by norm_num, by norm_num⟩, ⟨fun j => if j = 3 then 1 else 0, fun x => ?_⟩, ?_, ⟨by simp [Expr.order], by norm_num⟩⟩
  · simp [Finset.sum_range_succ, cube1]
  · exact .wedge true rfl (.der (.var 0 (by norm_num)) (by norm_num)) (.star (.der (.star (.der (.var 0 (by norm_num)) (by norm_num))) (by norm_num))) (by norm_num)

end Dec.Props
