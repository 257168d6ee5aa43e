import Verif.Props.ExprExact
import Verif.Props.DformEval

set_option linter.unusedSimpArgs false
set_option linter.unusedVariables false

/-! # C96: expressions with boundary terms, and their values at points

C90 without its restriction on derivatives of dual forms: these are completed with the boundary form `g.BC(f)` of the symbolic form, as in `/repo/examples/grids.ipynb` cell 14. The value of the discrete
expression at a point is then the value of the symbolic expression there, which is what the notebook plots. -/

namespace Dec.Props

open Finset Real G2 Decform Discretise

/-- The operators of the grids at the addresses. -/
noncomputable abbrev heapOf (h : GHeap) : Heap := fun a => (h a).ops

/-- The derivative of a discrete form `x` that discretises the symbolic form `f`: `x.D` if `x` is primal, `x.D + g.BC(f)` if it is dual. -/
noncomputable def derBC (h : Heap) (g : Grid2) (addr : ℕ) (f : Sym.Form Smooth) (x : DForm) : Except Err DForm := do
  match ← D h x with
  | some y => if x.isprimal then .ok y else do
      let z ← BC2 g addr f
      binary .add y (.form z)
  | none => .error .typeError

/-- The expressions of C89 with discrete forms, every derivative of a dual form completed with the boundary form of the symbolic value of the operand. -/
noncomputable def Expr.evalBC (h : Heap) (g : Grid2) (addr : ℕ) (ω : ℕ → Sym.Form Smooth) (env : ℕ → DForm) : Expr → Except Err DForm
  | .var i => .ok (env i)
  | .add a b => do let x ← a.evalBC h g addr ω env; let y ← b.evalBC h g addr ω env; binary .add x (.form y)
  | .sub a b => do let x ← a.evalBC h g addr ω env; let y ← b.evalBC h g addr ω env; binary .sub x (.form y)
  | .neg a => do let x ← a.evalBC h g addr ω env; .ok (Decform.neg x)
  | .scale c a => do let x ← a.evalBC h g addr ω env; binary .rmul x (.scalar c)
  | .der a => do let x ← a.evalBC h g addr ω env; let f ← a.symb ω; derBC h g addr f x
  | .star a => do let x ← a.evalBC h g addr ω env; H h x
  | .wedge a b u => do let x ← a.evalBC h g addr ω env; let y ← b.evalBC h g addr ω env; W h x y u
  | .contr a b u => do let x ← a.evalBC h g addr ω env; let y ← b.evalBC h g addr ω env; C h x y u

section
variable {k k' : Kind} {n n' : ℕ}

local notation "𝔾" => product (grid₀ k n) (grid₀ k' n')

variable {m m' l l' i d e : ℕ} {f g : Sym.Form Smooth}

theorem step_D_bc {h : Heap} {addr : ℕ} (hg : h addr = ops2 𝔾) (hm : Fits k n m) (hm' : Fits k' n' m') (hf : Limited k k' m m' i d f) (hd : d < 2) {t : Bool} {z : DForm}
    (hz : to_discrete2 𝔾 addr f t = .ok z) :
    ∃ df y, Sym.D Smooth.dx Smooth.dy (.form f) = .ok (.form df) ∧ Limited k k' m m' i (d + 1) df ∧ derBC h 𝔾 addr f z = .ok y ∧ to_discrete2 𝔾 addr df t = .ok y := by
  have hzt : z.isprimal = t := by
    obtain ⟨D, c, -, rfl, hc⟩ := hf.norm
    obtain ⟨u, -, rfl⟩ := disc_inv hm.usable.1 hm'.usable.1 hc hz
    rfl
  cases t with
  | true =>
    obtain ⟨df, y, h1, h2, h3, h4⟩ := step_D hg hm hm' hf hd hz (.inr rfl)
    refine ⟨df, y, h1, h2, ?_, h4⟩
    simp only [derBC, h3, bind, Except.bind, hzt, if_true]
  | false =>
    obtain ⟨df, h1, h2⟩ := hf.D hm.not_regular hd
    have vn := hm.usable.1
    have vn' := hm'.usable.1
    obtain ⟨a, b, hab, h2π, e⟩ := grid₀_ends k n
    obtain ⟨a', b', hab', h2π', e'⟩ := grid₀_ends k' n'
    have hp := hf.periodicForm hm.not_regular hm'.not_regular h2π h2π'
    have hdim : f.grid.dim = 2 := by rw [hf.chart]
    have hdeg : f.degree < 2 := by rw [hf.degree]; exact hd
    rw [e, e'] at hg hz ⊢
    obtain ⟨df', x, y, v, w, g1, g2, g3, g4, g5, g6⟩ := C66_2d_derivative_dual h addr k k' n n' vn vn' a b a' b' hab hab' hg f hf.form hdim hdeg hp
    rw [h1] at g1
    obtain rfl : df = df' := by injection g1 with g1; injection g1
    rw [hz] at g2
    obtain rfl := Except.ok.inj g2
    refine ⟨df, w, h1, h2, ?_, g6⟩
    simp only [derBC, g3, bind, Except.bind, hzt, Bool.false_eq_true, if_false, g4]
    exact g5

theorem symb_exact_bc {h : Heap} {addr : ℕ} (hg : h addr = ops2 𝔾) {Γ : ℕ → ℕ × Bool} {ω : ℕ → Sym.Form Smooth} {env : ℕ → DForm} (hω : ∀ j, Limited k k' m m' i (Γ j).1 (ω j))
    (henv : ∀ j, to_discrete2 𝔾 addr (ω j) (Γ j).2 = .ok (env j)) {E : Expr} {d : ℕ} {t : Bool} (hE : HasType 2 true Γ E d t)
    (hm : Fits k n (E.order * m)) (hm' : Fits k' n' (E.order * m')) :
    ∃ s z, E.symb ω = .ok s ∧ Limited k k' (E.order * m) (E.order * m') i d s ∧ E.evalBC h 𝔾 addr ω env = .ok z ∧ to_discrete2 𝔾 addr s t = .ok z := by
  have vn := hm.usable.1
  have vn' := hm'.usable.1
  have hk := hm.not_regular
  have hk' := hm'.not_regular
  induction hE with
  | var j hj => exact ⟨_, _, rfl, (hω j).mono (by simp [Expr.order]) (by simp [Expr.order]), rfl, henv j⟩
  | @add a b d t ha hb iha ihb =>
    have la : a.order ≤ (Expr.add a b).order := le_max_left _ _
    have lb : b.order ≤ (Expr.add a b).order := le_max_right _ _
    obtain ⟨x, p, x1, x2, x3, x4⟩ := iha (hm.mono (Nat.mul_le_mul_right _ la)) (hm'.mono (Nat.mul_le_mul_right _ la))
    obtain ⟨y, q, y1, y2, y3, y4⟩ := ihb (hm.mono (Nat.mul_le_mul_right _ lb)) (hm'.mono (Nat.mul_le_mul_right _ lb))
    obtain ⟨g, g1, g2, g3, g4, g5, g6, g7⟩ := step_lc vn vn' hk (x2.mono (Nat.mul_le_mul_right _ la) (Nat.mul_le_mul_right _ la))
      (y2.mono (Nat.mul_le_mul_right _ lb) (Nat.mul_le_mul_right _ lb)) x4 y4 1 1
    simp only [one_smul, one_mul] at g1 g7
    refine ⟨g, _, ?_, g4, ?_, g7⟩
    · simp only [Expr.symb, x1, y1, bind, Except.bind, Sym.Form.add, Sym.Form.binary, g2, g3, ne_eq, not_true_eq_false, if_false]
      rw [← g2, ← g3]; exact g1
    · simp only [Expr.evalBC, x3, y3, bind, Except.bind]
      exact binary_form .add g5 g6
  | @sub a b d t ha hb iha ihb =>
    have la : a.order ≤ (Expr.sub a b).order := le_max_left _ _
    have lb : b.order ≤ (Expr.sub a b).order := le_max_right _ _
    obtain ⟨x, p, x1, x2, x3, x4⟩ := iha (hm.mono (Nat.mul_le_mul_right _ la)) (hm'.mono (Nat.mul_le_mul_right _ la))
    obtain ⟨y, q, y1, y2, y3, y4⟩ := ihb (hm.mono (Nat.mul_le_mul_right _ lb)) (hm'.mono (Nat.mul_le_mul_right _ lb))
    obtain ⟨g, g1, g2, g3, g4, g5, g6, g7⟩ := step_lc vn vn' hk (x2.mono (Nat.mul_le_mul_right _ la) (Nat.mul_le_mul_right _ la))
      (y2.mono (Nat.mul_le_mul_right _ lb) (Nat.mul_le_mul_right _ lb)) x4 y4 1 (-1)
    simp only [one_smul, one_mul, neg_smul, neg_mul, ← sub_eq_add_neg] at g1 g7
    refine ⟨g, _, ?_, g4, ?_, g7⟩
    · simp only [Expr.symb, x1, y1, bind, Except.bind, Sym.Form.sub, Sym.Form.binary, g2, g3, ne_eq, not_true_eq_false, if_false]
      rw [← g2, ← g3]; exact g1
    · simp only [Expr.evalBC, x3, y3, bind, Except.bind]
      exact binary_form .sub g5 g6
  | @neg a d t ha iha =>
    obtain ⟨x, p, x1, x2, x3, x4⟩ := iha hm hm'
    obtain ⟨g, g1, g2, g3, g4, g5, g6, g7⟩ := step_lc vn vn' hk x2 x2 x4 x4 (-1) 0
    simp only [neg_smul, one_smul, neg_mul, one_mul, zero_smul, zero_mul, add_zero, List.zipWith_self] at g1 g7
    refine ⟨g, _, ?_, g4, ?_, g7⟩
    · simp only [Expr.symb, x1, bind, Except.bind, Sym.Form.neg]
      exact g1
    · simp only [Expr.evalBC, x3, bind, Except.bind]
      rfl
  | @scale a d t r ha iha =>
    obtain ⟨x, p, x1, x2, x3, x4⟩ := iha hm hm'
    obtain ⟨g, g1, g2, g3, g4, g5, g6, g7⟩ := step_lc vn vn' hk x2 x2 x4 x4 r 0
    simp only [zero_smul, zero_mul, add_zero, List.zipWith_self] at g1 g7
    refine ⟨g, _, ?_, g4, ?_, g7⟩
    · simp only [Expr.symb, x1, bind, Except.bind, Sym.Form.binaryScalar]
      rw [← g1]
      refine congrArg _ (List.map_congr_left fun c _ => ?_)
      rw [Algebra.smul_def, mul_comm]
    · simp only [Expr.evalBC, x3, bind, Except.bind]
      rfl
  | @der a d t ha hd iha =>
    obtain ⟨x, p, x1, x2, x3, x4⟩ := iha hm hm'
    obtain ⟨g, q, g1, g2, g3, g4⟩ := step_D_bc hg hm hm' x2 hd x4
    refine ⟨g, q, ?_, g2, ?_, g4⟩
    · simp only [Expr.symb, x1, bind, Except.bind, g1, asForm]
    · simp only [Expr.evalBC, x3, x1, bind, Except.bind]
      exact g3
  | @star a d t ha iha =>
    obtain ⟨x, p, x1, x2, x3, x4⟩ := iha hm hm'
    obtain ⟨g, q, g1, g2, g3, g4⟩ := step_H hg hm hm' x2 x4
    refine ⟨g, q, ?_, g2, ?_, g4⟩
    · simp only [Expr.symb, x1, bind, Except.bind, g1, asForm]
    · simp only [Expr.evalBC, x3, bind, Except.bind, g3]
  | @wedge a b d e s t u hp ha hb hd iha ihb =>
    have la : a.order ≤ (Expr.wedge a b u).order := Nat.le_add_right _ _
    have lb : b.order ≤ (Expr.wedge a b u).order := Nat.le_add_left _ _
    have e0 : (Expr.wedge a b u).order * m = a.order * m + b.order * m := Nat.add_mul _ _ _
    have e1 : (Expr.wedge a b u).order * m' = a.order * m' + b.order * m' := Nat.add_mul _ _ _
    obtain ⟨x, p, x1, x2, x3, x4⟩ := iha (hm.mono (Nat.mul_le_mul_right _ la)) (hm'.mono (Nat.mul_le_mul_right _ la))
    obtain ⟨y, q, y1, y2, y3, y4⟩ := ihb (hm.mono (Nat.mul_le_mul_right _ lb)) (hm'.mono (Nat.mul_le_mul_right _ lb))
    rw [e0] at hm ⊢
    rw [e1] at hm' ⊢
    obtain ⟨g, r, g1, g2, g3, g4⟩ := step_W (u := u) hg hm hm' x2 y2 hd x4 y4
    refine ⟨g, r, ?_, g2, ?_, g4⟩
    · simp only [Expr.symb, x1, y1, bind, Except.bind, g1, asForm]
    · simp only [Expr.evalBC, x3, y3, bind, Except.bind, g3]
  | @contr a b e s t u hp ha hb hd iha ihb =>
    have la : a.order ≤ (Expr.contr a b u).order := Nat.le_add_right _ _
    have lb : b.order ≤ (Expr.contr a b u).order := Nat.le_add_left _ _
    have e0 : (Expr.contr a b u).order * m = a.order * m + b.order * m := Nat.add_mul _ _ _
    have e1 : (Expr.contr a b u).order * m' = a.order * m' + b.order * m' := Nat.add_mul _ _ _
    obtain ⟨x, p, x1, x2, x3, x4⟩ := iha (hm.mono (Nat.mul_le_mul_right _ la)) (hm'.mono (Nat.mul_le_mul_right _ la))
    obtain ⟨y, q, y1, y2, y3, y4⟩ := ihb (hm.mono (Nat.mul_le_mul_right _ lb)) (hm'.mono (Nat.mul_le_mul_right _ lb))
    rw [e0] at hm ⊢
    rw [e1] at hm' ⊢
    obtain ⟨g, r, g1, g2, g3, g4⟩ := step_C (u := u) hg hm hm' x2 y2 hd x4 y4
    refine ⟨g, r, ?_, g2, ?_, g4⟩
    · simp only [Expr.symb, x1, y1, bind, Except.bind, g1, asForm]
    · simp only [Expr.evalBC, x3, y3, bind, Except.bind, g3]


theorem Fits.determined {k : Kind} {n m : ℕ} (hf : Fits k n m) (d : Fin 2) (t : Bool) {f : ℝ → ℝ} (h : BandLimited k m f) : Determined k n d t f := by
  cases k
  · have h1 : 2 * m < n := hf
    exact IsTrigAt.of_trig (IsTrig.mono (by omega) h)
  · exact hf.elim
  · have h1 := hf.1
    have : m + 1 ≤ if (d = 0) = (t = true) then n else n - 1 := by split_ifs <;> omega
    exact isPoly_mono this h

/-- The points at which a form of degree `d` is evaluated. -/
def Interior (k k' : Kind) (d : ℕ) (s r : ℝ) : Prop := s ∈ Inside k (if d = 0 then 0 else 1) ∧ r ∈ Inside k' (if d = 0 then 0 else 1)

theorem read_off {h : GHeap} {addr : ℕ} (hg : h addr = .two 𝔾) (hm : Fits k n m) (hm' : Fits k' n' m') (hf : Limited k k' m m' i d f) {t : Bool} {z : DForm}
    (hz : to_discrete2 𝔾 addr f t = .ok z) (s r : ℝ) (hp : Interior k k' d s r) : R h z [s, r] = .ok (f.comps.map fun c => some (fn2 c s r)) := by
  have hT := hf.tensorForm (V := fun e => Determined k n e t) (W := fun e => Determined k' n' e t) (fun d _ h => hm.determined d t h) (fun d _ h => hm'.determined d t h)
  obtain ⟨D, c, rfl, rfl, hc⟩ := hf.norm
  obtain ⟨u, hu, rfl⟩ := disc_inv hm.usable.1 hm'.usable.1 hc hz
  have e : Fin.ofNat 3 D.val = D := by ext; simp [Fin.ofNat]
  simp only [e] at hT
  have e2 : (if D.val = 0 then (0 : Fin 2) else 1) = if D = 0 then 0 else 1 := by
    by_cases h0 : D = 0
    · rw [if_pos h0, if_pos (by rw [h0]; rfl)]
    · rw [if_neg h0, if_neg (by intro h1; exact h0 (Fin.ext h1))]
  obtain ⟨hs, hr⟩ := hp
  rw [e2] at hs hr
  have := C93_evaluate_projection_2d k k' n n' hm.usable.1 hm'.usable.1 h ⟨D.val, t, addr, u⟩ hg D rfl (c.map fn2) hT hu s r hs hr
  rw [this, List.map_map]
  rfl

end

/-! ## C96 -/

/-- **C96.** With the boundary forms, C90 holds for every expression on every product of periodic and Chebyshev grids, whatever is differentiated on whichever side. -/
theorem C96_exact (k k' : Kind) (n n' : ℕ) (h : Heap) (addr : ℕ) (hg : h addr = ops2 (product (grid₀ k n) (grid₀ k' n'))) (m m' i : ℕ) (Γ : ℕ → ℕ × Bool) (ω : ℕ → Sym.Form Smooth)
    (hω : ∀ j, Limited k k' m m' i (Γ j).1 (ω j)) (env : ℕ → DForm) (henv : ∀ j, to_discrete2 (product (grid₀ k n) (grid₀ k' n')) addr (ω j) (Γ j).2 = .ok (env j))
    (E : Expr) (d : ℕ) (t : Bool) (hE : HasType 2 true Γ E d t) (hm : Fits k n (E.order * m)) (hm' : Fits k' n' (E.order * m')) :
    ∃ s z, E.symb ω = .ok s ∧ E.evalBC h (product (grid₀ k n) (grid₀ k' n')) addr ω env = .ok z ∧ to_discrete2 (product (grid₀ k n) (grid₀ k' n')) addr s t = .ok z := by
  obtain ⟨s, z, h1, -, h2, h3⟩ := symb_exact_bc hg hω henv hE hm hm'
  exact ⟨s, z, h1, h2, h3⟩

/-- **C96.** Evaluating the discrete result at a point gives the components of the symbolic result at that point. -/
theorem C96_values (k k' : Kind) (n n' : ℕ) (h : GHeap) (addr : ℕ) (hg : h addr = .two (product (grid₀ k n) (grid₀ k' n'))) (m m' i : ℕ) (Γ : ℕ → ℕ × Bool) (ω : ℕ → Sym.Form Smooth)
    (hω : ∀ j, Limited k k' m m' i (Γ j).1 (ω j)) (env : ℕ → DForm) (henv : ∀ j, to_discrete2 (product (grid₀ k n) (grid₀ k' n')) addr (ω j) (Γ j).2 = .ok (env j))
    (E : Expr) (d : ℕ) (t : Bool) (hE : HasType 2 true Γ E d t) (hm : Fits k n (E.order * m)) (hm' : Fits k' n' (E.order * m')) :
    ∃ s z, E.symb ω = .ok s ∧ E.evalBC (heapOf h) (product (grid₀ k n) (grid₀ k' n')) addr ω env = .ok z ∧
      ∀ x y, Interior k k' d x y → R h z [x, y] = .ok (s.comps.map fun c => some (fn2 c x y)) := by
  obtain ⟨s, z, h1, h0, h2, h3⟩ := symb_exact_bc (h := heapOf h) (show (h addr).ops = _ by rw [hg]; rfl) hω henv hE hm hm'
  exact ⟨s, z, h1, h2, fun x y hp => read_off hg hm hm' h0 h3 x y hp⟩

/-- **C96.** If only primal forms are differentiated, no boundary form is used: the expression is the one of C90. -/
theorem C96_no_boundary (k k' : Kind) (n n' : ℕ) (h : Heap) (addr : ℕ) (hg : h addr = ops2 (product (grid₀ k n) (grid₀ k' n'))) (m m' i : ℕ) (Γ : ℕ → ℕ × Bool) (ω : ℕ → Sym.Form Smooth)
    (hω : ∀ j, Limited k k' m m' i (Γ j).1 (ω j)) (env : ℕ → DForm) (henv : ∀ j, to_discrete2 (product (grid₀ k n) (grid₀ k' n')) addr (ω j) (Γ j).2 = .ok (env j))
    (E : Expr) (d : ℕ) (t : Bool) (hE : HasType 2 true Γ E d t) (hD : (k = .periodic ∧ k' = .periodic) ∨ E.dersPrimal Γ) (hm : Fits k n (E.order * m)) (hm' : Fits k' n' (E.order * m')) :
    E.evalBC h (product (grid₀ k n) (grid₀ k' n')) addr ω env = E.eval h env := by
  obtain ⟨s, z, h1, h2, h3⟩ := C96_exact k k' n n' h addr hg m m' i Γ ω hω env henv E d t hE hm hm'
  obtain ⟨s', z', h1', h2', h3'⟩ := C90_exact k k' n n' h addr hg m m' i Γ ω hω env henv E d t hE hD hm hm'
  rw [h1] at h1'
  obtain rfl := Except.ok.inj h1'
  rw [h3] at h3'
  rw [h2, h2', Except.ok.inj h3']

/-! ## The pictures of `/repo/examples/grids.ipynb` -/

section
variable {k k' : Kind} {n n' m m' : ℕ} (h : GHeap) (addr i : ℕ)

/-- A function of two variables of bandwidth `m` along the first and `m'` along the second axis. -/
def Band2 (k k' : Kind) (m m' : ℕ) (c : Smooth) : Prop := Tensor (BandLimited k m) (BandLimited k' m') (fn2 c)

theorem lim0 {c : Smooth} (hc : Band2 k k' m m' c) : Limited k k' m m' i 0 ⟨0, ⟨i, 2⟩, [c]⟩ :=
  limited_of (D := 0) rfl (by simp only [List.mem_cons, List.not_mem_nil, or_false, forall_eq]; exact hc)

theorem lim1 {p q : Smooth} (hp : Band2 k k' m m' p) (hq : Band2 k k' m m' q) : Limited k k' m m' i 1 ⟨1, ⟨i, 2⟩, [p, q]⟩ :=
  limited_of (D := 1) rfl (by simp only [List.mem_cons, List.not_mem_nil, or_false, forall_eq_or_imp, forall_eq]; exact ⟨hp, hq⟩)

theorem dy_neg (q : Smooth) : Smooth.dy (-q) = -Smooth.dy q := by
  have := Smooth.partials.dy_add q (-q)
  have h0 := Smooth.partials.dy_add 0 0
  simp only [add_zero, left_eq_add] at h0
  rw [add_neg_cancel, h0] at this
  exact (neg_eq_of_add_eq_zero_right this.symm).symm

theorem fn2_add (a b : Smooth) (x y : ℝ) : fn2 (a + b) x y = fn2 a x y + fn2 b x y := rfl
theorem fn2_neg (a : Smooth) (x y : ℝ) : fn2 (-a) x y = -fn2 a x y := rfl
theorem fn2_mul (a b : Smooth) (x y : ℝ) : fn2 (a * b) x y = fn2 a x y * fn2 b x y := rfl

variable (hg : h addr = .two (product (grid₀ k n) (grid₀ k' n'))) (hm : Fits k n m) (hm' : Fits k' n' m')

include hg in
theorem ops_of_two : heapOf h addr = ops2 (product (grid₀ k n) (grid₀ k' n')) := by
  show (h addr).ops = _
  rw [hg]; rfl

include hg hm hm' in
/-- **C96**, cells 9 to 11: `f.D.R(x, y)` is the gradient of `f` at the point. -/
theorem C96_gradient (c : Smooth) (hc : Band2 k k' m m' c) (f : DForm) (hf : to_discrete2 (product (grid₀ k n) (grid₀ k' n')) addr ⟨0, ⟨i, 2⟩, [c]⟩ true = .ok f) :
    ∃ df, D (heapOf h) f = .ok (some df) ∧ ∀ x y, Interior k k' 1 x y → R h df [x, y] = .ok [some (dX (fn2 c) x y), some (dY (fn2 c) x y)] := by
  obtain ⟨s, z, a1, a2, a3, a4⟩ := step_D (ops_of_two h addr hg) hm hm' (lim0 i hc) (by norm_num) hf (.inr rfl)
  obtain rfl : s = ⟨1, ⟨i, 2⟩, [Smooth.dx c, Smooth.dy c]⟩ := same a1 (by sym_simp)
  refine ⟨z, a3, fun x y hp => ?_⟩
  rw [read_off hg hm hm' a2 a4 x y hp, fn2_dx, fn2_dy]
  rfl

include hg hm hm' in
/-- **C96**, cell 12: `f.D.H.R(x, y)` is the curl `∂q/∂x - ∂p/∂y` of the vector field `(p, q)` at the point. -/
theorem C96_curl (p q : Smooth) (hp : Band2 k k' m m' p) (hq : Band2 k k' m m' q) (f : DForm) (hf : to_discrete2 (product (grid₀ k n) (grid₀ k' n')) addr ⟨1, ⟨i, 2⟩, [p, q]⟩ true = .ok f) :
    ∃ df w, D (heapOf h) f = .ok (some df) ∧ H (heapOf h) df = .ok w ∧ ∀ x y, Interior k k' 0 x y → R h w [x, y] = .ok [some (dX (fn2 q) x y - dY (fn2 p) x y)] := by
  obtain ⟨s, z, a1, a2, a3, a4⟩ := step_D (ops_of_two h addr hg) hm hm' (lim1 i hp hq) (by norm_num) hf (.inr rfl)
  obtain rfl : s = ⟨2, ⟨i, 2⟩, [-Smooth.dy p + Smooth.dx q]⟩ := same a1 (by sym_simp)
  obtain ⟨s', w, b1, b2, b3, b4⟩ := step_H (ops_of_two h addr hg) hm hm' a2 a4
  obtain rfl : s' = ⟨0, ⟨i, 2⟩, [-Smooth.dy p + Smooth.dx q]⟩ := same b1 (by sym_simp)
  refine ⟨z, w, a3, b3, fun x y hp => ?_⟩
  rw [read_off hg hm hm' b2 b4 x y hp, fn2_dx, fn2_dy]
  simp only [List.map_cons, List.map_nil, fn2_add, fn2_neg]
  rw [neg_add_eq_sub]

include hg hm hm' in
/-- **C96**, cell 13: for a dual form, `f.H.D.H.R(x, y)` is the divergence `∂p/∂x + ∂q/∂y` at the point; no boundary form is needed. -/
theorem C96_divergence_dual (p q : Smooth) (hp : Band2 k k' m m' p) (hq : Band2 k k' m m' q) (f : DForm) (hf : to_discrete2 (product (grid₀ k n) (grid₀ k' n')) addr ⟨1, ⟨i, 2⟩, [p, q]⟩ false = .ok f) :
    ∃ u v w, H (heapOf h) f = .ok u ∧ D (heapOf h) u = .ok (some v) ∧ H (heapOf h) v = .ok w ∧ ∀ x y, Interior k k' 0 x y → R h w [x, y] = .ok [some (dX (fn2 p) x y + dY (fn2 q) x y)] := by
  obtain ⟨s, u, a1, a2, a3, a4⟩ := step_H (ops_of_two h addr hg) hm hm' (lim1 i hp hq) hf
  obtain rfl : s = ⟨1, ⟨i, 2⟩, [-q, p]⟩ := same a1 (by sym_simp)
  obtain ⟨s', v, b1, b2, b3, b4⟩ := step_D (ops_of_two h addr hg) hm hm' a2 (by norm_num) a4 (.inr rfl)
  obtain rfl : s' = ⟨2, ⟨i, 2⟩, [-Smooth.dy (-q) + Smooth.dx p]⟩ := same b1 (by sym_simp)
  obtain ⟨s'', w, c1, c2, c3, c4⟩ := step_H (ops_of_two h addr hg) hm hm' b2 b4
  obtain rfl : s'' = ⟨0, ⟨i, 2⟩, [-Smooth.dy (-q) + Smooth.dx p]⟩ := same c1 (by sym_simp)
  refine ⟨u, v, w, a3, b3, c3, fun x y hp => ?_⟩
  rw [read_off hg hm hm' c2 c4 x y hp, fn2_dx, fn2_dy]
  have e : Smooth.dy (-q) = -Smooth.dy q := dy_neg q
  simp only [List.map_cons, List.map_nil, e, neg_neg, fn2_add]
  rw [add_comm]

include hg hm hm' in
/-- **C96**, cell 14: for a primal form, `(f.H.D + g.BC(F.H)).H.R(x, y)` is the divergence at the point, `F` being the symbolic form of `f`. -/
theorem C96_divergence_primal (p q : Smooth) (hp : Band2 k k' m m' p) (hq : Band2 k k' m m' q) (f : DForm) (hf : to_discrete2 (product (grid₀ k n) (grid₀ k' n')) addr ⟨1, ⟨i, 2⟩, [p, q]⟩ true = .ok f) :
    ∃ F u v b v' w, Sym.H (.form ⟨1, ⟨i, 2⟩, [p, q]⟩) = .ok (.form F) ∧ H (heapOf h) f = .ok u ∧ D (heapOf h) u = .ok (some v) ∧ BC2 (product (grid₀ k n) (grid₀ k' n')) addr F = .ok b ∧ binary .add v (.form b) = .ok v' ∧ H (heapOf h) v' = .ok w ∧
      ∀ x y, Interior k k' 0 x y → R h w [x, y] = .ok [some (dX (fn2 p) x y + dY (fn2 q) x y)] := by
  obtain ⟨s, u, a1, a2, a3, a4⟩ := step_H (ops_of_two h addr hg) hm hm' (lim1 i hp hq) hf
  obtain rfl : s = ⟨1, ⟨i, 2⟩, [-q, p]⟩ := same a1 (by sym_simp)
  obtain ⟨s', v', b1, b2, b3, b4⟩ := step_D_bc (ops_of_two h addr hg) hm hm' a2 (by norm_num) a4
  obtain rfl : s' = ⟨2, ⟨i, 2⟩, [-Smooth.dy (-q) + Smooth.dx p]⟩ := same b1 (by sym_simp)
  obtain ⟨s'', w, c1, c2, c3, c4⟩ := step_H (ops_of_two h addr hg) hm hm' b2 b4
  obtain rfl : s'' = ⟨0, ⟨i, 2⟩, [-Smooth.dy (-q) + Smooth.dx p]⟩ := same c1 (by sym_simp)
  have hu : u.isprimal = false := by
    obtain ⟨z, -, rfl⟩ := disc_inv (D := 1) (c := [-q, p]) hm.usable.1 hm'.usable.1 rfl a4
    rfl
  obtain ⟨v, b, d1, d2, d3⟩ : ∃ v b, D (heapOf h) u = .ok (some v) ∧ BC2 (product (grid₀ k n) (grid₀ k' n')) addr ⟨1, ⟨i, 2⟩, [-q, p]⟩ = .ok b ∧ binary .add v (.form b) = .ok v' := by
    unfold derBC at b3
    cases hD : D (heapOf h) u with
    | error e => rw [hD] at b3; cases b3
    | ok o =>
      cases o with
      | none => rw [hD] at b3; cases b3
      | some v =>
        rw [hD] at b3
        simp only [bind, Except.bind, hu, Bool.false_eq_true, if_false] at b3
        cases hB : BC2 (product (grid₀ k n) (grid₀ k' n')) addr ⟨1, ⟨i, 2⟩, [-q, p]⟩ with
        | error e => rw [hB] at b3; cases b3
        | ok b => rw [hB] at b3; exact ⟨v, b, rfl, rfl, b3⟩
  refine ⟨_, u, v, b, v', w, a1, a3, d1, d2, d3, c3, fun x y hp => ?_⟩
  rw [read_off hg hm hm' c2 c4 x y hp, fn2_dx, fn2_dy]
  have e : Smooth.dy (-q) = -Smooth.dy q := dy_neg q
  simp only [List.map_cons, List.map_nil, e, neg_neg, fn2_add]
  rw [add_comm]

end

/-- **C96**, cell 23: `u.C(v.D) + (u.C(v)).D` is the Lie derivative of the 1-form `v = (p, q)` along the vector field `u = (a, b)`, at every interior point. -/
theorem C96_lie (k k' : Kind) (n n' m m' : ℕ) (h : GHeap) (addr i : ℕ) (hg : h addr = .two (product (grid₀ k n) (grid₀ k' n'))) (hm : Fits k n (m + m)) (hm' : Fits k' n' (m' + m'))
    (a b p q : Smooth) (ha : Band2 k k' m m' a) (hb : Band2 k k' m m' b) (hp : Band2 k k' m m' p) (hq : Band2 k k' m m' q) (u v : DForm)
    (hu : to_discrete2 (product (grid₀ k n) (grid₀ k' n')) addr ⟨1, ⟨i, 2⟩, [a, b]⟩ true = .ok u) (hv : to_discrete2 (product (grid₀ k n) (grid₀ k' n')) addr ⟨1, ⟨i, 2⟩, [p, q]⟩ true = .ok v) :
    ∃ dv c e de w, D (heapOf h) v = .ok (some dv) ∧ C (heapOf h) u dv true = .ok c ∧ C (heapOf h) u v true = .ok e ∧ D (heapOf h) e = .ok (some de) ∧
      binary .add c (.form de) = .ok w ∧ ∀ x y, Interior k k' 1 x y → R h w [x, y] = .ok
        [some (fn2 a x y * dX (fn2 p) x y + fn2 b x y * dY (fn2 p) x y + fn2 p x y * dX (fn2 a) x y + fn2 q x y * dX (fn2 b) x y),
         some (fn2 a x y * dX (fn2 q) x y + fn2 b x y * dY (fn2 q) x y + fn2 p x y * dY (fn2 a) x y + fn2 q x y * dY (fn2 b) x y)] := by
  have hO := ops_of_two h addr hg
  have hm1 : Fits k n m := hm.mono (by omega)
  have hm1' : Fits k' n' m' := hm'.mono (by omega)
  obtain ⟨s, dv, a1, a2, a3, a4⟩ := step_D hO hm1 hm1' (lim1 i hp hq) (by norm_num) hv (.inr rfl)
  obtain rfl : s = ⟨2, ⟨i, 2⟩, [-Smooth.dy p + Smooth.dx q]⟩ := same a1 (by sym_simp)
  obtain ⟨s, c, c1, c2, c3, c4⟩ := step_C (u := true) hO hm hm' (lim1 i ha hb) a2 (by norm_num) hu a4
  obtain rfl : s = ⟨1, ⟨i, 2⟩, [-(b * (-Smooth.dy p + Smooth.dx q)), a * (-Smooth.dy p + Smooth.dx q)]⟩ := same c1 (by sym_simp; ring)
  obtain ⟨s, e, e1, e2, e3, e4⟩ := step_C (u := true) hO hm hm' (lim1 i ha hb) (lim1 i hp hq) (by norm_num) hu hv
  obtain rfl : s = ⟨0, ⟨i, 2⟩, [a * p + b * q]⟩ := same e1 (by sym_simp)
  obtain ⟨s, de, d1, d2, d3, d4⟩ := step_D hO hm hm' e2 (by norm_num) e4 (.inr rfl)
  obtain rfl : s = ⟨1, ⟨i, 2⟩, [Smooth.dx (a * p + b * q), Smooth.dy (a * p + b * q)]⟩ := same d1 (by sym_simp)
  obtain ⟨r, r1, -, -, r4, r5, r6, r7⟩ := step_lc hm.usable.1 hm'.usable.1 hm.not_regular c2 d2 c4 d4 1 1
  refine ⟨dv, c, e, de, _, a3, c3, e3, d3, binary_form .add r5 r6, fun x y hxy => ?_⟩
  simp only [List.zipWith_cons_cons, List.zipWith_nil_left, one_smul] at r1
  obtain rfl := Except.ok.inj (r1.symm.trans (goodComps.isForm (D := 1) (c := [-(b * (-Smooth.dy p + Smooth.dx q)) + Smooth.dx (a * p + b * q), a * (-Smooth.dy p + Smooth.dx q) + Smooth.dy (a * p + b * q)]) rfl i).2)
  simp only [one_mul] at r7
  have key := read_off hg hm hm' r4 r7 x y hxy
  refine key.trans ?_
  simp only [List.map_cons, List.map_nil, Smooth.partials.dx_add, Smooth.partials.dy_add, Smooth.partials.dx_mul, Smooth.partials.dy_mul, fn2_add, fn2_mul, fn2_neg, fn2_dx, fn2_dy]
  refine congrArg Except.ok (congrArg₂ List.cons (congrArg some ?_) (congrArg₂ List.cons (congrArg some ?_) rfl)) <;> ring

/-- Cell 12 itself: the curl of `(-y³, x³)` on the Chebyshev grid with 16 × 16 vertices is `3x² + 3y²`, at every point of the square. -/
example (h : GHeap) (hg : h 0 = .two (product (grid₀ .chebyshev 16) (grid₀ .chebyshev 16))) :
    ∃ f df w, to_discrete2 (product (grid₀ .chebyshev 16) (grid₀ .chebyshev 16)) 0 ⟨1, ⟨0, 2⟩, [-(Smooth.Y * Smooth.Y * Smooth.Y), Smooth.X * Smooth.X * Smooth.X]⟩ true = .ok f ∧
      D (heapOf h) f = .ok (some df) ∧ H (heapOf h) df = .ok w ∧ ∀ x ∈ Set.Icc (-1 : ℝ) 1, ∀ y ∈ Set.Icc (-1 : ℝ) 1, R h w [x, y] = .ok [some (3 * x ^ 2 + 3 * y ^ 2)] := by
  have h3 : BandLimited .chebyshev 3 fun x => x * x * x := ⟨fun j => if j = 3 then 1 else 0, fun x => by simp; ring⟩
  have h3' : BandLimited .chebyshev 3 fun x => -(x * x * x) := ⟨fun j => if j = 3 then -1 else 0, fun x => by simp; ring⟩
  have h1 : BandLimited .chebyshev 3 fun _ => 1 := ⟨fun j => if j = 0 then 1 else 0, fun x => by simp [Finset.sum_range_succ]⟩
  have hp : Band2 .chebyshev .chebyshev 3 3 (-(Smooth.Y * Smooth.Y * Smooth.Y)) := by
    have := Tensor.single h1 h3'
    simp only [one_mul] at this
    exact this
  have hq : Band2 .chebyshev .chebyshev 3 3 (Smooth.X * Smooth.X * Smooth.X) := by
    have := Tensor.single h3 h1
    simp only [mul_one] at this
    exact this
  have hm : Fits .chebyshev 16 3 := by constructor <;> norm_num
  obtain ⟨u, hu⟩ := P_total (k := .chebyshev) (k' := .chebyshev) (n := 16) (n' := 16) hm.usable.1 hm.usable.1 1 true
    (c := [-(Smooth.Y * Smooth.Y * Smooth.Y), Smooth.X * Smooth.X * Smooth.X]) rfl
  have hf := disc2 _ 0 1 0 [-(Smooth.Y * Smooth.Y * Smooth.Y), Smooth.X * Smooth.X * Smooth.X] true hu
  obtain ⟨df, w, a1, a2, a3⟩ := C96_curl h 0 0 hg hm hm _ _ hp hq _ hf
  refine ⟨_, df, w, hf, a1, a2, fun x hx y hy => ?_⟩
  rw [a3 x y ⟨hx, hy⟩]
  have e1 : dX (fn2 (Smooth.X * Smooth.X * Smooth.X)) x y = 3 * x ^ 2 := by
    show deriv (fun s : ℝ => s * s * s) x = _
    have : HasDerivAt (fun s : ℝ => s * s * s) ((1 * x + x * 1) * x + x * x * 1) x := ((hasDerivAt_id x).mul (hasDerivAt_id x)).mul (hasDerivAt_id x)
    rw [this.deriv]; ring
  have e2 : dY (fn2 (-(Smooth.Y * Smooth.Y * Smooth.Y))) x y = -(3 * y ^ 2) := by
    show deriv (fun s : ℝ => -(s * s * s)) y = _
    have : HasDerivAt (fun s : ℝ => -(s * s * s)) (-((1 * y + y * 1) * y + y * y * 1)) y := (((hasDerivAt_id y).mul (hasDerivAt_id y)).mul (hasDerivAt_id y)).neg
    rw [this.deriv]; ring
  rw [e1, e2, sub_neg_eq_add]

end Dec.Props
