import Verif.Props.DecformExpr
import Verif.Props.Discretise
import Verif.Props.Poisson2
import Verif.Props.ChebyshevCalculus

set_option linter.unusedSimpArgs false
set_option linter.unusedVariables false

/-! # C90: whole expressions of discrete forms are exact

Evaluating an expression with symbolic forms and discretising the result is the same as discretising the variables and evaluating with discrete forms, as long as no product exceeds what the grid
resolves. -/

namespace Dec.Props

open Finset Real G2 Decform Discretise

/-- A form, and not the integer `0`. -/
def asForm : Sym.Val Smooth → Except Err (Sym.Form Smooth)
  | .form f => .ok f
  | .zero => .error .typeError

/-- The same expressions with symbolic forms, as a user would write them with `/repo/dec/symbolic.py` and `/repo/dec/symform.py`. A multiple is written `f * c`. -/
noncomputable def Expr.symb (ω : ℕ → Sym.Form Smooth) : Expr → Except Err (Sym.Form Smooth)
  | .var i => .ok (ω i)
  | .add a b => do let x ← a.symb ω; let y ← b.symb ω; x.add y
  | .sub a b => do let x ← a.symb ω; let y ← b.symb ω; x.sub y
  | .neg a => do let x ← a.symb ω; x.neg
  | .scale c a => do let x ← a.symb ω; x.binaryScalar (· * ·) (algebraMap ℝ Smooth c)
  | .der a => do let x ← a.symb ω; let y ← Sym.D Smooth.dx Smooth.dy (.form x); asForm y
  | .star a => do let x ← a.symb ω; let y ← Sym.H (.form x); asForm y
  | .wedge a b _ => do let x ← a.symb ω; let y ← b.symb ω; let z ← Sym.W (.form x) (.form y); asForm z
  | .contr a b _ => do let x ← a.symb ω; let y ← b.symb ω; let z ← Sym.C (.form x) (.form y); asForm z

/-- The algebraic order: how many variables are multiplied at most. -/
def Expr.order : Expr → ℕ
  | .var _ => 1
  | .add a b => max a.order b.order
  | .sub a b => max a.order b.order
  | .neg a => a.order
  | .scale _ a => a.order
  | .der a => a.order
  | .star a => a.order
  | .wedge a b _ => a.order + b.order
  | .contr a b _ => a.order + b.order

/-- On which side the value of an expression lives. -/
def Expr.side (Γ : ℕ → ℕ × Bool) : Expr → Bool
  | .var i => (Γ i).2
  | .add a _ => a.side Γ
  | .sub a _ => a.side Γ
  | .neg a => a.side Γ
  | .scale _ a => a.side Γ
  | .der a => a.side Γ
  | .star a => !a.side Γ
  | .wedge _ _ u => u
  | .contr _ _ u => u

/-- Only primal forms are differentiated. (The derivative of a dual form lacks the boundary terms, see C27.) -/
def Expr.dersPrimal (Γ : ℕ → ℕ × Bool) : Expr → Prop
  | .var _ => True
  | .add a b => a.dersPrimal Γ ∧ b.dersPrimal Γ
  | .sub a b => a.dersPrimal Γ ∧ b.dersPrimal Γ
  | .neg a => a.dersPrimal Γ
  | .scale _ a => a.dersPrimal Γ
  | .der a => a.side Γ = true ∧ a.dersPrimal Γ
  | .star a => a.dersPrimal Γ
  | .wedge a b _ => a.dersPrimal Γ ∧ b.dersPrimal Γ
  | .contr a b _ => a.dersPrimal Γ ∧ b.dersPrimal Γ

/-- Trigonometric polynomials of degree at most `m` along a periodic axis, polynomials of degree at most `m` along a Chebyshev axis. -/
def BandLimited : Kind → ℕ → (ℝ → ℝ) → Prop
  | .periodic, m => IsTrig m
  | .chebyshev, m => IsPoly (m + 1)
  | .regular, _ => fun _ => False

/-- A grid with `n` vertices resolves these functions, on both sides. -/
def Fits : Kind → ℕ → ℕ → Prop
  | .periodic, n, m => 2 * m < n
  | .chebyshev, n, m => m + 2 ≤ n ∧ n ≤ 927
  | .regular, _, _ => False

/-- A symbolic form of the stated degree on the chart `i` of the plane, with components limited to `m` along the first and `m'` along the second axis. -/
structure Limited (k k' : Kind) (m m' i d : ℕ) (f : Sym.Form Smooth) : Prop where
  form : IsForm f
  chart : f.grid = ⟨i, 2⟩
  degree : f.degree = d
  comps : ∀ c ∈ f.comps, Tensor (BandLimited k m) (BandLimited k' m') (fn2 c)

/-! ## Functions of limited bandwidth -/

theorem BandLimited.mono {k : Kind} {m l : ℕ} (h : m ≤ l) {f : ℝ → ℝ} (hf : BandLimited k m f) : BandLimited k l f := by
  cases k
  · exact IsTrig.mono h hf
  · exact hf
  · exact isPoly_mono (Nat.succ_le_succ h) hf

theorem BandLimited.mul {k : Kind} {m l : ℕ} {f g : ℝ → ℝ} (hf : BandLimited k m f) (hg : BandLimited k l g) : BandLimited k (m + l) fun x => f x * g x := by
  cases k
  · exact IsTrig.mul hf hg
  · exact hf
  · exact isPoly_mul (by omega) hf hg

theorem BandLimited.smooth {k : Kind} {m : ℕ} {f : ℝ → ℝ} (hf : BandLimited k m f) : ContDiff ℝ 1 f := by
  cases k
  · exact IsTrig.contDiff hf
  · exact hf.elim
  · exact R0_contDiff .chebyshev (m + 1) (by simp) true f hf

theorem BandLimited.deriv {k : Kind} {m : ℕ} {f : ℝ → ℝ} (hf : BandLimited k m f) : ∃ f', BandLimited k m f' ∧ ∀ x, HasDerivAt f (f' x) x := by
  cases k
  · exact IsTrig.deriv hf
  · exact hf.elim
  · have hd : ∀ x, HasDerivAt f (_root_.deriv f x) x := fun x => (hf.smooth.differentiable (by simp) x).hasDerivAt
    exact ⟨_, isPoly_mono (by omega) (isPoly_deriv hf hd), hd⟩

theorem bandLimited_space {k : Kind} (hk : k ≠ .regular) (m : ℕ) : FnSpace (BandLimited k m) := by
  cases k
  · exact ⟨IsTrig.zero m, fun _ _ h h' => h.add h', fun c _ h => h.const_mul c, fun _ h => (BandLimited.smooth (k := .periodic) h).continuous⟩
  · exact absurd rfl hk
  · exact ⟨⟨fun _ => 0, by simp⟩, fun _ _ h h' => isPoly_add h h', fun c _ h => isPoly_smul c h, fun _ h => (BandLimited.smooth (k := .chebyshev) h).continuous⟩

theorem Fits.mono {k : Kind} {n m l : ℕ} (h : m ≤ l) (hf : Fits k n l) : Fits k n m := by
  cases k
  · have : 2 * l < n := hf
    show 2 * m < n
    omega
  · exact hf
  · exact ⟨by have := hf.1; omega, hf.2⟩

theorem Fits.usable {k : Kind} {n m : ℕ} (hf : Fits k n m) : Refinable k n := by
  cases k
  · have : 2 * m < n := hf
    exact ⟨by show 1 ≤ n; omega, by simp, by simp⟩
  · exact hf.elim
  · exact ⟨by have := hf.1; show 2 ≤ n; omega, by simp, fun _ => hf.2⟩

theorem Fits.resolved {k : Kind} {n m : ℕ} (hf : Fits k n m) (d : Fin 2) (t : Bool) {f : ℝ → ℝ} (h : BandLimited k m f) : Resolved k ((grid₀ k n).N d t) f := by
  cases k
  · have h1 : 2 * m < n := hf
    have e : (grid₀ .periodic n).N d t = n := rfl
    rw [e]
    exact IsTrig.mono (by omega) h
  · exact hf.elim
  · have h1 := hf.1
    have e : n - 1 ≤ (grid₀ .chebyshev n).N d t := by
      obtain rfl | rfl : d = 0 ∨ d = 1 := by omega
      all_goals cases t <;> simp [grid₀, Chebyshev.make]
    exact isPoly_mono (by omega) h

theorem Fits.unrefined {k : Kind} {n m : ℕ} (hf : Fits k n m) (d : Fin 2) {f : ℝ → ℝ} (h : BandLimited k m f) : Unrefined k n d f := by
  obtain rfl | rfl : d = 0 ∨ d = 1 := by omega
  · exact h.smooth.continuous
  · cases k
    · have h1 : 2 * m < n := hf
      exact IsTrig.mono (by omega) h
    · exact hf.elim
    · have h1 := hf.1
      exact isPoly_mono (by omega) h

theorem Fits.not_regular {k : Kind} {n m : ℕ} (hf : Fits k n m) : k ≠ .regular := by
  rintro rfl; exact hf

/-! ## Projections -/

section
variable {k k' : Kind} {n n' : ℕ} (hn : validSize k n) (hn' : validSize k' n')

local notation "𝔾" => product (grid₀ k n) (grid₀ k' n')

/-- The components of a form of degree `d`. -/
def goodComps (d : Fin 3) (c : List Smooth) : Prop := c.length = Grid2.ncomp d.val

theorem goodComps.cases {d : Fin 3} {c : List Smooth} (h : goodComps d c) : (d = 0 ∧ ∃ a, c = [a]) ∨ (d = 1 ∧ ∃ a b, c = [a, b]) ∨ (d = 2 ∧ ∃ a, c = [a]) := by
  unfold goodComps at h
  fin_cases d
  · exact Or.inl ⟨rfl, List.length_eq_one_iff.1 h⟩
  · exact Or.inr (Or.inl ⟨rfl, List.length_eq_two.1 h⟩)
  · exact Or.inr (Or.inr ⟨rfl, List.length_eq_one_iff.1 h⟩)

include hn hn' in
theorem P_total (d : Fin 3) (t : Bool) {c : List Smooth} (hc : goodComps d c) : ∃ u, (𝔾).P d t (c.map fn2) = .ok u := by
  have Fx := grid₀_factor k n hn
  have Fy := grid₀_factor k' n' hn'
  obtain ⟨rfl, a, rfl⟩ | ⟨rfl, a, b, rfl⟩ | ⟨rfl, a, rfl⟩ := hc.cases
  · exact ⟨_, P0_mtab Fx Fy t (fn2 a)⟩
  · exact ⟨_, P1_mtab Fx Fy t (fn2 a) (fn2 b)⟩
  · exact ⟨_, P2_mtab Fx Fy t (fn2 a)⟩

theorem int_lc {F G : ℝ → ℝ} (hF : Continuous F) (hG : Continuous G) (r s u v : ℝ) : ∫ x in u..v, (r * F x + s * G x) = r * (∫ x in u..v, F x) + s * ∫ x in u..v, G x := by
  have h1 : Continuous fun x => r * F x := continuous_const.mul hF
  have h2 : Continuous fun x => s * G x := continuous_const.mul hG
  rw [intervalIntegral.integral_add (h1.intervalIntegrable _ _) (h2.intervalIntegrable _ _), intervalIntegral.integral_const_mul,
    intervalIntegral.integral_const_mul]

theorem fn2_cont (c : Smooth) : Continuous fun p : ℝ × ℝ => fn2 c p.1 p.2 := (fn2_smooth c).continuous

theorem fn2_lc (r s : ℝ) (a b : Smooth) : fn2 (r • a + s • b) = fun x y => r * fn2 a x y + s * fn2 b x y := rfl

include hn hn' in
/-- Projection is linear. -/
theorem P_lc (d : Fin 3) (t : Bool) {c e : List Smooth} (hc : goodComps d c) (he : goodComps d e) (r s : ℝ) {u v : List ℝ} (hu : (𝔾).P d t (c.map fn2) = .ok u)
    (hv : (𝔾).P d t (e.map fn2) = .ok v) :
    u.length = v.length ∧ (𝔾).P d t ((List.zipWith (fun a b => r • a + s • b) c e).map fn2) = .ok (List.zipWith (fun a b => r * a + s * b) u v) := by
  have Fx := grid₀_factor k n hn
  have Fy := grid₀_factor k' n' hn'
  obtain ⟨rfl, a, rfl⟩ | ⟨rfl, a, b, rfl⟩ | ⟨rfl, a, rfl⟩ := hc.cases
  · obtain ⟨a', rfl⟩ : ∃ a', e = [a'] := List.length_eq_one_iff.1 he
    simp only [List.map_cons, List.map_nil, List.zipWith_cons_cons, List.zipWith_nil_left, fn2_lc] at hu hv ⊢
    rw [P0_mtab Fx Fy] at hu hv ⊢
    obtain rfl := Except.ok.inj hu
    obtain rfl := Except.ok.inj hv
    refine ⟨by simp only [length_data], ?_⟩
    simp only [mtab, zipWith_tab]
  · obtain ⟨a', b', rfl⟩ : ∃ a' b', e = [a', b'] := List.length_eq_two.1 he
    simp only [List.map_cons, List.map_nil, List.zipWith_cons_cons, List.zipWith_nil_left, fn2_lc] at hu hv ⊢
    rw [P1_mtab Fx Fy] at hu hv ⊢
    obtain rfl := Except.ok.inj hu
    obtain rfl := Except.ok.inj hv
    refine ⟨by simp only [List.length_append, length_data], ?_⟩
    rw [List.zipWith_append (by rw [length_data, length_data])]
    simp only [mtab, zipWith_tab]
    refine congrArg Except.ok (congrArg₂ (· ++ ·) (tab_congr fun i _ => ?_) (tab_congr fun i _ => ?_))
    · exact int_lc (cont_x (fn2_cont a) _) (cont_x (fn2_cont a') _) r s _ _
    · exact int_lc (cont_y (fn2_cont b) _) (cont_y (fn2_cont b') _) r s _ _
  · obtain ⟨a', rfl⟩ : ∃ a', e = [a'] := List.length_eq_one_iff.1 he
    simp only [List.map_cons, List.map_nil, List.zipWith_cons_cons, List.zipWith_nil_left, fn2_lc] at hu hv ⊢
    rw [P2_mtab Fx Fy] at hu hv ⊢
    obtain rfl := Except.ok.inj hu
    obtain rfl := Except.ok.inj hv
    refine ⟨by simp only [length_data], ?_⟩
    simp only [mtab, zipWith_tab]
    refine congrArg Except.ok (tab_congr fun i _ => ?_)
    unfold Integrate.P2r
    have ci : ∀ (c : Smooth) (p q : ℝ), Continuous fun x => ∫ y in p..q, fn2 c x y := fun c p q =>
      intervalIntegral.continuous_parametric_intervalIntegral_of_continuous' (fn2_cont c) p q
    simp only [int_lc (cont_y (fn2_cont a) _) (cont_y (fn2_cont a') _) r s]
    exact int_lc (ci a _ _) (ci a' _ _) r s _ _

/-! ## One step -/

theorem Limited.norm {m m' i d : ℕ} {f : Sym.Form Smooth} (hf : Limited k k' m m' i d f) : ∃ (D : Fin 3) (c : List Smooth), D.val = d ∧ f = ⟨D.val, ⟨i, 2⟩, c⟩ ∧ goodComps D c := by
  obtain ⟨h1, h2, h3, -⟩ := hf
  rcases h1.cases with ⟨j, c, rfl⟩ | ⟨j, c, rfl⟩ | ⟨j, c, rfl⟩ | ⟨j, c, e, rfl⟩ | ⟨j, c, rfl⟩
  · simp at h2
  · simp at h2
  · simp only [Sym.Chart.mk.injEq, and_true] at h2; subst h2; exact ⟨0, [c], h3, rfl, rfl⟩
  · simp only [Sym.Chart.mk.injEq, and_true] at h2; subst h2; exact ⟨1, [c, e], h3, rfl, rfl⟩
  · simp only [Sym.Chart.mk.injEq, and_true] at h2; subst h2; exact ⟨2, [c], h3, rfl, rfl⟩

theorem goodComps.isForm {D : Fin 3} {c : List Smooth} (h : goodComps D c) (i : ℕ) : IsForm (⟨D.val, ⟨i, 2⟩, c⟩ : Sym.Form Smooth) ∧ Sym.mkForm D.val ⟨i, 2⟩ c = .ok ⟨D.val, ⟨i, 2⟩, c⟩ := by
  have : Sym.mkForm D.val ⟨i, 2⟩ c = .ok ⟨D.val, ⟨i, 2⟩, c⟩ := by
    obtain ⟨rfl, a, rfl⟩ | ⟨rfl, a, b, rfl⟩ | ⟨rfl, a, rfl⟩ := h.cases <;> simp
  exact ⟨⟨⟨i, 2, rfl⟩, this⟩, this⟩

include hn hn' in
theorem disc_inv {addr i : ℕ} {D : Fin 3} {c : List Smooth} (hc : goodComps D c) {t : Bool} {z : DForm} (h : to_discrete2 𝔾 addr ⟨D.val, ⟨i, 2⟩, c⟩ t = .ok z) :
    ∃ u, (𝔾).P D t (c.map fn2) = .ok u ∧ z = ⟨D.val, t, addr, u⟩ := by
  obtain ⟨u, hu⟩ := P_total hn hn' D t hc
  rw [disc2 _ addr D i c t hu] at h
  exact ⟨u, hu, (Except.ok.inj h).symm⟩

include hn hn' in
/-- Linear combinations of forms of one type. -/
theorem step_lc (hk : k ≠ .regular) {addr i m m' d : ℕ} {f f' : Sym.Form Smooth} (hf : Limited k k' m m' i d f) (hf' : Limited k k' m m' i d f') {t : Bool} {z z' : DForm}
    (h : to_discrete2 𝔾 addr f t = .ok z) (h' : to_discrete2 𝔾 addr f' t = .ok z') (r s : ℝ) :
    ∃ g, Sym.mkForm f.degree f.grid (List.zipWith (fun a b => r • a + s • b) f.comps f'.comps) = .ok g ∧ f.degree = f'.degree ∧ f.grid = f'.grid ∧ Limited k k' m m' i d g ∧
      SameKind z z' ∧ z.array.length = z'.array.length ∧
      to_discrete2 𝔾 addr g t = .ok ⟨z.degree, z.isprimal, z.grid, List.zipWith (fun a b => r * a + s * b) z.array z'.array⟩ := by
  have b1 := hf.comps
  have b2 := hf'.comps
  obtain ⟨D, c, rfl, rfl, hc⟩ := hf.norm
  obtain ⟨D', c', e, rfl, hc'⟩ := hf'.norm
  obtain rfl : D' = D := Fin.ext e
  obtain ⟨u, hu, rfl⟩ := disc_inv hn hn' hc h
  obtain ⟨v, hv, rfl⟩ := disc_inv hn hn' hc' h'
  obtain ⟨hl, hP⟩ := P_lc hn hn' D' t hc hc' r s hu hv
  have hg : goodComps D' (List.zipWith (fun a b => r • a + s • b) c c') := by
    unfold goodComps at hc hc' ⊢
    rw [List.length_zipWith, hc, hc', min_self]
  refine ⟨⟨D'.val, ⟨i, 2⟩, List.zipWith (fun a b => r • a + s • b) c c'⟩, (hg.isForm i).2, rfl, rfl, ⟨(hg.isForm i).1, rfl, rfl, ?_⟩, ⟨rfl, rfl, rfl⟩, hl, disc2 _ addr D' i _ t hP⟩
  intro x hx
  obtain ⟨j, hj, rfl⟩ := List.mem_iff_getElem.1 hx
  simp only [List.getElem_zipWith, fn2_lc]
  have sp : ∀ (r : ℝ) {a : Smooth}, Tensor (BandLimited k m) (BandLimited k' m') (fn2 a) → Tensor (BandLimited k m) (BandLimited k' m') fun x y => r * fn2 a x y := by
    rintro r a ⟨M, p, q, hpq, he⟩
    refine ⟨M, fun j x => r * p j x, q, fun j hj => ⟨(bandLimited_space hk m).smul _ _ (hpq j hj).1, (hpq j hj).2⟩, fun x y => ?_⟩
    beta_reduce; rw [he, mul_sum]; exact sum_congr rfl fun j _ => by ring
  have hj' : j < c.length ∧ j < c'.length := by simpa using hj
  exact (sp r (b1 _ (List.getElem_mem hj'.1))).add (sp s (b2 _ (List.getElem_mem hj'.2)))

/-! ## The symbolic operators keep forms limited -/

variable {m m' l l' i d e : ℕ} {f g : Sym.Form Smooth}

theorem tensor_mono {V W V' W' : (ℝ → ℝ) → Prop} (hV : ∀ a, V a → V' a) (hW : ∀ a, W a → W' a) {F : ℝ → ℝ → ℝ} (h : Tensor V W F) : Tensor V' W' F := by
  obtain ⟨M, p, q, hpq, he⟩ := h
  exact ⟨M, p, q, fun j hj => ⟨hV _ (hpq j hj).1, hW _ (hpq j hj).2⟩, he⟩

theorem Limited.mono (h : m ≤ l) (h' : m' ≤ l') (hf : Limited k k' m m' i d f) : Limited k k' l l' i d f :=
  ⟨hf.form, hf.chart, hf.degree, fun c hc => tensor_mono (fun _ => BandLimited.mono h) (fun _ => BandLimited.mono h') (hf.comps c hc)⟩

/-- From components to a limited form. -/
theorem limited_of {D : Fin 3} {c : List Smooth} (hc : goodComps D c) (h : ∀ x ∈ c, Tensor (BandLimited k m) (BandLimited k' m') (fn2 x)) : Limited k k' m m' i D.val ⟨D.val, ⟨i, 2⟩, c⟩ :=
  ⟨(hc.isForm i).1, rfl, rfl, h⟩

theorem lim_dx {c : Smooth} (h : Tensor (BandLimited k m) (BandLimited k' m') (fn2 c)) : Tensor (BandLimited k m) (BandLimited k' m') (fn2 (Smooth.dx c)) := by
  rw [← fn2_dx]; exact tensor_dX (fun a ha => ha.deriv) h

theorem lim_dy {c : Smooth} (h : Tensor (BandLimited k m) (BandLimited k' m') (fn2 c)) : Tensor (BandLimited k m) (BandLimited k' m') (fn2 (Smooth.dy c)) := by
  rw [← fn2_dy]; exact tensor_dY (fun a ha => ha.deriv) h

theorem lim_neg (hk : k ≠ .regular) {c : Smooth} (h : Tensor (BandLimited k m) (BandLimited k' m') (fn2 c)) : Tensor (BandLimited k m) (BandLimited k' m') (fn2 (-c)) :=
  h.neg (bandLimited_space hk m)

theorem lim_add {c e : Smooth} (h : Tensor (BandLimited k m) (BandLimited k' m') (fn2 c)) (h' : Tensor (BandLimited k m) (BandLimited k' m') (fn2 e)) :
    Tensor (BandLimited k m) (BandLimited k' m') (fn2 (c + e)) := h.add h'

theorem lim_mul {c e : Smooth} (h : Tensor (BandLimited k m) (BandLimited k' m') (fn2 c)) (h' : Tensor (BandLimited k l) (BandLimited k' l') (fn2 e)) :
    Tensor (BandLimited k (m + l)) (BandLimited k' (m' + l')) (fn2 (c * e)) := h.mul (fun _ _ => BandLimited.mul) (fun _ _ => BandLimited.mul) h'

theorem lim_sub (hk : k ≠ .regular) {c e : Smooth} (h : Tensor (BandLimited k m) (BandLimited k' m') (fn2 c)) (h' : Tensor (BandLimited k m) (BandLimited k' m') (fn2 e)) :
    Tensor (BandLimited k m) (BandLimited k' m') (fn2 (c - e)) := by
  rw [sub_eq_add_neg]; exact lim_add h (lim_neg hk h')

theorem Limited.D (hk : k ≠ .regular) (hf : Limited k k' m m' i d f) (hd : d < 2) : ∃ df, Sym.D Smooth.dx Smooth.dy (.form f) = .ok (.form df) ∧ Limited k k' m m' i (d + 1) df := by
  have b := hf.comps
  obtain ⟨D, c, rfl, rfl, hc⟩ := hf.norm
  obtain ⟨rfl, x, rfl⟩ | ⟨rfl, x, y, rfl⟩ | ⟨rfl, x, rfl⟩ := hc.cases
  · have hx := b x (by simp)
    refine ⟨⟨1, ⟨i, 2⟩, [Smooth.dx x, Smooth.dy x]⟩, by sym_simp, limited_of (D := 1) rfl ?_⟩
    simp only [List.mem_cons, List.not_mem_nil, or_false, forall_eq_or_imp, forall_eq]
    exact ⟨lim_dx hx, lim_dy hx⟩
  · have hx := b x (by simp)
    have hy := b y (by simp)
    refine ⟨⟨2, ⟨i, 2⟩, [-Smooth.dy x + Smooth.dx y]⟩, by sym_simp, limited_of (D := 2) rfl ?_⟩
    simp only [List.mem_cons, List.not_mem_nil, or_false, forall_eq_or_imp, forall_eq]
    exact lim_add (lim_neg hk (lim_dy hx)) (lim_dx hy)
  · exact absurd hd (by decide)

theorem Limited.H (hk : k ≠ .regular) (hf : Limited k k' m m' i d f) : ∃ sf, Sym.H (.form f) = .ok (.form sf) ∧ Limited k k' m m' i (2 - d) sf := by
  have b := hf.comps
  obtain ⟨D, c, rfl, rfl, hc⟩ := hf.norm
  obtain ⟨rfl, x, rfl⟩ | ⟨rfl, x, y, rfl⟩ | ⟨rfl, x, rfl⟩ := hc.cases
  · refine ⟨⟨2, ⟨i, 2⟩, [x]⟩, by sym_simp, limited_of (D := 2) rfl ?_⟩
    exact b
  · have hx := b x (by simp)
    have hy := b y (by simp)
    refine ⟨⟨1, ⟨i, 2⟩, [-y, x]⟩, by sym_simp, limited_of (D := 1) rfl ?_⟩
    simp only [List.mem_cons, List.not_mem_nil, or_false, forall_eq_or_imp, forall_eq]
    exact ⟨lim_neg hk hy, hx⟩
  · refine ⟨⟨0, ⟨i, 2⟩, [x]⟩, by sym_simp, limited_of (D := 0) rfl ?_⟩
    exact b

theorem Limited.W (hk : k ≠ .regular) (hf : Limited k k' m m' i d f) (hg : Limited k k' l l' i e g) (hd : d + e ≤ 2) :
    ∃ fg, Sym.W (.form f) (.form g) = .ok (.form fg) ∧ Limited k k' (m + l) (m' + l') i (d + e) fg := by
  have b := hf.comps
  have b' := hg.comps
  obtain ⟨D, c, rfl, rfl, hc⟩ := hf.norm
  obtain ⟨E, c', rfl, rfl, hc'⟩ := hg.norm
  obtain ⟨rfl, x, rfl⟩ | ⟨rfl, x, y, rfl⟩ | ⟨rfl, x, rfl⟩ := hc.cases <;> obtain ⟨rfl, p, rfl⟩ | ⟨rfl, p, q, rfl⟩ | ⟨rfl, p, rfl⟩ := hc'.cases
  · refine ⟨⟨0, ⟨i, 2⟩, [x * p]⟩, by sym_simp, limited_of (D := 0) rfl ?_⟩
    simp only [List.mem_cons, List.not_mem_nil, or_false, forall_eq_or_imp, forall_eq]
    exact lim_mul (b x (by simp)) (b' p (by simp))
  · refine ⟨⟨1, ⟨i, 2⟩, [x * p, x * q]⟩, by sym_simp, limited_of (D := 1) rfl ?_⟩
    simp only [List.mem_cons, List.not_mem_nil, or_false, forall_eq_or_imp, forall_eq]
    exact ⟨lim_mul (b x (by simp)) (b' p (by simp)), lim_mul (b x (by simp)) (b' q (by simp))⟩
  · refine ⟨⟨2, ⟨i, 2⟩, [x * p]⟩, by sym_simp, limited_of (D := 2) rfl ?_⟩
    simp only [List.mem_cons, List.not_mem_nil, or_false, forall_eq_or_imp, forall_eq]
    exact lim_mul (b x (by simp)) (b' p (by simp))
  · refine ⟨⟨1, ⟨i, 2⟩, [x * p, y * p]⟩, by sym_simp; constructor <;> ring, limited_of (D := 1) rfl ?_⟩
    simp only [List.mem_cons, List.not_mem_nil, or_false, forall_eq_or_imp, forall_eq]
    exact ⟨lim_mul (b x (by simp)) (b' p (by simp)), lim_mul (b y (by simp)) (b' p (by simp))⟩
  · refine ⟨⟨2, ⟨i, 2⟩, [x * q - y * p]⟩, by sym_simp, limited_of (D := 2) rfl ?_⟩
    simp only [List.mem_cons, List.not_mem_nil, or_false, forall_eq_or_imp, forall_eq]
    exact lim_sub hk (lim_mul (b x (by simp)) (b' q (by simp))) (lim_mul (b y (by simp)) (b' p (by simp)))
  · exact absurd hd (by decide)
  · refine ⟨⟨2, ⟨i, 2⟩, [x * p]⟩, by sym_simp; ring, limited_of (D := 2) rfl ?_⟩
    simp only [List.mem_cons, List.not_mem_nil, or_false, forall_eq_or_imp, forall_eq]
    exact lim_mul (b x (by simp)) (b' p (by simp))
  · exact absurd hd (by decide)
  · exact absurd hd (by decide)

theorem Limited.C (hk : k ≠ .regular) (hf : Limited k k' m m' i 1 f) (hg : Limited k k' l l' i e g) (hd : 1 ≤ e) :
    ∃ fg, Sym.C (.form f) (.form g) = .ok (.form fg) ∧ Limited k k' (m + l) (m' + l') i (e - 1) fg := by
  have b := hf.comps
  have b' := hg.comps
  obtain ⟨D, c, hD, rfl, hc⟩ := hf.norm
  obtain ⟨E, c', rfl, rfl, hc'⟩ := hg.norm
  obtain rfl : D = 1 := Fin.ext hD
  obtain ⟨x, y, rfl⟩ : ∃ x y, c = [x, y] := List.length_eq_two.1 hc
  have hx := b x (by simp)
  have hy := b y (by simp)
  obtain ⟨rfl, p, rfl⟩ | ⟨rfl, p, q, rfl⟩ | ⟨rfl, p, rfl⟩ := hc'.cases
  · exact absurd hd (by decide)
  · refine ⟨⟨0, ⟨i, 2⟩, [x * p + y * q]⟩, by sym_simp, limited_of (D := 0) rfl ?_⟩
    simp only [List.mem_cons, List.not_mem_nil, or_false, forall_eq_or_imp, forall_eq]
    exact lim_add (lim_mul hx (b' p (by simp))) (lim_mul hy (b' q (by simp)))
  · refine ⟨⟨1, ⟨i, 2⟩, [-(y * p), x * p]⟩, by sym_simp; ring, limited_of (D := 1) rfl ?_⟩
    simp only [List.mem_cons, List.not_mem_nil, or_false, forall_eq_or_imp, forall_eq]
    exact ⟨lim_neg hk (lim_mul hy (b' p (by simp))), lim_mul hx (b' p (by simp))⟩

/-! ## Limited forms are resolved and periodic -/

theorem Limited.tensorForm {V W : Fin 2 → (ℝ → ℝ) → Prop} (hV : ∀ d a, BandLimited k m a → V d a) (hW : ∀ d a, BandLimited k' m' a → W d a) (hf : Limited k k' m m' i d f) :
    TensorForm V W (Fin.ofNat 3 f.degree) (fns2 f) := by
  have b := hf.comps
  obtain ⟨D, c, rfl, rfl, hc⟩ := hf.norm
  obtain ⟨rfl, x, rfl⟩ | ⟨rfl, x, y, rfl⟩ | ⟨rfl, x, rfl⟩ := hc.cases
  · exact tensor_mono (hV _) (hW _) (b x (by simp))
  · exact ⟨tensor_mono (hV _) (hW _) (b x (by simp)), tensor_mono (hV _) (hW _) (b y (by simp))⟩
  · exact tensor_mono (hV _) (hW _) (b x (by simp))

theorem Limited.resolved (hm : Fits k n m) (hm' : Fits k' n' m') (hf : Limited k k' m m' i d f) (t : Bool) : ResolvedForm k k' n n' t f :=
  hf.tensorForm (fun d _ h => hm.resolved d t h) (fun d _ h => hm'.resolved d t h)

theorem Limited.unrefined (hm : Fits k n m) (hm' : Fits k' n' m') (hf : Limited k k' m m' i d f) :
    TensorForm (Unrefined k n) (Unrefined k' n') (Fin.ofNat 3 f.degree) (fns2 f) :=
  hf.tensorForm (fun d _ h => hm.unrefined d h) (fun d _ h => hm'.unrefined d h)

theorem grid₀_ends (k : Kind) (n : ℕ) : ∃ a b, a < b ∧ (k = .periodic → b - a = 2 * π) ∧ grid₀ k n = grid k n a b := by
  cases k
  · exact ⟨0, 2 * π, by positivity, fun _ => by ring, rfl⟩
  · exact ⟨0, π, pi_pos, by simp, rfl⟩
  · exact ⟨-1, 1, by norm_num, by simp, rfl⟩

theorem Limited.periodicForm (hk : k ≠ .regular) (hk' : k' ≠ .regular) (hf : Limited k k' m m' i d f) {a b a' b' : ℝ} (h : k = .periodic → b - a = 2 * π)
    (h' : k' = .periodic → b' - a' = 2 * π) : PeriodicForm k k' a b a' b' f := by
  intro c hc
  obtain ⟨x, hx, rfl⟩ := List.mem_map.1 hc
  have hx := hf.comps x hx
  refine ⟨?_, ?_⟩
  · rintro rfl y
    rw [h rfl]
    exact IsTrig.periodic (hx.row (bandLimited_space hk m) y)
  · rintro rfl y
    rw [h' rfl]
    exact IsTrig.periodic (hx.col (bandLimited_space hk' m') y)

/-! ## Derivatives of dual forms on the torus -/

theorem vadd_zeros {u v : List ℝ} (hl : u.length = v.length) (hv : ∀ z ∈ v, z = 0) : List.zipWith BinOp.add.fn u v = u := by
  refine List.ext_getElem (by simp [hl]) fun j h1 h2 => ?_
  rw [List.getElem_zipWith, hv _ (List.getElem_mem _)]
  exact add_zero _

theorem step_D {h : Heap} {addr : ℕ} (hg : h addr = ops2 𝔾) (hm : Fits k n m) (hm' : Fits k' n' m') (hf : Limited k k' m m' i d f) (hd : d < 2) {t : Bool} {z : DForm}
    (hz : to_discrete2 𝔾 addr f t = .ok z) (ht : (k = .periodic ∧ k' = .periodic) ∨ t = true) :
    ∃ df y, Sym.D Smooth.dx Smooth.dy (.form f) = .ok (.form df) ∧ Limited k k' m m' i (d + 1) df ∧ Decform.D h z = .ok (some y) ∧ to_discrete2 𝔾 addr df t = .ok y := by
  obtain ⟨df, h1, h2⟩ := hf.D hm.not_regular hd
  have vn := hm.usable.1
  have vn' := hm'.usable.1
  obtain ⟨a, b, hab, h2π, e⟩ := grid₀_ends k n
  obtain ⟨a', b', hab', h2π', e'⟩ := grid₀_ends k' n'
  have hp := hf.periodicForm hm.not_regular hm'.not_regular h2π h2π'
  have hdim : f.grid.dim = 2 := by rw [hf.chart]
  have hdeg : f.degree < 2 := by rw [hf.degree]; exact hd
  rw [e, e'] at hg hz ⊢
  cases t with
  | true =>
    obtain ⟨df', x, y, g1, g2, g3, g4⟩ := C66_2d_derivative_primal h addr k k' n n' vn vn' a b a' b' hab hab' hg f hf.form hdim hdeg hp
    rw [h1] at g1
    obtain rfl : df = df' := by injection g1 with g1; injection g1
    rw [hz] at g2
    obtain rfl := Except.ok.inj g2
    exact ⟨df, y, h1, h2, g3, g4⟩
  | false =>
    obtain ⟨rfl, rfl⟩ : k = .periodic ∧ k' = .periodic := ht.resolve_right (by simp)
    obtain ⟨D, c, hDd, rfl, hc⟩ := hf.norm
    obtain ⟨rfl, x, rfl⟩ | ⟨rfl, x, y, rfl⟩ | ⟨rfl, x, rfl⟩ := hc.cases
    · have hpx := hp (fn2 x) (List.mem_cons_self ..)
      obtain ⟨u, v, q1, q2, q3, q4⟩ := C27_dual_0 .periodic .periodic n n' vn vn' a b a' b' hab hab' (fn2 x) (fn2_smooth x) hpx.1 hpx.2
      obtain ⟨v', -, hv, hv0, -⟩ := C27_periodic_no_boundary n n' vn vn' a b a' b' hab hab' (fn2 x) (fn2 x)
      rw [q2] at hv
      obtain rfl := Except.ok.inj hv
      have hz0 : vadd u v = u := vadd_zeros q4 hv0
      rw [hz0, fn2_dx, fn2_dy] at q3
      obtain ⟨w, w1, w2⟩ := bind_ok q1
      rw [disc2 _ addr 0 i [x] false w1] at hz
      obtain rfl := Except.ok.inj hz
      have e1 : Sym.D Smooth.dx Smooth.dy (.form (⟨(0 : Fin 3).val, ⟨i, 2⟩, [x]⟩ : Sym.Form Smooth)) = .ok (.form ⟨1, ⟨i, 2⟩, [Smooth.dx x, Smooth.dy x]⟩) := by sym_simp
      rw [e1] at h1
      obtain rfl : _ = df := by injection h1 with h1; injection h1
      exact ⟨_, _, e1, h2, dec_D2 hg 0 false _ _ w2, disc2 _ addr 1 i [Smooth.dx x, Smooth.dy x] false q3⟩
    · have hpx := hp (fn2 x) (List.mem_cons_self ..)
      have hpy := hp (fn2 y) (List.mem_cons_of_mem _ (List.mem_cons_self ..))
      obtain ⟨u, v, q1, q2, q3, q4⟩ := C27_dual_1 .periodic .periodic n n' vn vn' a b a' b' hab hab' (fn2 x) (fn2 y) (fn2_smooth x) (fn2_smooth y) hpy.1 hpx.2
      obtain ⟨-, v', -, -, hv, hv0⟩ := C27_periodic_no_boundary n n' vn vn' a b a' b' hab hab' (fn2 x) (fn2 y)
      rw [q2] at hv
      obtain rfl := Except.ok.inj hv
      have hz0 : vadd u v = u := vadd_zeros q4 hv0
      rw [hz0, fn2_curl] at q3
      obtain ⟨w, w1, w2⟩ := bind_ok q1
      rw [disc2 _ addr 1 i [x, y] false w1] at hz
      obtain rfl := Except.ok.inj hz
      have e1 : Sym.D Smooth.dx Smooth.dy (.form (⟨(1 : Fin 3).val, ⟨i, 2⟩, [x, y]⟩ : Sym.Form Smooth)) = .ok (.form ⟨2, ⟨i, 2⟩, [-Smooth.dy x + Smooth.dx y]⟩) := by sym_simp
      rw [e1] at h1
      obtain rfl : _ = df := by injection h1 with h1; injection h1
      exact ⟨_, _, e1, h2, dec_D2 hg 1 false _ _ w2, disc2 _ addr 2 i [-Smooth.dy x + Smooth.dx y] false q3⟩
    · exact absurd hDd (by simp; omega)

theorem step_H {h : Heap} {addr : ℕ} (hg : h addr = ops2 𝔾) (hm : Fits k n m) (hm' : Fits k' n' m') (hf : Limited k k' m m' i d f) {t : Bool} {z : DForm}
    (hz : to_discrete2 𝔾 addr f t = .ok z) :
    ∃ sf y, Sym.H (.form f) = .ok (.form sf) ∧ Limited k k' m m' i (2 - d) sf ∧ Decform.H h z = .ok y ∧ to_discrete2 𝔾 addr sf (!t) = .ok y := by
  obtain ⟨sf, h1, h2⟩ := hf.H hm.not_regular
  obtain ⟨sf', x, y, g1, g2, g3, g4⟩ := C66_2d_hodge h addr hg hm.usable.1 hm'.usable.1 hm.usable.2.2 hm'.usable.2.2 t f hf.form (by rw [hf.chart]) (hf.resolved hm hm' t)
  rw [h1] at g1
  obtain rfl : sf = sf' := by injection g1 with g1; injection g1
  rw [hz] at g2
  obtain rfl := Except.ok.inj g2
  exact ⟨sf, y, h1, h2, g3, g4⟩

theorem step_W {h : Heap} {addr : ℕ} (hg : h addr = ops2 𝔾) (hm : Fits k n (m + l)) (hm' : Fits k' n' (m' + l')) (hf : Limited k k' m m' i d f) (hg' : Limited k k' l l' i e g)
    (hd : d + e ≤ 2) {s t u : Bool} {x y : DForm} (hx : to_discrete2 𝔾 addr f s = .ok x) (hy : to_discrete2 𝔾 addr g t = .ok y) :
    ∃ fg z, Sym.W (.form f) (.form g) = .ok (.form fg) ∧ Limited k k' (m + l) (m' + l') i (d + e) fg ∧ Decform.W h x y u = .ok z ∧ to_discrete2 𝔾 addr fg u = .ok z := by
  obtain ⟨fg, h1, h2⟩ := hf.W hm.not_regular hg' hd
  obtain ⟨x', y', z, g1, g2, g3, g4⟩ := C66_2d_wedge h addr hg hm.usable hm'.usable s t u f g fg hf.form hg'.form (by rw [hf.chart]) h1
    (hf.resolved (hm.mono (by omega)) (hm'.mono (by omega)) s) (hg'.resolved (hm.mono (by omega)) (hm'.mono (by omega)) t) (h2.unrefined hm hm')
  rw [hx] at g1
  obtain rfl := Except.ok.inj g1
  rw [hy] at g2
  obtain rfl := Except.ok.inj g2
  exact ⟨fg, z, h1, h2, g3, g4⟩

theorem step_C {h : Heap} {addr : ℕ} (hg : h addr = ops2 𝔾) (hm : Fits k n (m + l)) (hm' : Fits k' n' (m' + l')) (hf : Limited k k' m m' i 1 f) (hg' : Limited k k' l l' i e g)
    (hd : 1 ≤ e) {s t u : Bool} {x y : DForm} (hx : to_discrete2 𝔾 addr f s = .ok x) (hy : to_discrete2 𝔾 addr g t = .ok y) :
    ∃ fg z, Sym.C (.form f) (.form g) = .ok (.form fg) ∧ Limited k k' (m + l) (m' + l') i (e - 1) fg ∧ Decform.C h x y u = .ok z ∧ to_discrete2 𝔾 addr fg u = .ok z := by
  obtain ⟨fg, h1, h2⟩ := hf.C hm.not_regular hg' hd
  obtain ⟨x', y', z, g1, g2, g3, g4⟩ := C66_2d_contraction h addr hg hm.usable hm'.usable s t u f g fg hf.form hg'.form (by rw [hf.chart]) h1
    (hf.resolved (hm.mono (by omega)) (hm'.mono (by omega)) s) (hg'.resolved (hm.mono (by omega)) (hm'.mono (by omega)) t) (h2.unrefined hm hm')
  rw [hx] at g1
  obtain rfl := Except.ok.inj g1
  rw [hy] at g2
  obtain rfl := Except.ok.inj g2
  exact ⟨fg, z, h1, h2, g3, g4⟩

/-! ## Induction over expressions -/

theorem HasType.side {dim : ℕ} {products : Bool} {Γ : ℕ → ℕ × Bool} {E : Expr} {d : ℕ} {t : Bool} (hE : HasType dim products Γ E d t) : E.side Γ = t := by
  induction hE with
  | var i _ => rfl
  | add _ _ ih _ => exact ih
  | sub _ _ ih _ => exact ih
  | neg _ ih => exact ih
  | scale _ _ ih => exact ih
  | der _ _ ih => exact ih
  | star _ ih => simp only [Expr.side, ih]
  | wedge _ _ _ _ _ _ _ => rfl
  | contr _ _ _ _ _ _ _ => rfl

theorem symb_exact {h : Heap} {addr : ℕ} (hg : h addr = ops2 𝔾) {Γ : ℕ → ℕ × Bool} {ω : ℕ → Sym.Form Smooth} {env : ℕ → DForm} (hω : ∀ j, Limited k k' m m' i (Γ j).1 (ω j))
    (henv : ∀ j, to_discrete2 𝔾 addr (ω j) (Γ j).2 = .ok (env j)) {E : Expr} {d : ℕ} {t : Bool} (hE : HasType 2 true Γ E d t)
    (hD : (k = .periodic ∧ k' = .periodic) ∨ E.dersPrimal Γ) (hm : Fits k n (E.order * m)) (hm' : Fits k' n' (E.order * m')) :
    ∃ s z, E.symb ω = .ok s ∧ Limited k k' (E.order * m) (E.order * m') i d s ∧ E.eval h env = .ok z ∧ to_discrete2 𝔾 addr s t = .ok z := by
  have vn := hm.usable.1
  have vn' := hm'.usable.1
  have hk := hm.not_regular
  have hk' := hm'.not_regular
  induction hE with
  | var j hj => exact ⟨_, _, rfl, (hω j).mono (by simp [Expr.order]) (by simp [Expr.order]), rfl, henv j⟩
  | @add a b d t ha hb iha ihb =>
    have la : a.order ≤ (Expr.add a b).order := le_max_left _ _
    have lb : b.order ≤ (Expr.add a b).order := le_max_right _ _
    obtain ⟨x, p, x1, x2, x3, x4⟩ := iha (hD.imp_right And.left) (hm.mono (Nat.mul_le_mul_right _ la)) (hm'.mono (Nat.mul_le_mul_right _ la))
    obtain ⟨y, q, y1, y2, y3, y4⟩ := ihb (hD.imp_right And.right) (hm.mono (Nat.mul_le_mul_right _ lb)) (hm'.mono (Nat.mul_le_mul_right _ lb))
    obtain ⟨g, g1, g2, g3, g4, g5, g6, g7⟩ := step_lc vn vn' hk (x2.mono (Nat.mul_le_mul_right _ la) (Nat.mul_le_mul_right _ la))
      (y2.mono (Nat.mul_le_mul_right _ lb) (Nat.mul_le_mul_right _ lb)) x4 y4 1 1
    simp only [one_smul, one_mul] at g1 g7
    refine ⟨g, _, ?_, g4, ?_, g7⟩
    · simp only [Expr.symb, x1, y1, bind, Except.bind, Sym.Form.add, Sym.Form.binary, g2, g3, ne_eq, not_true_eq_false, if_false]
      rw [← g2, ← g3]; exact g1
    · simp only [Expr.eval, x3, y3, bind, Except.bind]
      exact binary_form .add g5 g6
  | @sub a b d t ha hb iha ihb =>
    have la : a.order ≤ (Expr.sub a b).order := le_max_left _ _
    have lb : b.order ≤ (Expr.sub a b).order := le_max_right _ _
    obtain ⟨x, p, x1, x2, x3, x4⟩ := iha (hD.imp_right And.left) (hm.mono (Nat.mul_le_mul_right _ la)) (hm'.mono (Nat.mul_le_mul_right _ la))
    obtain ⟨y, q, y1, y2, y3, y4⟩ := ihb (hD.imp_right And.right) (hm.mono (Nat.mul_le_mul_right _ lb)) (hm'.mono (Nat.mul_le_mul_right _ lb))
    obtain ⟨g, g1, g2, g3, g4, g5, g6, g7⟩ := step_lc vn vn' hk (x2.mono (Nat.mul_le_mul_right _ la) (Nat.mul_le_mul_right _ la))
      (y2.mono (Nat.mul_le_mul_right _ lb) (Nat.mul_le_mul_right _ lb)) x4 y4 1 (-1)
    simp only [one_smul, one_mul, neg_smul, neg_mul, ← sub_eq_add_neg] at g1 g7
    refine ⟨g, _, ?_, g4, ?_, g7⟩
    · simp only [Expr.symb, x1, y1, bind, Except.bind, Sym.Form.sub, Sym.Form.binary, g2, g3, ne_eq, not_true_eq_false, if_false]
      rw [← g2, ← g3]; exact g1
    · simp only [Expr.eval, x3, y3, bind, Except.bind]
      exact binary_form .sub g5 g6
  | @neg a d t ha iha =>
    obtain ⟨x, p, x1, x2, x3, x4⟩ := iha hD hm hm'
    obtain ⟨g, g1, g2, g3, g4, g5, g6, g7⟩ := step_lc vn vn' hk x2 x2 x4 x4 (-1) 0
    simp only [neg_smul, one_smul, neg_mul, one_mul, zero_smul, zero_mul, add_zero, List.zipWith_self] at g1 g7
    refine ⟨g, _, ?_, g4, ?_, g7⟩
    · simp only [Expr.symb, x1, bind, Except.bind, Sym.Form.neg]
      exact g1
    · simp only [Expr.eval, x3, bind, Except.bind]
      rfl
  | @scale a d t r ha iha =>
    obtain ⟨x, p, x1, x2, x3, x4⟩ := iha hD hm hm'
    obtain ⟨g, g1, g2, g3, g4, g5, g6, g7⟩ := step_lc vn vn' hk x2 x2 x4 x4 r 0
    simp only [zero_smul, zero_mul, add_zero, List.zipWith_self] at g1 g7
    refine ⟨g, _, ?_, g4, ?_, g7⟩
    · simp only [Expr.symb, x1, bind, Except.bind, Sym.Form.binaryScalar]
      rw [← g1]
      refine congrArg _ (List.map_congr_left fun c _ => ?_)
      rw [Algebra.smul_def, mul_comm]
    · simp only [Expr.eval, x3, bind, Except.bind]
      rfl
  | @der a d t ha hd iha =>
    obtain ⟨x, p, x1, x2, x3, x4⟩ := iha (hD.imp_right And.right) hm hm'
    obtain ⟨g, q, g1, g2, g3, g4⟩ := step_D hg hm hm' x2 hd x4 (hD.imp_right fun e => ha.side.symm.trans e.1)
    refine ⟨g, q, ?_, g2, ?_, g4⟩
    · simp only [Expr.symb, x1, bind, Except.bind, g1, asForm]
    · simp only [Expr.eval, x3, bind, Except.bind, g3]
  | @star a d t ha iha =>
    obtain ⟨x, p, x1, x2, x3, x4⟩ := iha hD hm hm'
    obtain ⟨g, q, g1, g2, g3, g4⟩ := step_H hg hm hm' x2 x4
    refine ⟨g, q, ?_, g2, ?_, g4⟩
    · simp only [Expr.symb, x1, bind, Except.bind, g1, asForm]
    · simp only [Expr.eval, x3, bind, Except.bind, g3]
  | @wedge a b d e s t u hp ha hb hd iha ihb =>
    have la : a.order ≤ (Expr.wedge a b u).order := Nat.le_add_right _ _
    have lb : b.order ≤ (Expr.wedge a b u).order := Nat.le_add_left _ _
    have e0 : (Expr.wedge a b u).order * m = a.order * m + b.order * m := Nat.add_mul _ _ _
    have e1 : (Expr.wedge a b u).order * m' = a.order * m' + b.order * m' := Nat.add_mul _ _ _
    obtain ⟨x, p, x1, x2, x3, x4⟩ := iha (hD.imp_right And.left) (hm.mono (Nat.mul_le_mul_right _ la)) (hm'.mono (Nat.mul_le_mul_right _ la))
    obtain ⟨y, q, y1, y2, y3, y4⟩ := ihb (hD.imp_right And.right) (hm.mono (Nat.mul_le_mul_right _ lb)) (hm'.mono (Nat.mul_le_mul_right _ lb))
    rw [e0] at hm ⊢
    rw [e1] at hm' ⊢
    obtain ⟨g, r, g1, g2, g3, g4⟩ := step_W (u := u) hg hm hm' x2 y2 hd x4 y4
    refine ⟨g, r, ?_, g2, ?_, g4⟩
    · simp only [Expr.symb, x1, y1, bind, Except.bind, g1, asForm]
    · simp only [Expr.eval, x3, y3, bind, Except.bind, g3]
  | @contr a b e s t u hp ha hb hd iha ihb =>
    have la : a.order ≤ (Expr.contr a b u).order := Nat.le_add_right _ _
    have lb : b.order ≤ (Expr.contr a b u).order := Nat.le_add_left _ _
    have e0 : (Expr.contr a b u).order * m = a.order * m + b.order * m := Nat.add_mul _ _ _
    have e1 : (Expr.contr a b u).order * m' = a.order * m' + b.order * m' := Nat.add_mul _ _ _
    obtain ⟨x, p, x1, x2, x3, x4⟩ := iha (hD.imp_right And.left) (hm.mono (Nat.mul_le_mul_right _ la)) (hm'.mono (Nat.mul_le_mul_right _ la))
    obtain ⟨y, q, y1, y2, y3, y4⟩ := ihb (hD.imp_right And.right) (hm.mono (Nat.mul_le_mul_right _ lb)) (hm'.mono (Nat.mul_le_mul_right _ lb))
    rw [e0] at hm ⊢
    rw [e1] at hm' ⊢
    obtain ⟨g, r, g1, g2, g3, g4⟩ := step_C (u := u) hg hm hm' x2 y2 hd x4 y4
    refine ⟨g, r, ?_, g2, ?_, g4⟩
    · simp only [Expr.symb, x1, y1, bind, Except.bind, g1, asForm]
    · simp only [Expr.eval, x3, y3, bind, Except.bind, g3]

end

/-! ## C90 -/

/-- **C90.** Discretising first and then evaluating an expression gives the same as evaluating with symbolic forms and then discretising. The grid is a product of periodic and Chebyshev grids, the
variables are forms with components of bandwidth `m` and `m'`, the expression has any shape and any choice of sides, and the grid resolves the bandwidth times the algebraic order of the expression.
Dual forms may be differentiated only on a torus. -/
theorem C90_exact (k k' : Kind) (n n' : ℕ) (h : Heap) (addr : ℕ) (hg : h addr = ops2 (product (grid₀ k n) (grid₀ k' n'))) (m m' i : ℕ) (Γ : ℕ → ℕ × Bool) (ω : ℕ → Sym.Form Smooth)
    (hω : ∀ j, Limited k k' m m' i (Γ j).1 (ω j)) (env : ℕ → DForm) (henv : ∀ j, to_discrete2 (product (grid₀ k n) (grid₀ k' n')) addr (ω j) (Γ j).2 = .ok (env j))
    (E : Expr) (d : ℕ) (t : Bool) (hE : HasType 2 true Γ E d t) (hD : (k = .periodic ∧ k' = .periodic) ∨ E.dersPrimal Γ) (hm : Fits k n (E.order * m)) (hm' : Fits k' n' (E.order * m')) :
    ∃ s z, E.symb ω = .ok s ∧ E.eval h env = .ok z ∧ to_discrete2 (product (grid₀ k n) (grid₀ k' n')) addr s t = .ok z := by
  obtain ⟨s, z, h1, -, h2, h3⟩ := symb_exact hg hω henv hE hD hm hm'
  exact ⟨s, z, h1, h2, h3⟩

/-- **C90.** So every identity of exterior calculus that holds for the symbolic forms holds exactly for the discrete ones: two expressions of one type with the same symbolic value have the same discrete
value. -/
theorem C90_identities (k k' : Kind) (n n' : ℕ) (h : Heap) (addr : ℕ) (hg : h addr = ops2 (product (grid₀ k n) (grid₀ k' n'))) (m m' i : ℕ) (Γ : ℕ → ℕ × Bool) (ω : ℕ → Sym.Form Smooth)
    (hω : ∀ j, Limited k k' m m' i (Γ j).1 (ω j)) (env : ℕ → DForm) (henv : ∀ j, to_discrete2 (product (grid₀ k n) (grid₀ k' n')) addr (ω j) (Γ j).2 = .ok (env j))
    (E F : Expr) (d : ℕ) (t : Bool) (hE : HasType 2 true Γ E d t) (hF : HasType 2 true Γ F d t) (hD : (k = .periodic ∧ k' = .periodic) ∨ (E.dersPrimal Γ ∧ F.dersPrimal Γ))
    (hm : Fits k n (max E.order F.order * m)) (hm' : Fits k' n' (max E.order F.order * m')) (hEF : E.symb ω = F.symb ω) : E.eval h env = F.eval h env := by
  have lE := le_max_left E.order F.order
  have lF := le_max_right E.order F.order
  obtain ⟨s, z, h1, -, h2, h3⟩ := symb_exact hg hω henv hE (hD.imp_right And.left) (hm.mono (Nat.mul_le_mul_right _ lE)) (hm'.mono (Nat.mul_le_mul_right _ lE))
  obtain ⟨s', z', h1', -, h2', h3'⟩ := symb_exact hg hω henv hF (hD.imp_right And.right) (hm.mono (Nat.mul_le_mul_right _ lF)) (hm'.mono (Nat.mul_le_mul_right _ lF))
  rw [h1, h1'] at hEF
  obtain rfl := Except.ok.inj hEF
  rw [h3] at h3'
  rw [h2, h2', Except.ok.inj h3']

/-- **C90.** For example the product rule: `(f ^ g).D == f.D ^ g + f ^ g.D`, exactly, for primal functions `f` and `g` of bandwidth `m` and `m'` on a grid that resolves twice the bandwidth. -/
theorem C90_product_rule (k k' : Kind) (n n' : ℕ) (h : Heap) (addr : ℕ) (hg : h addr = ops2 (product (grid₀ k n) (grid₀ k' n'))) (m m' i : ℕ) (hm : Fits k n (2 * m)) (hm' : Fits k' n' (2 * m'))
    (f g : Sym.Form Smooth) (hf : Limited k k' m m' i 0 f) (hg' : Limited k k' m m' i 0 g) (x y : DForm) (hx : to_discrete2 (product (grid₀ k n) (grid₀ k' n')) addr f true = .ok x)
    (hy : to_discrete2 (product (grid₀ k n) (grid₀ k' n')) addr g true = .ok y) :
    ∃ xy dxy dx dy p q, W h x y = .ok xy ∧ D h xy = .ok (some dxy) ∧ D h x = .ok (some dx) ∧ D h y = .ok (some dy) ∧ W h dx y = .ok p ∧ W h x dy = .ok q ∧ binary .add p (.form q) = .ok dxy := by
  obtain ⟨fg, xy, f1, f2, f3, f4⟩ := step_W (u := true) hg (by rw [← two_mul]; exact hm) (by rw [← two_mul]; exact hm') hf hg' (by omega) hx hy
  rw [← two_mul, ← two_mul] at f2
  obtain ⟨dfg, dxy, g1, g2, g3, g4⟩ := step_D hg hm hm' f2 (by omega) f4 (.inr rfl)
  obtain ⟨df, dx, p1, p2, p3, p4⟩ := step_D hg (hm.mono (by omega)) (hm'.mono (by omega)) hf (by omega) hx (.inr rfl)
  obtain ⟨dg, dy, q1, q2, q3, q4⟩ := step_D hg (hm.mono (by omega)) (hm'.mono (by omega)) hg' (by omega) hy (.inr rfl)
  obtain ⟨P, p, r1, r2, r3, r4⟩ := step_W (u := true) hg (by rw [← two_mul]; exact hm) (by rw [← two_mul]; exact hm') p2 hg' (by omega) p4 hy
  obtain ⟨Q, q, s1, s2, s3, s4⟩ := step_W (u := true) hg (by rw [← two_mul]; exact hm) (by rw [← two_mul]; exact hm') hf q2 (by omega) hx q4
  obtain ⟨R, t1, -, -, t4, t5, t6, t7⟩ := step_lc hm.usable.1 hm'.usable.1 hm.not_regular r2 s2 r4 s4 1 1
  refine ⟨xy, dxy, dx, dy, p, q, f3, g3, p3, q3, r3, s3, ?_⟩
  rw [binary_form .add t5 t6]
  have e : R = dfg := by
    obtain ⟨D, c, hD, rfl, hc⟩ := hf.norm
    obtain rfl : D = 0 := Fin.ext hD
    obtain ⟨E, c', hE, rfl, hc'⟩ := hg'.norm
    obtain rfl : E = 0 := Fin.ext hE
    obtain ⟨u, rfl⟩ : ∃ u, c = [u] := List.length_eq_one_iff.1 hc
    obtain ⟨v, rfl⟩ : ∃ v, c' = [v] := List.length_eq_one_iff.1 hc'
    have a1 : fg = ⟨0, ⟨i, 2⟩, [u * v]⟩ := same f1 (by sym_simp)
    subst a1
    have a2 : dfg = ⟨1, ⟨i, 2⟩, [Smooth.dx (u * v), Smooth.dy (u * v)]⟩ := same g1 (by sym_simp)
    have a3 : df = ⟨1, ⟨i, 2⟩, [Smooth.dx u, Smooth.dy u]⟩ := same p1 (by sym_simp)
    have a4 : dg = ⟨1, ⟨i, 2⟩, [Smooth.dx v, Smooth.dy v]⟩ := same q1 (by sym_simp)
    subst a3 a4
    have a5 : P = ⟨1, ⟨i, 2⟩, [Smooth.dx u * v, Smooth.dy u * v]⟩ := same r1 (by sym_simp; constructor <;> ring)
    have a6 : Q = ⟨1, ⟨i, 2⟩, [u * Smooth.dx v, u * Smooth.dy v]⟩ := same s1 (by sym_simp)
    subst a2 a5 a6
    have a7 : Sym.mkForm 1 ⟨i, 2⟩ [Smooth.dx (u * v), Smooth.dy (u * v)] = .ok R := by
      rw [← t1]
      simp only [List.zipWith_cons_cons, List.zipWith_nil_left, one_smul]
      exact congrArg _ (by rw [Smooth.partials.dx_mul, Smooth.partials.dy_mul])
    have a8 := (goodComps.isForm (D := 1) (c := [Smooth.dx (u * v), Smooth.dy (u * v)]) rfl i).2
    exact Except.ok.inj (a7.symm.trans a8)
  rw [e, g4] at t7
  simp only [one_mul] at t7
  exact congrArg _ (Except.ok.inj t7).symm

/-- The hypotheses are met by `f = sin(x) y` and `v = y dx + cos(x) dy` on a periodic grid with 9 vertices times a Chebyshev grid with 6, with the expression `v.C((f ^ v).D + H(f), toprimal=False)`. -/
example : ∃ (h : Heap) (Γ : ℕ → ℕ × Bool) (ω : ℕ → Sym.Form Smooth) (env : ℕ → DForm), h 5 = ops2 (product (grid₀ .periodic 9) (grid₀ .chebyshev 6)) ∧
    (∀ j, Limited .periodic .chebyshev 1 1 0 (Γ j).1 (ω j)) ∧ (∀ j, to_discrete2 (product (grid₀ .periodic 9) (grid₀ .chebyshev 6)) 5 (ω j) (Γ j).2 = .ok (env j)) ∧
    HasType 2 true Γ (.contr (.var 1) (.add (.der (.wedge (.var 0) (.var 1) true)) (.star (.var 0))) false) 1 false ∧
    (Expr.contr (.var 1) (.add (.der (.wedge (.var 0) (.var 1) true)) (.star (.var 0))) false).dersPrimal Γ ∧
    Fits .periodic 9 ((Expr.contr (.var 1) (.add (.der (.wedge (.var 0) (.var 1) true)) (.star (.var 0))) false).order * 1) ∧
    Fits .chebyshev 6 ((Expr.contr (.var 1) (.add (.der (.wedge (.var 0) (.var 1) true)) (.star (.var 0))) false).order * 1) := by
  have hs : BandLimited .periodic 1 Real.sin := by show IsTrig 1 fun θ => Real.sin θ; simpa using isTrig_sin_nat (m := 1) (K := 1) le_rfl
  have hc : BandLimited .periodic 1 Real.cos := by show IsTrig 1 fun θ => Real.cos θ; simpa using isTrig_cos_nat (m := 1) (K := 1) le_rfl
  have h1 : BandLimited .periodic 1 fun _ => 1 := by show IsTrig 1 fun _ => 1; simpa using isTrig_cos_nat (m := 0) (K := 1) (by omega)
  have hy : BandLimited .chebyshev 1 fun y => y := ⟨fun j => if j = 1 then 1 else 0, fun x => by simp⟩
  have h1' : BandLimited .chebyshev 1 fun _ => 1 := ⟨fun j => if j = 0 then 1 else 0, fun x => by simp [Finset.sum_range_succ]⟩
  have hω : ∀ j, Limited .periodic .chebyshev 1 1 0 ((fun j => if j = 0 then (0, false) else (1, true) : ℕ → ℕ × Bool) j).1
      ((fun j => if j = 0 then ⟨0, ⟨0, 2⟩, [Smooth.sin Smooth.X * Smooth.Y]⟩ else ⟨1, ⟨0, 2⟩, [Smooth.Y, Smooth.cos Smooth.X]⟩ : ℕ → Sym.Form Smooth) j) := by
    intro j
    by_cases hj : j = 0
    · subst hj
      refine limited_of (D := 0) rfl ?_
      simp only [List.mem_cons, List.not_mem_nil, or_false, forall_eq]
      exact Tensor.single hs hy
    · simp only [if_neg hj]
      refine limited_of (D := 1) rfl ?_
      simp only [List.mem_cons, List.not_mem_nil, or_false, forall_eq_or_imp, forall_eq]
      have a := Tensor.single h1 hy
      have b := Tensor.single hc h1'
      simp only [one_mul, mul_one] at a b
      exact ⟨a, b⟩
  have htot : ∀ j, ∃ z, to_discrete2 (product (grid₀ .periodic 9) (grid₀ .chebyshev 6)) 5
      ((fun j => if j = 0 then ⟨0, ⟨0, 2⟩, [Smooth.sin Smooth.X * Smooth.Y]⟩ else ⟨1, ⟨0, 2⟩, [Smooth.Y, Smooth.cos Smooth.X]⟩ : ℕ → Sym.Form Smooth) j)
      ((fun j => if j = 0 then (0, false) else (1, true) : ℕ → ℕ × Bool) j).2 = .ok z := by
    intro j
    obtain ⟨D, c, -, hf, hc⟩ := (hω j).norm
    obtain ⟨u, hu⟩ := P_total (k := .periodic) (k' := .chebyshev) (n := 9) (n' := 6) (by norm_num [validSize]) (by norm_num [validSize]) D _ hc
    rw [hf]
    exact ⟨_, disc2 _ 5 D 0 c _ hu⟩
  choose env henv using htot
  refine ⟨fun _ => ops2 (product (grid₀ .periodic 9) (grid₀ .chebyshev 6)), _, _, env, rfl, hω, henv, ?_, ?_, ?_, ?_⟩
  · refine .contr (e := 2) (s := true) (t := true) false rfl (.var 1 ?_) (.add (.der (d := 1) (.wedge (d := 0) (e := 1) (s := false) (t := true) true rfl (.var 0 ?_) (.var 1 ?_) ?_) ?_) (.star (d := 0) (t := false) (.var 0 ?_))) ?_ <;> simp
  · simp [Expr.dersPrimal, Expr.side]
  · simp [Expr.order, Fits]
  · simp [Expr.order, Fits]

end Dec.Props
