import Verif.Model.Symbolic
import Mathlib.Tactic
import Mathlib.Algebra.MvPolynomial.PDeriv
import Mathlib.RingTheory.Derivation.Lie

/-!
# Symbolic exterior calculus: C32 – C36
-/

set_option linter.unusedSectionVars false
set_option linter.unusedSimpArgs false
set_option linter.unusedVariables false

namespace Dec.Props

open Dec.Sym

variable {R : Type*} [CommRing R]

/-! ## Specification -/

/-- `dx` and `dy` are partial derivatives: additive, satisfying the product rule, and commuting with each other. -/
structure Partials (dx dy : R → R) : Prop where
  dx_add : ∀ a b, dx (a + b) = dx a + dx b
  dy_add : ∀ a b, dy (a + b) = dy a + dy b
  dx_mul : ∀ a b, dx (a * b) = dx a * b + a * dx b
  dy_mul : ∀ a b, dy (a * b) = dy a * b + a * dy b
  comm : ∀ a, dx (dy a) = dy (dx a)

theorem Partials.dx_zero {dx dy : R → R} (h : Partials dx dy) : dx 0 = 0 := by
  have := h.dx_add 0 0; simpa using this
theorem Partials.dy_zero {dx dy : R → R} (h : Partials dx dy) : dy 0 = 0 := by
  have := h.dy_add 0 0; simpa using this
theorem Partials.dx_neg {dx dy : R → R} (h : Partials dx dy) (a : R) : dx (-a) = -dx a := by
  have := h.dx_add a (-a); rw [add_neg_cancel, h.dx_zero] at this; exact (neg_eq_of_add_eq_zero_right this.symm).symm
theorem Partials.dy_neg {dx dy : R → R} (h : Partials dx dy) (a : R) : dy (-a) = -dy a := by
  have := h.dy_add a (-a); rw [add_neg_cancel, h.dy_zero] at this; exact (neg_eq_of_add_eq_zero_right this.symm).symm
theorem Partials.dx_sub {dx dy : R → R} (h : Partials dx dy) (a b : R) : dx (a - b) = dx a - dx b := by
  rw [sub_eq_add_neg, h.dx_add, h.dx_neg, ← sub_eq_add_neg]
theorem Partials.dy_sub {dx dy : R → R} (h : Partials dx dy) (a b : R) : dy (a - b) = dy a - dy b := by
  rw [sub_eq_add_neg, h.dy_add, h.dy_neg, ← sub_eq_add_neg]

/-- Polynomials in two variables with the formal partial derivatives. -/
theorem partials_mvPolynomial :
    Partials (R := MvPolynomial (Fin 2) ℚ) (MvPolynomial.pderiv 0) (MvPolynomial.pderiv 1) where
  dx_add := by simp
  dy_add := by simp
  dx_mul := fun a b => by simp [Derivation.leibniz]; ring
  dy_mul := fun a b => by simp [Derivation.leibniz]; ring
  comm := fun a => by
    have h : ⁅(MvPolynomial.pderiv 0 : Derivation ℚ (MvPolynomial (Fin 2) ℚ) (MvPolynomial (Fin 2) ℚ)), (MvPolynomial.pderiv 1 : Derivation ℚ (MvPolynomial (Fin 2) ℚ) (MvPolynomial (Fin 2) ℚ))⁆ = 0 := by
      apply MvPolynomial.derivation_ext
      intro i
      fin_cases i <;> simp [Derivation.commutator_apply, MvPolynomial.pderiv_X, Pi.single_apply]
    have := congrArg (fun D => D a) h
    simp only [Derivation.commutator_apply, Derivation.zero_apply, sub_eq_zero] at this
    exact this

/-- `f` is an object returned by the constructor `form(degree, chart, components)` with a chart returned by `Chart(...)`. -/
def IsForm (f : Form R) : Prop :=
  (∃ i m, mkChart i m = .ok f.grid) ∧ mkForm f.degree f.grid f.comps = .ok f

/-- The value is zero: the Python integer `0`, or a form whose components all vanish. -/
def IsZero : Val R → Prop
  | .zero => True
  | .form f => ∀ c ∈ f.comps, c = 0

/-- The sign `(-1)^k` applied to a form. -/
def signed (k : ℕ) (f : Form R) : Form R := ⟨f.degree, f.grid, f.comps.map ((-1) ^ k * ·)⟩

/-- Componentwise sum of two forms of the same degree on the same chart. -/
def formAdd (f g : Form R) : Form R := ⟨f.degree, f.grid, List.zipWith (· + ·) f.comps g.comps⟩

/-! ## Case analysis -/

theorem nCr_10 : nCr (1 : ℕ) (0 : ℕ) = .ok 1 := by decide
theorem nCr_11 : nCr (1 : ℕ) (1 : ℕ) = .ok 1 := by decide
theorem nCr_20 : nCr (2 : ℕ) (0 : ℕ) = .ok 1 := by decide
theorem nCr_21 : nCr (2 : ℕ) (1 : ℕ) = .ok 2 := by decide
theorem nCr_22 : nCr (2 : ℕ) (2 : ℕ) = .ok 1 := by decide

@[simp] theorem mk10 (i : ℕ) (a : R) : mkForm 0 ⟨i, 1⟩ [a] = .ok ⟨0, ⟨i, 1⟩, [a]⟩ := by simp only [mkForm]; rw [nCr_10]; rfl
@[simp] theorem mk11 (i : ℕ) (a : R) : mkForm 1 ⟨i, 1⟩ [a] = .ok ⟨1, ⟨i, 1⟩, [a]⟩ := by simp only [mkForm]; rw [nCr_11]; rfl
@[simp] theorem mk20 (i : ℕ) (a : R) : mkForm 0 ⟨i, 2⟩ [a] = .ok ⟨0, ⟨i, 2⟩, [a]⟩ := by simp only [mkForm]; rw [nCr_20]; rfl
@[simp] theorem mk21 (i : ℕ) (a b : R) : mkForm 1 ⟨i, 2⟩ [a, b] = .ok ⟨1, ⟨i, 2⟩, [a, b]⟩ := by
  simp only [mkForm]; rw [nCr_21]; rfl
@[simp] theorem mk22 (i : ℕ) (a : R) : mkForm 2 ⟨i, 2⟩ [a] = .ok ⟨2, ⟨i, 2⟩, [a]⟩ := by simp only [mkForm]; rw [nCr_22]; rfl

/-- A form is one of five kinds. -/
theorem IsForm.cases {f : Form R} (h : IsForm f) :
    (∃ i a, f = ⟨0, ⟨i, 1⟩, [a]⟩) ∨ (∃ i a, f = ⟨1, ⟨i, 1⟩, [a]⟩) ∨ (∃ i a, f = ⟨0, ⟨i, 2⟩, [a]⟩) ∨
    (∃ i a b, f = ⟨1, ⟨i, 2⟩, [a, b]⟩) ∨ (∃ i a, f = ⟨2, ⟨i, 2⟩, [a]⟩) := by
  obtain ⟨⟨i, m, h1⟩, h2⟩ := h
  obtain ⟨k, ⟨j, d⟩, c⟩ := f
  unfold mkChart at h1
  split_ifs at h1 with hm
  simp only [Except.ok.injEq, Chart.mk.injEq] at h1
  obtain ⟨rfl, rfl⟩ := h1
  unfold mkForm at h2
  split_ifs at h2 with hk
  simp only at hk h2
  rcases hm with rfl | rfl
  · obtain rfl | rfl : k = 0 ∨ k = 1 := by omega
    · rw [nCr_10] at h2; simp only at h2
      split_ifs at h2 with hc
      obtain ⟨a, rfl⟩ := List.length_eq_one_iff.1 hc
      exact Or.inl ⟨i, a, rfl⟩
    · rw [nCr_11] at h2; simp only at h2
      split_ifs at h2 with hc
      obtain ⟨a, rfl⟩ := List.length_eq_one_iff.1 hc
      exact Or.inr (Or.inl ⟨i, a, rfl⟩)
  · obtain rfl | rfl | rfl : k = 0 ∨ k = 1 ∨ k = 2 := by omega
    · rw [nCr_20] at h2; simp only at h2
      split_ifs at h2 with hc
      obtain ⟨a, rfl⟩ := List.length_eq_one_iff.1 hc
      exact Or.inr (Or.inr (Or.inl ⟨i, a, rfl⟩))
    · rw [nCr_21] at h2; simp only at h2
      split_ifs at h2 with hc
      obtain ⟨a, b, rfl⟩ := List.length_eq_two.1 hc
      exact Or.inr (Or.inr (Or.inr (Or.inl ⟨i, a, b, rfl⟩)))
    · rw [nCr_22] at h2; simp only at h2
      split_ifs at h2 with hc
      obtain ⟨a, rfl⟩ := List.length_eq_one_iff.1 hc
      exact Or.inr (Or.inr (Or.inr (Or.inr ⟨i, a, rfl⟩)))

/-- The constructors produce forms: the five kinds exist, with arbitrary components. -/
theorem isForm_kinds (i : ℕ) (a b : R) :
    IsForm (⟨0, ⟨i, 1⟩, [a]⟩ : Form R) ∧ IsForm (⟨1, ⟨i, 1⟩, [a]⟩ : Form R) ∧ IsForm (⟨0, ⟨i, 2⟩, [a]⟩ : Form R) ∧
    IsForm (⟨1, ⟨i, 2⟩, [a, b]⟩ : Form R) ∧ IsForm (⟨2, ⟨i, 2⟩, [a]⟩ : Form R) :=
  ⟨⟨⟨i, 1, rfl⟩, mk10 i a⟩, ⟨⟨i, 1, rfl⟩, mk11 i a⟩, ⟨⟨i, 2, rfl⟩, mk20 i a⟩, ⟨⟨i, 2, rfl⟩, mk21 i a b⟩, ⟨⟨i, 2, rfl⟩, mk22 i a⟩⟩

macro "sym_simp" : tactic => `(tactic| simp [Sym.D, Sym.H, Sym.W, Sym.C, Form.D, Form.H, Form.W, Form.C, Form.neg, Chart.D, Chart.H, Chart.W,
  Chart.C, derivative_1d, derivative_2d, hodge_star_1d, hodge_star_2d, wedge_1d, wedge_2d, antisymmetrize, wedge_1d_base, wedge_2d_base,
  contraction_1d, contraction_2d, ret, IsZero, signed, formAdd, Except.map, bind, Except.bind, pure, Except.pure, Dot, Sym.Lie, Sym.Laplacian,
  Val.add, Val.sub, Val.comps, Val.fst, Form.add, Form.sub, Form.binary, Form.binaryScalar])

/-! ## C32 -/

/-- C32: `D(D(f)) = 0` for every form. -/
theorem C32_d_squared {dx dy : R → R} (hd : Partials dx dy) (f : Form R) (hf : IsForm f) :
    ∃ g h, D dx dy (.form f) = .ok g ∧ D dx dy g = .ok h ∧ IsZero h := by
  rcases hf.cases with ⟨i, a, rfl⟩ | ⟨i, a, rfl⟩ | ⟨i, a, rfl⟩ | ⟨i, a, b, rfl⟩ | ⟨i, a, rfl⟩
  · exact ⟨.form ⟨1, ⟨i, 1⟩, [dx a]⟩, .zero, by sym_simp, by sym_simp, trivial⟩
  · exact ⟨.zero, .zero, by sym_simp, by sym_simp, trivial⟩
  · refine ⟨.form ⟨1, ⟨i, 2⟩, [dx a, dy a]⟩, .form ⟨2, ⟨i, 2⟩, [-dy (dx a) + dx (dy a)]⟩, by sym_simp, by sym_simp, ?_⟩
    sym_simp; rw [hd.comm]; ring
  · exact ⟨.form ⟨2, ⟨i, 2⟩, [-dy a + dx b]⟩, .zero, by sym_simp, by sym_simp, trivial⟩
  · exact ⟨.zero, .zero, by sym_simp, by sym_simp, trivial⟩

/-- C32: `D(a ^ b) = D(a) ^ b + (-1)^k a ^ D(b)` whenever the right-hand side has a degree within the dimension. -/
theorem C32_leibniz {dx dy : R → R} (hd : Partials dx dy) (a b : Form R) (ha : IsForm a) (hb : IsForm b)
    (hg : a.grid = b.grid) (hdeg : a.degree + b.degree < a.grid.dim) :
    ∃ ab da db x y : Form R, W (.form a) (.form b) = .ok (.form ab) ∧ D dx dy (.form a) = .ok (.form da) ∧ D dx dy (.form b) = .ok (.form db) ∧
      W (.form da) (.form b) = .ok (.form x) ∧ W (.form a) (.form db) = .ok (.form y) ∧
      D dx dy (.form ab) = .ok (.form (formAdd x (signed a.degree y))) := by
  rcases ha.cases with ⟨i, p, rfl⟩ | ⟨i, p, rfl⟩ | ⟨i, p, rfl⟩ | ⟨i, p, q, rfl⟩ | ⟨i, p, rfl⟩ <;>
  rcases hb.cases with ⟨j, r, rfl⟩ | ⟨j, r, rfl⟩ | ⟨j, r, rfl⟩ | ⟨j, r, s, rfl⟩ | ⟨j, r, rfl⟩ <;>
  simp at hg hdeg <;> subst hg
  · refine ⟨⟨0, ⟨i, 1⟩, [p * r]⟩, ⟨1, ⟨i, 1⟩, [dx p]⟩, ⟨1, ⟨i, 1⟩, [dx r]⟩, ⟨1, ⟨i, 1⟩, [r * dx p]⟩, ⟨1, ⟨i, 1⟩, [p * dx r]⟩,
      by sym_simp, by sym_simp, by sym_simp, by sym_simp, by sym_simp, ?_⟩
    sym_simp; rw [hd.dx_mul]; ring
  · refine ⟨⟨0, ⟨i, 2⟩, [p * r]⟩, ⟨1, ⟨i, 2⟩, [dx p, dy p]⟩, ⟨1, ⟨i, 2⟩, [dx r, dy r]⟩, ⟨1, ⟨i, 2⟩, [r * dx p, r * dy p]⟩,
      ⟨1, ⟨i, 2⟩, [p * dx r, p * dy r]⟩, by sym_simp, by sym_simp, by sym_simp, by sym_simp, by sym_simp, ?_⟩
    sym_simp; rw [hd.dx_mul, hd.dy_mul]; constructor <;> ring
  · refine ⟨⟨1, ⟨i, 2⟩, [p * r, p * s]⟩, ⟨1, ⟨i, 2⟩, [dx p, dy p]⟩, ⟨2, ⟨i, 2⟩, [-dy r + dx s]⟩, ⟨2, ⟨i, 2⟩, [dx p * s - dy p * r]⟩,
      ⟨2, ⟨i, 2⟩, [p * (-dy r + dx s)]⟩, by sym_simp, by sym_simp, by sym_simp, by sym_simp, by sym_simp, ?_⟩
    sym_simp; rw [hd.dx_mul, hd.dy_mul]; ring
  · refine ⟨⟨1, ⟨i, 2⟩, [r * p, r * q]⟩, ⟨2, ⟨i, 2⟩, [-dy p + dx q]⟩, ⟨1, ⟨i, 2⟩, [dx r, dy r]⟩, ⟨2, ⟨i, 2⟩, [r * (-dy p + dx q)]⟩,
      ⟨2, ⟨i, 2⟩, [p * dy r - q * dx r]⟩, by sym_simp, by sym_simp, by sym_simp, by sym_simp, by sym_simp, ?_⟩
    sym_simp; rw [hd.dx_mul, hd.dy_mul]; ring

/-- Non-vacuity: the 0-form `x y` and the 1-form `y dx` with polynomial components. -/
example : Partials (R := MvPolynomial (Fin 2) ℚ) (MvPolynomial.pderiv 0) (MvPolynomial.pderiv 1) ∧
    IsForm (⟨0, ⟨0, 2⟩, [.X 0 * .X 1]⟩ : Form (MvPolynomial (Fin 2) ℚ)) ∧ IsForm (⟨1, ⟨0, 2⟩, [.X 1, 0]⟩ : Form (MvPolynomial (Fin 2) ℚ)) :=
  ⟨partials_mvPolynomial, (isForm_kinds 0 _ 0).2.2.1, (isForm_kinds 0 _ _).2.2.2.1⟩

/-! ## C33 -/

/-- C33: graded commutativity. -/
theorem C33_graded_commutative (a b : Form R) (ha : IsForm a) (hb : IsForm b) (hg : a.grid = b.grid)
    (hdeg : a.degree + b.degree ≤ a.grid.dim) :
    ∃ ab ba : Form R, W (.form a) (.form b) = .ok (.form ab) ∧ W (.form b) (.form a) = .ok (.form ba) ∧
      ab = signed (a.degree * b.degree) ba := by
  rcases ha.cases with ⟨i, p, rfl⟩ | ⟨i, p, rfl⟩ | ⟨i, p, rfl⟩ | ⟨i, p, q, rfl⟩ | ⟨i, p, rfl⟩ <;>
  rcases hb.cases with ⟨j, r, rfl⟩ | ⟨j, r, rfl⟩ | ⟨j, r, rfl⟩ | ⟨j, r, s, rfl⟩ | ⟨j, r, rfl⟩ <;>
  simp at hg hdeg <;> subst hg <;> (try omega) <;> sym_simp <;> first | done | (refine ⟨?_, ?_⟩ <;> ring) | ring

/-- C33: associativity. -/
theorem C33_associative (a b c : Form R) (ha : IsForm a) (hb : IsForm b) (hc : IsForm c) (hg : a.grid = b.grid) (hg' : b.grid = c.grid)
    (hdeg : a.degree + b.degree + c.degree ≤ a.grid.dim) :
    ∃ ab bc l : Form R, W (.form a) (.form b) = .ok (.form ab) ∧ W (.form b) (.form c) = .ok (.form bc) ∧
      W (.form ab) (.form c) = .ok (.form l) ∧ W (.form a) (.form bc) = .ok (.form l) := by
  rcases ha.cases with ⟨i, p, rfl⟩ | ⟨i, p, rfl⟩ | ⟨i, p, rfl⟩ | ⟨i, p, q, rfl⟩ | ⟨i, p, rfl⟩ <;>
  rcases hb.cases with ⟨j, r, rfl⟩ | ⟨j, r, rfl⟩ | ⟨j, r, rfl⟩ | ⟨j, r, s, rfl⟩ | ⟨j, r, rfl⟩ <;>
  simp at hg hdeg <;> subst hg <;> (try omega) <;>
  rcases hc.cases with ⟨k, u, rfl⟩ | ⟨k, u, rfl⟩ | ⟨k, u, rfl⟩ | ⟨k, u, v, rfl⟩ | ⟨k, u, rfl⟩ <;>
  simp at hg' hdeg <;> subst hg' <;> (try omega) <;> sym_simp <;> first | done | (refine ⟨?_, ?_⟩ <;> ring) | ring

/-- C33: the square of a 1-form vanishes (in two dimensions; in one dimension the degree is too large). -/
theorem C33_square_zero (a : Form R) (ha : IsForm a) (hdeg : a.degree = 1) (hdim : a.grid.dim = 2) :
    ∃ s, W (.form a) (.form a) = .ok s ∧ IsZero s := by
  rcases ha.cases with ⟨i, p, rfl⟩ | ⟨i, p, rfl⟩ | ⟨i, p, rfl⟩ | ⟨i, p, q, rfl⟩ | ⟨i, p, rfl⟩ <;> simp at hdeg hdim
  sym_simp; ring

/-- C33: wedge products beyond the dimension and across charts are rejected. -/
theorem C33_rejected (a b : Form R) (ha : IsForm a) (hb : IsForm b)
    (h : a.grid ≠ b.grid ∨ a.grid.dim < a.degree + b.degree) : W (.form a) (.form b) = .error (if a.grid = b.grid then .keyError else .assertion) := by
  by_cases hg : a.grid = b.grid
  · rcases h with h | h
    · exact absurd hg h
    rcases ha.cases with ⟨i, p, rfl⟩ | ⟨i, p, rfl⟩ | ⟨i, p, rfl⟩ | ⟨i, p, q, rfl⟩ | ⟨i, p, rfl⟩ <;>
    rcases hb.cases with ⟨j, r, rfl⟩ | ⟨j, r, rfl⟩ | ⟨j, r, rfl⟩ | ⟨j, r, s, rfl⟩ | ⟨j, r, rfl⟩ <;>
    simp at hg h <;> subst hg <;> sym_simp
  · simp [Sym.W, Form.W, hg]

example : IsForm (⟨1, ⟨0, 2⟩, [1, 2]⟩ : Form ℚ) ∧ IsForm (⟨1, ⟨0, 2⟩, [3, -5]⟩ : Form ℚ) :=
  ⟨(isForm_kinds 0 _ _).2.2.2.1, (isForm_kinds 0 _ _).2.2.2.1⟩

/-! ## C34 -/

/-- C34: `H(H(f)) = (-1)^(k(n-k)) f`. -/
theorem C34_hodge_squared (f : Form R) (hf : IsForm f) :
    ∃ g, H (.form f) = .ok (.form g) ∧ g.degree = f.grid.dim - f.degree ∧
      H (.form g) = .ok (.form (signed (f.degree * (f.grid.dim - f.degree)) f)) := by
  rcases hf.cases with ⟨i, a, rfl⟩ | ⟨i, a, rfl⟩ | ⟨i, a, rfl⟩ | ⟨i, a, b, rfl⟩ | ⟨i, a, rfl⟩
  · exact ⟨⟨1, ⟨i, 1⟩, [a]⟩, by sym_simp, rfl, by sym_simp⟩
  · exact ⟨⟨0, ⟨i, 1⟩, [a]⟩, by sym_simp, rfl, by sym_simp⟩
  · exact ⟨⟨2, ⟨i, 2⟩, [a]⟩, by sym_simp, rfl, by sym_simp⟩
  · exact ⟨⟨1, ⟨i, 2⟩, [-b, a]⟩, by sym_simp, rfl, by sym_simp⟩
  · exact ⟨⟨0, ⟨i, 2⟩, [a]⟩, by sym_simp, rfl, by sym_simp⟩

/-- C34: `Dot(a, b)` is the 0-form whose component is the sum of the products of the components; hence it is symmetric. -/
theorem C34_dot (a b : Form R) (ha : IsForm a) (hb : IsForm b) (hg : a.grid = b.grid) (hdeg : a.degree = b.degree) :
    Dot (.form a) (.form b) = .ok (.form ⟨0, a.grid, [(List.zipWith (· * ·) a.comps b.comps).sum]⟩) ∧
    Dot (.form b) (.form a) = Dot (.form a) (.form b) := by
  rcases ha.cases with ⟨i, p, rfl⟩ | ⟨i, p, rfl⟩ | ⟨i, p, rfl⟩ | ⟨i, p, q, rfl⟩ | ⟨i, p, rfl⟩ <;>
  rcases hb.cases with ⟨j, r, rfl⟩ | ⟨j, r, rfl⟩ | ⟨j, r, rfl⟩ | ⟨j, r, s, rfl⟩ | ⟨j, r, rfl⟩ <;>
  simp at hg hdeg <;> subst hg <;> sym_simp <;> first | done | (refine ⟨?_, ?_⟩ <;> ring) | ring

/-- C34: contraction expressed by wedge and Hodge star in degree at least one, zero in degree 0. -/
theorem C34_contraction (X f : Form R) (hX : IsForm X) (hf : IsForm f) (hg : X.grid = f.grid) (h1 : X.degree = 1) :
    (1 ≤ f.degree → ∃ hf' w c : Form R, H (.form f) = .ok (.form hf') ∧ W (.form X) (.form hf') = .ok (.form w) ∧ H (.form w) = .ok (.form c) ∧
      C (.form X) (.form f) = .ok (.form c)) ∧
    (f.degree = 0 → C (.form X) (.form f) = .ok .zero) := by
  rcases hX.cases with ⟨i, p, rfl⟩ | ⟨i, p, rfl⟩ | ⟨i, p, rfl⟩ | ⟨i, p, q, rfl⟩ | ⟨i, p, rfl⟩ <;> simp at h1 <;>
  rcases hf.cases with ⟨j, r, rfl⟩ | ⟨j, r, rfl⟩ | ⟨j, r, rfl⟩ | ⟨j, r, s, rfl⟩ | ⟨j, r, rfl⟩ <;>
  simp at hg <;> subst hg <;> sym_simp <;> first | done | (refine ⟨?_, ?_⟩ <;> ring) | ring

/-- C34: contracting twice with the same vector field gives zero. -/
theorem C34_contraction_twice (X f : Form R) (hX : IsForm X) (hf : IsForm f) (hg : X.grid = f.grid) (h1 : X.degree = 1) :
    ∃ g h, C (.form X) (.form f) = .ok g ∧ C (.form X) g = .ok h ∧ IsZero h := by
  rcases hX.cases with ⟨i, p, rfl⟩ | ⟨i, p, rfl⟩ | ⟨i, p, rfl⟩ | ⟨i, p, q, rfl⟩ | ⟨i, p, rfl⟩ <;> simp at h1 <;>
  rcases hf.cases with ⟨j, r, rfl⟩ | ⟨j, r, rfl⟩ | ⟨j, r, rfl⟩ | ⟨j, r, s, rfl⟩ | ⟨j, r, rfl⟩ <;>
  simp at hg <;> subst hg <;> sym_simp <;> first | done | (refine ⟨?_, ?_⟩ <;> ring) | ring

/-! ## C35 -/

/-- C35: the Laplacian acts as the sum of the second derivatives on every component of every form, in one and two dimensions. -/
theorem C35_laplacian {dx dy : R → R} (hd : Partials dx dy) (f : Form R) (hf : IsForm f) :
    Laplacian dx dy (.form f)
      = .ok (.form ⟨f.degree, f.grid, f.comps.map fun c => if f.grid.dim = 1 then dx (dx c) else dx (dx c) + dy (dy c)⟩) := by
  rcases hf.cases with ⟨i, a, rfl⟩ | ⟨i, a, rfl⟩ | ⟨i, a, rfl⟩ | ⟨i, a, b, rfl⟩ | ⟨i, a, rfl⟩ <;> sym_simp
  all_goals simp only [hd.dx_add, hd.dy_add, hd.dx_neg, hd.dy_neg, hd.comm]
  all_goals first | (refine ⟨?_, ?_⟩ <;> ring) | ring

/-- C35: the Lie derivative in two dimensions, in every degree. -/
theorem C35_lie {dx dy : R → R} (hd : Partials dx dy) (i : ℕ) (u v f g : R) :
    Lie dx dy (.form ⟨1, ⟨i, 2⟩, [u, v]⟩) (.form ⟨0, ⟨i, 2⟩, [f]⟩) = .ok (.form ⟨0, ⟨i, 2⟩, [u * dx f + v * dy f]⟩) ∧
    Lie dx dy (.form ⟨1, ⟨i, 2⟩, [u, v]⟩) (.form ⟨1, ⟨i, 2⟩, [f, g]⟩)
      = .ok (.form ⟨1, ⟨i, 2⟩, [u * dx f + v * dy f + f * dx u + g * dx v, u * dx g + v * dy g + f * dy u + g * dy v]⟩) ∧
    Lie dx dy (.form ⟨1, ⟨i, 2⟩, [u, v]⟩) (.form ⟨2, ⟨i, 2⟩, [f]⟩) = .ok (.form ⟨2, ⟨i, 2⟩, [dx (f * u) + dy (f * v)]⟩) := by
  refine ⟨?_, ?_, ?_⟩
  · sym_simp
  · sym_simp; simp only [hd.dx_add, hd.dy_add, hd.dx_mul, hd.dy_mul]; constructor <;> ring
  · sym_simp; simp only [hd.dx_add, hd.dy_add, hd.dx_mul, hd.dy_mul, hd.dy_neg]; ring

/-- C35: the Lie derivative in one dimension. -/
theorem C35_lie_1d {dx dy : R → R} (hd : Partials dx dy) (i : ℕ) (u f : R) :
    Lie dx dy (.form ⟨1, ⟨i, 1⟩, [u]⟩) (.form ⟨0, ⟨i, 1⟩, [f]⟩) = .ok (.form ⟨0, ⟨i, 1⟩, [u * dx f]⟩) ∧
    Lie dx dy (.form ⟨1, ⟨i, 1⟩, [u]⟩) (.form ⟨1, ⟨i, 1⟩, [f]⟩) = .ok (.form ⟨1, ⟨i, 1⟩, [dx (u * f)]⟩) := by
  constructor <;> sym_simp

/-- C35: the Lie derivative commutes with the exterior derivative. -/
theorem C35_lie_commutes {dx dy : R → R} (hd : Partials dx dy) (X f : Form R) (hX : IsForm X) (hf : IsForm f) (hg : X.grid = f.grid)
    (h1 : X.degree = 1) (h2 : f.degree < f.grid.dim) :
    ∃ df l ldf : Form R, D dx dy (.form f) = .ok (.form df) ∧ Lie dx dy (.form X) (.form f) = .ok (.form l) ∧
      Lie dx dy (.form X) (.form df) = .ok (.form ldf) ∧ D dx dy (.form l) = .ok (.form ldf) := by
  rcases hX.cases with ⟨i, p, rfl⟩ | ⟨i, p, rfl⟩ | ⟨i, p, rfl⟩ | ⟨i, p, q, rfl⟩ | ⟨i, p, rfl⟩ <;> simp at h1 <;>
  rcases hf.cases with ⟨j, r, rfl⟩ | ⟨j, r, rfl⟩ | ⟨j, r, rfl⟩ | ⟨j, r, s, rfl⟩ | ⟨j, r, rfl⟩ <;>
  simp at hg h2 <;> subst hg
  · exact ⟨_, _, _, by sym_simp; rfl, (C35_lie_1d hd i p r).1, (C35_lie_1d hd i p _).2, by sym_simp⟩
  · refine ⟨⟨1, ⟨i, 2⟩, [dx r, dy r]⟩, _, _, by sym_simp, (C35_lie hd i p q r r).1, (C35_lie hd i p q _ _).2.1, ?_⟩
    sym_simp; simp only [hd.dx_add, hd.dy_add, hd.dx_mul, hd.dy_mul, hd.comm]; constructor <;> ring
  · refine ⟨⟨2, ⟨i, 2⟩, [-dy r + dx s]⟩, _, _, by sym_simp, (C35_lie hd i p q r s).2.1, (C35_lie hd i p q _ 0).2.2, ?_⟩
    sym_simp; simp only [hd.dx_add, hd.dy_add, hd.dx_mul, hd.dy_mul, hd.dx_neg, hd.dy_neg, hd.comm]; ring

/-- C35: `grad`, `div` and `vort`. -/
theorem C35_grad_div_vort (dx dy : R → R) (hd : Partials dx dy) (f u v : R) :
    grad dx dy f = .ok [dx f, dy f] ∧ div dx dy u v = .ok (dx u + dy v) ∧ vort dx dy u v = .ok (dx v - dy u) ∧
    div dx dy (dx f) (dy f) = .ok (dx (dx f) + dy (dy f)) ∧ vort dx dy (dx f) (dy f) = .ok 0 := by
  have h1 : ∀ u v : R, div dx dy u v = .ok (dx u + dy v) := by
    intro u v; unfold Sym.div F1 chart2; sym_simp; rw [hd.dy_neg]; ring
  have h2 : ∀ u v : R, vort dx dy u v = .ok (dx v - dy u) := by
    intro u v; unfold Sym.vort F1 chart2; sym_simp; ring
  refine ⟨?_, h1 u v, h2 u v, h1 _ _, ?_⟩
  · unfold Sym.grad F0 chart2; sym_simp
  · rw [h2, hd.comm, sub_self]

/-- C35: `adv(V) = (V . grad) V`. -/
theorem C35_adv [Algebra ℚ R] (dx dy : R → R) (hd : Partials dx dy) (u v : R) :
    adv dx dy u v = .ok [u * dx u + v * dy u, u * dx v + v * dy v] := by
  have hl := (C35_lie hd 0 u v u v).2.1
  have hg := (C35_grad_div_vort dx dy hd (u ^ 2 + v ^ 2) u v).1
  have h2 : ∀ a : R, (1 / 2 : ℚ) • (2 * a) = a := by
    intro a
    rw [show (2 : R) * a = (2 : ℚ) • a by rw [Algebra.smul_def, map_ofNat], smul_smul]; norm_num
  have hx : dx (u ^ 2 + v ^ 2) = 2 * (u * dx u + v * dx v) := by
    rw [hd.dx_add, pow_two, pow_two, hd.dx_mul, hd.dx_mul]; ring
  have hy : dy (u ^ 2 + v ^ 2) = 2 * (u * dy u + v * dy v) := by
    rw [hd.dy_add, pow_two, pow_two, hd.dy_mul, hd.dy_mul]; ring
  unfold Sym.adv F1
  rw [hg, hx, hy]
  simp only [bind, Except.bind, chart2, mk21, List.getD_cons_zero, List.getD_cons_succ]
  rw [hl]
  simp only [Form.div2, List.map, h2, mk21]
  sym_simp; first | done | (constructor <;> ring) | ring

/-! ## C36 -/

/-- C36, the code violates the property: `c * f` raises `TypeError` for every scalar and every form. -/
theorem C36_scalar_multiplication_fails (c : R) (f : Form R) : f.rmul c = .error .typeError := rfl

/-- C36, what does work: division by two (through `__truediv__`), negation, addition and subtraction act on the components. -/
theorem C36_linear_operations (f g : Form R) (hf : IsForm f) (hg : IsForm g) (h1 : f.degree = g.degree) (h2 : f.grid = g.grid) :
    f.add g = .ok ⟨f.degree, f.grid, List.zipWith (· + ·) f.comps g.comps⟩ ∧
    f.sub g = .ok ⟨f.degree, f.grid, List.zipWith (· - ·) f.comps g.comps⟩ ∧
    f.neg = .ok ⟨f.degree, f.grid, f.comps.map (- ·)⟩ := by
  rcases hf.cases with ⟨i, p, rfl⟩ | ⟨i, p, rfl⟩ | ⟨i, p, rfl⟩ | ⟨i, p, q, rfl⟩ | ⟨i, p, rfl⟩ <;>
  rcases hg.cases with ⟨j, r, rfl⟩ | ⟨j, r, rfl⟩ | ⟨j, r, rfl⟩ | ⟨j, r, s, rfl⟩ | ⟨j, r, rfl⟩ <;>
  simp at h1 h2 <;> subst h2 <;> sym_simp

/-- C36: sums and differences of forms of different degree or on different charts are rejected. -/
theorem C36_rejected (f g : Form R) (h : f.degree ≠ g.degree ∨ f.grid ≠ g.grid) :
    f.add g = .error .assertion ∧ f.sub g = .error .assertion := by
  unfold Form.add Form.sub Form.binary
  by_cases h1 : f.degree = g.degree
  · have h2 := h.resolve_left (not_not_intro h1)
    exact ⟨by simp [h1, h2], by simp [h1, h2]⟩
  · exact ⟨by simp [h1], by simp [h1]⟩

example : (⟨0, ⟨0, 1⟩, [3]⟩ : Form ℚ).degree ≠ (⟨1, ⟨0, 1⟩, [3]⟩ : Form ℚ).degree := by decide

end Dec.Props
