import Verif.Props.Symbolic

set_option linter.unusedSectionVars false
set_option linter.unusedSimpArgs false
set_option linter.unusedVariables false

/-!
# C115: Cartan's calculus for symbolic forms
-/

namespace Dec.Props

open Dec.Sym

variable {R : Type*} [CommRing R]

/-- The vector field `[X, Y] = (X . grad) Y - (Y . grad) X`, as a 1-form object on the chart of `X`. -/
def bracket (dx dy : R → R) (X Y : Form R) : Form R :=
  if X.grid.dim = 1 then ⟨1, X.grid, [X.comps.getD 0 0 * dx (Y.comps.getD 0 0) - Y.comps.getD 0 0 * dx (X.comps.getD 0 0)]⟩
  else ⟨1, X.grid, [0, 1].map fun m => X.comps.getD 0 0 * dx (Y.comps.getD m 0) + X.comps.getD 1 0 * dy (Y.comps.getD m 0)
    - (Y.comps.getD 0 0 * dx (X.comps.getD m 0) + Y.comps.getD 1 0 * dy (X.comps.getD m 0))⟩

/-- Componentwise difference of two forms of the same degree on the same chart. -/
def formSub (f g : Form R) : Form R := ⟨f.degree, f.grid, List.zipWith (· - ·) f.comps g.comps⟩

macro "one_or_two" : tactic => `(tactic| first | done | exact ⟨trivial, trivial⟩ | (refine ⟨?_, ?_⟩ <;> ring) | ring)

theorem lie0 {dx dy : R → R} (hd : Partials dx dy) (i : ℕ) (u v f : R) :
    Lie dx dy (.form ⟨1, ⟨i, 2⟩, [u, v]⟩) (.form ⟨0, ⟨i, 2⟩, [f]⟩) = .ok (.form ⟨0, ⟨i, 2⟩, [u * dx f + v * dy f]⟩) := (C35_lie hd i u v f f).1
theorem lie1 {dx dy : R → R} (hd : Partials dx dy) (i : ℕ) (u v f g : R) :
    Lie dx dy (.form ⟨1, ⟨i, 2⟩, [u, v]⟩) (.form ⟨1, ⟨i, 2⟩, [f, g]⟩)
      = .ok (.form ⟨1, ⟨i, 2⟩, [u * dx f + v * dy f + f * dx u + g * dx v, u * dx g + v * dy g + f * dy u + g * dy v]⟩) := (C35_lie hd i u v f g).2.1
theorem lie2 {dx dy : R → R} (hd : Partials dx dy) (i : ℕ) (u v f : R) :
    Lie dx dy (.form ⟨1, ⟨i, 2⟩, [u, v]⟩) (.form ⟨2, ⟨i, 2⟩, [f]⟩) = .ok (.form ⟨2, ⟨i, 2⟩, [dx (f * u) + dy (f * v)]⟩) := (C35_lie hd i u v f f).2.2
theorem lie10 {dx dy : R → R} (hd : Partials dx dy) (i : ℕ) (u f : R) :
    Lie dx dy (.form ⟨1, ⟨i, 1⟩, [u]⟩) (.form ⟨0, ⟨i, 1⟩, [f]⟩) = .ok (.form ⟨0, ⟨i, 1⟩, [u * dx f]⟩) := (C35_lie_1d hd i u f).1
theorem lie11 {dx dy : R → R} (hd : Partials dx dy) (i : ℕ) (u f : R) :
    Lie dx dy (.form ⟨1, ⟨i, 1⟩, [u]⟩) (.form ⟨1, ⟨i, 1⟩, [f]⟩) = .ok (.form ⟨1, ⟨i, 1⟩, [dx (u * f)]⟩) := (C35_lie_1d hd i u f).2

/-- As `sym_simp`, with the Lie derivative already computed. -/
macro "sym_simp'" hd:term : tactic => `(tactic| ((try simp only [lie0 $hd, lie1 $hd, lie2 $hd, lie10 $hd, lie11 $hd]); simp [Sym.D, Sym.H, Sym.W, Sym.C, Form.D, Form.H, Form.W, Form.C, Form.neg, Chart.D, Chart.H, Chart.W,
  Chart.C, derivative_1d, derivative_2d, hodge_star_1d, hodge_star_2d, wedge_1d, wedge_2d, antisymmetrize, wedge_1d_base, wedge_2d_base,
  contraction_1d, contraction_2d, ret, IsZero, signed, formAdd, formSub, bracket, Except.map, bind, Except.bind, pure, Except.pure, Dot,
  Val.add, Val.sub, Val.comps, Val.fst, Form.add, Form.sub, Form.binary, Form.binaryScalar, lie0 $hd, lie1 $hd, lie2 $hd, lie10 $hd, lie11 $hd]))

section
variable {dx dy : R → R} (hd : Partials dx dy)
include hd

/-- C115: the Lie derivative is a derivation of the wedge product. -/
theorem C115_lie_wedge (X a b : Form R) (hX : IsForm X) (ha : IsForm a) (hb : IsForm b) (h1 : X.degree = 1) (hXa : X.grid = a.grid) (hab : a.grid = b.grid) (hdeg : a.degree + b.degree ≤ a.grid.dim) :
    ∃ ab la lb x y : Form R, W (.form a) (.form b) = .ok (.form ab) ∧ Lie dx dy (.form X) (.form a) = .ok (.form la) ∧ Lie dx dy (.form X) (.form b) = .ok (.form lb) ∧
      W (.form la) (.form b) = .ok (.form x) ∧ W (.form a) (.form lb) = .ok (.form y) ∧ Lie dx dy (.form X) (.form ab) = .ok (.form (formAdd x y)) := by
  rcases hX.cases with ⟨i, p, rfl⟩ | ⟨i, p, rfl⟩ | ⟨i, p, rfl⟩ | ⟨i, p, q, rfl⟩ | ⟨i, p, rfl⟩ <;> simp at h1 <;>
  rcases ha.cases with ⟨j, r, rfl⟩ | ⟨j, r, rfl⟩ | ⟨j, r, rfl⟩ | ⟨j, r, s, rfl⟩ | ⟨j, r, rfl⟩ <;> simp at hXa <;> subst hXa <;>
  rcases hb.cases with ⟨k, u, rfl⟩ | ⟨k, u, rfl⟩ | ⟨k, u, rfl⟩ | ⟨k, u, v, rfl⟩ | ⟨k, u, rfl⟩ <;> simp at hab hdeg <;> subst hab <;>
  refine ⟨_, _, _, _, _, by sym_simp' hd; rfl, by sym_simp' hd; rfl, by sym_simp' hd; rfl, by sym_simp' hd; rfl, by sym_simp' hd; rfl, ?_⟩ <;>
  sym_simp' hd <;> simp only [hd.dx_add, hd.dy_add, hd.dx_sub, hd.dy_sub, hd.dx_mul, hd.dy_mul, hd.comm] <;> one_or_two

/-- C115: contraction is an antiderivation of the wedge product (contractions of 0-forms are 0 and drop out). -/
theorem C115_contraction_wedge (X a b : Form R) (hX : IsForm X) (ha : IsForm a) (hb : IsForm b) (h1 : X.degree = 1) (hXa : X.grid = a.grid) (hab : a.grid = b.grid) (hdeg : a.degree + b.degree ≤ a.grid.dim) :
    (1 ≤ a.degree → 1 ≤ b.degree → ∃ ab ca cb x y : Form R, W (.form a) (.form b) = .ok (.form ab) ∧ C (.form X) (.form a) = .ok (.form ca) ∧ C (.form X) (.form b) = .ok (.form cb) ∧
      W (.form ca) (.form b) = .ok (.form x) ∧ W (.form a) (.form cb) = .ok (.form y) ∧ C (.form X) (.form ab) = .ok (.form (formAdd x (signed a.degree y)))) ∧
    (a.degree = 0 → 1 ≤ b.degree → ∃ ab cb y : Form R, W (.form a) (.form b) = .ok (.form ab) ∧ C (.form X) (.form b) = .ok (.form cb) ∧ W (.form a) (.form cb) = .ok (.form y) ∧
      C (.form X) (.form ab) = .ok (.form y)) ∧
    (1 ≤ a.degree → b.degree = 0 → ∃ ab ca x : Form R, W (.form a) (.form b) = .ok (.form ab) ∧ C (.form X) (.form a) = .ok (.form ca) ∧ W (.form ca) (.form b) = .ok (.form x) ∧
      C (.form X) (.form ab) = .ok (.form x)) := by
  rcases hX.cases with ⟨i, p, rfl⟩ | ⟨i, p, rfl⟩ | ⟨i, p, rfl⟩ | ⟨i, p, q, rfl⟩ | ⟨i, p, rfl⟩ <;> simp at h1 <;>
  rcases ha.cases with ⟨j, r, rfl⟩ | ⟨j, r, rfl⟩ | ⟨j, r, rfl⟩ | ⟨j, r, s, rfl⟩ | ⟨j, r, rfl⟩ <;> simp at hXa <;> subst hXa <;>
  rcases hb.cases with ⟨k, u, rfl⟩ | ⟨k, u, rfl⟩ | ⟨k, u, rfl⟩ | ⟨k, u, v, rfl⟩ | ⟨k, u, rfl⟩ <;> simp at hab hdeg <;> subst hab <;>
  refine ⟨fun h h' => ?_, fun h h' => ?_, fun h h' => ?_⟩ <;> simp at h h' <;>
  first
    | (refine ⟨_, _, _, _, _, by sym_simp' hd; rfl, by sym_simp' hd; rfl, by sym_simp' hd; rfl, by sym_simp' hd; rfl, by sym_simp' hd; rfl, ?_⟩; sym_simp' hd <;> one_or_two)
    | (refine ⟨_, _, _, by sym_simp' hd; rfl, by sym_simp' hd; rfl, by sym_simp' hd; rfl, ?_⟩; sym_simp' hd <;> one_or_two)

/-- C115: the Lie derivative along `X` commutes with contraction by `X`. -/
theorem C115_lie_contraction (X a : Form R) (hX : IsForm X) (ha : IsForm a) (h1 : X.degree = 1) (hXa : X.grid = a.grid) (hdeg : 1 ≤ a.degree) :
    ∃ ca la l : Form R, C (.form X) (.form a) = .ok (.form ca) ∧ Lie dx dy (.form X) (.form a) = .ok (.form la) ∧ Lie dx dy (.form X) (.form ca) = .ok (.form l) ∧ C (.form X) (.form la) = .ok (.form l) := by
  rcases hX.cases with ⟨i, p, rfl⟩ | ⟨i, p, rfl⟩ | ⟨i, p, rfl⟩ | ⟨i, p, q, rfl⟩ | ⟨i, p, rfl⟩ <;> simp at h1 <;>
  rcases ha.cases with ⟨j, r, rfl⟩ | ⟨j, r, rfl⟩ | ⟨j, r, rfl⟩ | ⟨j, r, s, rfl⟩ | ⟨j, r, rfl⟩ <;> simp at hXa hdeg <;> subst hXa <;>
  refine ⟨_, _, _, by sym_simp' hd; rfl, by sym_simp' hd; rfl, by sym_simp' hd; rfl, ?_⟩ <;>
  sym_simp' hd <;> simp only [hd.dx_add, hd.dy_add, hd.dx_sub, hd.dy_sub, hd.dx_neg, hd.dy_neg, hd.dx_mul, hd.dy_mul, hd.comm] <;> one_or_two

/-- C115: Lie derivatives along two vector fields commute up to the Lie derivative along their bracket. -/
theorem C115_lie_bracket (X Y a : Form R) (hX : IsForm X) (hY : IsForm Y) (ha : IsForm a) (h1 : X.degree = 1) (h1' : Y.degree = 1) (hXY : X.grid = Y.grid) (hXa : X.grid = a.grid) :
    ∃ la lb m n : Form R, Lie dx dy (.form X) (.form a) = .ok (.form la) ∧ Lie dx dy (.form Y) (.form a) = .ok (.form lb) ∧ Lie dx dy (.form X) (.form lb) = .ok (.form m) ∧
      Lie dx dy (.form Y) (.form la) = .ok (.form n) ∧ Lie dx dy (.form (bracket dx dy X Y)) (.form a) = .ok (.form (formSub m n)) := by
  rcases hX.cases with ⟨i, p, rfl⟩ | ⟨i, p, rfl⟩ | ⟨i, p, rfl⟩ | ⟨i, p, q, rfl⟩ | ⟨i, p, rfl⟩ <;> simp at h1 <;>
  rcases hY.cases with ⟨j, r, rfl⟩ | ⟨j, r, rfl⟩ | ⟨j, r, rfl⟩ | ⟨j, r, s, rfl⟩ | ⟨j, r, rfl⟩ <;> simp at h1' hXY <;> subst hXY <;>
  rcases ha.cases with ⟨k, u, rfl⟩ | ⟨k, u, rfl⟩ | ⟨k, u, rfl⟩ | ⟨k, u, v, rfl⟩ | ⟨k, u, rfl⟩ <;> simp at hXa <;> subst hXa <;>
  refine ⟨_, _, _, _, by sym_simp' hd; rfl, by sym_simp' hd; rfl, by sym_simp' hd; rfl, by sym_simp' hd; rfl, ?_⟩ <;>
  sym_simp' hd <;> simp only [hd.dx_add, hd.dy_add, hd.dx_sub, hd.dy_sub, hd.dx_neg, hd.dy_neg, hd.dx_mul, hd.dy_mul, hd.comm] <;> one_or_two

/-- C115: the commutator of the Lie derivative along `X` and the contraction with `Y` is the contraction with the bracket. -/
theorem C115_bracket_contraction (X Y a : Form R) (hX : IsForm X) (hY : IsForm Y) (ha : IsForm a) (h1 : X.degree = 1) (h1' : Y.degree = 1) (hXY : X.grid = Y.grid) (hXa : X.grid = a.grid) (hdeg : 1 ≤ a.degree) :
    ∃ la cb m n : Form R, Lie dx dy (.form X) (.form a) = .ok (.form la) ∧ C (.form Y) (.form a) = .ok (.form cb) ∧ Lie dx dy (.form X) (.form cb) = .ok (.form m) ∧
      C (.form Y) (.form la) = .ok (.form n) ∧ C (.form (bracket dx dy X Y)) (.form a) = .ok (.form (formSub m n)) := by
  rcases hX.cases with ⟨i, p, rfl⟩ | ⟨i, p, rfl⟩ | ⟨i, p, rfl⟩ | ⟨i, p, q, rfl⟩ | ⟨i, p, rfl⟩ <;> simp at h1 <;>
  rcases hY.cases with ⟨j, r, rfl⟩ | ⟨j, r, rfl⟩ | ⟨j, r, rfl⟩ | ⟨j, r, s, rfl⟩ | ⟨j, r, rfl⟩ <;> simp at h1' hXY <;> subst hXY <;>
  rcases ha.cases with ⟨k, u, rfl⟩ | ⟨k, u, rfl⟩ | ⟨k, u, rfl⟩ | ⟨k, u, v, rfl⟩ | ⟨k, u, rfl⟩ <;> simp at hXa hdeg <;> subst hXa <;>
  refine ⟨_, _, _, _, by sym_simp' hd; rfl, by sym_simp' hd; rfl, by sym_simp' hd; rfl, by sym_simp' hd; rfl, ?_⟩ <;>
  sym_simp' hd <;> simp only [hd.dx_add, hd.dy_add, hd.dx_sub, hd.dy_sub, hd.dx_neg, hd.dy_neg, hd.dx_mul, hd.dy_mul, hd.comm] <;> one_or_two

/-- C115: the Lie derivative along `f X` is `f Lie(X, a) + D(f) ^ C(X, a)`. -/
theorem C115_lie_multiple (f X a : Form R) (hf : IsForm f) (hX : IsForm X) (ha : IsForm a) (h0 : f.degree = 0) (h1 : X.degree = 1) (hfX : f.grid = X.grid) (hXa : X.grid = a.grid) (hdeg : 1 ≤ a.degree) :
    ∃ fX df la ca x y : Form R, W (.form f) (.form X) = .ok (.form fX) ∧ D dx dy (.form f) = .ok (.form df) ∧ Lie dx dy (.form X) (.form a) = .ok (.form la) ∧ C (.form X) (.form a) = .ok (.form ca) ∧
      W (.form f) (.form la) = .ok (.form x) ∧ W (.form df) (.form ca) = .ok (.form y) ∧ Lie dx dy (.form fX) (.form a) = .ok (.form (formAdd x y)) := by
  rcases hf.cases with ⟨k, u, rfl⟩ | ⟨k, u, rfl⟩ | ⟨k, u, rfl⟩ | ⟨k, u, v, rfl⟩ | ⟨k, u, rfl⟩ <;> simp at h0 <;>
  rcases hX.cases with ⟨i, p, rfl⟩ | ⟨i, p, rfl⟩ | ⟨i, p, rfl⟩ | ⟨i, p, q, rfl⟩ | ⟨i, p, rfl⟩ <;> simp at h1 hfX <;> subst hfX <;>
  rcases ha.cases with ⟨j, r, rfl⟩ | ⟨j, r, rfl⟩ | ⟨j, r, rfl⟩ | ⟨j, r, s, rfl⟩ | ⟨j, r, rfl⟩ <;> simp at hXa hdeg <;> subst hXa <;>
  refine ⟨_, _, _, _, _, _, by sym_simp' hd; rfl, by sym_simp' hd; rfl, by sym_simp' hd; rfl, by sym_simp' hd; rfl, by sym_simp' hd; rfl, by sym_simp' hd; rfl, ?_⟩ <;>
  sym_simp' hd <;> simp only [hd.dx_add, hd.dy_add, hd.dx_sub, hd.dy_sub, hd.dx_neg, hd.dy_neg, hd.dx_mul, hd.dy_mul, hd.comm] <;> one_or_two

/-- C115: the Laplacian commutes with the star and with the derivative. -/
theorem C115_laplacian_commutes (f : Form R) (hf : IsForm f) :
    (∃ hf' lf l : Form R, H (.form f) = .ok (.form hf') ∧ Laplacian dx dy (.form f) = .ok (.form lf) ∧ Laplacian dx dy (.form hf') = .ok (.form l) ∧ H (.form lf) = .ok (.form l)) ∧
    (f.degree < f.grid.dim → ∃ df lf l : Form R, D dx dy (.form f) = .ok (.form df) ∧ Laplacian dx dy (.form f) = .ok (.form lf) ∧ Laplacian dx dy (.form df) = .ok (.form l) ∧ D dx dy (.form lf) = .ok (.form l)) := by
  rcases hf.cases with ⟨i, a, rfl⟩ | ⟨i, a, rfl⟩ | ⟨i, a, rfl⟩ | ⟨i, a, b, rfl⟩ | ⟨i, a, rfl⟩
  all_goals constructor
  all_goals try (intro h; simp at h)
  all_goals refine ⟨_, _, _, by sym_simp; rfl, C35_laplacian hd _ hf, C35_laplacian hd _ (by first | exact (isForm_kinds i _ 0).1 | exact (isForm_kinds i _ 0).2.1 | exact (isForm_kinds i _ 0).2.2.1 | exact (isForm_kinds i _ _).2.2.2.1 | exact (isForm_kinds i _ 0).2.2.2.2), ?_⟩
  all_goals sym_simp
  all_goals try simp only [hd.dx_add, hd.dy_add, hd.dx_sub, hd.dy_sub, hd.dx_neg, hd.dy_neg, hd.dx_mul, hd.dy_mul, hd.comm]
  all_goals one_or_two

/-- C115: the Laplacian of a product of 0-forms, with the inner product of the derivatives. -/
theorem C115_laplacian_product (f g : Form R) (hf : IsForm f) (hg : IsForm g) (h0 : f.degree = 0) (h0' : g.degree = 0) (hfg : f.grid = g.grid) :
    ∃ fg df dg lf lg x y d : Form R, W (.form f) (.form g) = .ok (.form fg) ∧ D dx dy (.form f) = .ok (.form df) ∧ D dx dy (.form g) = .ok (.form dg) ∧ Laplacian dx dy (.form f) = .ok (.form lf) ∧
      Laplacian dx dy (.form g) = .ok (.form lg) ∧ W (.form lf) (.form g) = .ok (.form x) ∧ W (.form f) (.form lg) = .ok (.form y) ∧ Dot (.form df) (.form dg) = .ok (.form d) ∧
      Laplacian dx dy (.form fg) = .ok (.form (formAdd (formAdd x y) (formAdd d d))) := by
  rcases hf.cases with ⟨k, u, rfl⟩ | ⟨k, u, rfl⟩ | ⟨k, u, rfl⟩ | ⟨k, u, v, rfl⟩ | ⟨k, u, rfl⟩ <;> simp at h0 <;>
  rcases hg.cases with ⟨i, p, rfl⟩ | ⟨i, p, rfl⟩ | ⟨i, p, rfl⟩ | ⟨i, p, q, rfl⟩ | ⟨i, p, rfl⟩ <;> simp at h0' hfg <;> subst hfg <;>
  refine ⟨_, _, _, _, _, _, _, _, by sym_simp; rfl, by sym_simp; rfl, by sym_simp; rfl, C35_laplacian hd _ hf, C35_laplacian hd _ hg, by sym_simp; rfl, by sym_simp; rfl, by sym_simp; rfl, (C35_laplacian hd _ (by first | exact (isForm_kinds k _ 0).1 | exact (isForm_kinds k _ 0).2.2.1)).trans ?_⟩ <;>
  sym_simp <;> simp only [hd.dx_add, hd.dy_add, hd.dx_mul, hd.dy_mul] <;> ring

/-- C115: identities for vector fields: products, the advection term, and the vorticity equation. -/
theorem C115_vector_identities [Algebra ℚ R] (f u v : R) :
    div dx dy (f * u) (f * v) = .ok (f * (dx u + dy v) + (dx f * u + dy f * v)) ∧ vort dx dy (f * u) (f * v) = .ok (f * (dx v - dy u) + (dx f * v - dy f * u)) ∧
    (∃ a b w s : R, adv dx dy u v = .ok [a, b] ∧ vort dx dy u v = .ok w ∧ grad dx dy (u ^ 2 + v ^ 2) = .ok [2 * (a + w * v), 2 * (b - w * u)] ∧ div dx dy u v = .ok s ∧
      vort dx dy a b = .ok (u * dx w + v * dy w + w * s)) := by
  have e := fun f u v => C35_grad_div_vort dx dy hd f u v
  refine ⟨?_, ?_, _, _, _, _, C35_adv dx dy hd u v, (e 0 u v).2.2.1, ?_, (e 0 u v).2.1, ?_⟩
  · rw [(e 0 _ _).2.1, hd.dx_mul, hd.dy_mul]
    refine congrArg _ ?_
    ring
  · rw [(e 0 _ _).2.2.1, hd.dx_mul, hd.dy_mul]
    refine congrArg _ ?_
    ring
  · rw [(e _ u v).1, pow_two, pow_two]
    simp only [hd.dx_add, hd.dy_add, hd.dx_mul, hd.dy_mul]
    refine congrArg _ ?_
    simp only [List.cons.injEq, and_true]
    constructor <;> ring
  · rw [(e 0 _ _).2.2.1]
    simp only [hd.dx_add, hd.dy_add, hd.dx_sub, hd.dy_sub, hd.dx_mul, hd.dy_mul, hd.comm]
    refine congrArg _ ?_
    ring

end

/-- C115: the star is an isometry, and `a ^ H(b)` is the star of `Dot(a, b)`. -/
theorem C115_isometry (a b : Form R) (ha : IsForm a) (hb : IsForm b) (hg : a.grid = b.grid) (hdeg : a.degree = b.degree) :
    ∃ sa sb d : Form R, H (.form a) = .ok (.form sa) ∧ H (.form b) = .ok (.form sb) ∧ Dot (.form a) (.form b) = .ok (.form d) ∧ Dot (.form sa) (.form sb) = .ok (.form d) ∧
      W (.form a) (.form sb) = H (.form d) := by
  rcases ha.cases with ⟨i, p, rfl⟩ | ⟨i, p, rfl⟩ | ⟨i, p, rfl⟩ | ⟨i, p, q, rfl⟩ | ⟨i, p, rfl⟩ <;>
  rcases hb.cases with ⟨j, r, rfl⟩ | ⟨j, r, rfl⟩ | ⟨j, r, rfl⟩ | ⟨j, r, s, rfl⟩ | ⟨j, r, rfl⟩ <;>
  simp at hg hdeg <;> subst hg <;>
  refine ⟨_, _, _, by sym_simp; rfl, by sym_simp; rfl, by sym_simp; rfl, ?_, ?_⟩ <;>
  sym_simp <;> one_or_two

/-! ## Non-vacuity: polynomial components on the plane -/

section
open MvPolynomial
/-- The polynomials in `x` and `y`. -/
local notation "𝕡" => MvPolynomial (Fin 2) ℚ
example := C115_lie_wedge partials_mvPolynomial (⟨1, ⟨0, 2⟩, [X 1, -X 0]⟩ : Form 𝕡) ⟨1, ⟨0, 2⟩, [X 0 * X 1, 1]⟩ ⟨1, ⟨0, 2⟩, [1, X 0]⟩ (isForm_kinds 0 _ _).2.2.2.1 (isForm_kinds 0 _ _).2.2.2.1
  (isForm_kinds 0 _ _).2.2.2.1 rfl rfl rfl (by norm_num)
example := (C115_contraction_wedge partials_mvPolynomial (⟨1, ⟨0, 2⟩, [X 1, -X 0]⟩ : Form 𝕡) ⟨1, ⟨0, 2⟩, [X 0 * X 1, 1]⟩ ⟨1, ⟨0, 2⟩, [1, X 0]⟩ (isForm_kinds 0 _ _).2.2.2.1 (isForm_kinds 0 _ _).2.2.2.1
  (isForm_kinds 0 _ _).2.2.2.1 rfl rfl rfl (by norm_num)).1 (by norm_num) (by norm_num)
example := C115_lie_bracket partials_mvPolynomial (⟨1, ⟨0, 2⟩, [X 1, -X 0]⟩ : Form 𝕡) ⟨1, ⟨0, 2⟩, [X 0 * X 1, 1]⟩ ⟨2, ⟨0, 2⟩, [X 0]⟩ (isForm_kinds 0 _ _).2.2.2.1 (isForm_kinds 0 _ _).2.2.2.1
  (isForm_kinds 0 _ 0).2.2.2.2 rfl rfl rfl rfl
/-- The bracket of the rotation with the field `x d/dx` is not zero. -/
example : (bracket (pderiv 0) (pderiv 1) (⟨1, ⟨0, 2⟩, [X 1, -X 0]⟩ : Form 𝕡) ⟨1, ⟨0, 2⟩, [X 0, 0]⟩).comps = [X 1, X 0] := by
  simp [bracket, pderiv_X, Pi.single_apply]
example := C115_bracket_contraction partials_mvPolynomial (⟨1, ⟨0, 2⟩, [X 1, -X 0]⟩ : Form 𝕡) ⟨1, ⟨0, 2⟩, [X 0 * X 1, 1]⟩ ⟨2, ⟨0, 2⟩, [X 0]⟩ (isForm_kinds 0 _ _).2.2.2.1 (isForm_kinds 0 _ _).2.2.2.1
  (isForm_kinds 0 _ 0).2.2.2.2 rfl rfl rfl rfl (by norm_num)
example := C115_lie_multiple partials_mvPolynomial (⟨0, ⟨0, 2⟩, [X 1]⟩ : Form 𝕡) ⟨1, ⟨0, 2⟩, [X 0 * X 1, 1]⟩ ⟨2, ⟨0, 2⟩, [X 0]⟩ (isForm_kinds 0 _ 0).2.2.1 (isForm_kinds 0 _ _).2.2.2.1
  (isForm_kinds 0 _ 0).2.2.2.2 rfl rfl rfl rfl (by norm_num)
example := C115_laplacian_product partials_mvPolynomial (⟨0, ⟨0, 2⟩, [X 1]⟩ : Form 𝕡) ⟨0, ⟨0, 2⟩, [X 0 * X 1]⟩ (isForm_kinds 0 _ 0).2.2.1 (isForm_kinds 0 _ 0).2.2.1 rfl rfl rfl
example := (C115_laplacian_commutes partials_mvPolynomial (⟨1, ⟨0, 2⟩, [X 0 ^ 3, X 1]⟩ : Form 𝕡) (isForm_kinds 0 _ _).2.2.2.1).2 (by norm_num)
example := C115_isometry (⟨1, ⟨0, 2⟩, [X 1, -X 0]⟩ : Form 𝕡) ⟨1, ⟨0, 2⟩, [X 0 * X 1, 1]⟩ (isForm_kinds 0 _ _).2.2.2.1 (isForm_kinds 0 _ _).2.2.2.1 rfl rfl
end

end Dec.Props
