import Verif.Props.HodgeDecomposition

set_option linter.unusedSimpArgs false
set_option linter.unusedVariables false

/-! # C105: the Laplacian of 1-forms on product grids -/

namespace Dec.Props

open Finset Real Dec.Sp Dec.G2

/-- The Laplacian of a 2-form on a product grid: `D1(H1(D0(H2(f))))`, the third of the compositions doc/plot/cheb/poisson2d_cheb.py:21 needs (`lap2` for 0-forms, `lapOne` for 1-forms). -/
def lapTwo (g : Grid2) (t : Bool) (f : List ℝ) : Except Err (List ℝ) := do
  let a ← g.H 2 t f
  let b ← g.D 0 (!t) a
  let c ← g.H 1 (!t) b
  g.D 1 t c

theorem lapTwo_ok {g : Grid2} {t : Bool} {f a b c x : List ℝ} (h1 : g.H 2 t f = .ok a) (h2 : g.D 0 (!t) a = .ok b) (h3 : g.H 1 (!t) b = .ok c) (h4 : g.D 1 t c = .ok x) :
    lapTwo g t f = .ok x := by
  unfold lapTwo
  simp only [h1, h2, h3, h4, Bind.bind, Except.bind]

theorem lap2_ok {g : Grid2} {t : Bool} {f a b c x : List ℝ} (h1 : g.D 0 t f = .ok a) (h2 : g.H 1 t a = .ok b) (h3 : g.D 1 (!t) b = .ok c) (h4 : g.H 2 (!t) c = .ok x) :
    lap2 g t f = .ok x := by
  unfold lap2
  simp only [h1, h2, h3, h4, Bind.bind, Except.bind]

theorem vadd_zero_right {m : ℕ} {x : List ℝ} (hx : x.length = m) : vadd x (List.replicate m 0) = x := by
  obtain ⟨f, rfl⟩ : ∃ f, x = tab m f := ⟨_, eq_tab' hx 0⟩
  rw [replicate_tab, vadd_tab]
  exact tab_congr fun _ _ => add_zero _

theorem vadd_zero_left {m : ℕ} {x : List ℝ} (hx : x.length = m) : vadd (List.replicate m 0) x = x := by
  obtain ⟨f, rfl⟩ : ∃ f, x = tab m f := ⟨_, eq_tab' hx 0⟩
  rw [replicate_tab, vadd_tab]
  exact tab_congr fun _ _ => zero_add _

theorem vadd_comm {m : ℕ} {x y : List ℝ} (hx : x.length = m) (hy : y.length = m) : vadd x y = vadd y x := by
  obtain ⟨f, rfl⟩ : ∃ f, x = tab m f := ⟨_, eq_tab' hx 0⟩
  obtain ⟨g, rfl⟩ : ∃ g, y = tab m g := ⟨_, eq_tab' hy 0⟩
  rw [vadd_tab, vadd_tab]
  exact tab_congr fun _ _ => add_comm _ _

/-! ## Maps -/

section
variable (k k' : Kind) (n n' : ℕ) (hn : validSize k n) (hn' : validSize k' n') (xmin xmax ymin ymax : ℝ)

local notation "gx" => grid k n xmin xmax
local notation "gy" => grid k' n' ymin ymax
local notation "𝔾" => product (grid k n xmin xmax) (grid k' n' ymin ymax)
local notation "𝔫" => count (grid k n xmin xmax) (grid k' n' ymin ymax)

/-- What holds on every product grid whose stars are invertible. -/
structure Calc₀ (δ η : Fin 3 → Bool → List ℝ → List ℝ) : Prop where
  o : Ops δ η 𝔾 𝔫
  dd : ∀ (s : Bool) (a : List ℝ), a.length = 𝔫 0 s → δ 1 s (δ 0 s a) = List.replicate (𝔫 2 s) 0
  hh : ∀ (s : Bool) (α : List ℝ), α.length = 𝔫 1 s → η 1 (!s) (η 1 s α) = α.map ((-1 : ℝ) • ·)

include hn hn' in
theorem exists_calc₀ (h927 : k = .chebyshev → n ≤ 927) (h927' : k' = .chebyshev → n' ≤ 927) : ∃ δ η, Calc₀ k k' n n' xmin xmax ymin ymax δ η := by
  have Fx := grid_factor k n hn xmin xmax
  have Fy := grid_factor k' n' hn' ymin ymax
  obtain ⟨δ, η, o⟩ := exists_ops' Fx Fy (grid_stars k n hn h927 xmin xmax) (grid_stars k' n' hn' h927' ymin ymax)
  have ci := count_iff k k' n n' hn hn' xmin xmax ymin ymax
  refine ⟨δ, η, o, fun s a ha => ?_, fun s α hα => ?_⟩
  · obtain ⟨u, h1, w, h2, h3, h4⟩ := C25_derivative_squared k k' n n' hn hn' xmin xmax ymin ymax s a ((ci 0 s a).2 ha)
    obtain rfl := Except.ok.inj ((o.D 0 s (by decide) a ha).symm.trans h1)
    obtain rfl := Except.ok.inj ((o.D 1 s (by decide) _ ((o.linD 0 s (by decide)).len a ha)).symm.trans h2)
    rw [zeros_eq h4, (ci 2 s _).1 h3]
  · obtain ⟨u, h1, h2, h3⟩ := C26_hodge_one k k' n n' hn hn' h927 h927' xmin xmax ymin ymax s α ((ci 1 s α).2 hα)
    obtain rfl := Except.ok.inj ((o.H 1 s α hα).symm.trans h1)
    rw [o.H 1 (!s) _ ((ci 1 (!s) _).1 h2), Except.ok.injEq] at h3
    rw [h3]
    exact List.map_congr_left fun x _ => by simp

variable {k k' n n' xmin xmax ymin ymax} {δ η : Fin 3 → Bool → List ℝ → List ℝ} (C : Calc₀ k k' n n' xmin xmax ymin ymax δ η)
include C

namespace Calc₀

theorem lD0 {s : Bool} {a : List ℝ} (ha : a.length = 𝔫 0 s) : (δ 0 s a).length = 𝔫 1 s := (C.o.linD 0 s (by decide)).len a ha
theorem lD1 {s : Bool} {a : List ℝ} (ha : a.length = 𝔫 1 s) : (δ 1 s a).length = 𝔫 2 s := (C.o.linD 1 s (by decide)).len a ha
theorem lH {s : Bool} {a : List ℝ} (ha : a.length = 𝔫 1 s) : (η 1 s a).length = 𝔫 1 (!s) := (C.o.linH 1 s).len a ha
theorem lH' {s : Bool} {a : List ℝ} (ha : a.length = 𝔫 1 (!s)) : (η 1 (!s) a).length = 𝔫 1 s := by have := C.lH ha; rwa [Bool.not_not] at this
theorem lH2 {s : Bool} {a : List ℝ} (ha : a.length = 𝔫 2 s) : (η 2 s a).length = 𝔫 0 (!s) := (C.o.linH 2 s).len a ha
theorem lH2' {s : Bool} {a : List ℝ} (ha : a.length = 𝔫 2 (!s)) : (η 2 (!s) a).length = 𝔫 0 s := by have := C.lH2 ha; rwa [Bool.not_not] at this

/-- The two parts of the Laplacian. -/
theorem lE {s : Bool} {a : List ℝ} (ha : a.length = 𝔫 1 s) : (δ 0 s (η 2 (!s) (δ 1 (!s) (η 1 s a)))).length = 𝔫 1 s := C.lD0 (C.lH2' (C.lD1 (C.lH ha)))
theorem lC {s : Bool} {a : List ℝ} (ha : a.length = 𝔫 1 s) : (η 1 (!s) (δ 0 (!s) (η 2 s (δ 1 s a)))).length = 𝔫 1 s := C.lH' (C.lD0 (C.lH2 (C.lD1 ha)))

theorem lapOne (s : Bool) {a : List ℝ} (ha : a.length = 𝔫 1 s) :
    Props.lapOne 𝔾 s a = .ok (vadd (δ 0 s (η 2 (!s) (δ 1 (!s) (η 1 s a)))) (η 1 (!s) (δ 0 (!s) (η 2 s (δ 1 s a))))) :=
  lapOne_ok (C.o.H 1 s a ha) (C.o.D 1 (!s) (by decide) _ (C.lH ha)) (C.o.H 2 (!s) _ (C.lD1 (C.lH ha))) (C.o.D 0 s (by decide) _ (C.lH2' (C.lD1 (C.lH ha))))
    (C.o.D 1 s (by decide) a ha) (C.o.H 2 s _ (C.lD1 ha)) (C.o.D 0 (!s) (by decide) _ (C.lH2 (C.lD1 ha))) (C.o.H 1 (!s) _ (C.lD0 (C.lH2 (C.lD1 ha))))

theorem lap2 (s : Bool) {a : List ℝ} (ha : a.length = 𝔫 0 s) : Props.lap2 𝔾 s a = .ok (η 2 (!s) (δ 1 (!s) (η 1 s (δ 0 s a)))) :=
  lap2_ok (C.o.D 0 s (by decide) a ha) (C.o.H 1 s _ (C.lD0 ha)) (C.o.D 1 (!s) (by decide) _ (C.lH (C.lD0 ha))) (C.o.H 2 (!s) _ (C.lD1 (C.lH (C.lD0 ha))))

theorem lapTwo (s : Bool) {a : List ℝ} (ha : a.length = 𝔫 2 s) : Props.lapTwo 𝔾 s a = .ok (δ 1 s (η 1 (!s) (δ 0 (!s) (η 2 s a)))) :=
  lapTwo_ok (C.o.H 2 s a ha) (C.o.D 0 (!s) (by decide) _ (C.lH2 ha)) (C.o.H 1 (!s) _ (C.lD0 (C.lH2 ha))) (C.o.D 1 s (by decide) _ (C.lH' (C.lD0 (C.lH2 ha))))

end Calc₀

end

section
variable (k k' : Kind) (n n' : ℕ) (hn : validSize k n) (hn' : validSize k' n') (h927 : k = .chebyshev → n ≤ 927) (h927' : k' = .chebyshev → n' ≤ 927) (xmin xmax ymin ymax : ℝ) (t : Bool)

local notation "gx" => grid k n xmin xmax
local notation "gy" => grid k' n' ymin ymax
local notation "𝔾" => product (grid k n xmin xmax) (grid k' n' ymin ymax)
local notation "𝔫" => count (grid k n xmin xmax) (grid k' n' ymin ymax)

include hn hn' h927 h927'

/-- **C105** (derivative of a 0-form): `L1(D0 f) = D0(L0 f)` on every product grid. -/
theorem C105_exact (f : List ℝ) (hf : (𝔾).N 0 t = .ok f.length) :
    ∃ df Lf L, (𝔾).D 0 t f = .ok df ∧ lap2 𝔾 t f = .ok Lf ∧ lapOne 𝔾 t df = .ok L ∧ (𝔾).D 0 t Lf = .ok L := by
  obtain ⟨δ, η, C⟩ := exists_calc₀ k k' n n' hn hn' xmin xmax ymin ymax h927 h927'
  have lf := (count_iff k k' n n' hn hn' xmin xmax ymin ymax 0 t f).1 hf
  have l1 := C.lD0 lf
  refine ⟨_, _, _, C.o.D 0 t (by decide) f lf, C.lap2 t lf, C.lapOne t l1, ?_⟩
  have z1 := lin_zero (C.o.linH 2 t)
  have z2 := lin_zero (C.o.linD 0 (!t) (by decide))
  have z3 := lin_zero (C.o.linH 1 (!t))
  have l2 := C.lE l1
  rw [C.dd t f lf, z1]
  have e : 𝔫 (2 - 2) (!t) = 𝔫 0 (!t) := rfl
  have e' : 𝔫 (0 + 1) (!t) = 𝔫 1 (!t) := rfl
  have e'' : 𝔫 (2 - 1) (!!t) = 𝔫 1 t := by rw [Bool.not_not]; rfl
  rw [e, z2, e', z3, e'', vadd_zero_right l2]
  exact C.o.D 0 t (by decide) _ (C.lH2' (C.lD1 (C.lH l1)))

/-- **C105** (derivative of the Laplacian): `D1(L1 α) = L2(D1 α)` on every product grid. -/
theorem C105_derivative (α : List ℝ) (hα : (𝔾).N 1 t = .ok α.length) :
    ∃ da L w, (𝔾).D 1 t α = .ok da ∧ lapOne 𝔾 t α = .ok L ∧ (𝔾).D 1 t L = .ok w ∧ lapTwo 𝔾 t da = .ok w := by
  obtain ⟨δ, η, C⟩ := exists_calc₀ k k' n n' hn hn' xmin xmax ymin ymax h927 h927'
  have la := (count_iff k k' n n' hn hn' xmin xmax ymin ymax 1 t α).1 hα
  have l1 := C.lE la
  have l2 := C.lC la
  refine ⟨_, _, _, C.o.D 1 t (by decide) α la, C.lapOne t la, C.o.D 1 t (by decide) _ (by simp [l1, l2]), ?_⟩
  rw [(C.o.linD 1 t (by decide)).add _ _ l1 l2, C.dd t _ (C.lH2' (C.lD1 (C.lH la))), vadd_zero_left (C.lD1 l2)]
  exact C.lapTwo t (C.lD1 la)

/-- **C105** (star of the Laplacian): `H1(L1 α) = L1(H1 α)`, the Laplacian on the other kind of cells, on every product grid. -/
theorem C105_star (α : List ℝ) (hα : (𝔾).N 1 t = .ok α.length) :
    ∃ s L w, (𝔾).H 1 t α = .ok s ∧ lapOne 𝔾 t α = .ok L ∧ (𝔾).H 1 t L = .ok w ∧ lapOne 𝔾 (!t) s = .ok w := by
  obtain ⟨δ, η, C⟩ := exists_calc₀ k k' n n' hn hn' xmin xmax ymin ymax h927 h927'
  have la := (count_iff k k' n n' hn hn' xmin xmax ymin ymax 1 t α).1 hα
  have l1 := C.lE la
  have l2 := C.lC la
  have ls := C.lH la
  refine ⟨_, _, _, C.o.H 1 t α la, C.lapOne t la, C.o.H 1 t _ (by simp [l1, l2]), ?_⟩
  rw [C.lapOne (!t) ls, Except.ok.injEq, Bool.not_not, (C.o.linH 1 t).add _ _ l1 l2]
  have h1 := C.hh t α la
  have l3 := C.lD0 (C.lH2 (C.lD1 la))
  have h2 := C.hh (!t) _ l3
  rw [Bool.not_not] at h2
  rw [h1, h2, (C.o.linD 1 t (by decide)).smul _ _ la, (C.o.linH 2 t).smul _ _ (C.lD1 la), (C.o.linD 0 (!t) (by decide)).smul _ _ (C.lH2 (C.lD1 la))]
  exact vadd_comm (by simp [l3]) (C.lH l1)

end

/-! ## Periodic and regular grids -/

section
variable (k k' : Kind) (n n' : ℕ) (hn : validSize k n) (hn' : validSize k' n') (hk : k ≠ .chebyshev) (hk' : k' ≠ .chebyshev) (xmin xmax ymin ymax : ℝ)
  (hx : xmin < xmax) (hy : ymin < ymax) (t : Bool)

local notation "gx" => grid k n xmin xmax
local notation "gy" => grid k' n' ymin ymax
local notation "𝔾" => product (grid k n xmin xmax) (grid k' n' ymin ymax)
local notation "𝔫" => count (grid k n xmin xmax) (grid k' n' ymin ymax)

variable {k k' n n' xmin xmax ymin ymax} in
theorem Calc.weak {δ η : Fin 3 → Bool → List ℝ → List ℝ} (C : Calc k k' n n' xmin xmax ymin ymax δ η) : Calc₀ k k' n n' xmin xmax ymin ymax δ η := ⟨C.o, C.dd, C.hh⟩

variable {k k' n n' xmin xmax ymin ymax} in
/-- The Laplacian of 1-forms as a form: minus the products of the derivatives and of the derivatives of the stars. -/
theorem Calc.lap_form {δ η : Fin 3 → Bool → List ℝ → List ℝ} (C : Calc k k' n n' xmin xmax ymin ymax δ η) {s : Bool} (hm : Matching gx gy s) {α β : List ℝ} (la : α.length = 𝔫 1 s) (lb : β.length = 𝔫 1 s) :
    pair1 gx gy s (vadd (δ 0 s (η 2 (!s) (δ 1 (!s) (η 1 s α)))) (η 1 (!s) (δ 0 (!s) (η 2 s (δ 1 s α))))) (η 1 s β) =
      -(dot (δ 1 (!s) (η 1 s β)) (η 2 (!s) (δ 1 (!s) (η 1 s α))) + dot (δ 1 s β) (η 2 s (δ 1 s α))) := by
  have C' := C.weak
  rw [C.ip_add hm (C'.lE la) (C'.lC la) lb, C.orth_exact (C'.lH2' (C'.lD1 (C'.lH la))) lb, C.orth_coexact (C'.lH2 (C'.lD1 la)) lb, dot_comm, dot_comm (δ 1 s β)]
  ring

include hn hn' hk hk' in
theorem two_symm {δ η : Fin 3 → Bool → List ℝ → List ℝ} (o : Ops δ η 𝔾 𝔫) (s : Bool) {x y : List ℝ} (hx : x.length = 𝔫 2 s) (hy : y.length = 𝔫 2 s) :
    dot x (η 2 s y) = dot y (η 2 s x) ∧ 0 ≤ dot x (η 2 s x) ∧ (dot x (η 2 s x) = 0 → x = List.replicate (𝔫 2 s) 0) := by
  have ci := count_iff k k' n n' hn hn' xmin xmax ymin ymax
  obtain ⟨u, v, h1, h2, h3, h4⟩ := C73_star_product k k' n n' hn hn' hk hk' xmin xmax ymin ymax s 2 (by decide) x y ((ci 2 s x).2 hx) ((ci 2 s y).2 hy)
  obtain rfl := Except.ok.inj ((o.H 2 s x hx).symm.trans h1)
  obtain rfl := Except.ok.inj ((o.H 2 s y hy).symm.trans h2)
  refine ⟨h3, ?_, fun h => ?_⟩
  · by_cases h : ∃ z ∈ x, z ≠ 0
    · exact (h4 h).le
    · push Not at h
      rw [(mem_zero hx).1 h, dot_comm, dot_zero_right]
  · by_contra hne
    refine (h4 ?_).ne' h
    by_contra h'
    push Not at h'
    exact hne ((mem_zero hx).1 h')

include hn hn' hk hk' hx hy

/-- **C105** (energy): on products of periodic and regular grids the Laplacian of 1-forms is self-adjoint for `∫ α∧*β`, and `-∫ L1α∧*α` is the energy `∫ D1α∧*D1α + ∫ D1H1α∧*D1H1α`. -/
theorem C105_energy (α β : List ℝ) (hα : (𝔾).N 1 t = .ok α.length) (hβ : (𝔾).N 1 t = .ok β.length) :
    ∃ Lα Lβ sα sβ dα dsα u v, lapOne 𝔾 t α = .ok Lα ∧ lapOne 𝔾 t β = .ok Lβ ∧ (𝔾).H 1 t α = .ok sα ∧ (𝔾).H 1 t β = .ok sβ ∧
      (𝔾).D 1 t α = .ok dα ∧ (𝔾).D 1 (!t) sα = .ok dsα ∧ (𝔾).H 2 t dα = .ok u ∧ (𝔾).H 2 (!t) dsα = .ok v ∧
      pair1 gx gy t Lα sβ = pair1 gx gy t Lβ sα ∧ pair1 gx gy t Lα sα = -(dot dα u + dot dsα v) ∧ 0 ≤ dot dα u ∧ 0 ≤ dot dsα v := by
  obtain ⟨δ, η, C⟩ := exists_calc k k' n n' hn hn' hk hk' xmin xmax ymin ymax hx hy
  have ci := count_iff k k' n n' hn hn' xmin xmax ymin ymax
  have hm := matching k k' n n' hn hn' xmin xmax ymin ymax t
  have C' := C.weak
  have la := (ci 1 t α).1 hα
  have lb := (ci 1 t β).1 hβ
  have sy := fun s x y => two_symm k k' n n' hn hn' hk hk' xmin xmax ymin ymax C.o s (x := x) (y := y)
  refine ⟨_, _, _, _, _, _, _, _, C'.lapOne t la, C'.lapOne t lb, C.o.H 1 t α la, C.o.H 1 t β lb, C.o.D 1 t (by decide) α la, C.o.D 1 (!t) (by decide) _ (C'.lH la),
    C.o.H 2 t _ (C'.lD1 la), C.o.H 2 (!t) _ (C'.lD1 (C'.lH la)), ?_, ?_, ?_, ?_⟩
  · rw [C.lap_form hm la lb, C.lap_form hm lb la, (sy (!t) _ _ (C'.lD1 (C'.lH lb)) (C'.lD1 (C'.lH la))).1, (sy t _ _ (C'.lD1 lb) (C'.lD1 la)).1]
  · rw [C.lap_form hm la la, add_comm]
  · exact (sy t _ _ (C'.lD1 la) (C'.lD1 la)).2.1
  · exact (sy (!t) _ _ (C'.lD1 (C'.lH la)) (C'.lD1 (C'.lH la))).2.1

/-- **C105** (kernel): the Laplacian of a 1-form vanishes exactly when the form is harmonic. -/
theorem C105_kernel (α : List ℝ) (hα : (𝔾).N 1 t = .ok α.length) : (∃ L, lapOne 𝔾 t α = .ok L ∧ ∀ z ∈ L, z = 0) ↔ Harmonic 𝔾 t α := by
  obtain ⟨δ, η, C⟩ := exists_calc k k' n n' hn hn' hk hk' xmin xmax ymin ymax hx hy
  have ci := count_iff k k' n n' hn hn' xmin xmax ymin ymax
  have hm := matching k k' n n' hn hn' xmin xmax ymin ymax t
  have C' := C.weak
  have la := (ci 1 t α).1 hα
  have lL : (vadd (δ 0 t (η 2 (!t) (δ 1 (!t) (η 1 t α)))) (η 1 (!t) (δ 0 (!t) (η 2 t (δ 1 t α))))).length = 𝔫 1 t := by simp [C'.lE la, C'.lC la]
  have sy := fun s x => two_symm k k' n n' hn hn' hk hk' xmin xmax ymin ymax C.o s (x := x) (y := x)
  rw [C.harmonic_iff la]
  constructor
  · rintro ⟨L, h1, h2⟩
    obtain rfl := Except.ok.inj ((C'.lapOne t la).symm.trans h1)
    have f := C.lap_form hm la la
    rw [(mem_zero lL).1 h2] at f
    have z : pair1 gx gy t (List.replicate (𝔫 1 t) 0) (η 1 t α) = 0 := by
      unfold pair1
      rw [List.take_replicate, List.drop_replicate, dot_comm, dot_zero_right, dot_comm, dot_zero_right, sub_self]
    rw [z] at f
    obtain ⟨-, p1, q1⟩ := sy t _ (C'.lD1 la) (C'.lD1 la)
    obtain ⟨-, p2, q2⟩ := sy (!t) _ (C'.lD1 (C'.lH la)) (C'.lD1 (C'.lH la))
    exact ⟨q1 (by linarith), q2 (by linarith)⟩
  · rintro ⟨h1, h2⟩
    refine ⟨_, C'.lapOne t la, (mem_zero lL).2 ?_⟩
    have e : 𝔫 (2 - 2) (!t) = 𝔫 0 (!t) := rfl
    have e1 : 𝔫 (0 + 1) (!t) = 𝔫 1 (!t) := rfl
    have e2 : 𝔫 (2 - 1) (!!t) = 𝔫 1 t := by rw [Bool.not_not]; rfl
    have e3 : 𝔫 (2 - 2) (!!t) = 𝔫 0 t := by rw [Bool.not_not]; rfl
    have e4 : 𝔫 (0 + 1) t = 𝔫 1 t := rfl
    rw [h1, h2, lin_zero (C.o.linH 2 t), lin_zero (C.o.linH 2 (!t)), e, e3, lin_zero (C.o.linD 0 t (by decide)), lin_zero (C.o.linD 0 (!t) (by decide)), e1, lin_zero (C.o.linH 1 (!t)), e2, e4,
      vadd_zero_left (by simp)]

/-- **C105** (Poisson problem): `L1(α) = β` has a solution exactly when `β` is orthogonal to the harmonic 1-forms, and two solutions differ by a harmonic 1-form. -/
theorem C105_solvable (β : List ℝ) (hβ : (𝔾).N 1 t = .ok β.length) :
    ((∃ α, (𝔾).N 1 t = .ok α.length ∧ lapOne 𝔾 t α = .ok β) ↔
      ∀ h s, (𝔾).N 1 t = .ok h.length → Harmonic 𝔾 t h → (𝔾).H 1 t h = .ok s → pair1 gx gy t β s = 0) ∧
    ∀ α α', (𝔾).N 1 t = .ok α.length → (𝔾).N 1 t = .ok α'.length → lapOne 𝔾 t α = .ok β → lapOne 𝔾 t α' = .ok β → Harmonic 𝔾 t (vsub α' α) := by
  obtain ⟨δ, η, C⟩ := exists_calc k k' n n' hn hn' hk hk' xmin xmax ymin ymax hx hy
  have ci := count_iff k k' n n' hn hn' xmin xmax ymin ymax
  have hm := matching k k' n n' hn hn' xmin xmax ymin ymax t
  have C' := C.weak
  have lb := (ci 1 t β).1 hβ
  have sy := fun s x y => two_symm k k' n n' hn hn' hk hk' xmin xmax ymin ymax C.o s (x := x) (y := y)
  set Λ : List ℝ → List ℝ := fun α => vadd (δ 0 t (η 2 (!t) (δ 1 (!t) (η 1 t α)))) (η 1 (!t) (δ 0 (!t) (η 2 t (δ 1 t α)))) with hΛ
  have eΛ : ∀ a : List ℝ, a.length = 𝔫 1 t → lapOne 𝔾 t a = .ok (Λ a) := fun a la => C'.lapOne t la
  have lΛ : ∀ a : List ℝ, a.length = 𝔫 1 t → (Λ a).length = 𝔫 1 t := fun a la => by rw [hΛ]; simp [C'.lE la, C'.lC la]
  have linE : Lin (𝔫 1 t) (𝔫 1 t) fun α => δ 0 t (η 2 (!t) (δ 1 (!t) (η 1 t α))) := by
    have h := (C.o.linH 2 (!t)).comp ((C.o.linD 1 (!t) (by decide)).comp (C.o.linH 1 t))
    rw [Bool.not_not] at h
    exact (C.o.linD 0 t (by decide)).comp h
  have linC : Lin (𝔫 1 t) (𝔫 1 t) fun α => η 1 (!t) (δ 0 (!t) (η 2 t (δ 1 t α))) := by
    have h := (C.o.linH 1 (!t)).comp ((C.o.linD 0 (!t) (by decide)).comp ((C.o.linH 2 t).comp (C.o.linD 1 t (by decide))))
    rwa [Bool.not_not] at h
  have linΛ : Lin (𝔫 1 t) (𝔫 1 t) Λ := by
    refine ⟨lΛ, fun x y hx hy => ?_, fun c x hx => ?_⟩
    · have a1 := linE.add x y hx hy
      have a2 := linC.add x y hx hy
      beta_reduce at a1 a2
      rw [hΛ]; beta_reduce
      rw [a1, a2, eq_tab' (C'.lE hx) 0, eq_tab' (C'.lE hy) 0, eq_tab' (C'.lC hx) 0, eq_tab' (C'.lC hy) 0]
      simp only [vadd_tab]
      exact tab_congr fun _ _ => by ring
    · have a1 := linE.smul c x hx
      have a2 := linC.smul c x hx
      beta_reduce at a1 a2
      rw [hΛ]; beta_reduce
      rw [a1, a2, eq_tab' (C'.lE hx) 0, eq_tab' (C'.lC hx) 0]
      simp only [vadd_tab, map_tab]
      exact tab_congr fun _ _ => by rw [smul_add]
  have symΛ : ∀ a b : List ℝ, a.length = 𝔫 1 t → b.length = 𝔫 1 t → pair1 gx gy t (Λ a) (η 1 t b) = pair1 gx gy t (Λ b) (η 1 t a) := fun a b la lb => by
    rw [hΛ, C.lap_form hm la lb, C.lap_form hm lb la, (sy (!t) _ _ (C'.lD1 (C'.lH lb)) (C'.lD1 (C'.lH la))).1, (sy t _ _ (C'.lD1 lb) (C'.lD1 la)).1]
  have zero : ∀ a : List ℝ, a.length = 𝔫 1 t → pair1 gx gy t a (η 1 t a) = 0 → a = List.replicate (𝔫 1 t) 0 := fun a la h => by
    by_contra hne
    refine (C.pos t a la ?_).ne' h
    by_contra h'
    push Not at h'
    exact hne ((mem_zero la).1 h')
  have har : ∀ a : List ℝ, a.length = 𝔫 1 t → (Harmonic 𝔾 t a ↔ Λ a = List.replicate (𝔫 1 t) 0) := fun a la => by
    rw [← C105_kernel k k' n n' hn hn' hk hk' xmin xmax ymin ymax hx hy t a ((ci 1 t a).2 la), eΛ a la, ← mem_zero (lΛ a la)]
    exact ⟨fun ⟨L, h1, h2⟩ => by rw [Except.ok.inj h1]; exact h2, fun h => ⟨_, rfl, h⟩⟩
  have zp : ∀ b : List ℝ, pair1 gx gy t (List.replicate (𝔫 1 t) 0) b = 0 := fun b => by
    unfold pair1
    rw [List.take_replicate, List.drop_replicate, dot_comm, dot_zero_right, dot_comm, dot_zero_right, sub_self]
  refine ⟨⟨?_, fun h => ?_⟩, fun α α' hα hα' h1 h2 => ?_⟩
  · rintro ⟨α, hα, h1⟩ h s hh hH hs
    have la := (ci 1 t α).1 hα
    have lh := (ci 1 t h).1 hh
    obtain rfl := Except.ok.inj ((C.o.H 1 t h lh).symm.trans hs)
    rw [eΛ α la, Except.ok.injEq] at h1
    rw [← h1, symΛ α h la lh, (har h lh).1 hH, zp]
  · obtain ⟨α, la, ho⟩ := C.exists_part hm linΛ lb
    refine ⟨α, (ci 1 t α).2 la, ?_⟩
    have lr : (vsub β (Λ α)).length = 𝔫 1 t := by simp [lb, lΛ α la]
    have hr : Λ (vsub β (Λ α)) = List.replicate (𝔫 1 t) 0 := zero _ (lΛ _ lr) (by
      have := ho (Λ (vsub β (Λ α))) (lΛ _ lr)
      rwa [symΛ _ _ (lΛ _ lr) lr] at this)
    have o1 := h _ _ ((ci 1 t _).2 lr) ((har _ lr).2 hr) (C.o.H 1 t _ lr)
    have o2 := ho α la
    have o3 := C.ip_add hm lr (lΛ α la) lr
    rw [vadd_vsub_cancel lb (lΛ α la), o1, o2, add_zero] at o3
    have := zero _ lr o3.symm
    rw [eΛ α la, Except.ok.injEq]
    exact ((vsub_zero_iff lb (lΛ α la)).1 this).symm
  · have la := (ci 1 t α).1 hα
    have la' := (ci 1 t α').1 hα'
    rw [eΛ α la, Except.ok.injEq] at h1
    rw [eΛ α' la', Except.ok.injEq] at h2
    refine (har _ (by simp [la, la'])).2 ?_
    rw [lin_sub linΛ la' la, h1, h2]
    exact (vsub_zero_iff lb lb).2 rfl

/-- **C105** (rectangles): if both grids are regular, `L1(α) = β` has exactly one solution. -/
theorem C105_rectangle (hr : k = .regular) (hr' : k' = .regular) (β : List ℝ) (hβ : (𝔾).N 1 t = .ok β.length) : ∃! α, (𝔾).N 1 t = .ok α.length ∧ lapOne 𝔾 t α = .ok β := by
  have ci := count_iff k k' n n' hn hn' xmin xmax ymin ymax
  have zero : ∀ h : List ℝ, (𝔾).N 1 t = .ok h.length → Harmonic 𝔾 t h → h = List.replicate (𝔫 1 t) 0 := fun h hl hh => by
    have nf : ∀ s, ¬ (free .regular s ∧ free .regular (!s)) := fun s => by cases s <;> simp [free]
    obtain ⟨c₁, c₂, e, h₁, h₂⟩ := (C103_harmonic k k' n n' hn hn' hk hk' xmin xmax ymin ymax hx hy t h hl).1 hh
    rw [hr, hr'] at h₁ h₂
    obtain rfl := h₁.resolve_right (nf t)
    obtain rfl := h₂.resolve_right (nf t)
    rw [P1_constant k k' n n' xmin xmax ymin ymax t hn hn', Except.ok.injEq] at e
    refine (mem_zero ((ci 1 t h).1 hl)).1 ?_
    rw [← e]
    intro z hz
    rcases List.mem_append.1 hz with hz | hz
    · exact data_all_zero.2 (fun _ _ _ _ => zero_mul _) z hz
    · exact data_all_zero.2 (fun _ _ _ _ => zero_mul _) z hz
  obtain ⟨h1, h2⟩ := C105_solvable k k' n n' hn hn' hk hk' xmin xmax ymin ymax hx hy t β hβ
  obtain ⟨δ, η, C⟩ := exists_calc k k' n n' hn hn' hk hk' xmin xmax ymin ymax hx hy
  have ex := h1.2 fun h s hl hh hs => by
    rw [zero h hl hh, C.o.H 1 t _ (by simp), Except.ok.injEq, lin_zero (C.o.linH 1 t)] at hs
    rw [← hs]
    unfold pair1
    rw [List.take_replicate, List.drop_replicate, dot_zero_right, dot_zero_right, sub_self]
  obtain ⟨α, ha, e⟩ := ex
  refine ⟨α, ⟨ha, e⟩, fun α' ⟨ha', e'⟩ => ?_⟩
  have la := (ci 1 t α).1 ha
  have la' := (ci 1 t α').1 ha'
  have hd := zero _ ((ci 1 t _).2 (by simp [la, la'])) (h2 α α' ha ha' e e')
  exact (vsub_zero_iff la' la).1 hd

end

/-! ## The hypotheses are met -/

/-- A Chebyshev grid times a periodic grid for the commutation rules, a square of 3 × 3 points for the Poisson problem: 12 numbers prescribe the Laplacian of exactly one 1-form. -/
example : (∃ s L w, (product (grid .chebyshev 3 (-1) 1) (grid .periodic 2 0 1)).H 1 true ((List.range 10).map Nat.cast) = .ok s ∧
      lapOne (product (grid .chebyshev 3 (-1) 1) (grid .periodic 2 0 1)) true ((List.range 10).map Nat.cast) = .ok L ∧
      (product (grid .chebyshev 3 (-1) 1) (grid .periodic 2 0 1)).H 1 true L = .ok w ∧ lapOne (product (grid .chebyshev 3 (-1) 1) (grid .periodic 2 0 1)) false s = .ok w) ∧
    ∃! α, (product (grid .regular 3 0 1) (grid .regular 3 0 2)).N 1 true = .ok α.length ∧ lapOne (product (grid .regular 3 0 1) (grid .regular 3 0 2)) true α = .ok ((List.range 12).map Nat.cast) :=
  ⟨C105_star .chebyshev .periodic 3 2 (show 2 ≤ 3 by norm_num) (show 1 ≤ 2 by norm_num) (fun _ => by norm_num) (fun h => by cases h) (-1) 1 0 1 true _ (by
      rw [N_eq (grid_factor .chebyshev 3 (show 2 ≤ 3 by norm_num) _ _) (grid_factor .periodic 2 (show 1 ≤ 2 by norm_num) _ _), List.length_map]; rfl),
    C105_rectangle .regular .regular 3 3 (show 2 ≤ 3 by norm_num) (show 2 ≤ 3 by norm_num) (by decide) (by decide) 0 1 0 2 (by norm_num) (by norm_num) true rfl rfl _ (by
      rw [N_eq (grid_factor .regular 3 (show 2 ≤ 3 by norm_num) _ _) (grid_factor .regular 3 (show 2 ≤ 3 by norm_num) _ _), List.length_map]; rfl)⟩

end Dec.Props
