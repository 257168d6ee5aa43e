import Verif.Model.Objects
import Verif.Props.Decform
import Verif.Props.Symbolic

set_option linter.unusedVariables false

/-! # C84: forms as Python objects -/

namespace Dec.Props

open Objects Dec.Sym Decform

variable {R : Type*}

theorem symEq_iff (f g : Form R) : symEq f g = true ↔ f = g := by
  unfold symEq
  simp only [Bool.and_eq_true, decide_eq_true_eq]
  constructor
  · rintro ⟨⟨h1, h2⟩, h3⟩
    cases f; cases g; simp_all
  · rintro rfl; exact ⟨⟨rfl, rfl⟩, rfl⟩

/-- **C84**: two symbolic forms are equal exactly if they have the same degree, the same chart object and the same components; `!=` is the negation. -/
theorem C84_equality (a b : ℕ) (f g : Form R) :
    ∃ r, pyEq (.sym a f) (.sym b g) = .ok r ∧ pyNe (.sym a f) (.sym b g) = .ok (!r) ∧
      (r = true ↔ f.degree = g.degree ∧ f.grid.id = g.grid.id ∧ f.grid.dim = g.grid.dim ∧ f.comps = g.comps) := by
  refine ⟨symEq f g, rfl, rfl, (symEq_iff f g).trans ⟨?_, ?_⟩⟩
  · rintro rfl; exact ⟨rfl, rfl, rfl, rfl⟩
  · rintro ⟨h1, h2, h3, h4⟩
    obtain ⟨d, ⟨i, m⟩, c⟩ := f
    obtain ⟨d', ⟨i', m'⟩, c'⟩ := g
    simp_all

/-- **C84**: so it is an equivalence relation ... -/
theorem C84_equivalence (a b c : ℕ) (f g h : Form R) :
    pyEq (.sym a f) (.sym a f) = .ok true ∧
    (pyEq (.sym a f) (.sym b g) = .ok true → pyEq (.sym b g) (.sym a f) = .ok true) ∧
    (pyEq (.sym a f) (.sym b g) = .ok true → pyEq (.sym b g) (.sym c h) = .ok true → pyEq (.sym a f) (.sym c h) = .ok true) := by
  have e : ∀ (a b : ℕ) (f g : Form R), pyEq (.sym a f) (.sym b g) = .ok true ↔ f = g := fun a b f g => by
    rw [← symEq_iff f g]; unfold pyEq
    exact ⟨fun h => Except.ok.inj h, fun h => congrArg _ h⟩
  rw [e, e, e, e, e]
  exact ⟨rfl, Eq.symm, Eq.trans⟩

/-- **C84**: ... and equal forms give equal results in all operators. -/
theorem C84_congruence [Ring R] (a b : ℕ) (f g k : Form R) (dx dy : R → R) (h : pyEq (.sym a f) (.sym b g) = .ok true) :
    f.D dx dy = g.D dx dy ∧ f.H = g.H ∧ f.W k = g.W k ∧ k.W f = k.W g ∧ f.C k = g.C k ∧ k.C f = k.C g ∧ f.add k = g.add k ∧ k.add f = k.add g ∧
    f.sub k = g.sub k ∧ k.sub f = k.sub g ∧ f.neg = g.neg := by
  have : f = g := (symEq_iff f g).1 (Except.ok.inj h)
  subst this
  exact ⟨rfl, rfl, rfl, rfl, rfl, rfl, rfl, rfl, rfl, rfl, rfl⟩

/-- **C84** (limit): components are compared as expressions: forms with equal components denote the same functions, but two different expressions for the same function make the forms different. -/
theorem C84_expressions {S : Type*} (den : R → S) (a b d : ℕ) (ch : Chart) (c c' : List R) :
    (pyEq (.sym a ⟨d, ch, c⟩) (.sym b ⟨d, ch, c'⟩) = .ok true → c.map den = c'.map den) ∧
    (c ≠ c' → pyEq (.sym a ⟨d, ch, c⟩) (.sym b ⟨d, ch, c'⟩) = .ok false) := by
  constructor
  · intro h
    have := (symEq_iff _ _).1 (Except.ok.inj h)
    injection this with _ _ h3
    rw [h3]
  · intro h
    have : symEq (⟨d, ch, c⟩ : Form R) ⟨d, ch, c'⟩ = false := by
      rw [Bool.eq_false_iff]
      intro e
      have := (symEq_iff _ _).1 e
      injection this with _ _ h3
      exact h h3
    exact congrArg _ this

/-- **C84** (defect): a form cannot be compared with the integer `0` that the operators return, in either order ... -/
theorem C84_integers (a : ℕ) (f : Form R) (x : DForm) (c : ℤ) :
    pyEq (.sym a f) (.int c) = .error .attributeError ∧ pyEq (.int c) (.sym a f) = .error .attributeError ∧
    pyEq (.dec a x : PyObj R) (.int c) = .error .attributeError ∧ pyEq (.int c : PyObj R) (.dec a x) = .error .attributeError :=
  ⟨rfl, rfl, rfl, rfl⟩

/-- **C84** (defect): ... and the comparison of a symbolic form with a discrete form depends on the order: `False` one way, an error the other way if the degrees agree. -/
theorem C84_mixed (a b : ℕ) (f : Form R) (x : DForm) :
    pyEq (.sym a f) (.dec b x) = .ok false ∧ (f.degree = x.degree → pyEq (.dec b x) (.sym a f) = .error .attributeError) ∧
    (f.degree ≠ x.degree → pyEq (.dec b x) (.sym a f) = .ok false) :=
  ⟨rfl, fun h => if_pos h.symm, fun h => if_neg h.symm⟩

/-! ## Membership -/

/-- The objects are alive at the same time: an address belongs to one object only. -/
def Alive (l : List (PyObj R)) : Prop := ∀ x ∈ l, ∀ y ∈ l, pyHash x = pyHash y → x = y

/-- The value is a form. -/
def IsObj : PyObj R → Prop
  | .int _ => False
  | _ => True

theorem pyIs_self {x : PyObj R} (h : IsObj x) : pyIs x x = true := by
  cases x
  · exact h.elim
  all_goals simp [pyIs]

/-- **C84**: membership in a list of symbolic forms is decided by `==` ... -/
theorem C84_list_membership (a : ℕ) (f : Form R) (l : List (ℕ × Form R)) (hl : Alive (.sym a f :: l.map fun p => .sym p.1 p.2)) :
    inList (.sym a f) (l.map fun p => PyObj.sym p.1 p.2) = .ok (decide (∃ p ∈ l, pyEq (.sym a f) (.sym p.1 p.2) = .ok true)) := by
  classical
  have e : ∀ (b : ℕ) (g : Form R), pyEq (.sym a f) (.sym b g) = .ok true ↔ f = g := fun b g => by
    rw [← symEq_iff f g]; unfold pyEq
    exact ⟨fun h => Except.ok.inj h, fun h => congrArg _ h⟩
  induction l with
  | nil => simp [inList]
  | cons p l ih =>
    have ih' := ih fun x hx y hy => hl x (by simp at hx ⊢; tauto) y (by simp at hy ⊢; tauto)
    have h0 : ∀ q : Bool, (do if q then Except.ok true else inList (.sym a f) (l.map fun p => PyObj.sym p.1 p.2) : Except Err Bool)
        = if q then .ok true else inList (.sym a f) (l.map fun p => PyObj.sym p.1 p.2) := fun q => rfl
    rw [List.map_cons, inList]
    by_cases ha : a = p.1
    · have hs : pyIs (.sym a f) (.sym p.1 p.2 : PyObj R) = true := by simp [pyIs, ha]
      have : (PyObj.sym a f : PyObj R) = .sym p.1 p.2 := hl _ (by simp) _ (by simp) ha
      injection this with _ h2
      rw [if_pos hs]
      congr 1
      symm
      exact decide_eq_true ⟨p, by simp, (e _ _).2 h2⟩
    · have hs : pyIs (.sym a f) (.sym p.1 p.2 : PyObj R) = false := by simp [pyIs, ha]
      rw [if_neg (by simp [hs])]
      have h1 : pyEq (.sym a f) (.sym p.1 p.2) = .ok (symEq f p.2) := rfl
      rw [h1]
      show (if symEq f p.2 = true then _ else _) = _
      by_cases hq : symEq f p.2 = true
      · rw [if_pos hq]
        congr 1
        symm
        exact decide_eq_true ⟨p, by simp, (e _ _).2 ((symEq_iff _ _).1 hq)⟩
      · rw [if_neg hq, ih']
        congr 1
        refine decide_eq_decide.2 ⟨fun ⟨q, hq', h⟩ => ⟨q, by simp [hq'], h⟩, fun ⟨q, hq', h⟩ => ?_⟩
        rcases List.mem_cons.1 hq' with rfl | h'
        · exact absurd ((symEq_iff _ _).2 ((e _ _).1 h)) hq
        · exact ⟨q, h', h⟩

/-- **C84** (defect): ... but membership in a set, and lookup in a dictionary, by the identity of the object: equal forms are not interchangeable as keys. -/
theorem C84_set_membership (x : PyObj R) (s : List (PyObj R)) (hx : IsObj x) (hs : Alive (x :: s)) :
    inSet x s = .ok (open Classical in decide (x ∈ s)) := by
  classical
  induction s with
  | nil => simp [inSet]
  | cons e l ih =>
    have ih' := ih fun y hy z hz => hs y (by simp at hy ⊢; tauto) z (by simp at hz ⊢; tauto)
    rw [inSet]
    by_cases h : pyHash x = pyHash e
    · have : x = e := hs x (by simp) e (by simp) h
      subst this
      rw [if_pos rfl, if_pos (pyIs_self hx)]
      simp
    · rw [if_neg h, ih']
      have : x ≠ e := fun h' => h (by rw [h'])
      congr 1
      exact decide_eq_decide.2 ⟨fun h => List.mem_cons_of_mem _ h, fun h' => (List.mem_cons.1 h').resolve_left this⟩

/-- **C84** (defect): a form that is equal to a key of a set is not found in the set, though it is found in the list of its elements. -/
theorem C84_equal_but_not_found (a b : ℕ) (f : Form R) (hab : a ≠ b) :
    pyEq (.sym a f) (.sym b f) = .ok true ∧ inList (.sym a f) [.sym b f] = .ok true ∧ inSet (.sym a f) [.sym b f] = .ok false := by
  have h := (symEq_iff f f).2 rfl
  refine ⟨congrArg _ h, ?_, ?_⟩
  · simp only [inList]
    rw [if_neg (by simp [pyIs, hab])]
    show (if symEq f f = true then _ else _) = _
    rw [if_pos h]
  · rw [inSet, if_neg (show pyHash (.sym a f : PyObj R) ≠ pyHash (.sym b f) from hab)]
    rfl

/-! ## Indexing and iteration -/

/-- **C84**: `f[k]` counts from the end for negative `k`, and raises `IndexError` outside of `-n ≤ k < n`. -/
theorem C84_getitem (f : Form R) (k : ℕ) :
    (∀ h : k < f.comps.length, getitem f k = .ok f.comps[k] ∧ getitem f (-(k : ℤ) - 1) = .ok (f.comps[f.comps.length - 1 - k]'(by omega))) ∧
    (f.comps.length ≤ k → getitem f k = .error .indexError ∧ getitem f (-(k : ℤ) - 1) = .error .indexError) := by
  constructor
  · intro h
    constructor
    · unfold getitem
      rw [if_neg (by omega), Int.toNat_natCast, List.getElem?_eq_getElem h]
      simp only
      rw [if_neg (by omega)]
    · unfold getitem
      rw [if_pos (by omega), show (-(k : ℤ) - 1 + (f.comps.length : ℤ)).toNat = f.comps.length - 1 - k by omega, List.getElem?_eq_getElem (by omega)]
      simp only
      rw [if_neg (by omega)]
  · intro h
    constructor
    · unfold getitem
      rw [if_neg (by omega), Int.toNat_natCast, List.getElem?_eq_none h]
    · unfold getitem
      rw [if_pos (by omega), show (-(k : ℤ) - 1 + (f.comps.length : ℤ)).toNat = 0 by omega]
      rcases f.comps[0]? with _ | c
      · rfl
      · simp only
        rw [if_pos (by omega)]

theorem iterates_drop (f : Form R) (k : ℕ) : Iterates f k (f.comps.drop k) := by
  by_cases h : k < f.comps.length
  · rw [List.drop_eq_getElem_cons h]
    exact .next ((C84_getitem f k).1 h).1 (by exact_mod_cast iterates_drop f (k + 1))
  · rw [List.drop_eq_nil_of_le (by omega)]
    exact .stop ((C84_getitem f k).2 (by omega)).1
termination_by f.comps.length - k

theorem iterates_unique (f : Form R) {k : ℤ} {l l' : List R} (h : Iterates f k l) (h' : Iterates f k l') : l = l' := by
  induction h generalizing l' with
  | stop h =>
    cases h' with
    | stop _ => rfl
    | next h'' _ => rw [h] at h''; cases h''
  | next h _ ih =>
    cases h' with
    | stop h'' => rw [h] at h''; cases h''
    | next h'' h3 =>
      rw [h] at h''
      cases h''
      rw [ih h3]

/-- **C84**: iterating over a form ends, and produces its components in order. -/
theorem C84_iteration (f : Form R) (l : List R) : Iterates f 0 l ↔ l = f.comps := by
  have h0 : Iterates f 0 f.comps := by simpa using iterates_drop f 0
  exact ⟨fun h => iterates_unique f h h0, fun h => h ▸ h0⟩

/-- **C84**: `g * f` applies a callable `g` to the form; with a number it raises `TypeError`. -/
theorem C84_rmul {S : Type*} [Ring R] (g : Form R → S) (c : R) (f : Form R) :
    rmulCall (.inl g) f = .ok (.inl (g f)) ∧ rmulCall (.inr c : (Form R → S) ⊕ R) f = .error .typeError := ⟨rfl, rfl⟩

/-! ## Non-vacuity -/

example : Alive [PyObj.sym 1 ⟨0, ⟨7, 2⟩, [(5 : ℤ)]⟩, .sym 2 ⟨0, ⟨7, 2⟩, [5]⟩, .dec 3 ⟨0, true, 4, [1]⟩] ∧
    inSet (.sym 1 ⟨0, ⟨7, 2⟩, [(5 : ℤ)]⟩) [.sym 2 ⟨0, ⟨7, 2⟩, [5]⟩, .dec 3 ⟨0, true, 4, [1]⟩] = .ok false := by
  refine ⟨?_, ?_⟩
  · intro x hx y hy h
    simp only [List.mem_cons, List.not_mem_nil, or_false] at hx hy
    rcases hx with rfl | rfl | rfl <;> rcases hy with rfl | rfl | rfl <;> first | rfl | (simp [pyHash] at h)
  · simp [inSet, pyHash]

example : Iterates (⟨1, ⟨7, 2⟩, [5, 6]⟩ : Form ℤ) 0 [5, 6] := (C84_iteration _ _).2 rfl

end Dec.Props
