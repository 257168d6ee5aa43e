import Verif.Model.Helper

/-!
# Model of `/repo/dec/forms.py`

Degrees are integers, as in Python.
-/

namespace Dec.Forms

/-- The four functions returned by `operators_lambda(n)`, `/repo/dec/forms.py:15-16`. `C` asserts that its first argument is 1. -/
def lamD (k : ℤ) : ℤ := k + 1
/-- `H`, `/repo/dec/forms.py:17-18`. -/
def lamH (n k : ℤ) : ℤ := n - k
/-- `W`, `/repo/dec/forms.py:19-20`. -/
def lamW (k l : ℤ) : ℤ := k + l
/-- `C`, `/repo/dec/forms.py:21-23`. -/
def lamC (k l : ℤ) : Except Err ℤ := if k = 1 then .ok (l - 1) else .error .assertion

/-- `range(n)` as integers. For /repo/dec/forms.py:44-49, 75-86. -/
def irange (n : ℕ) : List ℤ := (List.range n).map fun k : ℕ => (k : ℤ)

/-- The dictionary returned by `operators_by_degree(n)`, `/repo/dec/forms.py:26-49`. -/
structure ByDegree where
  D : List (ℤ × ℤ)
  H : List (ℤ × ℤ)
  W : List ((ℤ × ℤ) × ℤ)
  C : List ((ℤ × ℤ) × ℤ)

/-- `itertools.product(a, b)`. For /repo/dec/forms.py:44-49, 75-86. -/
def product {α β : Type*} (a : List α) (b : List β) : List (α × β) := a.flatMap fun x => b.map fun y => (x, y)

/-- `operators_by_degree(n)`, `/repo/dec/forms.py:44-49`. -/
def operators_by_degree (n : ℕ) : ByDegree where
  D := (irange n).map fun k : ℤ => (k, k + 1)
  H := (irange (n + 1)).map fun k : ℤ => (k, (n : ℤ) - k)
  W := ((product (irange (n + 1)) (irange (n + 1))).filter fun p : ℤ × ℤ => p.1 ≤ p.2 ∧ p.1 + p.2 ≤ n).map fun p : ℤ × ℤ => (p, p.1 + p.2)
  C := ((irange (n + 1)).drop 1).map fun k : ℤ => ((1, k), k - 1)

/-- A kind of form: degree and duality (`True` is primal). For /repo/dec/forms.py:52-86. -/
abbrev FKind := ℤ × Bool

/-- An entry of `operators(n)`: name, domain, codomain; `none` is Python's `None`. For /repo/dec/forms.py:52-86. -/
abbrev Op := String × Option FKind × Option FKind

/-- `name(n, k, t)`, `/repo/dec/forms.py:75`. -/
def opName (s : String) (k : ℤ) (t : Bool) : String := s ++ toString k ++ (if !t then "d" else "")

/-- The dictionary returned by `operators(n)`. For /repo/dec/forms.py:52-86. -/
structure Ops where
  P : List Op
  R : List Op
  D : List Op
  H : List Op

/-- `operators(n)`, `/repo/dec/forms.py:52-86`. -/
def operators (n : ℕ) : Ops :=
  let forms : List FKind := product (irange (n + 1)) [true, false]
  { P := forms.map fun f : FKind => (opName "P" f.1 f.2, none, some f)
    R := forms.map fun f : FKind => (opName "R" f.1 f.2, some f, none)
    D := (forms.filter fun f : FKind => f.1 < n).map fun f : FKind => (opName "D" f.1 f.2, some f, some (f.1 + 1, f.2))
    H := forms.map fun f : FKind => (opName "H" f.1 f.2, some f, some ((n : ℤ) - f.1, !f.2)) }

end Dec.Forms
