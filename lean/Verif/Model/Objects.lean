import Verif.Model.Symbolic
import Verif.Model.Decform

/-!
# Forms as Python objects: comparison, membership, hashing, indexing and iteration
-/

namespace Dec.Objects

open Sym Decform

/-- A Python value: an integer (`D` and `C` return the integer `0`, `/repo/dec/symform.py:82-110`), a symbolic form or a discrete form.  `addr` is the identity of the object. -/
inductive PyObj (R : Type*)
  | int (c : ℤ)
  | sym (addr : ℕ) (f : Form R)
  | dec (addr : ℕ) (x : DForm)

variable {R : Type*}

open Classical in
/-- `__eq__` of symbolic forms on two forms, `/repo/dec/symform.py:45-48`; charts have no `__eq__` and are compared by identity, components as expressions. -/
noncomputable def symEq (f g : Form R) : Bool :=
  decide (f.degree = g.degree) && decide (f.grid = g.grid) && decide (f.comps = g.comps)

/-- `a == b`, `/repo/dec/symform.py:45-48`, `/repo/dec/decform.py:18-22`: the method of the left operand, or of the right one if the left operand is an integer.
A symbolic form has the attributes `degree`, `grid`, `components`, a discrete form `degree`, `isprimal`, `grid`, `array`, an integer none of them; a chart is not equal to a grid. -/
noncomputable def pyEq : PyObj R → PyObj R → Except Err Bool
  | .int a, .int b => .ok (decide (a = b))
  | .int _, _ => .error .attributeError
  | _, .int _ => .error .attributeError
  | .sym _ f, .sym _ g => .ok (symEq f g)
  | .sym _ _, .dec _ _ => .ok false
  | .dec _ x, .sym _ f => if x.degree = f.degree then .error .attributeError else .ok false
  | .dec _ x, .dec _ y => Decform.eq x y

/-- `a != b`, `/repo/dec/symform.py:50-51`, `/repo/dec/decform.py:24-25`. -/
noncomputable def pyNe (a b : PyObj R) : Except Err Bool := do .ok (!(← pyEq a b))

/-- `a is b` for forms: the same object.  For /repo/dec/symform.py:45-48. -/
def pyIs : PyObj R → PyObj R → Bool
  | .int a, .int b => decide (a = b)
  | .sym a _, .sym b _ => decide (a = b)
  | .dec a _, .dec b _ => decide (a = b)
  | _, _ => false

/-- `x in l` for a list or tuple `l`: `any(x is e or x == e for e in l)`.  For /repo/dec/symform.py:45-48. -/
noncomputable def inList (x : PyObj R) : List (PyObj R) → Except Err Bool
  | [] => .ok false
  | e :: l => if pyIs x e then .ok true else do if ← pyEq x e then .ok true else inList x l

/-- `hash(x)` of forms: the methods are attached with `setattr` after the class has been created (`/repo/dec/symform.py:124-134`, `/repo/dec/decform.py:120-129`), so Python does not
remove the `__hash__` that is inherited from `object`, which depends on the identity only. -/
def pyHash : PyObj R → ℕ
  | .int c => c.toNat
  | .sym a _ => a
  | .dec a _ => a

/-- `x in s` for a set, or for the keys of a dictionary: only elements with the same hash are compared.  For /repo/dec/symform.py:124-134. -/
noncomputable def inSet (x : PyObj R) : List (PyObj R) → Except Err Bool
  | [] => .ok false
  | e :: l => if pyHash x = pyHash e then (if pyIs x e then .ok true else do if ← pyEq x e then .ok true else inSet x l) else inSet x l

/-- `f[k]`, `/repo/dec/symform.py:62-63`: indexing of a tuple. -/
def getitem (f : Form R) (k : ℤ) : Except Err R :=
  match f.comps[(if k < 0 then k + f.comps.length else k).toNat]? with
  | some c => if k < -(f.comps.length : ℤ) then .error .indexError else .ok c
  | none => .error .indexError

/-- `for c in f` (used by `/repo/dec/symform.py:73`): there is no `__iter__`, so Python calls `f[0]`, `f[1]`, ... until `IndexError`.  `Iterates f k l` says that the loop, when it has reached `k`, goes
on to produce `l`. -/
inductive Iterates (f : Form R) : ℤ → List R → Prop
  | stop {k : ℤ} : getitem f k = .error .indexError → Iterates f k []
  | next {k : ℤ} {c : R} {l : List R} : getitem f k = .ok c → Iterates f (k + 1) l → Iterates f k (c :: l)

/-- `g * f` for a form `f` on the right, `/repo/dec/symform.py:53-57`: a callable `g` is applied to the form, other values go to the constructor with a missing argument. -/
def rmulCall {S : Type*} [Ring R] (g : (Form R → S) ⊕ R) (f : Form R) : Except Err (S ⊕ Form R) :=
  match g with
  | .inl g => .ok (.inl (g f))
  | .inr c => (f.rmul c).map .inr

end Dec.Objects
