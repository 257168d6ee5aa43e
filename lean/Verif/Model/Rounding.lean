import Verif.Model.Spectral

/-!
# Comparisons after rounding, the assertions of the spectral integrators, and named tuples made from strings
-/

namespace Dec

/-! ## `/repo/dec/helper.py` -/

/-- `numpy.rint(x)`: the nearest integer, the even one if there are two (inside `np.round_`, `/repo/dec/helper.py:32,236`). -/
noncomputable def rint (x : ℝ) : ℤ :=
  open Classical in
  if Int.fract x < 1 / 2 then ⌊x⌋ else if 1 / 2 < Int.fract x then ⌊x⌋ + 1 else if Even ⌊x⌋ then ⌊x⌋ else ⌊x⌋ + 1

/-- `np.round_(x, k)`, `/repo/dec/helper.py:32,236`. -/
noncomputable def npRound (k : ℕ) (x : ℝ) : ℝ := rint (x * 10 ^ k) / 10 ^ k

open Classical in
/-- `approx(a, b)` of two numbers, `/repo/dec/helper.py:31-35`. -/
noncomputable def approx (a b : ℝ) : Bool := decide (npRound 10 a = npRound 10 b)

/-- `approx(a, b)` of two arrays of the same length, `/repo/dec/helper.py:31-35`. -/
noncomputable def approxArr (a b : List ℝ) : Bool := (List.zipWith approx a b).all (· == true)

open Classical in
/-- `is_equidistant(x)`, `/repo/dec/helper.py:228-236`; `d[0]` of an empty array raises `IndexError`. -/
noncomputable def isEquidistant (x : List ℝ) : Except Err Bool :=
  match diff x with
  | [] => .error .indexError
  | d0 :: d => .ok ((d0 :: d).all fun e => decide (npRound 8 e = npRound 8 d0))

/-- An `assert` statement.  For /repo/dec/spectral.py:585-623. -/
def pyAssert (b : Bool) : Except Err Unit := if b then .ok () else .error .assertion

namespace Sp

/-- `subdivide(x)`, `/repo/dec/spectral.py:578-587`, with its assertion. -/
noncomputable def subdivideC (x : List ℝ) : Except Err (List ℝ) :=
  if x.length < 2 then .ok x else do
    pyAssert (← isEquidistant x)
    .ok (subdivide x)

/-- `integrate_spectral_coarse(x, f)`, `/repo/dec/spectral.py:589-598`, with its assertions. -/
noncomputable def integrate_spectral_coarseC (x : List ℝ) (f : ℝ → ℝ) : Except Err (List ℝ) := do
  pyAssert (← isEquidistant x)
  pyAssert (approx (2 * Real.pi) (x.getD (x.length - 1) 0 - x.getD 0 0))
  .ok (integrate_spectral_coarse x f)

/-- `f1[0::8] + f1[1::8] + ... + f1[7::8]`, `/repo/dec/spectral.py:610-611`. -/
noncomputable def sum8 (f1 : List ℝ) : List ℝ :=
  let s8 (k : ℕ) : List ℝ := stride2 (stride2 (stride2 (f1.drop k)))
  vadd (vadd (vadd (vadd (vadd (vadd (vadd (s8 0) (s8 1)) (s8 2)) (s8 3)) (s8 4)) (s8 5)) (s8 6)) (s8 7)

/-- `integrate_spectral(x, f)`, `/repo/dec/spectral.py:600-611`, with its assertions. -/
noncomputable def integrate_spectralC (x : List ℝ) (f : ℝ → ℝ) : Except Err (List ℝ) := do
  pyAssert (← isEquidistant x)
  let y ← subdivideC x
  let z ← subdivideC y
  let w ← subdivideC z
  let f1 ← integrate_spectral_coarseC w f
  .ok (sum8 f1)

/-- `integrate_chebyshev(xi, f)`, `/repo/dec/spectral.py:613-627`, with its assertions; an empty array has no `xi[-1]`. -/
noncomputable def integrate_chebyshevC (xi : List ℝ) (f : ℝ → ℝ) : Except Err (List ℝ) := do
  if xi = [] then .error .indexError else
    pyAssert (approx 2 (xi.getD (xi.length - 1) 0 - xi.getD 0 0))
    let x := xi.map varphi
    pyAssert (← isEquidistant x)
    let r ← integrate_spectralC (x ++ x.tail.map (· + Real.pi)) fun θ => f (-Real.cos θ) * Real.sin θ
    .ok (r.take (xi.length - 1))

end Sp

/-! ## Named tuples -/

namespace Tuples

/-- `s.split(',')`, `/repo/dec/helper.py:105`. -/
def splitComma : List Char → List (List Char)
  | [] => [[]]
  | c :: s => if c = ',' then [] :: splitComma s else
    match splitComma s with
    | [] => [[c]]
    | w :: ws => (c :: w) :: ws

/-- `s.replace(',', ' ').split()`, as `collections.namedtuple` reads a string of field names (`/repo/dec/helper.py:106,121`); blanks are the only white space. `w` is the word that is being read. -/
def words : List Char → List Char → List (List Char)
  | w, [] => if w = [] then [] else [w]
  | w, c :: s => if c = ',' ∨ c = ' ' then (if w = [] then words [] s else w :: words [] s) else words (w ++ [c]) s

/-- `namedtuple(name, fields)`, `/repo/dec/helper.py:106,121`: the list of field names; `ok w` says that `w` is an identifier, not a keyword, and does not begin with an underscore. -/
def fieldNames (ok : List Char → Bool) (fields : List Char) : Except Err (List (List Char)) :=
  if (words [] fields).all ok ∧ (words [] fields).Nodup then .ok (words [] fields) else .error .valueError

/-- `nametuple(name, fields, dictionary)`, `/repo/dec/helper.py:100-106`: the values by field.  The keys are looked up first; the call `(**d)` needs exactly the field names. -/
def nametuple {V : Type} (ok : List Char → Bool) (fields : List Char) (dictionary : List Char → Option V) : Except Err (List (List Char × V)) := do
  let d ← (splitComma fields).mapM fun k => match dictionary k with
    | some v => .ok (k, v)
    | none => .error .keyError
  let names ← fieldNames ok fields
  if (∀ k ∈ splitComma fields, k ∈ names) ∧ ∀ n ∈ names, n ∈ splitComma fields then
    names.mapM fun n => match d.lookup n with
      | some v => .ok (n, v)
      | none => .error .typeError
  else .error .typeError

/-- `This()` for `This = NamedTuple(attribs)`, `/repo/dec/helper.py:108-128`: `local.get(field)` is `None` for a name that is not a local variable. -/
def namedTupleThis {V : Type} (ok : List Char → Bool) (attribs : List Char) (locals : List Char → Option V) : Except Err (List (List Char × Option V)) := do
  let names ← fieldNames ok attribs
  .ok (names.map fun n => (n, locals n))

/-- `set_attributes(obj, nt)` and `set_dictionary(obj, nt)`, `/repo/dec/helper.py:130-136`: `obj` as a map from names to values. -/
def setAttributes {V : Type} (obj : List Char → Option V) (nt : List (List Char × V)) : List Char → Option V :=
  nt.foldl (fun o p => Function.update o p.1 (some p.2)) obj

end Tuples

end Dec
