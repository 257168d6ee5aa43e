import Verif.Model.Np
import Mathlib.Data.Nat.Factorial.Basic
import Mathlib.Data.Matrix.Mul

/-!
# Model of `/repo/dec/helper.py`
-/

namespace Dec

/-- The Python exceptions that the modelled code can raise. For /repo/dec/helper.py, /repo/dec/spectral.py:541-545 and every other place that raises. -/
inductive Err
  | assertion | valueError | typeError | keyError | notImplemented | fileNotFound | jsonDecode
  | osError | indexError | singular | nan | nameError | attributeError
  deriving DecidableEq, Repr

/-- `nCr(n, r)`, `/repo/dec/helper.py:7-29`: `f(n) // f(r) // f(n-r)` where `f = math.factorial`
raises `ValueError` on a negative argument. -/
def nCr (n r : ℤ) : Except Err ℕ :=
  if n < 0 ∨ r < 0 ∨ n - r < 0 then .error .valueError
  else .ok (n.toNat.factorial / r.toNat.factorial / (n - r).toNat.factorial)

/-- The positional merge done by `c[0::2] = a; c[1::2] = b` in `interweave`,
`/repo/dec/helper.py:222-225`. -/
def weave {α : Type*} : List α → List α → List α
  | [], _ => []
  | a :: _, [] => [a]
  | a :: as, b :: bs => a :: b :: weave as bs

/-- `interweave(a, b)` for one-dimensional arrays of one element type,
`/repo/dec/helper.py:195-226`.  Other lengths make the slice assignments
(lines 204-205) raise `ValueError` (broadcasting a length-one operand never helps, because the slots
then have length one too).  The effect of mixed element types is modelled in `interweaveTyped`. -/
def interweave {α : Type*} (a b : List α) : Except Err (List α) :=
  if a.length = b.length ∨ a.length = b.length + 1 then .ok (weave a b) else .error .valueError

/-- numpy dtypes that matter here. For /repo/dec/helper.py:222. -/
inductive DType
  | int | flt
  deriving DecidableEq

/-- A numpy array of a given dtype: integer arrays hold integers, float arrays hold floats. For /repo/dec/helper.py:195-226. -/
structure TArr where
  dtype : DType
  data : List ℚ

/-- Storing a value into an array of the given dtype: integer arrays truncate towards zero. For /repo/dec/helper.py:222-225. -/
def castTo (d : DType) (x : ℚ) : ℚ :=
  match d with
  | .int => (if 0 ≤ x then ⌊x⌋ else ⌈x⌉ : ℤ)
  | .flt => x

/-- `interweave(a, b)` with element types, `/repo/dec/helper.py:195-226`: the result array is allocated with
`dtype=b.dtype` (line 203), so both operands are cast to the type of `b`. -/
def interweaveTyped (a b : TArr) : Except Err TArr :=
  match interweave a.data b.data with
  | .ok c => .ok ⟨b.dtype, c.map (castTo b.dtype)⟩
  | .error e => .error e

/-- Row `i` of `numpy.eye(N)`. For /repo/dec/helper.py:37-53. -/
def eyeRow {R : Type*} [Zero R] [One R] (N i : ℕ) : List R := tab N fun j => if j = i then 1 else 0

/-- `to_matrix(f, N)`, `/repo/dec/helper.py:37-53`: the rows of the result are indexed by the output
coordinate; column `i` is `f(eye(N)[i])`.  (The conversion of a complex matrix with negligible imaginary part
to a real one, lines 50-51, does not apply to the real-valued operators modelled here; the stacked
vectors are assumed to have the common length `M`, otherwise `vstack` raises.) -/
def toMatrix {R : Type*} [Zero R] [One R] (f : List R → List R) (N M : ℕ) : List (List R) :=
  tab M fun i => tab N fun j => (f (eyeRow N j)).getD i 0

/-- `M.dot(x)` for a matrix given by its rows. For /repo/dec/helper.py:37-53. -/
def matVec {R : Type*} [Mul R] [Add R] [Zero R] (M : List (List R)) (x : List R) : List R :=
  M.map fun row => (List.zipWith (· * ·) row x).sum

/-- `to_matrix_by_index(f, N)`, `/repo/dec/helper.py:55-67`. -/
def toMatrixByIndex {R : Type*} (f : ℕ → ℕ → R) (N : ℕ) : List (List R) :=
  tab N fun i => tab N fun j => f i j

/-- `sparse_matrix(ijk, N, M)`, `/repo/dec/helper.py:83-94`, as its dense matrix: scipy's `csr_matrix((k, ij))`
adds up duplicate entries. -/
def sparseMatrix {R : Type*} [AddCommMonoid R] (ijk : List (ℕ × ℕ × R)) (N M : ℕ) : List (List R) :=
  tab N fun i => tab M fun j => ((ijk.filter fun e => e.1 = i ∧ e.2.1 = j).map fun e => e.2.2).sum

/-- `sparse_diag(x)`, `/repo/dec/helper.py:69-81`, as its dense matrix. -/
def sparseDiag {R : Type*} [AddCommMonoid R] (x : List R) : List (List R) :=
  tab x.length fun i => tab x.length fun j => if i = j then x.getD i 0 else 0

/-- `bndry_with_zeros(a)` in one dimension, `/repo/dec/helper.py:175-193`. -/
def bndryWithZeros {R : Type*} [Zero R] (a : List R) : List R := [0] ++ a ++ [0]

/-- `apply_map(faces, identify)` on a flat list, `/repo/dec/helper.py:163-173`:
`mp = arange(0, max(data)+1); mp[keys] = values; data = mp[data]`.  `identify` is an association list;
a key beyond `max(data)` raises `IndexError`, an empty array `ValueError` (in `max`).  Keys and entries are nonnegative (negative ones would count from
the end of `mp`). -/
def applyMap (data : List ℕ) (identify : List (ℕ × ℕ)) : Except Err (List ℕ) :=
  match data.max? with
  | none => .error .valueError
  | some m =>
    if identify.any (fun e => m < e.1) then .error .indexError
    else
      let mp := identify.foldl (fun mp e => mp.set e.1 e.2) (List.range (m + 1))
      .ok (data.map fun i => mp.getD i 0)

end Dec
