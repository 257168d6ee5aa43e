import Verif.Model.Helper

/-!
# Model of `/repo/dec/data.py`

The directory `dec/data` is a tree of files and directories, addressed by lists of path components (`'a/b.json'` is
`["a", "b.json"]`; absolute names, `.` and `..` are not modelled).  A file holds either a complete JSON document or something that
`json.load` rejects (`torn`): an empty or incompletely written file.
-/

namespace Dec.Data

/-! ## JSON -/

/-- JSON documents.  Objects are written with `sort_keys=True` (`/repo/dec/data.py:30-34`), so they are lists of entries. -/
inductive Json
  | null
  | bool (b : Bool)
  | num (q : ℚ)
  | str (s : String)
  | list (l : List Json)
  | obj (l : List (String × Json))

/-- Python values handed to the store.  `arr` and `mat` are numpy arrays of one and two dimensions; `other` is any object that is not JSON
serialisable. For /repo/dec/data.py:7-12. -/
inductive Py
  | none
  | bool (b : Bool)
  | num (q : ℚ)
  | str (s : String)
  | list (l : List Py)
  | tuple (l : List Py)
  | dict (l : List (String × Py))
  | arr (l : List ℚ)
  | mat (l : List (List ℚ))
  | other

mutual
/-- `json.dump(value, f, cls=JSONEncoder, ...)`, `/repo/dec/data.py:7-12,30-34`: arrays become lists (`obj.tolist()`), tuples become lists;
`none` means `TypeError`. -/
def encode : Py → Option Json
  | .none => some .null
  | .bool b => some (.bool b)
  | .num q => some (.num q)
  | .str s => some (.str s)
  | .list l => (encodeList l).map .list
  | .tuple l => (encodeList l).map .list
  | .dict l => (encodeDict l).map .obj
  | .arr l => some (.list (l.map .num))
  | .mat l => some (.list (l.map fun r => .list (r.map .num)))
  | .other => Option.none
/-- The elements of a list, `/repo/dec/data.py:30-34`. -/
def encodeList : List Py → Option (List Json)
  | [] => some []
  | v :: l => match encode v, encodeList l with
    | some j, some js => some (j :: js)
    | _, _ => Option.none
/-- The entries of a dict, `/repo/dec/data.py:30-34`. -/
def encodeDict : List (String × Py) → Option (List (String × Json))
  | [] => some []
  | (k, v) :: l => match encode v, encodeDict l with
    | some j, some js => some ((k, j) :: js)
    | _, _ => Option.none
end

mutual
/-- `json.load(f)` on a complete document, `/repo/dec/data.py:18-20`. -/
def decode : Json → Py
  | .null => .none
  | .bool b => .bool b
  | .num q => .num q
  | .str s => .str s
  | .list l => .list (decodeList l)
  | .obj l => .dict (decodeDict l)
/-- The elements of a JSON list, `/repo/dec/data.py:18-20`. -/
def decodeList : List Json → List Py
  | [] => []
  | v :: l => decode v :: decodeList l
/-- The entries of a JSON object, `/repo/dec/data.py:18-20`. -/
def decodeDict : List (String × Json) → List (String × Py)
  | [] => []
  | (k, v) :: l => (k, decode v) :: decodeDict l
end

/-! ## The file system -/

/-- What a file contains. For /repo/dec/data.py:14-34. -/
inductive Content
  | doc (j : Json)
  | torn

/-- A node of the tree. For /repo/dec/data.py:14-41. -/
inductive Node
  | dir
  | file (c : Content)

/-- Path components below `dec/data`, `/repo/dec/data.py:3-5`. -/
abbrev Path := List String

/-- The tree; `none` is absence. For /repo/dec/data.py:14-41. -/
abbrev FS := Path → Option Node

/-- The file system is a tree rooted in the data directory: everything that exists lies in an existing directory. For /repo/dec/data.py:28-29. -/
def FS.WF (fs : FS) : Prop := fs [] = some .dir ∧ ∀ p s, fs (p ++ [s]) ≠ none → fs p = some .dir

/-- Changing one node. For /repo/dec/data.py:30-34, 36-41. -/
def FS.set (fs : FS) (p : Path) (n : Option Node) : FS := fun q => if q = p then n else fs q

open Classical in
/-- `getitem(name)` and `Data()[name]`, `/repo/dec/data.py:14-20,67-68`. -/
noncomputable def getitem (fs : FS) (p : Path) : Except Err Py :=
  match fs p with
  | none => .error (if ∃ q, q <+: p ∧ q ≠ p ∧ ∃ c, fs q = some (.file c) then .osError else .fileNotFound)
  | some .dir => .error .osError
  | some (.file .torn) => .error .jsonDecode
  | some (.file (.doc j)) => .ok (decode j)

open Classical in
/-- `os.makedirs(d)`, used in `/repo/dec/data.py:28-29`: every missing prefix becomes a directory; fails if some prefix is a file. -/
noncomputable def makedirs (fs : FS) (d : Path) : Except Err FS :=
  if ∃ q, q <+: d ∧ ∃ c, fs q = some (.file c) then .error .osError
  else .ok fun q => if q <+: d ∧ fs q = none then some .dir else fs q

/-- `open(filename, 'w')` and `json.dump`, `/repo/dec/data.py:30-34`.  Opening truncates the file; if the value cannot be encoded, the exception
leaves an incomplete document behind. -/
def write (fs : FS) (p : Path) (v : Py) : FS × Except Err Unit :=
  match fs p with
  | some .dir => (fs, .error .osError)
  | _ => match encode v with
    | some j => (fs.set p (some (.file (.doc j))), .ok ())
    | none => (fs.set p (some (.file .torn)), .error .typeError)

/-- `setitem(name, value)` and `Data()[name] = value`, `/repo/dec/data.py:22-34,70-71`, for a name with at least one component: the new tree and the outcome. -/
noncomputable def setitem (fs : FS) (p : Path) (v : Py) : FS × Except Err Unit :=
  match fs p.dropLast with
  | some .dir => write fs p v
  | some (.file _) => (fs, .error .osError)
  | none => match makedirs fs p.dropLast with
    | .error e => (fs, .error e)
    | .ok fs' => write fs' p v

open Classical in
/-- `delitem(name)` and `del Data()[name]`, `/repo/dec/data.py:36-41,73-74`: `os.rmdir` on a directory (fails unless empty), `os.remove` otherwise. -/
noncomputable def delitem (fs : FS) (p : Path) : FS × Except Err Unit :=
  match fs p with
  | some .dir => if ∃ s, fs (p ++ [s]) ≠ none then (fs, .error .osError) else (fs.set p none, .ok ())
  | some (.file _) => (fs.set p none, .ok ())
  | none => (fs, .error (if ∃ q, q <+: p ∧ q ≠ p ∧ ∃ c, fs q = some (.file c) then .osError else .fileNotFound))

/-! ## Memoisation -/

/-- What `memoize` finds in its file, `/repo/dec/data.py:77-83`. -/
inductive Disk
  | absent
  | stored (m : String → Option String)
  | torn

/-- A running Python process that imported the memoised function, `/repo/dec/data.py:77-98`. -/
structure Session where
  dct : String → Option String
  changed : Bool

/-- The memoised function: `fin`, `fout` and `process` of `/repo/dec/data.py:76-94`; `process` can raise an exception. -/
structure Memo (Obj Exc : Type*) where
  fin : Obj → String
  fout : String → Obj
  process : Obj → Except Exc Obj

/-- The file, the running processes (any number, running concurrently) and the process that is between the truncation of the file and the
completion of the write in `commit` (`/repo/dec/data.py:96-98` through 30-34). -/
structure State where
  disk : Disk
  sess : ℕ → Option Session
  writer : Option ℕ

/-- What can happen. For /repo/dec/data.py:76-102. -/
inductive Event (Obj : Type*)
  /-- process `i` starts and imports the module (`/repo/dec/data.py:77-83`) -/
  | start (i : ℕ)
  /-- process `i` calls the memoised function (`/repo/dec/data.py:85-94`) -/
  | call (i : ℕ) (x : Obj)
  /-- process `i` begins to exit: `commit` (`/repo/dec/data.py:96-100`) -/
  | exitBegin (i : ℕ)
  /-- the write of `commit` is complete and the process ends -/
  | exitEnd (i : ℕ)
  /-- process `i` is killed, at any moment -/
  | crash (i : ℕ)

/-- What the outside world observes of an event. -/
inductive Obs (Obj Exc : Type*)
  | silent
  /-- the start raised an exception that `memoize` does not catch -/
  | startError (e : Err)
  /-- a call returned; `computed` tells whether `process` was run and returned -/
  | returned (r : Except Exc Obj) (computed : Bool)

variable {Obj Exc : Type*}

/-- The processes with process `i` replaced. For /repo/dec/data.py:76-102. -/
def State.setSess (s : State) (i : ℕ) (x : Option Session) : State := { s with sess := fun j => if j = i then x else s.sess j }

/-- One event, `/repo/dec/data.py:76-102`.  Events of processes that are not in the right phase have no effect.  Simplification: the
commits of two processes do not overlap (a process begins to exit only when no other one is writing). -/
def step (M : Memo Obj Exc) (s : State) : Event Obj → State × Obs Obj Exc
  | .start i =>
    match s.sess i with
    | some _ => (s, .silent)
    | none => match s.disk with
      | .absent => (s.setSess i (some ⟨fun _ => none, true⟩), .silent)
      | .stored m => (s.setSess i (some ⟨m, false⟩), .silent)
      | .torn => (s, .startError .jsonDecode)
  | .call i x =>
    match s.sess i with
    | none => (s, .silent)
    | some σ =>
      if s.writer = some i then (s, .silent)
      else match σ.dct (M.fin x) with
        | some r => (s, .returned (.ok (M.fout r)) false)
        | none => match M.process x with
          | .error e => (s, .returned (.error e) false)
          | .ok r => (s.setSess i (some ⟨fun k => if k = M.fin x then some (M.fin r) else σ.dct k, true⟩), .returned (.ok r) true)
  | .exitBegin i =>
    match s.sess i with
    | none => (s, .silent)
    | some σ =>
      if s.writer ≠ none then (s, .silent)
      else if σ.changed then ({ s with disk := .torn, writer := some i }, .silent)
      else (s.setSess i none, .silent)
  | .exitEnd i =>
    match s.sess i with
    | none => (s, .silent)
    | some σ =>
      if s.writer = some i then ({ s.setSess i none with disk := .stored σ.dct, writer := none }, .silent)
      else (s, .silent)
  | .crash i => ({ s.setSess i none with writer := if s.writer = some i then none else s.writer }, .silent)

/-- A history: the states and observations of a list of events. For /repo/dec/data.py:76-102. -/
def run (M : Memo Obj Exc) : State → List (Event Obj) → State × List (Event Obj × Obs Obj Exc)
  | s, [] => (s, [])
  | s, e :: es =>
    let (s', o) := step M s e
    let (s'', os) := run M s' es
    (s'', (e, o) :: os)

/-- The beginning of every history: no process runs. For /repo/dec/data.py:76-83. -/
def init (d : Disk) : State := ⟨d, fun _ => none, none⟩

end Dec.Data
