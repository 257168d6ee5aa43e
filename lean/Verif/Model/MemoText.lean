import Verif.Model.JsonText

/-!
# Model of `memoize` (`/repo/dec/data.py:76-102`) with the text of the file and commits that overlap

`Model/Data.lean` models the memo file by what `json.load` makes of it and excludes commits of two processes at the same time. Here the file is its text, processes open, write in pieces and
close it whenever they like, and what a start reads may be any JSON value. Simplification: a start reads the file in one piece.
-/

namespace Dec.MemoText

open Dec.Text

/-- The arguments of `memoize` and the wrapped function (`process`), `/repo/dec/data.py:76,85-94`, and Python's `TypeError`. -/
structure Memo (Obj Exc : Type) where
  fin : Obj → PyStr
  fout : Val → Except Exc Obj
  process : Obj → Except Exc Obj
  typeError : Exc

/-- Is `b` somewhere inside `a`? For `fin(expr) in dct` with a string `dct`, /repo/dec/data.py:87. -/
def hasInside (b : PyStr) : PyStr → Bool
  | [] => b.isEmpty
  | c :: a => b.isPrefixOf (c :: a) || hasInside b a

/-- Is a JSON value this string? For /repo/dec/data.py:87. -/
def isStr (k : PyStr) : Val → Bool
  | .str s => s == k
  | _ => false

/-- `k in dct`, `/repo/dec/data.py:87`; `none` is `TypeError`. -/
def isIn (k : PyStr) : Val → Option Bool
  | .dict l => some (l.any fun e => e.1 == k)
  | .list l => some (l.any (isStr k))
  | .str s => some (hasInside k s)
  | _ => none

/-- `dct[k]` for a string `k`, `/repo/dec/data.py:88`; `none` is an exception (`TypeError`, as it is only evaluated if `k in dct`). -/
def getKey (k : PyStr) : Val → Option Val
  | .dict l => (l.find? fun e => e.1 == k).map (·.2)
  | _ => none

/-- `dct[k] = v`, `/repo/dec/data.py:91`; `none` is `TypeError`. -/
def setKey (k : PyStr) (v : Val) : Val → Option Val
  | .dict l => some (.dict (dictSet k v l))
  | _ => none

/-- A Python process: it has imported the memoised function and holds `dct` and `changed` (`/repo/dec/data.py:77-83`), or it is in the `open … json.dump` of `commit` (lines 96-98 through 30-34). -/
inductive Proc
  | running (dct : Val) (changed : Bool)
  | writing (w : Writer)

/-- The file (`none`: absent) and the processes, `/repo/dec/data.py:76-102`. -/
structure State where
  file : Option (List Char)
  proc : ℕ → Option Proc

/-- What can happen. For /repo/dec/data.py:76-102. -/
inductive Event (Obj : Type)
  /-- process `i` starts and imports the module (`/repo/dec/data.py:77-83`) -/
  | start (i : ℕ)
  /-- process `i` calls the memoised function (`/repo/dec/data.py:86-94`) -/
  | call (i : ℕ) (x : Obj)
  /-- process `i` begins to exit (`/repo/dec/data.py:96-100`): with `changed` it opens the file, which makes it empty -/
  | exitBegin (i : ℕ)
  /-- the next `k` characters of process `i` reach the file (`/repo/dec/data.py:30-34`) -/
  | flush (i k : ℕ)
  /-- the remaining characters reach the file and process `i` ends -/
  | exitEnd (i : ℕ)
  /-- process `i` is killed -/
  | crash (i : ℕ)

/-- What the outside world sees of an event. For /repo/dec/data.py:76-102. -/
inductive Obs (Obj Exc : Type)
  | silent
  /-- the import raised an exception that `memoize` does not catch -/
  | startError (e : Err)
  /-- a call ended; `ran` tells whether `process` was run and returned -/
  | returned (r : Except Exc Obj) (ran : Bool)

variable {Obj Exc : Type}

/-- Process `i` replaced. For /repo/dec/data.py:76-102. -/
def State.setProc (s : State) (i : ℕ) (p : Option Proc) : State := { s with proc := fun j => if j = i then p else s.proc j }

/-- One call of the memoised function, `/repo/dec/data.py:86-94`, on the table `dct`: the new table if it was changed, what the call returns or raises, and whether `process` was run. -/
def call (M : Memo Obj Exc) (dct : Val) (x : Obj) : Option Val × Except Exc Obj × Bool :=
  match isIn (M.fin x) dct with
  | none => (none, .error M.typeError, false)
  | some true => match getKey (M.fin x) dct with
    | none => (none, .error M.typeError, false)
    | some v => (none, M.fout v, false)
  | some false => match M.process x with
    | .error e => (none, .error e, false)
    | .ok r => match setKey (M.fin x) (.str (M.fin r)) dct with
      | none => (none, .error M.typeError, true)
      | some d => (some d, .ok r, true)

/-- One event, `/repo/dec/data.py:76-102`. Events of processes that are not in the right phase have no effect. -/
def step (M : Memo Obj Exc) (s : State) : Event Obj → State × Obs Obj Exc
  | .start i => match s.proc i with
    | some _ => (s, .silent)
    | none => match s.file with
      | none => (s.setProc i (some (.running (.dict []) true)), .silent)
      | some f => match load f with
        | .ok v => (s.setProc i (some (.running v false)), .silent)
        | .error e => (s, .startError e)
  | .call i x => match s.proc i with
    | some (.running dct _) => match call M dct x with
      | (some d, r, ran) => (s.setProc i (some (.running d true)), .returned r ran)
      | (none, r, ran) => (s, .returned r ran)
    | _ => (s, .silent)
  | .exitBegin i => match s.proc i with
    | some (.running dct true) => ({ s.setProc i (some (.writing ⟨dump dct, 0⟩)) with file := some [] }, .silent)
    | some (.running _ false) => (s.setProc i none, .silent)
    | _ => (s, .silent)
  | .flush i k => match s.proc i with
    | some (.writing w) => ({ s.setProc i (some (.writing ⟨w.text, min (w.pos + k) w.text.length⟩)) with
        file := some (overwrite (s.file.getD []) w.pos ((w.text.drop w.pos).take k)) }, .silent)
    | _ => (s, .silent)
  | .exitEnd i => match s.proc i with
    | some (.writing w) => ({ s.setProc i none with file := some (overwrite (s.file.getD []) w.pos (w.text.drop w.pos)) }, .silent)
    | _ => (s, .silent)
  | .crash i => (s.setProc i none, .silent)

/-- The state after a history. For /repo/dec/data.py:76-102. -/
def run (M : Memo Obj Exc) (s : State) (es : List (Event Obj)) : State := es.foldl (fun s e => (step M s e).1) s

/-- No process is running. For /repo/dec/data.py:76-102. -/
def init (file : Option (List Char)) : State := ⟨file, fun _ => none⟩

end Dec.MemoText
