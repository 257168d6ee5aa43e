import Verif.Model.Data

/-!
# The files of `/repo/dec/data.py` as texts

`Model/Data.lean` says of a file that it holds a complete document or that `json.load` rejects it. Here the file is its text: what `json.dump` writes, what
`json.load` makes of an arbitrary text, and what happens to the text when processes write at the same time or are killed while writing.
-/

namespace Dec.Text

/-- A Python string: its code points (surrogates are allowed). For /repo/dec/data.py:30-34. -/
abbrev PyStr := List ℕ

/-- A value as `json` knows it, `/repo/dec/data.py:14-34`. A number is its literal (`repr`), so that integers and floats (with `NaN`, `Infinity` and `-Infinity`) are covered; a dict is the list
of its entries in the order of the keys, which is the order that `sort_keys=True` writes (line 33). -/
inductive Val
  | null
  | bool (b : Bool)
  | num (lit : List Char)
  | str (s : PyStr)
  | list (l : List Val)
  | dict (l : List (PyStr × Val))

/-! ## Writing -/

/-- `'{0:04x}'.format(n)`, used by the `json` module for line 31 of `/repo/dec/data.py`. -/
def hex4 (n : ℕ) : List Char := [Nat.digitChar (n / 4096 % 16), Nat.digitChar (n / 256 % 16), Nat.digitChar (n / 16 % 16), Nat.digitChar (n % 16)]

/-- `'\\uXXXX'`. For /repo/dec/data.py:31-34 (`ensure_ascii` is on by default). -/
def uEscape (n : ℕ) : List Char := '\\' :: 'u' :: hex4 n

/-- One character of a string in ASCII, `py_encode_basestring_ascii` of the `json` module; beyond `0xffff` a surrogate pair. For /repo/dec/data.py:31-34. -/
def escape (c : ℕ) : List Char :=
  if c = 34 then ['\\', '"'] else if c = 92 then ['\\', '\\']
  else if c = 10 then ['\\', 'n'] else if c = 13 then ['\\', 'r'] else if c = 9 then ['\\', 't']
  else if c = 12 then ['\\', 'f'] else if c = 8 then ['\\', 'b']
  else if 32 ≤ c ∧ c ≤ 126 then [Char.ofNat c]
  else if c < 65536 then uEscape c
  else uEscape (55296 + (c - 65536) / 1024) ++ uEscape (56320 + (c - 65536) % 1024)

/-- A string with its quotes. For /repo/dec/data.py:31-34. -/
def dumpStr (s : PyStr) : List Char := '"' :: (s.flatMap escape ++ ['"'])

/-- The newline and the indentation of a level, `indent=2`, `/repo/dec/data.py:34`. -/
def nl (level : ℕ) : List Char := '\n' :: List.replicate (2 * level) ' '

mutual
/-- `json.dump(value, f, cls=JSONEncoder, sort_keys=True, indent=2)`, `/repo/dec/data.py:31-34`: the text of a value at a level of nesting. -/
def dumpAt (level : ℕ) : Val → List Char
  | .null => "null".toList
  | .bool true => "true".toList
  | .bool false => "false".toList
  | .num lit => lit
  | .str s => dumpStr s
  | .list [] => "[]".toList
  | .list (v :: l) => '[' :: (nl (level + 1) ++ (dumpAt (level + 1) v ++ (dumpList level l ++ (nl level ++ [']']))))
  | .dict [] => "{}".toList
  | .dict ((k, v) :: l) => '{' :: (nl (level + 1) ++ (dumpStr k ++ (':' :: ' ' :: (dumpAt (level + 1) v ++ (dumpDict level l ++ (nl level ++ ['}']))))))
/-- The elements of a list after the first one, each after a comma and a newline. For /repo/dec/data.py:31-34. -/
def dumpList (level : ℕ) : List Val → List Char
  | [] => []
  | v :: l => ',' :: (nl (level + 1) ++ (dumpAt (level + 1) v ++ dumpList level l))
/-- The entries of a dict after the first one. For /repo/dec/data.py:31-34. -/
def dumpDict (level : ℕ) : List (PyStr × Val) → List Char
  | [] => []
  | (k, v) :: l => ',' :: (nl (level + 1) ++ (dumpStr k ++ (':' :: ' ' :: (dumpAt (level + 1) v ++ dumpDict level l))))
end

/-- The text of a file written by `setitem`, `/repo/dec/data.py:30-34`. -/
def dump (v : Val) : List Char := dumpAt 0 v

/-! ## Reading -/

/-- The white space of JSON. For /repo/dec/data.py:19-20. -/
def isWs (c : Char) : Bool := c == ' ' || c == '\t' || c == '\n' || c == '\r'

/-- Skipping white space. For /repo/dec/data.py:19-20. -/
def skipWs (s : List Char) : List Char := s.dropWhile isWs

/-- A hexadecimal digit. For /repo/dec/data.py:19-20. -/
def hexVal (c : Char) : Option ℕ :=
  if '0' ≤ c ∧ c ≤ '9' then some (c.toNat - 48) else if 'a' ≤ c ∧ c ≤ 'f' then some (c.toNat - 87) else if 'A' ≤ c ∧ c ≤ 'F' then some (c.toNat - 55) else none

/-- Four hexadecimal digits. For /repo/dec/data.py:19-20. -/
def hexVal4 (a b c d : Char) : Option ℕ :=
  match hexVal a, hexVal b, hexVal c, hexVal d with
  | some a, some b, some c, some d => some (a * 4096 + b * 256 + c * 16 + d)
  | _, _, _, _ => none

/-- The one-letter escapes. For /repo/dec/data.py:19-20. -/
def simpleEsc (c : Char) : Option ℕ :=
  if c = '"' then some 34 else if c = '\\' then some 92 else if c = '/' then some 47 else if c = 'b' then some 8 else if c = 'f' then some 12
  else if c = 'n' then some 10 else if c = 'r' then some 13 else if c = 't' then some 9 else none

/-- The rest of a string after its opening quote, `scanstring` of the `json` module: the code units, each with a flag that tells whether it was written as `\uXXXX`, and what follows the closing
quote. Control characters are rejected (`strict=True`). For /repo/dec/data.py:19-20. -/
def strUnits : List Char → Option (List (ℕ × Bool) × List Char)
  | [] => none
  | c :: r =>
    if c = '"' then some ([], r)
    else if c = '\\' then
      match r with
      | [] => none
      | e :: r1 =>
        if e = 'u' then
          match r1 with
          | a :: b :: c :: d :: r2 => match hexVal4 a b c d, strUnits r2 with
            | some n, some (u, t) => some ((n, true) :: u, t)
            | _, _ => none
          | _ => none
        else match simpleEsc e, strUnits r1 with
          | some n, some (u, t) => some ((n, false) :: u, t)
          | _, _ => none
    else if c.toNat < 32 then none
    else match strUnits r with
      | some (u, t) => some ((c.toNat, false) :: u, t)
      | none => none

/-- A high and a low surrogate, both written as `\uXXXX`, become one character. For /repo/dec/data.py:19-20. -/
def joinUnits : List (ℕ × Bool) → PyStr
  | [] => []
  | [u] => [u.1]
  | u :: w :: l =>
    if u.2 = true ∧ w.2 = true ∧ 55296 ≤ u.1 ∧ u.1 ≤ 56319 ∧ 56320 ≤ w.1 ∧ w.1 ≤ 57343
    then (65536 + ((u.1 - 55296) * 1024 + (w.1 - 56320))) :: joinUnits l
    else u.1 :: joinUnits (w :: l)

/-- A string after its opening quote. For /repo/dec/data.py:19-20. -/
def loadStr (s : List Char) : Option (PyStr × List Char) :=
  match strUnits s with
  | some (u, t) => some (joinUnits u, t)
  | none => none

/-- A decimal digit. For /repo/dec/data.py:19-20. -/
def isDigit (c : Char) : Bool := '0' ≤ c ∧ c ≤ '9'

/-- `-?(0|[1-9]\d*)`. For /repo/dec/data.py:19-20. -/
def scanInt (s : List Char) : Option (List Char × List Char) :=
  let (sign, r) := match s with
    | c :: r => if c = '-' then ([c], r) else ([], s)
    | [] => ([], s)
  match r with
  | [] => none
  | c :: r' =>
    if c = '0' then some (sign ++ [c], r')
    else if isDigit c then some (sign ++ c :: r'.takeWhile isDigit, r'.dropWhile isDigit)
    else none

/-- `(\.\d+)?`. For /repo/dec/data.py:19-20. -/
def scanFrac (s : List Char) : List Char × List Char :=
  match s with
  | c :: d :: r => if c = '.' ∧ isDigit d then (c :: d :: r.takeWhile isDigit, r.dropWhile isDigit) else ([], s)
  | _ => ([], s)

/-- `([eE][-+]?\d+)?`. For /repo/dec/data.py:19-20. -/
def scanExp (s : List Char) : List Char × List Char :=
  match s with
  | c :: d :: r =>
    if c = 'e' ∨ c = 'E' then
      if isDigit d then (c :: d :: r.takeWhile isDigit, r.dropWhile isDigit)
      else if d = '+' ∨ d = '-' then
        match r with
        | f :: r' => if isDigit f then (c :: d :: f :: r'.takeWhile isDigit, r'.dropWhile isDigit) else ([], s)
        | [] => ([], s)
      else ([], s)
    else ([], s)
  | _ => ([], s)

/-- `NUMBER_RE` of the `json` module. For /repo/dec/data.py:19-20. -/
def scanNum (s : List Char) : Option (List Char × List Char) :=
  match scanInt s with
  | none => none
  | some (i, r) => some (i ++ ((scanFrac r).1 ++ (scanExp (scanFrac r).2).1), (scanExp (scanFrac r).2).2)

/-- A fixed word at the beginning of the text. For /repo/dec/data.py:19-20. -/
def word (w : List Char) (v : Val) (s : List Char) : Option (Val × List Char) := if w <+: s then some (v, s.drop w.length) else none

/-- A number, or one of the words for the floats that are not numbers. For /repo/dec/data.py:19-20. -/
def loadNum (s : List Char) : Option (Val × List Char) :=
  match scanNum s with
  | some (lit, t) => some (.num lit, t)
  | none => match word "NaN".toList (.num "NaN".toList) s with
    | some x => some x
    | none => match word "Infinity".toList (.num "Infinity".toList) s with
      | some x => some x
      | none => word "-Infinity".toList (.num "-Infinity".toList) s

/-- The entry `k: v` set in a dict (kept in the order of the keys). For /repo/dec/data.py:19-20. -/
def dictSet (k : PyStr) (v : Val) : List (PyStr × Val) → List (PyStr × Val)
  | [] => [(k, v)]
  | e :: l => if k = e.1 then (k, v) :: l else if k < e.1 then (k, v) :: e :: l else e :: dictSet k v l

/-- `dict(pairs)`: the last of several values of one key wins. For /repo/dec/data.py:19-20. -/
def ofPairs (l : List (PyStr × Val)) : List (PyStr × Val) := l.foldl (fun d e => dictSet e.1 e.2 d) []

mutual
/-- `scan_once` of the `json` module: one value at the beginning of the text, and the rest. The first argument bounds the recursion; `value_fuel` (Lib/JsonText.lean) shows that
any bound above twice the length of the text gives the same result (Python's own limit on the depth of recursion is not modelled). For /repo/dec/data.py:19-20. -/
def value : ℕ → List Char → Option (Val × List Char)
  | 0, _ => none
  | n + 1, s =>
    match s with
    | [] => none
    | c :: r =>
      if c = '"' then
        match loadStr r with
        | some (u, t) => some (.str u, t)
        | none => none
      else if c = '{' then
        match skipWs r with
        | [] => none
        | d :: t =>
          if d = '}' then some (.dict [], t)
          else match members n (d :: t) with
            | some (l, t') => some (.dict (ofPairs l), t')
            | none => none
      else if c = '[' then
        match skipWs r with
        | [] => none
        | d :: t =>
          if d = ']' then some (.list [], t)
          else match elements n (d :: t) with
            | some (l, t') => some (.list l, t')
            | none => none
      else if c = 'n' then word "null".toList .null s
      else if c = 't' then word "true".toList (.bool true) s
      else if c = 'f' then word "false".toList (.bool false) s
      else loadNum s
/-- The elements of an array from the first one on, and what follows the closing bracket. For /repo/dec/data.py:19-20. -/
def elements : ℕ → List Char → Option (List Val × List Char)
  | 0, _ => none
  | n + 1, s =>
    match value n s with
    | none => none
    | some (v, r) =>
      match skipWs r with
      | [] => none
      | c :: t =>
        if c = ']' then some ([v], t)
        else if c = ',' then
          match elements n (skipWs t) with
          | some (l, t') => some (v :: l, t')
          | none => none
        else none
/-- The entries of an object from the first one on, and what follows the closing brace. For /repo/dec/data.py:19-20. -/
def members : ℕ → List Char → Option (List (PyStr × Val) × List Char)
  | 0, _ => none
  | n + 1, s =>
    match s with
    | [] => none
    | q :: s' =>
      if q = '"' then
        match loadStr s' with
        | none => none
        | some (k, r) =>
          match skipWs r with
          | [] => none
          | c :: r1 =>
            if c = ':' then
              match value n (skipWs r1) with
              | none => none
              | some (v, r2) =>
                match skipWs r2 with
                | [] => none
                | d :: t =>
                  if d = '}' then some ([(k, v)], t)
                  else if d = ',' then
                    match members n (skipWs t) with
                    | some (l, t') => some ((k, v) :: l, t')
                    | none => none
                  else none
            else none
      else none
end

/-- `json.load(f)`, `/repo/dec/data.py:19-20`: one value, with white space around it, and nothing else (a byte order mark, which no modelled writer produces, is not modelled). -/
def load (s : List Char) : Except Err Val :=
  match value (2 * s.length + 1) (skipWs s) with
  | some (v, r) => if skipWs r = [] then .ok v else .error .jsonDecode
  | none => .error .jsonDecode

/-! ## Values that may fail to be written -/

/-- A value handed to `setitem`; `other` is an object that `JSONEncoder.default` refuses, `/repo/dec/data.py:7-12`. (Arrays and tuples are written as lists: `list`.) -/
inductive Obj
  | val (v : Val)
  | other
  | list (l : List Obj)
  | dict (l : List (PyStr × Obj))

/-- Writing `y` after `x`, unless writing `x` raised an exception. For /repo/dec/data.py:31-34. -/
def andThen (x y : List Char × Bool) : List Char × Bool := if x.2 then (x.1 ++ y.1, y.2) else x

mutual
/-- The text that has been written when `json.dump` returns (`true`) or raises `TypeError` (`false`), `/repo/dec/data.py:31-34`. -/
def emit (level : ℕ) : Obj → List Char × Bool
  | .val v => (dumpAt level v, true)
  | .other => ([], false)
  | .list [] => ("[]".toList, true)
  | .list (v :: l) =>
    let (t, ok) := andThen (emit (level + 1) v) (andThen (emitList level l) (nl level ++ [']'], true))
    ('[' :: (nl (level + 1) ++ t), ok)
  | .dict [] => ("{}".toList, true)
  | .dict ((k, v) :: l) =>
    let (t, ok) := andThen (emit (level + 1) v) (andThen (emitDict level l) (nl level ++ ['}'], true))
    ('{' :: (nl (level + 1) ++ (dumpStr k ++ (':' :: ' ' :: t))), ok)
/-- The elements of a list after the first one. For /repo/dec/data.py:31-34. -/
def emitList (level : ℕ) : List Obj → List Char × Bool
  | [] => ([], true)
  | v :: l =>
    let (t, ok) := andThen (emit (level + 1) v) (emitList level l)
    (',' :: (nl (level + 1) ++ t), ok)
/-- The entries of a dict after the first one. For /repo/dec/data.py:31-34. -/
def emitDict (level : ℕ) : List (PyStr × Obj) → List Char × Bool
  | [] => ([], true)
  | (k, v) :: l =>
    let (t, ok) := andThen (emit (level + 1) v) (emitDict level l)
    (',' :: (nl (level + 1) ++ (dumpStr k ++ (':' :: ' ' :: t))), ok)
end

/-! ## Several processes writing one file -/

/-- A process between the opening of the file and the end of the write in `commit`, `/repo/dec/data.py:30-34,96-98`: the whole text it is going to write and how much of it has reached the file. -/
structure Writer where
  text : List Char
  pos : ℕ

/-- The file (if it exists) and the processes that are writing it. For /repo/dec/data.py:30-34, 96-98. -/
structure Shared where
  file : Option (List Char)
  writer : ℕ → Option Writer

/-- What can happen. The texts reach the file in pieces of any size, whenever buffers are flushed. For /repo/dec/data.py:30-34, 96-98. -/
inductive Ev
  /-- process `i` opens the file for writing, which makes it empty, and is going to write `text` -/
  | openw (i : ℕ) (text : List Char)
  /-- the next `k` characters of process `i` reach the file -/
  | flush (i k : ℕ)
  /-- the remaining characters reach the file and process `i` closes it -/
  | close (i : ℕ)
  /-- process `i` is killed -/
  | kill (i : ℕ)

/-- Writing `chunk` at position `p` of a file (every process has its own position); a gap is filled with zero bytes, as on POSIX systems. For /repo/dec/data.py:30-34. -/
def overwrite (file : List Char) (p : ℕ) (chunk : List Char) : List Char :=
  if chunk = [] then file else file.take p ++ (List.replicate (p - file.length) '\x00' ++ (chunk ++ file.drop (p + chunk.length)))

/-- Replacing one writer. For /repo/dec/data.py:30-34. -/
def Shared.setWriter (s : Shared) (i : ℕ) (w : Option Writer) : Shared := { s with writer := fun j => if j = i then w else s.writer j }

/-- One event, `/repo/dec/data.py:30-34,96-98`. Events of processes that are not in the right phase have no effect. -/
def Shared.step (s : Shared) : Ev → Shared
  | .openw i text => match s.writer i with
    | some _ => s
    | none => { s.setWriter i (some ⟨text, 0⟩) with file := some [] }
  | .flush i k => match s.writer i with
    | none => s
    | some w => { s.setWriter i (some ⟨w.text, min (w.pos + k) w.text.length⟩) with file := some (overwrite (s.file.getD []) w.pos ((w.text.drop w.pos).take k)) }
  | .close i => match s.writer i with
    | none => s
    | some w => { s.setWriter i none with file := some (overwrite (s.file.getD []) w.pos (w.text.drop w.pos)) }
  | .kill i => s.setWriter i none

/-- A history. For /repo/dec/data.py:30-34, 96-98. -/
def Shared.run (s : Shared) (es : List Ev) : Shared := es.foldl Shared.step s

/-- The text of a memo file: a dict of strings, `/repo/dec/data.py:85-98`. -/
def table (l : List (PyStr × PyStr)) : Val := .dict (l.map fun e => (e.1, .str e.2))

end Dec.Text
