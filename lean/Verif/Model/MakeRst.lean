import Mathlib.Data.List.Basic

/-!
# Model of the text functions of `/repo/make_rst.py`

Strings are lists of characters. `re.sub` scans from the left, replaces a match and continues behind it, and copies a character where there is no match. The patterns are modelled by the matchers they
denote: which text the match at the front of a string consumes and what replaces it. No pattern matches the empty string. `pandoc` and `lyx` (lines 48-65, 81-98) are parameters.
-/

namespace Dec.MakeRst

/-- A matcher: the replacement of the match at the front of the string and the rest of the string behind it. For /repo/make_rst.py:124-166. -/
abbrev Matcher := List Char → Option (List Char × List Char)

/-- `re.sub` with a matcher, `/repo/make_rst.py:129-130,144,151,159,164`. `n` bounds the number of steps (`sub` uses the length of the text). -/
def subN (m : Matcher) : ℕ → List Char → List Char
  | 0, _ => []
  | _, [] => []
  | n + 1, c :: s => match m (c :: s) with
    | some (r, s') => r ++ subN m n s'
    | none => c :: subN m n s

/-- `re.sub(regex, f, source)`, `/repo/make_rst.py:129-130,144,151,159,164`. -/
def sub (m : Matcher) (s : List Char) : List Char := subN m s.length s

/-- `s` without the prefix `p`, if it starts with `p`: a literal piece of a pattern. For /repo/make_rst.py:124-166. -/
def strip : List Char → List Char → Option (List Char)
  | [], s => some s
  | _ :: _, [] => none
  | p :: ps, c :: s => if p = c then strip ps s else none

/-- `(.*?)` followed by the literal `close`: the shortest text, and the rest behind `close`. `dot` says which characters `.` matches (`re.DOTALL`: all of them, otherwise not the newline).
For /repo/make_rst.py:141,148,156. -/
def lazy (dot : Char → Bool) (close : List Char) : List Char → Option (List Char × List Char)
  | [] => (strip close []).map fun rest => ([], rest)
  | c :: s =>
    match strip close (c :: s) with
    | some rest => some ([], rest)
    | none => if dot c then (lazy dot close s).map fun r => (c :: r.1, r.2) else none

/-- `(.*)` followed by the literal `close`: the longest text, and the rest behind `close`. For /repo/make_rst.py:161. -/
def greedy (dot : Char → Bool) (close : List Char) : List Char → Option (List Char × List Char)
  | [] => (strip close []).map fun rest => ([], rest)
  | c :: s =>
    match (if dot c then greedy dot close s else none) with
    | some r => some (c :: r.1, r.2)
    | none => (strip close (c :: s)).map fun rest => ([], rest)

/-- `.` without `re.DOTALL`. For /repo/make_rst.py:141,148,161. -/
def notNewline (c : Char) : Bool := c ≠ '\n'

/-- A literal pattern. For /repo/make_rst.py:126-127. -/
def literal (p r : List Char) : Matcher := fun s => (strip p s).map fun rest => (r, rest)

/-- Does the pattern occur? `re.search`, `/repo/make_rst.py:128`. -/
def occurs (p : List Char) : List Char → Bool
  | [] => (strip p []).isSome
  | c :: s => (strip p (c :: s)).isSome || occurs p s

/-- The text `\providecommand{\tabularnewline}{\\}`, `/repo/make_rst.py:126`. -/
def tabDef : List Char := "\\providecommand{\\tabularnewline}{\\\\}".toList
/-- The text `\tabularnewline`, `/repo/make_rst.py:127`. -/
def tabUse : List Char := "\\tabularnewline".toList

/-- `fix_tabularnewline`, `/repo/make_rst.py:124-131`. -/
def fix_tabularnewline (s : List Char) : List Char :=
  if occurs tabDef s then sub (literal tabUse "\\\\".toList) (sub (literal tabDef []) s) else s

/-- `[figure|image]` is a set of characters. For /repo/make_rst.py:141. -/
def figureOrImage (c : Char) : Bool := c ∈ "figure|image".toList

/-- `\s` for Python strings. For /repo/make_rst.py:141. -/
def space (c : Char) : Bool :=
  let n := c.toNat
  (9 ≤ n && n ≤ 13) || (28 ≤ n && n ≤ 32) || n == 0x85 || n == 0xa0 || n == 0x1680 || (0x2000 ≤ n && n ≤ 0x200a) || n == 0x2028 || n == 0x2029 || n == 0x202f || n == 0x205f || n == 0x3000

/-- `([figure|image])::\s*(.*?)\.pdf`, `/repo/make_rst.py:141-143`. (`\s*` takes all white space: giving some of it back cannot make the rest match, as `.pdf` does not start with white space and
`.` does not match the newline.) -/
def pdfMatch : Matcher
  | [] => none
  | c :: s =>
    if figureOrImage c then do
      let s ← strip "::".toList s
      let (name, rest) ← lazy notNewline ".pdf".toList (s.dropWhile space)
      some (c :: (":: ".toList ++ name ++ ".png".toList), rest)
    else none

/-- `fix_pdf2png`, `/repo/make_rst.py:140-145`. -/
def fix_pdf2png (s : List Char) : List Char := sub pdfMatch s

/-- What a pattern `open (…) close` does whose group is lazy. For /repo/make_rst.py:148-150,156-158. -/
def bracket (dot : Char → Bool) («open» close pre post : List Char) : Matcher := fun s => do
  let s ← strip «open» s
  let (name, rest) ← lazy dot close s
  some (pre ++ name ++ post, rest)

/-- The text ``:raw-latex:`\cite{``. For /repo/make_rst.py:148. -/
def citeOpen : List Char := ":raw-latex:`\\cite{".toList

/-- `fix_citations`, `/repo/make_rst.py:147-152`. -/
def fix_citations (s : List Char) : List Char := sub (bracket notNewline citeOpen "}`".toList ":cite:`".toList "`".toList) s

/-- The text `\label{eq:`. For /repo/make_rst.py:156. -/
def labelOpen : List Char := "\\label{eq:".toList
/-- The text `[eq:`. For /repo/make_rst.py:161. -/
def refOpen : List Char := "[eq:".toList

/-- The first half of `fix_eq_labels`, `/repo/make_rst.py:156-159`. -/
def fixLabels (s : List Char) : List Char := sub (bracket (fun _ => true) labelOpen "}".toList "\n   :label: ".toList []) s

/-- `\[eq:(.*)]`, `/repo/make_rst.py:161-163`: the group is greedy. -/
def refMatch : Matcher := fun s => do
  let s ← strip refOpen s
  let (name, rest) ← greedy notNewline "]".toList s
  some (" :eq:`".toList ++ name ++ "` ".toList, rest)

/-- The second half of `fix_eq_labels`, `/repo/make_rst.py:161-164`. -/
def fixRefs (s : List Char) : List Char := sub refMatch s

/-- `fix_eq_labels`, `/repo/make_rst.py:154-166`. -/
def fix_eq_labels (s : List Char) : List Char := fixRefs (fixLabels s)

/-- `latex2rst` around `pandoc`, `/repo/make_rst.py:67-79`. `pandoc` may fail. -/
def latex2rst {E : Type} (pandoc : List Char → Except E (List Char)) (s : List Char) : Except E (List Char) := do
  let out ← pandoc (fix_tabularnewline s)
  .ok (fix_citations (fix_pdf2png (fix_eq_labels out)))

/-- The files by name, with their texts. For /repo/make_rst.py:168-184. Encodings and the translation of line ends are not modelled. -/
abbrev Files := List Char → Option (List Char)

/-- A file is written. For /repo/make_rst.py:173-174. -/
def Files.set (fs : Files) (name text : List Char) : Files := fun x => if x = name then some text else fs x

/-- The exceptions of `process`, `/repo/make_rst.py:172,196,202`, and those of the external programs. -/
inductive Failure (E : Type)
  | assertion
  | unrecognized
  | notFound
  | tool (e : E)

/-- The body of `process_tex` and `process_lyx`, `/repo/make_rst.py:168-184`: the input is opened, the output is opened for writing, which empties it, then the converter runs, and its result is written. -/
def convert {E : Type} (conv : List Char → Except E (List Char)) (fs : Files) (i o : List Char) : Files × Except (Failure E) Unit :=
  match fs i with
  | none => (fs, .error .notFound)
  | some src =>
    match conv src with
    | .error e => (fs.set o [], .error (.tool e))
    | .ok text => (fs.set o text, .ok ())

/-- The part of a path behind the last `/`, and what is in front of it. For `os.path.splitext`, /repo/make_rst.py:197. -/
def splitDir (s : List Char) : List Char × List Char := ((s.reverse.dropWhile (· ≠ '/')).reverse, (s.reverse.takeWhile (· ≠ '/')).reverse)

/-- `os.path.splitext`, `/repo/make_rst.py:197`: the extension starts at the last dot of the last component that is not one of its leading dots. -/
def splitext (s : List Char) : List Char × List Char :=
  let d := splitDir s
  let lead := d.2.takeWhile (· = '.')
  let body := d.2.dropWhile (· = '.')
  match body.reverse.dropWhile (· ≠ '.') with
  | [] => (s, [])
  | _ :: r => (d.1 ++ lead ++ r.reverse, '.' :: (body.reverse.takeWhile (· ≠ '.')).reverse)

/-- `process(fname)`, `/repo/make_rst.py:194-202`. A name of which `os.path.isfile` is true is one that is in `fs`. -/
def process {E : Type} (pandoc lyx : List Char → Except E (List Char)) (fs : Files) (fname : List Char) : Files × Except (Failure E) Unit :=
  if (fs fname).isNone then (fs, .error .assertion)
  else
    let (name, ext) := splitext fname
    if ext = ".tex".toList then convert (latex2rst pandoc) fs (name ++ ".tex".toList) (name ++ ".rst".toList)
    else if ext = ".lyx".toList then convert (fun s => do let t ← lyx s; latex2rst pandoc t) fs (name ++ ".lyx".toList) (name ++ ".rst".toList)
    else if ext = ".rst".toList then (fs, .ok ())
    else (fs, .error .unrecognized)

/-- `make_rst.py FILES…`, `/repo/make_rst.py:204-206`: an exception ends the loop. -/
def main {E : Type} (pandoc lyx : List Char → Except E (List Char)) : Files → List (List Char) → Files × Except (Failure E) Unit
  | fs, [] => (fs, .ok ())
  | fs, f :: l => match process pandoc lyx fs f with
    | (fs', .ok ()) => main pandoc lyx fs' l
    | (fs', .error e) => (fs', .error e)

end Dec.MakeRst
