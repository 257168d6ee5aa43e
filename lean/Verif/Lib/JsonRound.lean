import Verif.Lib.JsonText

/-!
# Reading back what was written

`value` applied to the text of a value gives that value.
-/

namespace Dec.Text

/-! ## Which values can be written and read back -/

/-- A code point that is the first half of a surrogate pair. For /repo/dec/data.py:30-34. -/
def High (c : ℕ) : Prop := 0xD800 ≤ c ∧ c ≤ 0xDBFF

/-- A code point that is the second half of a surrogate pair. For /repo/dec/data.py:30-34. -/
def Low (c : ℕ) : Prop := 0xDC00 ≤ c ∧ c ≤ 0xDFFF

/-- A Python string in which no first half of a surrogate pair stands right before a second half. For /repo/dec/data.py:30-34. -/
def GoodStr (s : PyStr) : Prop := (∀ c ∈ s, c < 0x110000) ∧ s.IsChain (fun a b => ¬ (High a ∧ Low b))

/-- Digits, at least one. For /repo/dec/data.py:30-34. -/
def Digits (l : List Char) : Prop := l ≠ [] ∧ ∀ c ∈ l, '0' ≤ c ∧ c ≤ '9'

/-- `repr` of an int or a float: a sign or none, digits without a leading zero, a fraction or none, an exponent or none; or one of three words. For /repo/dec/data.py:30-34. -/
inductive Literal : List Char → Prop
  | number (sign int frac exp : List Char) : (sign = [] ∨ sign = ['-']) → Digits int → (int.head? = some '0' → int = ['0']) →
      (frac = [] ∨ ∃ d, Digits d ∧ frac = '.' :: d) →
      (exp = [] ∨ ∃ e s d, (e = 'e' ∨ e = 'E') ∧ (s = [] ∨ s = ['+'] ∨ s = ['-']) ∧ Digits d ∧ exp = e :: (s ++ d)) →
      Literal (sign ++ (int ++ (frac ++ exp)))
  | nan : Literal "NaN".toList
  | inf : Literal "Infinity".toList
  | neginf : Literal "-Infinity".toList

/-- A value that Python can hold: good strings, literals of numbers, dicts with different keys (listed in order). For /repo/dec/data.py:30-34. -/
inductive Good : Val → Prop
  | null : Good .null
  | bool (b : Bool) : Good (.bool b)
  | num {l : List Char} : Literal l → Good (.num l)
  | str {s : PyStr} : GoodStr s → Good (.str s)
  | list {l : List Val} : (∀ v ∈ l, Good v) → Good (.list l)
  | dict {l : List (PyStr × Val)} : (∀ e ∈ l, GoodStr e.1) → l.Pairwise (fun a b => a.1 < b.1) → (∀ e ∈ l, Good e.2) → Good (.dict l)

/-! ## Strings -/

/-- The code units of a character, as `scanstring` sees them. For /repo/dec/data.py:19-20. -/
def unitsOf (c : ℕ) : List (ℕ × Bool) :=
  if c = 34 ∨ c = 92 ∨ c = 10 ∨ c = 13 ∨ c = 9 ∨ c = 12 ∨ c = 8 ∨ (32 ≤ c ∧ c ≤ 126) then [(c, false)]
  else if c < 65536 then [(c, true)]
  else [(55296 + (c - 65536) / 1024, true), (56320 + (c - 65536) % 1024, true)]

theorem hexVal_digitChar : ∀ k, k < 16 → hexVal (Nat.digitChar k) = some k := by decide

theorem hexVal4_hex4 {n : ℕ} (h : n < 65536) : hexVal4 (Nat.digitChar (n / 4096 % 16)) (Nat.digitChar (n / 256 % 16)) (Nat.digitChar (n / 16 % 16)) (Nat.digitChar (n % 16)) = some n := by
  unfold hexVal4
  rw [hexVal_digitChar _ (Nat.mod_lt _ (by norm_num)), hexVal_digitChar _ (Nat.mod_lt _ (by norm_num)), hexVal_digitChar _ (Nat.mod_lt _ (by norm_num)),
    hexVal_digitChar _ (Nat.mod_lt _ (by norm_num))]
  simp only [Option.some.injEq]
  omega

theorem strUnits_uEscape {n : ℕ} (h : n < 65536) {s r : List Char} {u : List (ℕ × Bool)} (hs : strUnits s = some (u, r)) :
    strUnits (uEscape n ++ s) = some ((n, true) :: u, r) := by
  unfold uEscape hex4
  simp only [List.cons_append, List.nil_append]
  rw [strUnits.eq_def]
  simp only [show ('\\' : Char) ≠ '"' by decide, if_false, if_true]
  rw [hexVal4_hex4 h, hs]

theorem strUnits_simple {e : Char} {n : ℕ} (he : simpleEsc e = some n) (hu : e ≠ 'u') {s r : List Char} {u : List (ℕ × Bool)} (hs : strUnits s = some (u, r)) :
    strUnits ('\\' :: e :: s) = some ((n, false) :: u, r) := by
  rw [strUnits.eq_def]
  simp only [show ('\\' : Char) ≠ '"' by decide, if_false, if_true, hu]
  rw [he, hs]

theorem strUnits_escape {c : ℕ} (hc : c < 0x110000) {s r : List Char} {u : List (ℕ × Bool)} (hs : strUnits s = some (u, r)) :
    strUnits (escape c ++ s) = some (unitsOf c ++ u, r) := by
  unfold escape unitsOf
  split_ifs <;> try omega
  all_goals try (subst c; exact strUnits_simple (by decide) (by decide) hs)
  · have e : (Char.ofNat c).toNat = c := by
      have hv : c.isValidChar := Or.inl (by omega)
      simp [Char.ofNat, hv, Char.ofNatAux, Char.toNat]
    have ne : ∀ d : Char, d.toNat ≠ c → Char.ofNat c ≠ d := by rintro d hd rfl; exact hd e
    simp only [List.cons_append, List.nil_append]
    rw [strUnits.eq_def]
    simp only [ne '"' (show 34 ≠ c by omega), ne '\\' (show 92 ≠ c by omega), if_false, e]
    rw [if_neg (by omega), hs]
  · exact strUnits_uEscape (by omega) hs
  · rw [List.append_assoc]
    exact strUnits_uEscape (by omega) (strUnits_uEscape (by omega) hs)

theorem strUnits_flatMap {s : PyStr} (h : ∀ c ∈ s, c < 0x110000) (rest : List Char) :
    strUnits (s.flatMap escape ++ '"' :: rest) = some (s.flatMap unitsOf, rest) := by
  induction s with
  | nil => rw [strUnits.eq_def]; simp
  | cons c s ih =>
    rw [List.flatMap_cons, List.append_assoc, List.flatMap_cons]
    exact strUnits_escape (h c (by simp)) (ih fun d hd => h d (by simp [hd]))

/-- The first unit of a character is the character, or a first half. -/
theorem unitsOf_head {c : ℕ} (hc : c < 0x110000) : ∃ u l, unitsOf c = u :: l ∧ (u.1 = c ∨ High u.1) := by
  unfold unitsOf
  split_ifs
  · exact ⟨_, _, rfl, Or.inl rfl⟩
  · exact ⟨_, _, rfl, Or.inl rfl⟩
  · exact ⟨_, _, rfl, Or.inr ⟨by simp, by simp; omega⟩⟩

theorem joinUnits_cons {u : ℕ × Bool} {l : List (ℕ × Bool)} (h : ∀ w l', l = w :: l' → ¬ (u.2 = true ∧ High u.1 ∧ Low w.1)) : joinUnits (u :: l) = u.1 :: joinUnits l := by
  cases l with
  | nil => simp [joinUnits]
  | cons w l =>
    rw [joinUnits, if_neg]
    rintro ⟨a, b, c, d, e, f⟩
    exact h w l rfl ⟨a, ⟨c, d⟩, e, f⟩

theorem joinUnits_flatMap {s : PyStr} (h : GoodStr s) : joinUnits (s.flatMap unitsOf) = s := by
  obtain ⟨hb, hc⟩ := h
  induction s with
  | nil => rfl
  | cons c s ih =>
    have ih := ih (fun d hd => hb d (by simp [hd])) hc.tail
    have hc0 := hb c (by simp)
    rw [List.flatMap_cons]
    have key : ∀ u : ℕ × Bool, u.1 = c → joinUnits (u :: s.flatMap unitsOf) = c :: s := by
      intro u hu
      rw [joinUnits_cons, ih, hu]
      intro w l' hw ⟨_, hh, hl⟩
      cases s with
      | nil => simp at hw
      | cons d s =>
        obtain ⟨u', l'', e, h'⟩ := unitsOf_head (hb d (by simp))
        rw [List.flatMap_cons, e, List.cons_append, List.cons.injEq] at hw
        rw [← hw.1] at hl
        rcases h' with h' | h'
        · rw [h'] at hl
          rw [List.isChain_cons_cons] at hc
          rw [hu] at hh
          exact hc.1 ⟨hh, hl⟩
        · obtain ⟨a, b⟩ := h'
          obtain ⟨a', b'⟩ := hl
          omega
    rw [show unitsOf c = _ from unitsOf.eq_1 c]
    split_ifs with h1 h2
    · exact key _ rfl
    · exact key _ rfl
    · simp only [List.cons_append, List.nil_append]
      rw [joinUnits, if_pos ⟨rfl, rfl, by simp, by simp; omega, by simp, by simp; omega⟩]
      rw [ih]
      have e : 65536 + ((55296 + (c - 65536) / 1024 - 55296) * 1024 + (56320 + (c - 65536) % 1024 - 56320)) = c := by omega
      exact congrArg (fun x => x :: s) e

theorem loadStr_dump {s : PyStr} (h : GoodStr s) (rest : List Char) : loadStr (s.flatMap escape ++ '"' :: rest) = some (s, rest) := by
  unfold loadStr
  rw [strUnits_flatMap h.1]
  simp only
  rw [joinUnits_flatMap h]

/-! ## Numbers -/

theorem isDigit_of {c : Char} (h : '0' ≤ c ∧ c ≤ '9') : isDigit c = true := by
  unfold isDigit; exact decide_eq_true h

theorem takeWhile_digits {d rest : List Char} (hd : ∀ c ∈ d, '0' ≤ c ∧ c ≤ '9') (hr : ∀ c t, rest = c :: t → isDigit c = false) :
    (d ++ rest).takeWhile isDigit = d ∧ (d ++ rest).dropWhile isDigit = rest := by
  induction d with
  | nil =>
    cases rest with
    | nil => simp
    | cons c t => simp [hr c t rfl]
  | cons c d ih =>
    have := ih fun x hx => hd x (by simp [hx])
    rw [List.cons_append, List.takeWhile_cons, List.dropWhile_cons, isDigit_of (hd c (by simp))]
    simp [this]

theorem scanInt_lit {sign int rest : List Char} (hs : sign = [] ∨ sign = ['-']) (hi : Digits int) (h0 : int.head? = some '0' → int = ['0'])
    (hr : ∀ c t, rest = c :: t → isDigit c = false) : scanInt (sign ++ (int ++ rest)) = some (sign ++ int, rest) := by
  obtain ⟨hne, hd⟩ := hi
  cases int with
  | nil => exact absurd rfl hne
  | cons c int =>
    have hc := hd c (by simp)
    have hm : c ≠ '-' := by rintro rfl; revert hc; decide
    have t := takeWhile_digits (d := int) (fun x hx => hd x (by simp [hx])) hr
    unfold scanInt
    rcases hs with rfl | rfl
    · simp only [List.nil_append, List.cons_append, hm, if_false]
      by_cases h : c = '0'
      · have := h0 (by simp [h])
        simp only [List.cons.injEq] at this
        rw [if_pos h, this.2]; rfl
      · rw [if_neg h, isDigit_of hc, if_pos rfl, t.1, t.2]
    · simp only [List.nil_append, List.cons_append, if_true]
      by_cases h : c = '0'
      · have := h0 (by simp [h])
        simp only [List.cons.injEq] at this
        rw [if_pos h, this.2]; rfl
      · rw [if_neg h, isDigit_of hc, if_pos rfl, t.1, t.2]

theorem scanFrac_lit {frac rest : List Char} (hf : frac = [] ∨ ∃ d, Digits d ∧ frac = '.' :: d) (hr : ∀ c t, rest = c :: t → isDigit c = false ∧ c ≠ '.') :
    scanFrac (frac ++ rest) = (frac, rest) := by
  rcases hf with rfl | ⟨d, ⟨hne, hd⟩, rfl⟩
  · simp only [List.nil_append]
    unfold scanFrac
    split
    · rename_i c d r
      rw [if_neg]; exact fun h => (hr c _ rfl).2 h.1
    · rfl
  · cases d with
    | nil => exact absurd rfl hne
    | cons c d =>
      have t := takeWhile_digits (d := d) (fun x hx => hd x (by simp [hx])) (fun c t h => (hr c t h).1)
      simp only [List.cons_append]
      unfold scanFrac
      simp only
      rw [if_pos ⟨trivial, isDigit_of (hd c (by simp))⟩, t.1, t.2]

theorem scanExp_lit {exp rest : List Char} (hf : exp = [] ∨ ∃ e s d, (e = 'e' ∨ e = 'E') ∧ (s = [] ∨ s = ['+'] ∨ s = ['-']) ∧ Digits d ∧ exp = e :: (s ++ d))
    (hr : ∀ c t, rest = c :: t → isDigit c = false ∧ c ≠ 'e' ∧ c ≠ 'E') : scanExp (exp ++ rest) = (exp, rest) := by
  rcases hf with rfl | ⟨e, s, d, he, hs, ⟨hne, hd⟩, rfl⟩
  · simp only [List.nil_append]
    unfold scanExp
    split
    · rename_i c d r
      rw [if_neg]; exact fun h => h.elim (hr c _ rfl).2.1 (hr c _ rfl).2.2
    · rfl
  · cases d with
    | nil => exact absurd rfl hne
    | cons c d =>
      have t := takeWhile_digits (d := d) (fun x hx => hd x (by simp [hx])) (fun c t h => (hr c t h).1)
      have hc := isDigit_of (hd c (by simp))
      have key : ∀ x, (x = '+' ∨ x = '-') → scanExp (e :: x :: c :: (d ++ rest)) = (e :: x :: c :: d, rest) := by
        intro x hx
        have hx' : isDigit x = false := by rcases hx with rfl | rfl <;> decide
        unfold scanExp
        simp only
        rw [if_pos he, hx', if_neg (by simp), if_pos hx, hc, if_pos rfl, t.1, t.2]
      rcases hs with rfl | rfl | rfl
      · simp only [List.cons_append, List.nil_append]
        unfold scanExp
        simp only
        rw [if_pos he, hc, if_pos rfl, t.1, t.2]
      · exact key '+' (Or.inl rfl)
      · exact key '-' (Or.inr rfl)

/-- What may follow a value. -/
def After (r : List Char) : Prop := r = [] ∨ Stop r

theorem After.facts {r : List Char} (h : After r) : ∀ c t, r = c :: t → isDigit c = false ∧ c ≠ '.' ∧ c ≠ 'e' ∧ c ≠ 'E' ∧ c ≠ '+' ∧ c ≠ '-' := by
  intro c t e
  rcases h with rfl | h
  · cases e
  · obtain ⟨c', t', rfl, h'⟩ := h.facts
    simp only [List.cons.injEq] at e
    rw [← e.1]; exact h'

theorem loadNum_lit {l rest : List Char} (hl : Literal l) (hr : After rest) : loadNum (l ++ rest) = some (.num l, rest) := by
  have f := hr.facts
  cases hl with
  | number sign int frac exp hs hi h0 hf he =>
    unfold loadNum scanNum
    have e3 : scanExp (exp ++ rest) = (exp, rest) := scanExp_lit he fun c t h => ⟨(f c t h).1, (f c t h).2.2.1, (f c t h).2.2.2.1⟩
    have e2 : scanFrac (frac ++ (exp ++ rest)) = (frac, exp ++ rest) := by
      refine scanFrac_lit hf fun c t h => ?_
      rcases he with rfl | ⟨e, s, d, he, -, -, rfl⟩
      · exact ⟨(f c t h).1, (f c t h).2.1⟩
      · simp only [List.cons_append, List.cons.injEq] at h
        rw [← h.1]; rcases he with rfl | rfl <;> decide
    have e1 : scanInt (sign ++ (int ++ (frac ++ (exp ++ rest)))) = some (sign ++ int, frac ++ (exp ++ rest)) := by
      refine scanInt_lit hs hi h0 fun c t h => ?_
      rcases hf with rfl | ⟨d, -, rfl⟩
      · rcases he with rfl | ⟨e, s, d, he, -, -, rfl⟩
        · exact (f c t h).1
        · simp only [List.nil_append, List.cons_append, List.cons.injEq] at h
          rw [← h.1]; rcases he with rfl | rfl <;> decide
      · simp only [List.cons_append, List.cons.injEq] at h
        rw [← h.1]; decide
    simp only [List.append_assoc]
    rw [e1]
    simp only
    rw [e2]
    simp only
    rw [e3]
    simp only [List.append_assoc]
  | nan =>
    unfold loadNum
    rw [scanNum_none_word (w := "NaN".toList) ⟨_, _, _, rfl, by decide, by decide⟩ (List.prefix_append _ _)]
    simp [word]
  | inf =>
    unfold loadNum
    rw [scanNum_none_word (w := "Infinity".toList) ⟨_, _, _, rfl, by decide, by decide⟩ (List.prefix_append _ _)]
    simp [word]
  | neginf =>
    unfold loadNum
    rw [scanNum_none_word (w := "-Infinity".toList) ⟨_, _, _, rfl, by decide, by decide⟩ (List.prefix_append _ _)]
    simp [word]

/-- The first character of a literal. -/
theorem Literal.head {l : List Char} (hl : Literal l) : ∃ c t, l = c :: t ∧ (isDigit c = true ∨ c = '-' ∨ c = 'N' ∨ c = 'I') := by
  cases hl with
  | number sign int frac exp hs hi h0 hf he =>
    obtain ⟨hne, hd⟩ := hi
    cases int with
    | nil => exact absurd rfl hne
    | cons c int =>
      rcases hs with rfl | rfl
      · exact ⟨_, _, rfl, Or.inl (isDigit_of (hd c (by simp)))⟩
      · exact ⟨_, _, rfl, Or.inr (Or.inl rfl)⟩
  | nan => exact ⟨_, _, rfl, Or.inr (Or.inr (Or.inl rfl))⟩
  | inf => exact ⟨_, _, rfl, Or.inr (Or.inr (Or.inr rfl))⟩
  | neginf => exact ⟨_, _, rfl, Or.inr (Or.inl rfl)⟩

theorem Literal.head' {l : List Char} (hl : Literal l) : ∃ c t, l = c :: t ∧ isWs c = false ∧ c ≠ '"' ∧ c ≠ '{' ∧ c ≠ '[' ∧ c ≠ 'n' ∧ c ≠ 't' ∧ c ≠ 'f' ∧ c ≠ ']' ∧ c ≠ '}' ∧ c ≠ '\x00' := by
  obtain ⟨c, t, rfl, h⟩ := hl.head
  refine ⟨c, t, rfl, ?_⟩
  rcases h with h | rfl | rfl | rfl
  · have key : ∀ d, isDigit d = false → c ≠ d := by rintro d hd rfl; rw [hd] at h; cases h
    refine ⟨?_, key _ (by decide), key _ (by decide), key _ (by decide), key _ (by decide), key _ (by decide), key _ (by decide), key _ (by decide), key _ (by decide), key _ (by decide)⟩
    unfold isWs
    simp [key ' ' (by decide), key '\t' (by decide), key '\n' (by decide), key '\r' (by decide)]
  all_goals decide

/-! ## Values -/

theorem dumpAt_head {v : Val} (hv : Good v) (lvl : ℕ) : ∃ c t, dumpAt lvl v = c :: t ∧ isWs c = false ∧ c ≠ ']' ∧ c ≠ '}' := by
  cases hv with
  | null => exact ⟨_, _, rfl, by decide⟩
  | bool b => cases b <;> exact ⟨_, _, rfl, by decide⟩
  | num hl =>
    obtain ⟨c, t, e, h⟩ := hl.head'
    exact ⟨c, t, by rw [dumpAt, e], h.1, h.2.2.2.2.2.2.2.1, h.2.2.2.2.2.2.2.2.1⟩
  | str h => exact ⟨_, _, by rw [dumpAt, dumpStr], by decide⟩
  | @list l h => cases l <;> exact ⟨_, _, by rw [dumpAt]; first | done | rfl, by decide⟩
  | @dict l h =>
    rcases l with _ | ⟨⟨k, v⟩, l⟩ <;> exact ⟨_, _, by rw [dumpAt]; first | done | rfl, by decide⟩

theorem skipWs_nl (k : ℕ) (s : List Char) : skipWs (nl k ++ s) = skipWs s := by
  unfold nl skipWs
  rw [List.cons_append, List.dropWhile_cons_of_pos (by decide)]
  induction 2 * k with
  | zero => rfl
  | succ n ih => rw [List.replicate_succ, List.cons_append, List.dropWhile_cons_of_pos (by decide), ih]

theorem skipWs_cons {c : Char} (h : isWs c = false) (s : List Char) : skipWs (c :: s) = c :: s := by
  unfold skipWs; rw [List.dropWhile_cons_of_neg (by simp [h])]

theorem skipWs_dump {v : Val} (hv : Good v) (lvl : ℕ) (s : List Char) : skipWs (dumpAt lvl v ++ s) = dumpAt lvl v ++ s := by
  obtain ⟨c, t, e, h, -⟩ := dumpAt_head hv lvl
  rw [e, List.cons_append, skipWs_cons h]

theorem stop_nl (k : ℕ) (s : List Char) : Stop (nl k ++ s) := ⟨'\n', _, rfl, Or.inl (by decide)⟩

theorem Val.ind {P : Val → Prop} (null : P .null) (bool : ∀ b, P (.bool b)) (num : ∀ l, P (.num l)) (str : ∀ s, P (.str s))
    (list : ∀ l, (∀ v ∈ l, P v) → P (.list l)) (dict : ∀ l, (∀ e ∈ l, P e.2) → P (.dict l)) : ∀ v, P v := by
  intro v
  refine Val.rec (motive_1 := P) (motive_2 := fun l => ∀ v ∈ l, P v) (motive_3 := fun l => ∀ e ∈ l, P e.2) (motive_4 := fun e => P e.2)
    null bool num str list dict ?_ ?_ ?_ ?_ ?_ v
  · simp
  · intro v l h1 h2 w hw
    rcases List.mem_cons.1 hw with rfl | hw
    · exact h1
    · exact h2 w hw
  · simp
  · intro v l h1 h2 w hw
    rcases List.mem_cons.1 hw with rfl | hw
    · exact h1
    · exact h2 w hw
  · intro k v h; exact h

/-- Reading the text of `v` gives `v`. -/
def Reads (v : Val) : Prop := ∀ lvl n rest, After rest → 2 * (dumpAt lvl v ++ rest).length < n → value n (dumpAt lvl v ++ rest) = some (v, rest)

theorem elements_dump (lvl : ℕ) (rest : List Char) : ∀ (l : List Val) (v : Val) (n : ℕ), (∀ w ∈ v :: l, Good w ∧ Reads w) →
    2 * (dumpAt (lvl + 1) v ++ (dumpList lvl l ++ (nl lvl ++ ']' :: rest))).length + 1 < n →
    elements n (dumpAt (lvl + 1) v ++ (dumpList lvl l ++ (nl lvl ++ ']' :: rest))) = some (v :: l, rest) := by
  intro l
  induction l with
  | nil =>
    intro v n hw hn
    cases n with
    | zero => omega
    | succ n =>
      rw [elements, (hw v (by simp)).2 (lvl + 1) n _ (Or.inr (by rw [dumpList]; exact stop_nl _ _)) (by omega)]
      simp only [dumpList, List.nil_append]
      rw [skipWs_nl, skipWs_cons (by decide)]
      simp
  | cons w l ih =>
    intro v n hw hn
    cases n with
    | zero => omega
    | succ n =>
      rw [elements, (hw v (by simp)).2 (lvl + 1) n _ (Or.inr (by rw [dumpList]; exact ⟨',', _, rfl, by simp⟩)) (by omega)]
      simp only [dumpList, List.cons_append]
      rw [skipWs_cons (by decide)]
      simp only [show (',' : Char) ≠ ']' by decide, if_false, if_true, List.append_assoc]
      rw [skipWs_nl, skipWs_dump (hw w (by simp)).1, ih w n (fun x hx => hw x (by simp at hx ⊢; tauto))]
      simp only [dumpList, List.length_append, List.length_cons] at hn ⊢
      omega

theorem members_dump (lvl : ℕ) (rest : List Char) : ∀ (l : List (PyStr × Val)) (k : PyStr) (v : Val) (n : ℕ), (∀ e ∈ (k, v) :: l, GoodStr e.1 ∧ Good e.2 ∧ Reads e.2) →
    2 * (dumpStr k ++ (':' :: ' ' :: (dumpAt (lvl + 1) v ++ (dumpDict lvl l ++ (nl lvl ++ '}' :: rest))))).length + 1 < n →
    members n (dumpStr k ++ (':' :: ' ' :: (dumpAt (lvl + 1) v ++ (dumpDict lvl l ++ (nl lvl ++ '}' :: rest))))) = some ((k, v) :: l, rest) := by
  intro l
  induction l with
  | nil =>
    intro k v n hw hn
    obtain ⟨g1, g2, g3⟩ := hw (k, v) (by simp)
    cases n with
    | zero => omega
    | succ n =>
      unfold dumpStr at *
      simp only [List.cons_append, List.append_assoc, List.nil_append, List.length_cons, List.length_append] at hn ⊢
      rw [members]
      simp only [if_true]
      rw [loadStr_dump g1]
      simp only
      rw [skipWs_cons (by decide)]
      simp only [if_true]
      rw [show skipWs (' ' :: (dumpAt (lvl + 1) v ++ (dumpDict lvl [] ++ (nl lvl ++ '}' :: rest)))) = skipWs (dumpAt (lvl + 1) v ++ (dumpDict lvl [] ++ (nl lvl ++ '}' :: rest))) from rfl,
        skipWs_dump g2, g3 (lvl + 1) n _ (Or.inr (by rw [dumpDict]; exact stop_nl _ _)) (by simp only [List.length_cons, List.length_append]; omega)]
      simp only [dumpDict, List.nil_append]
      rw [skipWs_nl, skipWs_cons (by decide)]
      simp
  | cons e l ih =>
    obtain ⟨k', w⟩ := e
    intro k v n hw hn
    obtain ⟨g1, g2, g3⟩ := hw (k, v) (by simp)
    cases n with
    | zero => omega
    | succ n =>
      have ih' := ih k' w n (fun x hx => hw x (by simp only [List.mem_cons] at hx ⊢; tauto))
      simp only [dumpDict] at hn
      rw [dumpStr] at hn ⊢
      simp only [List.cons_append, List.append_assoc, List.nil_append, List.length_cons, List.length_append] at hn ⊢
      rw [members]
      simp only [if_true]
      rw [loadStr_dump g1]
      simp only
      rw [skipWs_cons (by decide)]
      simp only [if_true]
      rw [show ∀ s, skipWs (' ' :: s) = skipWs s from fun s => rfl,
        skipWs_dump g2, g3 (lvl + 1) n _ (Or.inr (by rw [dumpDict]; exact ⟨',', _, rfl, by simp⟩)) (by simp only [dumpDict, List.length_cons, List.length_append]; omega)]
      simp only [dumpDict, List.cons_append]
      rw [skipWs_cons (by decide)]
      simp only [show (',' : Char) ≠ '}' by decide, if_false, if_true, List.append_assoc, List.cons_append]
      rw [skipWs_nl, show skipWs (dumpStr k' ++ ':' :: ' ' :: (dumpAt (lvl + 1) w ++ (dumpDict lvl l ++ (nl lvl ++ '}' :: rest)))) =
        dumpStr k' ++ ':' :: ' ' :: (dumpAt (lvl + 1) w ++ (dumpDict lvl l ++ (nl lvl ++ '}' :: rest))) from by rw [dumpStr, List.cons_append, skipWs_cons (by decide)], ih']
      simp only [List.length_append, List.length_cons] at hn ⊢
      omega

theorem dictSet_last {k : PyStr} {v : Val} {d : List (PyStr × Val)} (h : ∀ e ∈ d, e.1 < k) : dictSet k v d = d ++ [(k, v)] := by
  induction d with
  | nil => rfl
  | cons e d ih =>
    have he := h e (by simp)
    rw [dictSet, if_neg (by rintro rfl; exact lt_irrefl _ he), if_neg (fun h => lt_asymm h he), ih fun x hx => h x (by simp [hx])]
    rfl

theorem ofPairs_sorted {l : List (PyStr × Val)} (h : l.Pairwise (fun a b => a.1 < b.1)) : ofPairs l = l := by
  have key : ∀ (l d : List (PyStr × Val)), (d ++ l).Pairwise (fun a b => a.1 < b.1) → l.foldl (fun d e => dictSet e.1 e.2 d) d = d ++ l := by
    intro l
    induction l with
    | nil => simp
    | cons e l ih =>
      intro d h
      rw [List.foldl_cons, dictSet_last, ih]
      · simp
      · simpa using h
      · intro x hx
        rw [List.pairwise_append] at h
        exact h.2.2 x hx e (by simp)
  exact key l [] h

theorem reads {v : Val} (hv : Good v) : Reads v := by
  induction v using Val.ind with
  | null =>
    intro lvl n rest _ hn
    cases n with
    | zero => omega
    | succ n => simp [dumpAt, value, word]
  | bool b =>
    intro lvl n rest _ hn
    cases n with
    | zero => omega
    | succ n => cases b <;> simp [dumpAt, value, word]
  | num l =>
    intro lvl n rest hr hn
    cases hv with
    | num hl =>
    cases n with
    | zero => omega
    | succ n =>
      obtain ⟨c, t, e, h⟩ := hl.head'
      have := loadNum_lit hl hr
      rw [dumpAt]
      rw [e, List.cons_append] at this ⊢
      rw [value]
      simp only [h.2.1, h.2.2.1, h.2.2.2.1, h.2.2.2.2.1, h.2.2.2.2.2.1, h.2.2.2.2.2.2.1, if_false]
      exact this
  | str s =>
    intro lvl n rest hr hn
    cases hv with
    | str h =>
    cases n with
    | zero => omega
    | succ n =>
      rw [dumpAt, dumpStr]
      simp only [List.cons_append, List.append_assoc, List.nil_append]
      rw [value]
      simp only [if_true]
      rw [loadStr_dump h]
  | list l ih =>
    intro lvl n rest hr hn
    cases hv with
    | list h =>
    cases n with
    | zero => omega
    | succ n =>
      cases l with
      | nil => simp [dumpAt, value, skipWs_cons (c := ']') (by decide)]
      | cons v l =>
        obtain ⟨c, t, e, hc, hc', -⟩ := dumpAt_head (h v (by simp)) (lvl + 1)
        have el := elements_dump lvl rest l v n (fun w hw => ⟨h w hw, ih w hw (h w hw)⟩)
        rw [dumpAt] at hn ⊢
        simp only [List.cons_append, List.append_assoc, List.nil_append, List.length_cons, List.length_append] at hn ⊢
        rw [value]
        simp only [show ('[' : Char) ≠ '"' by decide, show ('[' : Char) ≠ '{' by decide, if_false, if_true]
        rw [skipWs_nl, skipWs_dump (h v (by simp))]
        rw [e] at el ⊢
        simp only [List.cons_append, hc', if_false] at el ⊢
        rw [el]
        rw [e] at hn
        simp only [List.length_cons, List.length_append] at hn ⊢
        omega
  | dict l ih =>
    intro lvl n rest hr hn
    cases hv with
    | dict hk hs h =>
    cases n with
    | zero => omega
    | succ n =>
      rcases l with _ | ⟨⟨k, v⟩, l⟩
      · simp [dumpAt, value, skipWs_cons (c := '}') (by decide)]
      · have el := members_dump lvl rest l k v n (fun w hw => ⟨hk w hw, h w hw, ih w hw (h w hw)⟩)
        rw [dumpAt] at hn ⊢
        simp only [List.cons_append, List.append_assoc, List.nil_append, List.length_cons, List.length_append] at hn ⊢
        rw [value]
        simp only [show ('{' : Char) ≠ '"' by decide, if_false, if_true]
        rw [skipWs_nl, show ∀ s, skipWs (dumpStr k ++ s) = dumpStr k ++ s from fun s => by rw [dumpStr, List.cons_append, skipWs_cons (by decide)]]
        rw [dumpStr] at el ⊢
        simp only [List.cons_append, show ('"' : Char) ≠ '}' by decide, if_false] at el ⊢
        rw [el]
        · simp only
          rw [ofPairs_sorted hs]
        · rw [dumpStr] at hn
          simp only [List.length_cons, List.length_append] at hn ⊢
          omega

/-- `json.load` gives back what `json.dump` has written. -/
theorem load_dump {v : Val} (hv : Good v) : load (dump v) = .ok v := by
  unfold load dump
  have h := skipWs_dump hv 0 []
  rw [List.append_nil] at h
  rw [h]
  have := reads hv 0 (2 * (dumpAt 0 v).length + 1) [] (Or.inl rfl) (by simp)
  rw [List.append_nil] at this
  rw [this]
  simp [skipWs]

end Dec.Text
