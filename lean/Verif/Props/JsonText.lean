import Verif.Lib.JsonWrite
import Verif.Props.Data

/-!
# C78, C79: the texts of the store

C78: a value that was written completely is read back; a text that was not written completely is rejected, at whatever character the process died.
C79: what a file can contain when several processes write it.

Vocabulary: `Good v` (Lib/JsonRound.lean) says that `v` is a Python value with literals of numbers as `repr` writes them, dicts with different keys, and strings in which no first half
of a surrogate pair stands right before a second half.
-/

namespace Dec.Props

open Dec.Text

/-! ## C78 -/

/-- **C78.** What was written is read back. -/
theorem C78_roundtrip (v : Val) (hv : Good v) : load (dump v) = .ok v := load_dump hv

/-- **C78.** Two values with the same text are equal. -/
theorem C78_injective (v w : Val) (hv : Good v) (hw : Good w) (h : dump v = dump w) : v = w := by
  have := C78_roundtrip v hv
  rw [h, C78_roundtrip w hw] at this
  injection this with this
  exact this.symm

/-- **C78.** A process dies while writing a value that is not a bare number, at any character: `json.load` rejects the file. -/
theorem C78_incomplete_rejected (v : Val) (hv : Good v) (hn : ∀ l, v ≠ .num l) (p : List Char) (hp : p <+: dump v) (hne : p ≠ dump v) :
    load p = .error .jsonDecode := load_prefix hv hn hp hne

/-- **C78, defect.** A bare number that was not written completely is read as another number. -/
theorem C78_number_cut_short : ∃ v w p, Good v ∧ p <+: dump v ∧ load p = .ok w ∧ w ≠ v := by
  have g : ∀ l, Digits l → l.head? ≠ some '0' → Good (.num l) := fun l hl h0 => by
    have := Literal.number [] l [] [] (Or.inl rfl) hl (fun h => absurd h h0) (Or.inl rfl) (Or.inl rfl)
    simp only [List.nil_append, List.append_nil] at this
    exact .num this
  refine ⟨.num "123".toList, .num "12".toList, "12".toList, g _ ⟨by decide, by decide⟩ (by decide), ⟨['3'], by rw [dump, dumpAt]; rfl⟩, ?_, by simp⟩
  have := C78_roundtrip (.num "12".toList) (g _ ⟨by decide, by decide⟩ (by decide))
  rwa [dump, dumpAt] at this

/-- **C78, defect.** Two strings that differ (one is a surrogate pair in two code points, the other one character) have the same text, so the first is not read back. -/
theorem C78_surrogates_merge : ∃ s t : PyStr, s ≠ t ∧ (∀ c ∈ s, c < 0x110000) ∧ load (dump (.str s)) = .ok (.str t) := by
  refine ⟨[0xD800, 0xDC00], [0x10000], by decide, by decide, ?_⟩
  have e : dump (.str [0xD800, 0xDC00]) = dump (.str [0x10000]) := by
    rw [dump, dumpAt, dump, dumpAt]; decide
  rw [e]
  exact C78_roundtrip _ (.str ⟨by decide, List.isChain_singleton _⟩)

/-- Nothing in the object is refused by the encoder. For /repo/dec/data.py:7-12. -/
inductive Clean : Obj → Prop
  | val (v : Val) : Clean (.val v)
  | list {l : List Obj} : (∀ o ∈ l, Clean o) → Clean (.list l)
  | dict {l : List (PyStr × Obj)} : (∀ e ∈ l, Clean e.2) → Clean (.dict l)

/-- The values in the object are good, and the keys of its dicts are in order. For /repo/dec/data.py:7-12. -/
inductive GoodObj : Obj → Prop
  | val {v : Val} : Good v → GoodObj (.val v)
  | other : GoodObj .other
  | list {l : List Obj} : (∀ o ∈ l, GoodObj o) → GoodObj (.list l)
  | dict {l : List (PyStr × Obj)} : (∀ e ∈ l, GoodStr e.1) → l.Pairwise (fun a b => a.1 < b.1) → (∀ e ∈ l, GoodObj e.2) → GoodObj (.dict l)

theorem fillList_eq (l : List Obj) : fillList l = l.map fill := by induction l <;> simp [fillList, *]
theorem fillDict_eq (l : List (PyStr × Obj)) : fillDict l = l.map fun e => (e.1, fill e.2) := by
  induction l with
  | nil => rfl
  | cons e l ih => obtain ⟨k, v⟩ := e; simp [fillDict, ih]

theorem GoodObj.fill {o : Obj} (h : GoodObj o) : Good (Text.fill o) := by
  induction h with
  | val h => rw [Text.fill]; exact h
  | other => rw [Text.fill]; exact .null
  | list _ ih =>
    rw [Text.fill, fillList_eq]
    refine .list fun v hv => ?_
    obtain ⟨o, ho, rfl⟩ := List.mem_map.1 hv
    exact ih o ho
  | dict hk hs _ ih =>
    rw [Text.fill, fillDict_eq]
    refine .dict (fun e he => ?_) ?_ (fun e he => ?_)
    · obtain ⟨o, ho, rfl⟩ := List.mem_map.1 he
      exact hk o ho
    · rw [List.pairwise_map]; exact hs
    · obtain ⟨o, ho, rfl⟩ := List.mem_map.1 he
      exact ih o ho

theorem emitList_true {level : ℕ} {l : List Obj} (h : (emitList level l).2 = true) : ∀ o ∈ l, (emit (level + 1) o).2 = true := by
  induction l with
  | nil => simp
  | cons o l ih =>
    rw [emitList] at h
    simp only [andThen] at h
    cases ho : (emit (level + 1) o).2 with
    | false => rw [ho] at h; simp [ho] at h
    | true =>
      rw [ho] at h
      intro x hx
      rcases List.mem_cons.1 hx with rfl | hx
      · exact ho
      · exact ih h x hx

theorem emitDict_true {level : ℕ} {l : List (PyStr × Obj)} (h : (emitDict level l).2 = true) : ∀ e ∈ l, (emit (level + 1) e.2).2 = true := by
  induction l with
  | nil => simp
  | cons e l ih =>
    obtain ⟨k, o⟩ := e
    rw [emitDict] at h
    simp only [andThen] at h
    cases ho : (emit (level + 1) o).2 with
    | false => rw [ho] at h; simp [ho] at h
    | true =>
      rw [ho] at h
      intro x hx
      rcases List.mem_cons.1 hx with rfl | hx
      · exact ho
      · exact ih h x hx

/-- **C78.** `json.dump` raises `TypeError` exactly when something in the value is refused by the encoder. -/
theorem C78_dump_succeeds_iff (level : ℕ) (o : Obj) : (emit level o).2 = true ↔ Clean o := by
  constructor
  · intro h
    have key : ∀ n o, sizeOf o < n → ∀ level, (emit level o).2 = true → Clean o := by
      intro n
      induction n with
      | zero => intro o h; omega
      | succ n ih =>
        intro o hn level h
        cases o with
        | val v => exact .val v
        | other => rw [emit] at h; cases h
        | list l =>
          refine .list fun o ho => ih o ?_ (level + 1) ?_
          · have := List.sizeOf_lt_of_mem ho
            simp only [Obj.list.sizeOf_spec] at hn; omega
          · cases l with
            | nil => simp at ho
            | cons v l =>
              refine emitList_true (level := level) (l := v :: l) ?_ o ho
              rw [emit] at h
              rw [emitList]
              simp only [andThen] at h ⊢
              cases hv : (emit (level + 1) v).2 with
              | false => rw [hv] at h; simp [hv] at h
              | true =>
                rw [hv] at h
                simp only [if_true] at h ⊢
                cases hl : (emitList level l).2 with
                | false => rw [hl] at h; simp [hl] at h
                | true => rfl
        | dict l =>
          refine .dict fun e he => ih e.2 ?_ (level + 1) ?_
          · have := List.sizeOf_lt_of_mem he
            obtain ⟨k, o⟩ := e
            simp only [Obj.dict.sizeOf_spec, Prod.mk.sizeOf_spec] at hn this ⊢; omega
          · rcases l with _ | ⟨⟨k, v⟩, l⟩
            · simp at he
            · refine emitDict_true (level := level) (l := (k, v) :: l) ?_ e he
              rw [emit] at h
              rw [emitDict]
              simp only [andThen] at h ⊢
              cases hv : (emit (level + 1) v).2 with
              | false => rw [hv] at h; simp [hv] at h
              | true =>
                rw [hv] at h
                simp only [if_true] at h ⊢
                cases hl : (emitDict level l).2 with
                | false => rw [hl] at h; simp [hl] at h
                | true => rfl
    exact key (sizeOf o + 1) o (by omega) level h
  · intro h
    induction h generalizing level with
    | val v => rw [emit]
    | @list l _ ih =>
      have key : ∀ l : List Obj, (∀ o ∈ l, ∀ level, (emit level o).2 = true) → (emitList level l).2 = true := by
        intro l h
        induction l with
        | nil => rw [emitList]
        | cons o l ihl =>
          rw [emitList]
          simp only [andThen, h o (by simp), if_true]
          exact ihl fun x hx => h x (by simp [hx])
      cases l with
      | nil => rw [emit]
      | cons v l =>
        rw [emit]
        simp only [andThen, ih v (by simp), key l (fun x hx => ih x (by simp [hx])), if_true]
    | @dict l _ ih =>
      have key : ∀ l : List (PyStr × Obj), (∀ e ∈ l, ∀ level, (emit level e.2).2 = true) → (emitDict level l).2 = true := by
        intro l h
        induction l with
        | nil => rw [emitDict]
        | cons o l ihl =>
          obtain ⟨k, o⟩ := o
          rw [emitDict]
          simp only [andThen, show (emit (level + 1) o).2 = true from h (k, o) (by simp) _, if_true]
          exact ihl fun x hx => h x (by simp [hx])
      rcases l with _ | ⟨⟨k, v⟩, l⟩
      · rw [emit]
      · rw [emit]
        simp only [andThen, show (emit (level + 1) v).2 = true from ih (k, v) (by simp) _, key l (fun x hx => ih x (by simp [hx])), if_true]

/-- **C78.** A `json.dump` that raises `TypeError` leaves a text that `json.load` rejects, however much of it reaches the file. -/
theorem C78_failed_dump_rejected (o : Obj) (hg : GoodObj o) (h : ¬ Clean o) (p : List Char) (hp : p <+: (emit 0 o).1) : load p = .error .jsonDecode := by
  have hf : (emit 0 o).2 = false := by
    cases h' : (emit 0 o).2 with
    | false => rfl
    | true => exact absurd ((C78_dump_succeeds_iff 0 o).1 h') h
  obtain ⟨h1, h2⟩ := (part_emit 0 o).2 hf
  have hn : ∀ l, fill o ≠ .num l := by
    intro l e
    cases o with
    | val v => exact h (.val v)
    | other => rw [fill] at e; cases e
    | list l => rw [fill] at e; cases e
    | dict l => rw [fill] at e; cases e
  refine C78_incomplete_rejected _ hg.fill hn p (hp.trans h1) ?_
  intro e
  exact h2 (List.IsPrefix.eq_of_length_le h1 (e ▸ hp).length_le)

/-! ### The abstract contents of the memo file -/

/-- A Lean string as a Python string. -/
def pyOf (s : String) : PyStr := s.toList.map Char.toNat

/-- The text holds what the abstract model (`Model/Data.lean`) says about the memo file. -/
def Holds (file : Option (List Char)) : Data.Disk → Prop
  | .absent => file = none
  | .stored m => ∃ f l, file = some f ∧ load f = .ok (table l) ∧ ∀ k r : String, m k = some r ↔ (pyOf k, pyOf r) ∈ l
  | .torn => ∃ f, file = some f ∧ load f = .error .jsonDecode

/-- `l` lists the entries of the dict `dct` in the order of the keys. -/
def Lists (dct : String → Option String) (l : List (PyStr × PyStr)) : Prop :=
  (∀ e ∈ l, ∃ k r : String, e = (pyOf k, pyOf r)) ∧ l.Pairwise (fun a b => a.1 < b.1) ∧ ∀ k r : String, dct k = some r ↔ (pyOf k, pyOf r) ∈ l

theorem goodStr_pyOf (s : String) : GoodStr (pyOf s) := by
  have b : ∀ c : Char, c.toNat < 0xD800 ∨ (0xDFFF < c.toNat ∧ c.toNat < 0x110000) := fun c => c.valid
  refine ⟨fun c hc => ?_, ?_⟩
  · obtain ⟨d, -, rfl⟩ := List.mem_map.1 hc
    rcases b d with h | h <;> omega
  · rw [pyOf, List.isChain_map]
    induction s.toList with
    | nil => exact List.isChain_nil
    | cons c l ih =>
      cases l with
      | nil => exact List.isChain_singleton _
      | cons d l =>
        rw [List.isChain_cons_cons]
        refine ⟨fun ⟨h, _⟩ => ?_, ih⟩
        obtain ⟨h1, h2⟩ := h
        rcases b c with h | h <;> omega

theorem good_table {l : List (PyStr × PyStr)} (h1 : ∀ e ∈ l, GoodStr e.1 ∧ GoodStr e.2) (h2 : l.Pairwise (fun a b => a.1 < b.1)) : Good (table l) := by
  refine .dict (fun e he => ?_) (List.pairwise_map.2 h2) (fun e he => ?_)
  · obtain ⟨x, hx, rfl⟩ := List.mem_map.1 he
    exact (h1 x hx).1
  · obtain ⟨x, hx, rfl⟩ := List.mem_map.1 he
    exact .str (h1 x hx).2

theorem Lists.good {dct : String → Option String} {l : List (PyStr × PyStr)} (h : Lists dct l) : Good (table l) :=
  good_table (fun e he => by obtain ⟨k, r, rfl⟩ := h.1 e he; exact ⟨goodStr_pyOf k, goodStr_pyOf r⟩) h.2.1

/-- **C78.** A completed commit of a process with the table `dct` leaves the file that the model of C39 and C40 calls `stored dct`. -/
theorem C78_commit_complete (dct : String → Option String) (l : List (PyStr × PyStr)) (h : Lists dct l) : Holds (some (dump (table l))) (.stored dct) :=
  ⟨_, l, rfl, C78_roundtrip _ h.good, h.2.2⟩

/-- **C78.** A commit that stops at any earlier character (also before the first one) leaves the file that the model of C39 and C40 calls `torn`. -/
theorem C78_commit_incomplete (dct : String → Option String) (l : List (PyStr × PyStr)) (h : Lists dct l) (p : List Char) (hp : p <+: dump (table l)) (hne : p ≠ dump (table l)) :
    Holds (some p) .torn :=
  ⟨p, rfl, C78_incomplete_rejected _ h.good (fun l e => by cases e) p hp hne⟩

/-- What a text holds is determined by the text. -/
theorem Holds.unique {file : Option (List Char)} {d e : Data.Disk} (hd : Holds file d) (he : Holds file e) : d = e := by
  cases d with
  | absent =>
    cases e with
    | absent => rfl
    | stored m => obtain ⟨f, l, h, -⟩ := he; rw [show file = none from hd] at h; cases h
    | torn => obtain ⟨f, h, -⟩ := he; rw [show file = none from hd] at h; cases h
  | stored m =>
    obtain ⟨f, l, rfl, h, hm⟩ := hd
    cases e with
    | absent => cases he
    | stored m' =>
      obtain ⟨f', l', e, h', hm'⟩ := he
      injection e with e
      subst e
      rw [h] at h'
      injection h' with h'
      have hl : l = l' := by
        unfold table at h'
        injection h' with h'
        refine List.map_injective_iff.2 ?_ h'
        rintro ⟨a, b⟩ ⟨c, d⟩ e
        simp only [Prod.mk.injEq, Val.str.injEq] at e
        rw [e.1, e.2]
      congr 1
      funext k
      cases hk : m k with
      | some r => exact ((hm' k r).2 (hl ▸ (hm k r).1 hk)).symm
      | none =>
        cases hk' : m' k with
        | none => rfl
        | some r => rw [(hm k r).2 (hl ▸ (hm' k r).1 hk')] at hk; cases hk
    | torn => obtain ⟨f', e, h'⟩ := he; injection e with e; subst e; rw [h] at h'; cases h'
  | torn =>
    obtain ⟨f, rfl, h⟩ := hd
    cases e with
    | absent => cases he
    | stored m' => obtain ⟨f', l', e, h', -⟩ := he; injection e with e; subst e; rw [h] at h'; cases h'
    | torn => rfl

/-- The hypotheses are met by a nested value with escapes, a character beyond `0xffff`, several kinds of numbers and a nested dict. -/
example : Good (.dict [([97], .list [.num "-1.5e-07".toList, .num "NaN".toList, .bool true, .null]), ([98, 34, 0x1F600], .dict [([], .str [10, 0xD800, 97])])]) := by
  have n : Literal "-1.5e-07".toList := Literal.number ['-'] ['1'] ['.', '5'] ['e', '-', '0', '7'] (by decide) ⟨by decide, by decide⟩ (by decide)
    (Or.inr ⟨['5'], ⟨by decide, by decide⟩, rfl⟩) (Or.inr ⟨'e', ['-'], ['0', '7'], by decide, by decide, ⟨by decide, by decide⟩, rfl⟩)
  refine .dict ?_ ?_ ?_
  · simp [GoodStr, High, Low]
  · simp; decide
  · simp only [List.mem_cons, List.not_mem_nil, or_false, forall_eq_or_imp, forall_eq]
    refine ⟨.list ?_, .dict ?_ ?_ ?_⟩
    · simp only [List.mem_cons, List.not_mem_nil, or_false, forall_eq_or_imp, forall_eq]
      exact ⟨.num n, .num .nan, .bool _, .null⟩
    · simp [GoodStr]
    · simp
    · simp only [List.mem_cons, List.not_mem_nil, or_false, forall_eq]
      exact .str ⟨by decide, by simp [High, Low]⟩

example : Lists (fun k => if k = "a" then some "1" else if k = "b" then some "2" else none) [(pyOf "a", pyOf "1"), (pyOf "b", pyOf "2")] := by
  have inj : ∀ s t : String, pyOf s = pyOf t ↔ s = t := by
    intro s t
    refine ⟨fun h => ?_, fun h => by rw [h]⟩
    unfold pyOf at h
    have := List.map_injective_iff.2 (fun a b => Char.toNat_inj.1) h
    exact String.toList_inj.1 this
  refine ⟨?_, ?_, ?_⟩
  · simp only [List.mem_cons, List.not_mem_nil, or_false, forall_eq_or_imp, forall_eq]
    exact ⟨⟨_, _, rfl⟩, _, _, rfl⟩
  · simp only [List.pairwise_cons, List.mem_cons, List.not_mem_nil, or_false, forall_eq, List.Pairwise.nil, IsEmpty.forall_iff, implies_true, and_true]
    decide
  · intro k r
    simp only [List.mem_cons, Prod.mk.injEq, List.not_mem_nil, or_false, inj]
    split_ifs with h1 h2
    · subst h1; simp [eq_comm]
    · subst h2; simp [eq_comm]
    · simp [h1, h2]

/-! ## C79 -/

/-- No process opens the file while another one is writing it. -/
def NoOverlap : Shared → List Ev → Prop
  | _, [] => True
  | s, e :: es => (∀ i t, e = .openw i t → ∀ j, s.writer j = none) ∧ NoOverlap (s.step e) es

/-- Nobody is writing. -/
def Idle (s : Shared) : Prop := ∀ j, s.writer j = none

theorem setWriter_same (s : Shared) (i : ℕ) (w : Option Writer) : (s.setWriter i w).writer i = w := by simp [Shared.setWriter]
theorem setWriter_ne (s : Shared) {i j : ℕ} (w : Option Writer) (h : j ≠ i) : (s.setWriter i w).writer j = s.writer j := by simp [Shared.setWriter, h]

/-- Invariant of histories without overlap. -/
def SeqInv (file : Option (List Char)) (opened : List Char → Prop) (s : Shared) : Prop :=
  (Idle s ∧ (s.file = file ∨ ∃ text, opened text ∧ ∃ p, p <+: text ∧ s.file = some p)) ∨
  ∃ i w, s.writer i = some w ∧ (∀ j, j ≠ i → s.writer j = none) ∧ opened w.text ∧ w.pos ≤ w.text.length ∧ s.file = some (w.text.take w.pos)

theorem SeqInv.step {file : Option (List Char)} {opened : List Char → Prop} {s : Shared} (h : SeqInv file opened s) (e : Ev)
    (ho : ∀ i t, e = .openw i t → opened t ∧ Idle s) : SeqInv file opened (s.step e) := by
  cases e with
  | openw i t =>
    obtain ⟨h1, h2⟩ := ho i t rfl
    right
    refine ⟨i, ⟨t, 0⟩, ?_, ?_, h1, Nat.zero_le _, ?_⟩
    · simp only [Shared.step, h2 i]; exact setWriter_same ..
    · intro j hj; simp only [Shared.step, h2 i]; rw [setWriter_ne _ _ hj]; exact h2 j
    · simp only [Shared.step, h2 i, List.take_zero]
  | flush i k =>
    cases hi : s.writer i with
    | none => simp only [Shared.step, hi]; exact h
    | some w =>
      rcases h with ⟨h, -⟩ | ⟨i', w', h1, h2, h3, h4, h5⟩
      · rw [h i] at hi; cases hi
      · have e : i = i' := by by_contra h; rw [h2 i h] at hi; cases hi
        subst e
        rw [h1] at hi
        injection hi with hi
        subst hi
        right
        refine ⟨i, ⟨w'.text, min (w'.pos + k) w'.text.length⟩, ?_, ?_, h3, by simp, ?_⟩
        · simp only [Shared.step, h1]; exact setWriter_same ..
        · intro j hj; simp only [Shared.step, h1]; rw [setWriter_ne _ _ hj]; exact h2 j hj
        · simp only [Shared.step, h1, h5, Option.getD_some]
          rw [overwrite_take h4]
          congr 1
          rcases le_total (w'.pos + k) w'.text.length with h | h
          · rw [min_eq_left h]
          · rw [min_eq_right h, List.take_of_length_le h, List.take_length]
  | close i =>
    cases hi : s.writer i with
    | none => simp only [Shared.step, hi]; exact h
    | some w =>
      rcases h with ⟨h, -⟩ | ⟨i', w', h1, h2, h3, h4, h5⟩
      · rw [h i] at hi; cases hi
      · have e : i = i' := by by_contra h; rw [h2 i h] at hi; cases hi
        subst e
        rw [h1] at hi
        injection hi with hi
        subst hi
        left
        refine ⟨fun j => ?_, Or.inr ⟨w'.text, h3, w'.text, List.prefix_rfl, ?_⟩⟩
        · simp only [Shared.step, h1]
          by_cases hj : j = i
          · subst hj; exact setWriter_same ..
          · rw [setWriter_ne _ _ hj]; exact h2 j hj
        · simp only [Shared.step, h1, h5, Option.getD_some]
          have := overwrite_take h4 (w'.text.length)
          rw [List.take_of_length_le (l := w'.text.drop w'.pos) (by rw [List.length_drop]; omega), List.take_of_length_le (l := w'.text) (i := w'.pos + w'.text.length) (by omega)] at this
          rw [this]
  | kill i =>
    rcases h with ⟨h, h'⟩ | ⟨i', w', h1, h2, h3, h4, h5⟩
    · left
      refine ⟨fun j => ?_, h'⟩
      simp only [Shared.step]
      by_cases hj : j = i
      · subst hj; exact setWriter_same ..
      · rw [setWriter_ne _ _ hj]; exact h j
    · by_cases hi : i = i'
      · subst hi
        left
        refine ⟨fun j => ?_, Or.inr ⟨w'.text, h3, _, List.take_prefix _ _, h5⟩⟩
        simp only [Shared.step]
        by_cases hj : j = i
        · subst hj; exact setWriter_same ..
        · rw [setWriter_ne _ _ hj]; exact h2 j hj
      · right
        refine ⟨i', w', ?_, fun j hj => ?_, h3, h4, h5⟩
        · simp only [Shared.step]; rw [setWriter_ne _ _ (Ne.symm hi)]; exact h1
        · simp only [Shared.step]
          by_cases hj' : j = i
          · subst hj'; exact setWriter_same ..
          · rw [setWriter_ne _ _ hj']; exact h2 j hj

theorem seqInv_run {file : Option (List Char)} {opened : List Char → Prop} : ∀ (es : List Ev) (s : Shared), SeqInv file opened s → NoOverlap s es →
    (∀ i t, Ev.openw i t ∈ es → opened t) → SeqInv file opened (s.run es) := by
  intro es
  induction es with
  | nil => intro s h _ _; exact h
  | cons e es ih =>
    intro s h hn ho
    exact ih (s.step e) (h.step e fun i t he => ⟨ho i t (by simp [he]), hn.1 i t he⟩) hn.2 fun i t he => ho i t (by simp [he])

/-- **C79.** If no two commits overlap, the file is at all times what it was at the beginning or a beginning of one of the texts that a process set out to write. -/
theorem C79_sequential_file (s : Shared) (hs : Idle s) (es : List Ev) (h : NoOverlap s es) :
    (s.run es).file = s.file ∨ ∃ i text, Ev.openw i text ∈ es ∧ ∃ p, p <+: text ∧ (s.run es).file = some p := by
  rcases seqInv_run (file := s.file) (opened := fun t => ∃ i, Ev.openw i t ∈ es) es s (Or.inl ⟨hs, Or.inl rfl⟩) h (fun i t he => ⟨i, he⟩) with
    ⟨-, h | ⟨t, ⟨i, hi⟩, p, hp, e⟩⟩ | ⟨i, w, -, -, ⟨i', hi'⟩, -, e⟩
  · exact Or.inl h
  · exact Or.inr ⟨i, t, hi, p, hp, e⟩
  · exact Or.inr ⟨i', w.text, hi', _, List.take_prefix _ _, e⟩

/-- **C79.** If no two commits overlap, and every commit writes a table, then whatever the crash points the file is what it was at the beginning, is rejected, or is read as the
table of one of the commits: never a mixture. -/
theorem C79_sequential_no_mixture (s : Shared) (hs : Idle s) (es : List Ev) (h : NoOverlap s es)
    (ht : ∀ i text, Ev.openw i text ∈ es → ∃ l, Good (table l) ∧ text = dump (table l)) (f : List Char) (hf : (s.run es).file = some f) :
    s.file = some f ∨ load f = .error .jsonDecode ∨ ∃ i l, Ev.openw i (dump (table l)) ∈ es ∧ load f = .ok (table l) := by
  rcases C79_sequential_file s hs es h with h | ⟨i, text, hi, p, hp, e⟩
  · left; rw [← h, hf]
  · right
    rw [hf] at e
    injection e with e
    subst e
    obtain ⟨l, hg, rfl⟩ := ht i text hi
    by_cases hne : f = dump (table l)
    · right; exact ⟨i, l, hi, by rw [hne]; exact C78_roundtrip _ hg⟩
    · left; exact C78_incomplete_rejected _ hg (fun l e => by cases e) f hp hne

/-- **C79.** If no two commits overlap, a commit that comes to its end leaves its own text, whatever happened before. -/
theorem C79_sequential_commit (s : Shared) (hs : Idle s) (es : List Ev) (h : NoOverlap s es) (i : ℕ) (w : Writer) (hw : (s.run es).writer i = some w) :
    (s.run (es ++ [.close i])).file = some w.text ∧ Idle (s.run (es ++ [.close i])) := by
  have hr : s.run (es ++ [.close i]) = (s.run es).step (.close i) := by simp [Shared.run, List.foldl_append]
  rcases seqInv_run (file := s.file) (opened := fun _ => True) es s (Or.inl ⟨hs, Or.inl rfl⟩) h (fun _ _ _ => trivial) with ⟨h, -⟩ | ⟨i', w', h1, h2, -, h4, h5⟩
  · rw [h i] at hw; cases hw
  · have e : i = i' := by by_contra h; rw [h2 i h] at hw; cases hw
    subst e
    rw [h1] at hw
    injection hw with hw
    subst hw
    rw [hr]
    constructor
    · simp only [Shared.step, h1, h5, Option.getD_some]
      have := overwrite_take h4 (w'.text.length)
      rw [List.take_of_length_le (l := w'.text.drop w'.pos) (by rw [List.length_drop]; omega), List.take_of_length_le (l := w'.text) (i := w'.pos + w'.text.length) (by omega)] at this
      rw [this]
    · intro j
      simp only [Shared.step, h1]
      by_cases hj : j = i
      · subst hj; exact setWriter_same ..
      · rw [setWriter_ne _ _ hj]; exact h2 j hj

/-- Invariant of histories in which every process writes `T`. -/
def SameInv (file : Option (List Char)) (T : List Char) (s : Shared) : Prop :=
  (∀ j w, s.writer j = some w → w.text = T) ∧ ((Idle s ∧ s.file = file) ∨ ∃ f, s.file = some f ∧ Agree T f)

theorem SameInv.step {file : Option (List Char)} {T : List Char} {s : Shared} (h : SameInv file T s) (e : Ev) (ho : ∀ i t, e = .openw i t → t = T) :
    SameInv file T (s.step e) := by
  obtain ⟨h1, h2⟩ := h
  have wr : ∀ (i : ℕ) (w : Option Writer), (∀ x, w = some x → x.text = T) → ∀ j x, (s.setWriter i w).writer j = some x → x.text = T := by
    intro i w hw j x hx
    by_cases hj : j = i
    · subst hj; rw [setWriter_same] at hx; exact hw x hx
    · rw [setWriter_ne _ _ hj] at hx; exact h1 j x hx
  cases e with
  | openw i t =>
    cases hi : s.writer i with
    | some w => simp only [Shared.step, hi]; exact ⟨h1, h2⟩
    | none =>
      simp only [Shared.step, hi]
      refine ⟨wr i _ ?_, Or.inr ⟨[], rfl, Agree.nil T⟩⟩
      intro x hx; injection hx with hx; rw [← hx]; exact ho i t rfl
  | flush i k =>
    cases hi : s.writer i with
    | none => simp only [Shared.step, hi]; exact ⟨h1, h2⟩
    | some w =>
      simp only [Shared.step, hi]
      refine ⟨wr i _ ?_, Or.inr ⟨_, rfl, ?_⟩⟩
      · intro x hx; injection hx with hx; rw [← hx]; exact h1 i w hi
      · rcases h2 with ⟨h2, -⟩ | ⟨f, h2, h3⟩
        · rw [h2 i] at hi; cases hi
        · rw [h2, h1 i w hi]; exact h3.overwrite _ _
  | close i =>
    cases hi : s.writer i with
    | none => simp only [Shared.step, hi]; exact ⟨h1, h2⟩
    | some w =>
      simp only [Shared.step, hi]
      refine ⟨wr i _ (fun x hx => by cases hx), Or.inr ⟨_, rfl, ?_⟩⟩
      rcases h2 with ⟨h2, -⟩ | ⟨f, h2, h3⟩
      · rw [h2 i] at hi; cases hi
      · rw [h2, h1 i w hi]
        have := h3.overwrite w.pos T.length
        rwa [List.take_of_length_le (by rw [List.length_drop]; omega)] at this
  | kill i =>
    simp only [Shared.step]
    refine ⟨wr i _ (fun x hx => by cases hx), ?_⟩
    rcases h2 with ⟨h2, h3⟩ | h2
    · left
      refine ⟨fun j => ?_, h3⟩
      by_cases hj : j = i
      · subst hj; exact setWriter_same ..
      · rw [setWriter_ne _ _ hj]; exact h2 j
    · exact Or.inr h2

/-- **C79.** If all processes write the same value (not a bare number), then however their commits overlap and wherever they are killed, the file is what it was at the beginning, is rejected, or is
read as that value. -/
theorem C79_same_value_any_overlap (s : Shared) (hs : Idle s) (v : Val) (hv : Good v) (hn : ∀ l, v ≠ .num l) (es : List Ev)
    (ht : ∀ i text, Ev.openw i text ∈ es → text = dump v) (f : List Char) (hf : (s.run es).file = some f) :
    s.file = some f ∨ load f = .error .jsonDecode ∨ load f = .ok v := by
  have key : ∀ (es : List Ev) (s' : Shared), SameInv s.file (dump v) s' → (∀ i text, Ev.openw i text ∈ es → text = dump v) → SameInv s.file (dump v) (s'.run es) := by
    intro es
    induction es with
    | nil => intro s' h _; exact h
    | cons e es ih =>
      intro s' h ho
      exact ih (s'.step e) (h.step e fun i t he => ho i t (by simp [he])) fun i t he => ho i t (by simp [he])
  rcases (key es s ⟨fun j w h => (by rw [hs j] at h; cases h), Or.inl ⟨hs, rfl⟩⟩ ht).2 with ⟨-, h⟩ | ⟨f', h, h'⟩
  · left; rw [← h, hf]
  · right
    rw [hf] at h
    injection h with h
    subst h
    rcases h'.cases with h' | h'
    · by_cases hne : f = dump v
      · right; rw [hne]; exact C78_roundtrip v hv
      · left; exact C78_incomplete_rejected v hv hn f h' hne
    · left; exact load_zero_byte f h'

/-- Invariant of histories without kills in which every process writes `T`: `j` is the process that opened the file last. -/
def FullInv (T : List Char) (s : Shared) : Prop :=
  (∀ j w, s.writer j = some w → w.text = T ∧ w.pos ≤ T.length) ∧ ∃ f j, s.file = some f ∧ f.length ≤ T.length ∧
    ∀ i, i < (match s.writer j with | some w => w.pos | none => T.length) → f[i]? = T[i]?

theorem overwrite_full {T f : List Char} (p k q : ℕ) (hf : f.length ≤ T.length) (hq : ∀ i, i < q → f[i]? = T[i]?) :
    (overwrite f p ((T.drop p).take k)).length ≤ T.length ∧ ∀ i, (i < q ∨ (p ≤ i ∧ i < p + k ∧ i < T.length)) → (overwrite f p ((T.drop p).take k))[i]? = T[i]? := by
  by_cases hc : (T.drop p).take k = []
  · have h0 : p + k ≤ p ∨ T.length ≤ p := by
      have := congrArg List.length hc
      rw [List.length_take, List.length_drop, List.length_nil] at this
      omega
    have e : overwrite f p ((T.drop p).take k) = f := by unfold overwrite; rw [if_pos hc]
    rw [e]
    exact ⟨hf, fun i hi => hq i (by omega)⟩
  · have hp : p < T.length := by
      by_contra hp
      exact hc (by rw [List.drop_eq_nil_of_le (by omega)]; simp)
    have hcl : ((T.drop p).take k).length = min k (T.length - p) := by rw [List.length_take, List.length_drop]
    refine ⟨?_, fun i hi => ?_⟩
    · rw [← List.getElem?_eq_none_iff, overwrite_getElem? _ _ hc, if_neg (by omega), if_neg (by omega), List.getElem?_eq_none_iff]
      exact hf
    · rw [overwrite_getElem? _ _ hc]
      split_ifs with h1 h2 h3
      · exact hq i (by omega)
      · exfalso
        have := hq i (by omega)
        rw [List.getElem?_eq_none (by omega), eq_comm, List.getElem?_eq_none_iff] at this
        omega
      · rw [List.getElem?_take, if_pos (by omega), List.getElem?_drop, show p + (i - p) = i by omega]
      · exact hq i (by omega)

theorem FullInv.step {T : List Char} {s : Shared} (h : FullInv T s) (e : Ev) (hk : ∀ i, e ≠ .kill i) (ho : ∀ i t, e = .openw i t → t = T) : FullInv T (s.step e) := by
  obtain ⟨h1, f, j, h2, h3, h4⟩ := h
  have wr : ∀ (i : ℕ) (w : Option Writer), (∀ x, w = some x → x.text = T ∧ x.pos ≤ T.length) → ∀ j x, (s.setWriter i w).writer j = some x → x.text = T ∧ x.pos ≤ T.length := by
    intro i w hw j x hx
    by_cases hj : j = i
    · subst hj; rw [setWriter_same] at hx; exact hw x hx
    · rw [setWriter_ne _ _ hj] at hx; exact h1 j x hx
  have hq : (match s.writer j with | some w => w.pos | none => T.length) ≤ T.length := by
    cases hj : s.writer j with
    | none => exact le_rfl
    | some w => exact (h1 j w hj).2
  cases e with
  | openw i t =>
    cases hi : s.writer i with
    | some w => simp only [Shared.step, hi]; exact ⟨h1, f, j, h2, h3, h4⟩
    | none =>
      simp only [Shared.step, hi]
      refine ⟨wr i _ ?_, [], i, rfl, Nat.zero_le _, ?_⟩
      · intro x hx; injection hx with hx; rw [← hx]; exact ⟨ho i t rfl, Nat.zero_le _⟩
      · rw [setWriter_same]; simp
  | flush i k =>
    cases hi : s.writer i with
    | none => simp only [Shared.step, hi]; exact ⟨h1, f, j, h2, h3, h4⟩
    | some w =>
      obtain ⟨hw, hwp⟩ := h1 i w hi
      simp only [Shared.step, hi]
      rw [h2, Option.getD_some, hw]
      obtain ⟨o1, o2⟩ := overwrite_full w.pos k _ h3 h4
      refine ⟨wr i _ ?_, _, j, rfl, o1, fun x hx => o2 x ?_⟩
      · intro x hx; injection hx with hx; rw [← hx]; exact ⟨rfl, by simp⟩
      · by_cases hj : j = i
        · subst hj
          rw [setWriter_same] at hx
          rw [hi]
          simp only at hx ⊢
          omega
        · rw [setWriter_ne _ _ hj] at hx
          exact Or.inl hx
  | close i =>
    cases hi : s.writer i with
    | none => simp only [Shared.step, hi]; exact ⟨h1, f, j, h2, h3, h4⟩
    | some w =>
      obtain ⟨hw, hwp⟩ := h1 i w hi
      simp only [Shared.step, hi]
      rw [h2, Option.getD_some, hw]
      obtain ⟨o1, o2⟩ := overwrite_full w.pos T.length _ h3 h4
      rw [List.take_of_length_le (l := T.drop w.pos) (by rw [List.length_drop]; omega)] at o1 o2
      refine ⟨wr i _ (fun x hx => by cases hx), _, j, rfl, o1, fun x hx => o2 x ?_⟩
      by_cases hj : j = i
      · subst hj
        rw [setWriter_same] at hx
        rw [hi]
        simp only at hx ⊢
        omega
      · rw [setWriter_ne _ _ hj] at hx
        exact Or.inl hx
  | kill i => exact absurd rfl (hk i)

/-- **C79.** If all processes write the same text and none is killed, the file holds that text when the last of them has closed it, however their writes overlapped. -/
theorem C79_same_text_complete (s : Shared) (hs : Idle s) (T : List Char) (es : List Ev) (hk : ∀ i, Ev.kill i ∉ es)
    (ht : ∀ i text, Ev.openw i text ∈ es → text = T) (hne : ∃ i text, Ev.openw i text ∈ es) (hd : Idle (s.run es)) : (s.run es).file = some T := by
  have key : ∀ (es : List Ev) (s' : Shared), FullInv T s' → (∀ i, Ev.kill i ∉ es) → (∀ i text, Ev.openw i text ∈ es → text = T) → FullInv T (s'.run es) := by
    intro es
    induction es with
    | nil => intro s' h _ _; exact h
    | cons e es ih =>
      intro s' h hk ho
      exact ih (s'.step e) (h.step e (fun i he => hk i (by simp [he])) fun i t he => ho i t (by simp [he])) (fun i hi => hk i (by simp [hi])) fun i t he => ho i t (by simp [he])
  have start : ∀ (es : List Ev) (s' : Shared), Idle s' → (∀ i, Ev.kill i ∉ es) → (∀ i text, Ev.openw i text ∈ es → text = T) → (∃ i text, Ev.openw i text ∈ es) →
      FullInv T (s'.run es) := by
    intro es
    induction es with
    | nil => rintro s' - - - ⟨i, t, h⟩; simp at h
    | cons e es ih =>
      intro s' hs hk ho hne
      have hk' : ∀ i, Ev.kill i ∉ es := fun i hi => hk i (by simp [hi])
      have ho' : ∀ i text, Ev.openw i text ∈ es → text = T := fun i t he => ho i t (by simp [he])
      cases e with
      | openw i t =>
        refine key es _ ?_ hk' ho'
        have := ho i t (by simp)
        subst this
        simp only [Shared.step, hs i]
        refine ⟨fun j w hw => ?_, [], i, rfl, Nat.zero_le _, ?_⟩
        · by_cases hj : j = i
          · subst hj; rw [setWriter_same] at hw; injection hw with hw; rw [← hw]; exact ⟨rfl, Nat.zero_le _⟩
          · rw [setWriter_ne _ _ hj, hs j] at hw; cases hw
        · rw [setWriter_same]; simp
      | flush i k =>
        have e : s'.step (.flush i k) = s' := by simp only [Shared.step, hs i]
        rw [show s'.run (.flush i k :: es) = (s'.step (.flush i k)).run es from rfl, e]
        refine ih s' hs hk' ho' ?_
        obtain ⟨j, t, h⟩ := hne
        exact ⟨j, t, by simpa using h⟩
      | close i =>
        have e : s'.step (.close i) = s' := by simp only [Shared.step, hs i]
        rw [show s'.run (.close i :: es) = (s'.step (.close i)).run es from rfl, e]
        refine ih s' hs hk' ho' ?_
        obtain ⟨j, t, h⟩ := hne
        exact ⟨j, t, by simpa using h⟩
      | kill i => exact absurd (by simp) (hk i)
  obtain ⟨-, f, j, h2, h3, h4⟩ := start es s hs hk ht hne
  rw [h2]
  congr 1
  rw [hd j] at h4
  simp only at h4
  refine List.ext_getElem? fun i => ?_
  by_cases hi : i < T.length
  · exact h4 i hi
  · rw [List.getElem?_eq_none (by omega), List.getElem?_eq_none (by omega)]

/-- **C79, defect.** Two processes commit different tables at the same time and nobody is killed; when both are done, the file is read without error as a table that has an entry neither of them had:
a later session returns the result of one argument for another one. -/
theorem C79_overlap_mixes_tables : ∃ (lA lB l : List (PyStr × PyStr)) (es : List Ev), Good (table lA) ∧ Good (table lB) ∧
    es = [.openw 0 (dump (table lA)), .flush 0 6, .openw 1 (dump (table lB)), .close 1, .close 0] ∧
    Idle ((⟨none, fun _ => none⟩ : Shared).run es) ∧
    ∃ f, ((⟨none, fun _ => none⟩ : Shared).run es).file = some f ∧ load f = .ok (table l) ∧ ∃ e ∈ l, e ∉ lA ∧ e ∉ lB := by
  have g : ∀ a b : ℕ, a < 128 → b < 128 → Good (table [([a], [b])]) := fun a b ha hb => by
    refine good_table ?_ (by simp)
    simp only [List.mem_cons, List.not_mem_nil, or_false, forall_eq]
    exact ⟨⟨by simp; omega, by simp⟩, by simp; omega, by simp⟩
  refine ⟨[([97], [49])], [([98], [50])], [([98], [49])], _, g _ _ (by norm_num) (by norm_num), g _ _ (by norm_num) (by norm_num), rfl, ?_, ?_⟩
  · intro j
    simp only [Shared.run, List.foldl_cons, List.foldl_nil]
    simp only [Shared.step, Shared.setWriter]
    by_cases h0 : j = 0
    · subst h0; simp
    · by_cases h1 : j = 1
      · subst h1; simp
      · simp [h0, h1]
  · refine ⟨dump (table [([98], [49])]), ?_, C78_roundtrip _ (g _ _ (by norm_num) (by norm_num)), ([98], [49]), by simp, by simp, by simp⟩
    simp only [Shared.run, List.foldl_cons, List.foldl_nil]
    simp only [Shared.step, Shared.setWriter]
    simp [table, dump, dumpAt, dumpDict, dumpStr, escape, nl, overwrite]

/-- The hypotheses of the theorems on sequential histories are met by a history with a completed commit, one killed in the middle and one that restores the file. -/
example (T U : List Char) : NoOverlap ⟨none, fun _ => none⟩ [.openw 0 T, .flush 0 3, .close 0, .openw 1 U, .flush 1 5, .kill 1, .openw 2 T, .close 2] := by
  refine ⟨fun i t h => fun j => rfl, fun i t h => (by cases h), fun i t h => (by cases h), fun i t h j => ?_, fun i t h => (by cases h), fun i t h => (by cases h), fun i t h j => ?_,
    fun i t h => (by cases h), trivial⟩
  all_goals
    simp only [Shared.step, Shared.setWriter]
    split_ifs <;> simp_all

end Dec.Props
