import Verif.Lib.JsonRound

/-!
# Incomplete texts, failed writes, overlapping writes
-/

namespace Dec.Text

/-! ## Incomplete texts -/

theorem value_head_num {n : ℕ} {s r : List Char} {l : List Char} (h : value n s = some (.num l, r)) :
    ∃ c t, s = c :: t ∧ c ≠ '"' ∧ c ≠ '{' ∧ c ≠ '[' ∧ c ≠ 'n' ∧ c ≠ 't' ∧ c ≠ 'f' := by
  cases n with
  | zero => simp [value] at h
  | succ n =>
    cases s with
    | nil => simp [value] at h
    | cons c s =>
      refine ⟨c, s, rfl, ?_⟩
      rw [value] at h
      split_ifs at h with h1 h2 h3 h4 h5 h6
      · cases hl : loadStr s with
        | none => rw [hl] at h; cases h
        | some p => rw [hl] at h; simp at h
      · cases hw : skipWs s with
        | nil => rw [hw] at h; cases h
        | cons d t =>
          rw [hw] at h
          simp only at h
          split_ifs at h
          · simp at h
          · cases hm : members n (d :: t) with
            | none => rw [hm] at h; cases h
            | some p => rw [hm] at h; simp at h
      · cases hw : skipWs s with
        | nil => rw [hw] at h; cases h
        | cons d t =>
          rw [hw] at h
          simp only at h
          split_ifs at h
          · simp at h
          · cases hm : elements n (d :: t) with
            | none => rw [hm] at h; cases h
            | some p => rw [hm] at h; simp at h
      · cases word_val h
      · cases word_val h
      · cases word_val h
      · exact ⟨h1, h2, h3, h4, h5, h6⟩

/-- The first character of a value that is not a number. -/
theorem dump_head {v : Val} (hv : ∀ l, v ≠ .num l) (lvl : ℕ) :
    ∃ c t, dumpAt lvl v = c :: t ∧ (c = '"' ∨ c = '{' ∨ c = '[' ∨ c = 'n' ∨ c = 't' ∨ c = 'f') := by
  cases v with
  | null => exact ⟨_, _, rfl, by decide⟩
  | bool b => cases b <;> exact ⟨_, _, rfl, by decide⟩
  | num l => exact absurd rfl (hv l)
  | str s => exact ⟨_, _, by rw [dumpAt, dumpStr], by decide⟩
  | list l => cases l <;> exact ⟨_, _, by rw [dumpAt]; first | done | rfl, by decide⟩
  | dict l => rcases l with _ | ⟨⟨k, v⟩, l⟩ <;> exact ⟨_, _, by rw [dumpAt]; first | done | rfl, by decide⟩

/-- The last character of a value that is not a number. -/
theorem dump_last {v : Val} (hv : ∀ l, v ≠ .num l) (lvl : ℕ) : ∃ t c, dumpAt lvl v = t ++ [c] ∧ isWs c = false := by
  cases v with
  | null => exact ⟨"nul".toList, 'l', rfl, by decide⟩
  | bool b =>
    cases b
    · exact ⟨"fals".toList, 'e', rfl, by decide⟩
    · exact ⟨"tru".toList, 'e', rfl, by decide⟩
  | num l => exact absurd rfl (hv l)
  | str s => exact ⟨'"' :: s.flatMap escape, '"', by rw [dumpAt, dumpStr]; rfl, by decide⟩
  | list l =>
    cases l with
    | nil => exact ⟨['['], ']', rfl, by decide⟩
    | cons v l => exact ⟨'[' :: (nl (lvl + 1) ++ (dumpAt (lvl + 1) v ++ (dumpList lvl l ++ nl lvl))), ']', by rw [dumpAt]; simp, by decide⟩
  | dict l =>
    rcases l with _ | ⟨⟨k, v⟩, l⟩
    · exact ⟨['{'], '}', rfl, by decide⟩
    · exact ⟨'{' :: (nl (lvl + 1) ++ (dumpStr k ++ (':' :: ' ' :: (dumpAt (lvl + 1) v ++ (dumpDict lvl l ++ nl lvl))))), '}', by rw [dumpAt]; simp, by decide⟩

theorem skipWs_append_single {t : List Char} {c : Char} (hc : isWs c = false) : skipWs (t ++ [c]) ≠ [] :=
  skipWs_ne_nil_append (by rw [skipWs_cons hc]; simp)

theorem load_nil : load [] = .error .jsonDecode := by simp [load, skipWs, value]

/-- An incomplete text is rejected. -/
theorem load_prefix {v : Val} (hg : Good v) (hv : ∀ l, v ≠ .num l) {p : List Char} (hp : p <+: dump v) (hne : p ≠ dump v) : load p = .error .jsonDecode := by
  obtain ⟨t, ht⟩ := hp
  cases hl : load p with
  | error e =>
    unfold load at hl
    split at hl
    · split_ifs at hl; exact hl.symm
    · exact hl.symm
  | ok w =>
    exfalso
    have htne : t ≠ [] := by rintro rfl; exact hne (by rw [← ht]; simp)
    have hw : ∀ l, w ≠ .num l := by
      rintro l rfl
      obtain ⟨c, u, e, hc⟩ := dump_head hv 0
      cases p with
      | nil => rw [load_nil] at hl; cases hl
      | cons d p =>
        rw [show dump v = dumpAt 0 v from rfl, e, List.cons_append, List.cons.injEq] at ht
        obtain ⟨rfl, -⟩ := ht
        have hws : isWs d = false := by rcases hc with rfl | rfl | rfl | rfl | rfl | rfl <;> decide
        unfold load at hl
        rw [skipWs_cons hws] at hl
        cases hx : value (2 * (d :: p).length + 1) (d :: p) with
        | none => rw [hx] at hl; cases hl
        | some q =>
          rw [hx] at hl
          simp only at hl
          split_ifs at hl
          injection hl with hl
          obtain ⟨q1, q2⟩ := q
          simp only at hl
          rw [hl] at hx
          obtain ⟨c', t', e', h'⟩ := value_head_num hx
          simp only [List.cons.injEq] at e'
          rw [← e'.1] at h'
          tauto
    have hs : skipWs t ≠ [] := by
      obtain ⟨u, c, e, hc⟩ := dump_last hv 0
      rcases List.eq_nil_or_concat t with h | ⟨t', d, rfl⟩
      · exact absurd h htne
      · rw [List.concat_eq_append] at *
        rw [show dump v = dumpAt 0 v from rfl, e, ← List.append_assoc] at ht
        have := (List.append_inj' ht rfl).2
        simp only [List.cons.injEq, and_true] at this
        rw [this]
        exact skipWs_append_single hc
    have := load_append hl hw hs
    rw [ht, load_dump hg] at this
    cases this

/-! ## Failed writes -/

mutual
/-- The value that is written if the objects that cannot be written are replaced by `None`. For /repo/dec/data.py:31-34. -/
def fill : Obj → Val
  | .val v => v
  | .other => .null
  | .list l => .list (fillList l)
  | .dict l => .dict (fillDict l)
/-- The elements of a list. For /repo/dec/data.py:31-34. -/
def fillList : List Obj → List Val
  | [] => []
  | o :: l => fill o :: fillList l
/-- The entries of a dict. For /repo/dec/data.py:31-34. -/
def fillDict : List (PyStr × Obj) → List (PyStr × Val)
  | [] => []
  | (k, o) :: l => (k, fill o) :: fillDict l
end

/-- `x` is what is written of `t`: all of it, or a part of it if an exception is raised. -/
def Part (x : List Char × Bool) (t : List Char) : Prop := (x.2 = true → x.1 = t) ∧ (x.2 = false → x.1 <+: t ∧ x.1 ≠ t)

theorem Part.andThen {x y : List Char × Bool} {t u : List Char} (hx : Part x t) (hy : Part y u) : Part (andThen x y) (t ++ u) := by
  unfold Text.andThen
  cases h : x.2 with
  | true =>
    rw [if_pos rfl, hx.1 h]
    refine ⟨fun h' => by rw [hy.1 h'], fun h' => ⟨(List.prefix_append_right_inj _).2 (hy.2 h').1, fun e => (hy.2 h').2 (List.append_cancel_left e)⟩⟩
  | false =>
    rw [if_neg (by simp)]
    refine ⟨fun h' => (by rw [h] at h'; cases h'), fun _ => ?_⟩
    obtain ⟨⟨w, hw⟩, h2⟩ := hx.2 h
    refine ⟨⟨w ++ u, by rw [← List.append_assoc, hw]⟩, ?_⟩
    intro e
    rw [← hw, List.append_assoc] at e
    have : w ++ u = [] := by
      have := congrArg List.length e
      simp only [List.length_append] at this
      exact List.eq_nil_of_length_eq_zero (by rw [List.length_append]; omega)
    rw [List.append_eq_nil_iff] at this
    rw [this.1, List.append_nil] at hw
    exact h2 hw

theorem Part.pre {x : List Char × Bool} {t : List Char} (a : List Char) (hx : Part x t) : Part (a ++ x.1, x.2) (a ++ t) :=
  ⟨fun h => by rw [show x.1 = t from hx.1 h], fun h => ⟨(List.prefix_append_right_inj _).2 (hx.2 h).1, fun e => (hx.2 h).2 (List.append_cancel_left e)⟩⟩

theorem Part.all (t : List Char) : Part (t, true) t := ⟨fun _ => rfl, fun h => (by cases h)⟩

mutual
theorem part_emit (level : ℕ) : ∀ o, Part (emit level o) (dumpAt level (fill o))
  | .val v => by rw [emit, fill]; exact Part.all _
  | .other => by rw [emit, fill, dumpAt]; exact ⟨fun h => (by cases h), fun _ => ⟨List.nil_prefix, by simp⟩⟩
  | .list [] => by rw [emit, fill, fillList, dumpAt]; exact Part.all _
  | .list (v :: l) => by
    have := Part.pre ('[' :: nl (level + 1)) ((part_emit (level + 1) v).andThen ((part_emitList level l).andThen (Part.all (nl level ++ [']']))))
    rw [emit, fill, fillList, dumpAt]
    exact this
  | .dict [] => by rw [emit, fill, fillDict, dumpAt]; exact Part.all _
  | .dict ((k, v) :: l) => by
    have := Part.pre ('{' :: (nl (level + 1) ++ (dumpStr k ++ [':', ' ']))) ((part_emit (level + 1) v).andThen ((part_emitDict level l).andThen (Part.all (nl level ++ ['}']))))
    rw [emit, fill, fillDict, dumpAt]
    simpa only [List.cons_append, List.append_assoc, List.nil_append] using this
theorem part_emitList (level : ℕ) : ∀ l, Part (emitList level l) (dumpList level (fillList l))
  | [] => by rw [emitList, fillList, dumpList]; exact Part.all _
  | v :: l => by
    have := Part.pre (',' :: nl (level + 1)) ((part_emit (level + 1) v).andThen (part_emitList level l))
    rw [emitList, fillList, dumpList]
    exact this
theorem part_emitDict (level : ℕ) : ∀ l, Part (emitDict level l) (dumpDict level (fillDict l))
  | [] => by rw [emitDict, fillDict, dumpDict]; exact Part.all _
  | (k, v) :: l => by
    have := Part.pre (',' :: (nl (level + 1) ++ (dumpStr k ++ [':', ' ']))) ((part_emit (level + 1) v).andThen (part_emitDict level l))
    rw [emitDict, fillDict, dumpDict]
    simpa only [List.cons_append, List.append_assoc, List.nil_append] using this
end

/-! ## Overlapping writes -/

theorem overwrite_take {text : List Char} {pos : ℕ} (hp : pos ≤ text.length) (k : ℕ) :
    overwrite (text.take pos) pos ((text.drop pos).take k) = text.take (pos + k) := by
  unfold overwrite
  split_ifs with h
  · rw [List.take_add, h, List.append_nil]
  · rw [List.length_take, min_eq_left hp, Nat.sub_self, List.replicate_zero, List.nil_append, List.take_take, min_self,
      List.drop_eq_nil_of_le (as := text.take pos) (by rw [List.length_take]; omega),
      List.append_nil, ← List.take_add]

theorem overwrite_getElem? (f : List Char) (p : ℕ) {chunk : List Char} (hc : chunk ≠ []) (i : ℕ) :
    (overwrite f p chunk)[i]? = if i < p then (if i < f.length then f[i]? else some '\x00') else if i < p + chunk.length then chunk[i - p]? else f[i]? := by
  have hl : (f.take p).length = min p f.length := List.length_take
  unfold overwrite
  rw [if_neg hc]
  by_cases h1 : i < p
  · rw [if_pos h1]
    by_cases h2 : i < f.length
    · rw [if_pos h2, List.getElem?_append_left (by omega), List.getElem?_take, if_pos h1]
    · rw [if_neg h2, List.getElem?_append_right (by omega), List.getElem?_append_left (by rw [List.length_replicate]; omega), List.getElem?_replicate, if_pos (by omega)]
  · rw [if_neg h1, List.getElem?_append_right (by omega), List.getElem?_append_right (by rw [List.length_replicate]; omega)]
    have e : i - (f.take p).length - (List.replicate (p - f.length) '\x00').length = i - p := by rw [List.length_replicate]; omega
    rw [e]
    by_cases h3 : i < p + chunk.length
    · rw [if_pos h3, List.getElem?_append_left (by omega)]
    · rw [if_neg h3, List.getElem?_append_right (by omega), List.getElem?_drop]
      congr 1; omega

/-- Every character is the one of `T` or a zero byte. -/
def Agree (T f : List Char) : Prop := ∀ i c, f[i]? = some c → T[i]? = some c ∨ (c = '\x00' ∧ i < T.length)

theorem Agree.nil (T : List Char) : Agree T [] := by intro i c h; simp at h

theorem Agree.overwrite {T f : List Char} (h : Agree T f) (p k : ℕ) : Agree T (Text.overwrite f p ((T.drop p).take k)) := by
  by_cases hc : (T.drop p).take k = []
  · unfold Text.overwrite; rw [if_pos hc]; exact h
  · have hp : p < T.length := by
      by_contra hp
      exact hc (by rw [List.drop_eq_nil_of_le (by omega)]; simp)
    intro i c
    rw [overwrite_getElem? _ _ hc]
    split_ifs with h1 h2 h3
    · exact h i c
    · intro e; exact Or.inr ⟨(Option.some.inj e).symm, by omega⟩
    · rw [List.length_take, List.length_drop] at h3
      rw [List.getElem?_take, if_pos (by omega), List.getElem?_drop, show p + (i - p) = i by omega]
      exact Or.inl
    · exact h i c

/-- A file whose characters agree with `T` is a prefix of `T` or is rejected. -/
theorem Agree.cases {T f : List Char} (h : Agree T f) : f <+: T ∨ '\x00' ∈ f := by
  by_cases h0 : '\x00' ∈ f
  · exact Or.inr h0
  · left
    rw [List.prefix_iff_getElem?]
    intro i hi
    rcases h i f[i] (List.getElem?_eq_getElem hi) with h | ⟨h, -⟩
    · exact h
    · exact absurd (h ▸ List.getElem_mem hi) h0

end Dec.Text
