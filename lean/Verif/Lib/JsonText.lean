import Verif.Model.JsonText
import Mathlib.Tactic

set_option linter.unusedSimpArgs false
set_option linter.unusedVariables false

/-! # Lemmas about JSON texts -/

namespace Dec.Text

/-! ## What a parser consumes -/

/-- `r` is what is left of `s` after something without zero bytes has been consumed. -/
def Eats (s r : List Char) : Prop := ∃ t, s = t ++ r ∧ '\x00' ∉ t

theorem Eats.refl (s : List Char) : Eats s s := ⟨[], rfl, by simp⟩
theorem Eats.trans {a b c : List Char} (h : Eats a b) (h' : Eats b c) : Eats a c := by
  obtain ⟨t, rfl, ht⟩ := h
  obtain ⟨u, rfl, hu⟩ := h'
  exact ⟨t ++ u, by simp, by simp [ht, hu]⟩
theorem Eats.cons {c : Char} {s r : List Char} (hc : c ≠ '\x00') (h : Eats s r) : Eats (c :: s) r := by
  obtain ⟨t, rfl, ht⟩ := h
  exact ⟨c :: t, rfl, by simp [ht, hc.symm]⟩
theorem Eats.length {s r : List Char} (h : Eats s r) : r.length ≤ s.length := by
  obtain ⟨t, rfl, -⟩ := h; simp
theorem Eats.mem {s r : List Char} (h : Eats s r) (h0 : '\x00' ∈ s) : '\x00' ∈ r := by
  obtain ⟨t, rfl, ht⟩ := h
  simpa [ht] using h0
theorem eats_dropWhile (p : Char → Bool) (hp : p '\x00' = false) (s : List Char) : Eats s (s.dropWhile p) := by
  refine ⟨s.takeWhile p, (List.takeWhile_append_dropWhile).symm, fun h => ?_⟩
  have := List.all_eq_true.1 (List.all_takeWhile (p := p) (l := s)) _ h
  rw [hp] at this; cases this
theorem eats_skipWs (s : List Char) : Eats s (skipWs s) := eats_dropWhile isWs rfl s

theorem eats_strUnits : ∀ (s : List Char) (u : List (ℕ × Bool)) (r : List Char), strUnits s = some (u, r) → Eats s r ∧ r.length < s.length := by
  intro s
  induction h : s.length using Nat.strong_induction_on generalizing s with
  | _ n ih =>
  intro u r
  cases s with
  | nil => intro e; simp [strUnits] at e
  | cons c s =>
    rw [strUnits.eq_def]; simp only
    split_ifs with h1 h2 h3
    · intro e; simp only [Option.some.injEq, Prod.mk.injEq] at e
      obtain ⟨-, rfl⟩ := e
      exact ⟨(Eats.refl _).cons (by rw [h1]; decide), by rw [← h]; simp⟩
    · cases s with
      | nil => intro e; simp at e
      | cons e r1 =>
        simp only
        split_ifs with h4
        · rcases r1 with _ | ⟨a, _ | ⟨b, _ | ⟨c', _ | ⟨d, r2⟩⟩⟩⟩ <;> simp only [reduceCtorEq, false_imp_iff]
          cases hx : hexVal4 a b c' d with
          | none => simp
          | some n =>
            cases hs : strUnits r2 with
            | none => simp
            | some p =>
              intro e; simp only [Option.some.injEq, Prod.mk.injEq] at e
              obtain ⟨-, rfl⟩ := e
              obtain ⟨i1, i2⟩ := ih _ (by subst h; simp only [List.length_cons]; omega) r2 rfl p.1 p.2 (by rw [hs])
              have hz : hexVal '\x00' = none := by decide
              have ha : a ≠ '\x00' := by rintro rfl; simp [hexVal4, hz] at hx
              have hb : b ≠ '\x00' := by rintro rfl; simp [hexVal4, hz] at hx
              have hc : c' ≠ '\x00' := by rintro rfl; simp [hexVal4, hz] at hx
              have hd : d ≠ '\x00' := by rintro rfl; simp [hexVal4, hz] at hx
              exact ⟨Eats.cons (by rw [h2]; decide) (Eats.cons (by rw [h4]; decide) (Eats.cons ha (Eats.cons hb (Eats.cons hc (Eats.cons hd i1))))),
                by rw [← h]; simp only [List.length_cons]; omega⟩
        · cases hx : simpleEsc e with
          | none => simp
          | some n =>
            cases hs : strUnits r1 with
            | none => simp
            | some p =>
              intro e'; simp only [Option.some.injEq, Prod.mk.injEq] at e'
              obtain ⟨-, rfl⟩ := e'
              obtain ⟨i1, i2⟩ := ih _ (by subst h; simp only [List.length_cons]; omega) r1 rfl p.1 p.2 (by rw [hs])
              have he : e ≠ '\x00' := by rintro rfl; rw [show simpleEsc '\x00' = none by decide] at hx; cases hx
              exact ⟨Eats.cons (by rw [h2]; decide) (Eats.cons he i1), by rw [← h]; simp only [List.length_cons]; omega⟩
    · simp
    · cases hs : strUnits s with
      | none => simp
      | some p =>
        intro e; simp only [Option.some.injEq, Prod.mk.injEq] at e
        obtain ⟨-, rfl⟩ := e
        obtain ⟨i1, i2⟩ := ih _ (by subst h; simp) s rfl p.1 p.2 (by rw [hs])
        exact ⟨Eats.cons (by rintro rfl; exact h3 (by decide)) i1, by rw [← h]; simp only [List.length_cons]; omega⟩

theorem eats_loadStr {s : List Char} {u : PyStr} {r : List Char} (h : loadStr s = some (u, r)) : Eats s r ∧ r.length < s.length := by
  unfold loadStr at h
  split at h
  · rename_i u' t hs
    simp only [Option.some.injEq, Prod.mk.injEq] at h
    obtain ⟨-, rfl⟩ := h
    exact eats_strUnits _ _ _ hs
  · cases h

theorem digit0 : isDigit '\x00' = false := by decide
theorem isDigit_ne {c : Char} (h : isDigit c = true) : c ≠ '\x00' := by rintro rfl; rw [digit0] at h; cases h

theorem eats_scanInt {s i r : List Char} (h : scanInt s = some (i, r)) : Eats s r ∧ r.length < s.length := by
  have key : ∀ (sign s' : List Char), (match s' with
      | [] => none
      | c :: r' => if c = '0' then some (sign ++ [c], r') else if isDigit c = true then some (sign ++ c :: r'.takeWhile isDigit, r'.dropWhile isDigit) else none) = some (i, r) →
      Eats s' r ∧ r.length < s'.length := by
    intro sign s' h
    cases s' with
    | nil => cases h
    | cons c r' =>
      simp only at h
      split_ifs at h with h1 h2
      · simp only [Option.some.injEq, Prod.mk.injEq] at h
        obtain ⟨-, rfl⟩ := h
        exact ⟨(Eats.refl _).cons (by rw [h1]; decide), by simp⟩
      · simp only [Option.some.injEq, Prod.mk.injEq] at h
        obtain ⟨-, rfl⟩ := h
        have := eats_dropWhile isDigit digit0 r'
        exact ⟨this.cons (isDigit_ne h2), by have := this.length; simp only [List.length_cons]; omega⟩
  unfold scanInt at h
  cases s with
  | nil => exact key [] _ h
  | cons c s' =>
    by_cases hc : c = '-'
    · simp only [if_pos hc] at h
      obtain ⟨h1, h2⟩ := key _ _ h
      exact ⟨h1.cons (by rw [hc]; decide), by simp only [List.length_cons]; omega⟩
    · simp only [if_neg hc] at h
      exact key _ _ h

theorem eats_scanFrac (s : List Char) : Eats s (scanFrac s).2 := by
  unfold scanFrac
  split
  · split_ifs with h
    · exact ((eats_dropWhile isDigit digit0 _).cons (isDigit_ne h.2)).cons (by rw [h.1]; decide)
    · exact Eats.refl _
  · exact Eats.refl _

theorem eats_scanExp (s : List Char) : Eats s (scanExp s).2 := by
  unfold scanExp
  split
  · split_ifs with h1 h2 h3
    · exact ((eats_dropWhile isDigit digit0 _).cons (isDigit_ne h2)).cons (by rintro rfl; revert h1; decide)
    · split
      · split_ifs with h4
        · exact (((eats_dropWhile isDigit digit0 _).cons (isDigit_ne h4)).cons (by rintro rfl; revert h3; decide)).cons (by rintro rfl; revert h1; decide)
        · exact Eats.refl _
      · exact Eats.refl _
    · exact Eats.refl _
    · exact Eats.refl _
  · exact Eats.refl _

theorem eats_scanNum {s l r : List Char} (h : scanNum s = some (l, r)) : Eats s r ∧ r.length < s.length := by
  unfold scanNum at h
  cases hi : scanInt s with
  | none => rw [hi] at h; cases h
  | some p =>
    rw [hi] at h
    simp only [Option.some.injEq, Prod.mk.injEq] at h
    obtain ⟨-, rfl⟩ := h
    obtain ⟨h1, h2⟩ := eats_scanInt (i := p.1) (r := p.2) (by rw [hi])
    have h3 := eats_scanFrac p.2
    have h4 := eats_scanExp (scanFrac p.2).2
    exact ⟨h1.trans (h3.trans h4), by have := h3.length; have := h4.length; omega⟩

theorem eats_word {w : List Char} {v x : Val} {s r : List Char} (hw : w ≠ []) (h0 : '\x00' ∉ w) (h : word w v s = some (x, r)) : Eats s r ∧ r.length < s.length := by
  unfold word at h
  split_ifs at h with hp
  simp only [Option.some.injEq, Prod.mk.injEq] at h
  obtain ⟨-, rfl⟩ := h
  obtain ⟨t, rfl⟩ := hp
  rw [List.drop_left]
  exact ⟨⟨w, rfl, h0⟩, by simp [List.length_pos_iff, hw]⟩

theorem eats_loadNum {s r : List Char} {v : Val} : loadNum s = some (v, r) → Eats s r ∧ r.length < s.length := by
  unfold loadNum
  intro e
  split at e
  · rename_i hn
    simp only [Option.some.injEq, Prod.mk.injEq] at e
    obtain ⟨-, rfl⟩ := e
    exact eats_scanNum hn
  · split at e
    · rename_i h
      rw [e] at h
      exact eats_word (by decide) (by decide) h
    · split at e
      · rename_i h
        rw [e] at h
        exact eats_word (by decide) (by decide) h
      · exact eats_word (by decide) (by decide) e

/-- Progress of the three parsers. -/
theorem eats_parsers : ∀ n, (∀ s v r, value n s = some (v, r) → Eats s r ∧ r.length < s.length) ∧
    (∀ s l r, elements n s = some (l, r) → Eats s r ∧ r.length < s.length) ∧
    (∀ s l r, members n s = some (l, r) → Eats s r ∧ r.length < s.length) := by
  intro n
  induction n with
  | zero => exact ⟨by simp [value], by simp [elements], by simp [members]⟩
  | succ n ih =>
    obtain ⟨i1, i2, i3⟩ := ih
    refine ⟨fun s v r => ?_, fun s l r => ?_, fun s l r => ?_⟩
    · cases s with
      | nil => simp [value]
      | cons c s =>
        rw [value]
        split_ifs with h1 h2 h3 h4 h5 h6
        · cases hl : loadStr s with
          | none => simp
          | some p =>
            intro e; simp only [Option.some.injEq, Prod.mk.injEq] at e
            obtain ⟨-, rfl⟩ := e
            obtain ⟨a, b⟩ := eats_loadStr (u := p.1) (r := p.2) (by rw [hl])
            exact ⟨a.cons (by rw [h1]; decide), by simp only [List.length_cons]; omega⟩
        · have hs := eats_skipWs s
          cases hw : skipWs s with
          | nil => simp
          | cons d t =>
            rw [hw] at hs
            simp only
            split_ifs with hd
            · intro e; simp only [Option.some.injEq, Prod.mk.injEq] at e
              obtain ⟨-, rfl⟩ := e
              have := hs.length
              exact ⟨(hs.trans ((Eats.refl _).cons (by rw [hd]; decide))).cons (by rw [h2]; decide), by simp only [List.length_cons] at *; omega⟩
            · cases hm : members n (d :: t) with
              | none => simp
              | some p =>
                intro e; simp only [Option.some.injEq, Prod.mk.injEq] at e
                obtain ⟨-, rfl⟩ := e
                obtain ⟨a, b⟩ := i3 _ p.1 p.2 hm
                have := hs.length
                exact ⟨(hs.trans a).cons (by rw [h2]; decide), by simp only [List.length_cons] at *; omega⟩
        · have hs := eats_skipWs s
          cases hw : skipWs s with
          | nil => simp
          | cons d t =>
            rw [hw] at hs
            simp only
            split_ifs with hd
            · intro e; simp only [Option.some.injEq, Prod.mk.injEq] at e
              obtain ⟨-, rfl⟩ := e
              have := hs.length
              exact ⟨(hs.trans ((Eats.refl _).cons (by rw [hd]; decide))).cons (by rw [h3]; decide), by simp only [List.length_cons] at *; omega⟩
            · cases hm : elements n (d :: t) with
              | none => simp
              | some p =>
                intro e; simp only [Option.some.injEq, Prod.mk.injEq] at e
                obtain ⟨-, rfl⟩ := e
                obtain ⟨a, b⟩ := i2 _ p.1 p.2 hm
                have := hs.length
                exact ⟨(hs.trans a).cons (by rw [h3]; decide), by simp only [List.length_cons] at *; omega⟩
        · exact eats_word (by decide) (by decide)
        · exact eats_word (by decide) (by decide)
        · exact eats_word (by decide) (by decide)
        · exact eats_loadNum
    · rw [elements]
      cases hv : value n s with
      | none => simp
      | some p =>
        obtain ⟨a, b⟩ := i1 _ p.1 p.2 hv
        have hs := eats_skipWs p.2
        simp only
        cases hw : skipWs p.2 with
        | nil => simp
        | cons d t =>
          rw [hw] at hs
          have := hs.length
          simp only
          split_ifs with h1 h2
          · intro e; simp only [Option.some.injEq, Prod.mk.injEq] at e
            obtain ⟨-, rfl⟩ := e
            exact ⟨a.trans (hs.trans ((Eats.refl _).cons (by rw [h1]; decide))), by simp only [List.length_cons] at *; omega⟩
          · cases hm : elements n (skipWs t) with
            | none => simp
            | some q =>
              intro e; simp only [Option.some.injEq, Prod.mk.injEq] at e
              obtain ⟨-, rfl⟩ := e
              obtain ⟨a', b'⟩ := i2 _ q.1 q.2 hm
              have h4 := eats_skipWs t
              have := h4.length
              exact ⟨a.trans (hs.trans ((h4.trans a').cons (by rw [h2]; decide))), by simp only [List.length_cons] at *; omega⟩
          · simp
    · cases s with
      | nil => simp [members]
      | cons c s =>
        rw [members]
        split_ifs with h1
        · cases hl : loadStr s with
          | none => simp
          | some p =>
            obtain ⟨a, b⟩ := eats_loadStr (u := p.1) (r := p.2) (by rw [hl])
            have hs := eats_skipWs p.2
            simp only
            cases hw : skipWs p.2 with
            | nil => simp
            | cons d t =>
              rw [hw] at hs
              have := hs.length
              simp only
              split_ifs with h2
              · have hs' := eats_skipWs t
                have := hs'.length
                cases hv : value n (skipWs t) with
                | none => simp
                | some q =>
                  obtain ⟨a1, b1⟩ := i1 _ q.1 q.2 hv
                  have hs2 := eats_skipWs q.2
                  simp only
                  cases hw2 : skipWs q.2 with
                  | nil => simp
                  | cons d' t' =>
                    rw [hw2] at hs2
                    have := hs2.length
                    simp only
                    have pre : Eats (c :: s) (d' :: t') :=
                      Eats.cons (by rw [h1]; decide) (a.trans (hs.trans (Eats.cons (by rw [h2]; decide) (hs'.trans (a1.trans hs2)))))
                    split_ifs with h3 h4
                    · intro e; simp only [Option.some.injEq, Prod.mk.injEq] at e
                      obtain ⟨-, rfl⟩ := e
                      exact ⟨pre.trans ((Eats.refl _).cons (by rw [h3]; decide)), by simp only [List.length_cons] at *; omega⟩
                    · cases hm : members n (skipWs t') with
                      | none => simp
                      | some q' =>
                        intro e; simp only [Option.some.injEq, Prod.mk.injEq] at e
                        obtain ⟨-, rfl⟩ := e
                        obtain ⟨a', b'⟩ := i3 _ q'.1 q'.2 hm
                        have h5 := eats_skipWs t'
                        have := h5.length
                        exact ⟨pre.trans ((h5.trans a').cons (by rw [h4]; decide)), by simp only [List.length_cons] at *; omega⟩
                    · simp
              · simp
        · simp

/-! ## The bound on the recursion does not matter -/

theorem fuel_step : ∀ n, (∀ s, 2 * s.length < n → value (n + 1) s = value n s) ∧
    (∀ s, 2 * s.length + 1 < n → elements (n + 1) s = elements n s) ∧
    (∀ s, 2 * s.length + 1 < n → members (n + 1) s = members n s) := by
  intro n
  induction n with
  | zero => exact ⟨by simp, by simp, by simp⟩
  | succ n ih =>
    obtain ⟨i1, i2, i3⟩ := ih
    refine ⟨fun s hs => ?_, fun s hs => ?_, fun s hs => ?_⟩
    · cases s with
      | nil => simp [value]
      | cons c s =>
        conv_lhs => rw [value]
        conv_rhs => rw [value]
        have hl := (eats_skipWs s).length
        simp only [List.length_cons] at hs
        cases hw : skipWs s with
        | nil => rfl
        | cons d t =>
          rw [hw] at hl
          simp only [List.length_cons] at hl
          simp only
          rw [i2 (d :: t) (by simp only [List.length_cons]; omega), i3 (d :: t) (by simp only [List.length_cons]; omega)]
    · conv_lhs => rw [elements]
      conv_rhs => rw [elements]
      rw [i1 s (by omega)]
      cases hv : value n s with
      | none => rfl
      | some p =>
        have h1 := ((eats_parsers n).1 _ p.1 p.2 hv).2
        have h2 := (eats_skipWs p.2).length
        simp only
        cases hw : skipWs p.2 with
        | nil => rfl
        | cons d t =>
          rw [hw] at h2
          simp only [List.length_cons] at h2
          have h3 := (eats_skipWs t).length
          simp only
          rw [i2 (skipWs t) (by omega)]
    · cases s with
      | nil => simp [members]
      | cons c s =>
        conv_lhs => rw [members]
        conv_rhs => rw [members]
        simp only [List.length_cons] at hs
        cases hl : loadStr s with
        | none => rfl
        | some p =>
          have h1 := (eats_loadStr (u := p.1) (r := p.2) (by rw [hl])).2
          have h2 := (eats_skipWs p.2).length
          simp only
          cases hw : skipWs p.2 with
          | nil => rfl
          | cons d t =>
            rw [hw] at h2
            simp only [List.length_cons] at h2
            have h3 := (eats_skipWs t).length
            simp only
            rw [i1 (skipWs t) (by omega)]
            cases hv : value n (skipWs t) with
            | none => rfl
            | some q =>
              have h4 := ((eats_parsers n).1 _ q.1 q.2 hv).2
              have h5 := (eats_skipWs q.2).length
              simp only
              cases hw2 : skipWs q.2 with
              | nil => rfl
              | cons d' t' =>
                rw [hw2] at h5
                simp only [List.length_cons] at h5
                have h6 := (eats_skipWs t').length
                simp only
                rw [i3 (skipWs t') (by omega)]

/-- Any bound above twice the length of the text gives the same result. -/
theorem value_fuel (s : List Char) (n : ℕ) (hn : 2 * s.length < n) : value n s = value (2 * s.length + 1) s := by
  induction n, (show 2 * s.length + 1 ≤ n by omega) using Nat.le_induction with
  | base => rfl
  | succ m hm ih => rw [(fuel_step m).1 s (by omega), ih (by omega)]

theorem load_eq (s : List Char) (n : ℕ) (hn : 2 * s.length < n) :
    load s = match value n (skipWs s) with
      | some (v, r) => if skipWs r = [] then .ok v else .error .jsonDecode
      | none => .error .jsonDecode := by
  have := (eats_skipWs s).length
  unfold load
  rw [value_fuel (skipWs s) n (by omega), value_fuel (skipWs s) (2 * s.length + 1) (by omega)]
  rfl

/-- A text with a zero byte is rejected. -/
theorem load_zero_byte (s : List Char) (h : '\x00' ∈ s) : load s = .error .jsonDecode := by
  unfold load
  cases hv : value (2 * s.length + 1) (skipWs s) with
  | none => rfl
  | some p =>
    have h1 := ((eats_parsers _).1 _ p.1 p.2 hv).1
    have h2 := (eats_skipWs p.2).mem (h1.mem ((eats_skipWs s).mem h))
    simp only
    rw [if_neg]
    intro e; rw [e] at h2; cases h2

/-! ## Appending text after a value -/

/-- What can follow a number without changing it. -/
def Stop (r : List Char) : Prop := ∃ c t, r = c :: t ∧ (isWs c = true ∨ c = ',' ∨ c = ']' ∨ c = '}')

theorem skipWs_append {r t : List Char} (h : skipWs r ≠ []) : skipWs (r ++ t) = skipWs r ++ t := by
  unfold skipWs at *
  induction r with
  | nil => simp at h
  | cons c r ih =>
    rw [List.cons_append, List.dropWhile_cons, List.dropWhile_cons] at *
    split_ifs with hc
    · rw [if_pos hc] at h; exact ih h
    · rfl

theorem stop_of_skipWs {r : List Char} {c : Char} {t : List Char} (h : skipWs r = c :: t) (hc : c = ',' ∨ c = ']' ∨ c = '}') : Stop r := by
  cases r with
  | nil => simp [skipWs] at h
  | cons d r =>
    refine ⟨d, r, rfl, ?_⟩
    unfold skipWs at h
    rw [List.dropWhile_cons] at h
    split_ifs at h with hd
    · exact Or.inl hd
    · injection h with h1 h2; subst h1; exact Or.inr hc

theorem strUnits_append : ∀ (s : List Char) (u : List (ℕ × Bool)) (r t : List Char), strUnits s = some (u, r) → strUnits (s ++ t) = some (u, r ++ t) := by
  intro s
  induction h : s.length using Nat.strong_induction_on generalizing s with
  | _ n ih =>
  intro u r t
  cases s with
  | nil => intro e; simp [strUnits] at e
  | cons c s =>
    rw [List.cons_append, strUnits.eq_def, strUnits.eq_def (c :: (s ++ t))]; simp only
    split_ifs with h1 h2 h3
    · intro e; simp only [Option.some.injEq, Prod.mk.injEq] at e ⊢
      exact ⟨e.1, by rw [e.2]⟩
    · cases s with
      | nil => intro e; simp at e
      | cons e r1 =>
        simp only [List.cons_append]
        split_ifs with h4
        · rcases r1 with _ | ⟨a, _ | ⟨b, _ | ⟨c', _ | ⟨d, r2⟩⟩⟩⟩ <;> simp only [reduceCtorEq, false_imp_iff, List.cons_append]
          cases hx : hexVal4 a b c' d with
          | none => simp
          | some n =>
            cases hs : strUnits r2 with
            | none => simp
            | some p =>
              rw [ih _ (by subst h; simp only [List.length_cons]; omega) r2 rfl p.1 p.2 t (by rw [hs])]
              intro e; simp only [Option.some.injEq, Prod.mk.injEq] at e ⊢
              exact ⟨e.1, by rw [e.2]⟩
        · cases hx : simpleEsc e with
          | none => simp
          | some n =>
            cases hs : strUnits r1 with
            | none => simp
            | some p =>
              rw [ih _ (by subst h; simp only [List.length_cons]; omega) r1 rfl p.1 p.2 t (by rw [hs])]
              intro e; simp only [Option.some.injEq, Prod.mk.injEq] at e ⊢
              exact ⟨e.1, by rw [e.2]⟩
    · simp
    · cases hs : strUnits s with
      | none => simp
      | some p =>
        rw [ih _ (by subst h; simp) s rfl p.1 p.2 t (by rw [hs])]
        intro e; simp only [Option.some.injEq, Prod.mk.injEq] at e ⊢
        exact ⟨e.1, by rw [e.2]⟩

theorem loadStr_append {s : List Char} {u : PyStr} {r : List Char} (t : List Char) (h : loadStr s = some (u, r)) : loadStr (s ++ t) = some (u, r ++ t) := by
  unfold loadStr at *
  split at h
  · rename_i u' t' hs
    rw [strUnits_append _ _ _ t hs]
    simp only [Option.some.injEq, Prod.mk.injEq] at h ⊢
    exact ⟨h.1, by rw [h.2]⟩
  · cases h

theorem Stop.facts {r : List Char} (h : Stop r) : ∃ c t, r = c :: t ∧ isDigit c = false ∧ c ≠ '.' ∧ c ≠ 'e' ∧ c ≠ 'E' ∧ c ≠ '+' ∧ c ≠ '-' := by
  obtain ⟨c, t, rfl, hc⟩ := h
  refine ⟨c, t, rfl, ?_⟩
  have : c = ' ' ∨ c = '\t' ∨ c = '\n' ∨ c = '\r' ∨ c = ',' ∨ c = ']' ∨ c = '}' := by
    rcases hc with hc | hc
    · simp only [isWs, Bool.or_eq_true, beq_iff_eq] at hc; tauto
    · tauto
  rcases this with rfl | rfl | rfl | rfl | rfl | rfl | rfl <;> decide

theorem dropWhile_append_stop {p : Char → Bool} {s : List Char} (t : List Char) (h : s.dropWhile p ≠ []) :
    (s ++ t).dropWhile p = s.dropWhile p ++ t ∧ (s ++ t).takeWhile p = s.takeWhile p := by
  induction s with
  | nil => simp at h
  | cons c s ih =>
    rw [List.cons_append, List.dropWhile_cons, List.dropWhile_cons, List.takeWhile_cons, List.takeWhile_cons] at *
    split_ifs with hc
    · rw [if_pos hc] at h; exact ⟨(ih h).1, by rw [(ih h).2]⟩
    · exact ⟨rfl, rfl⟩

theorem scanInt_append {s i r : List Char} (t : List Char) (hr : r ≠ []) (h : scanInt s = some (i, r)) : scanInt (s ++ t) = some (i, r ++ t) := by
  have key : ∀ (sign s' : List Char), (match s' with
      | [] => none
      | c :: r' => if c = '0' then some (sign ++ [c], r') else if isDigit c = true then some (sign ++ c :: r'.takeWhile isDigit, r'.dropWhile isDigit) else none) = some (i, r) →
      (match s' ++ t with
      | [] => none
      | c :: r' => if c = '0' then some (sign ++ [c], r') else if isDigit c = true then some (sign ++ c :: r'.takeWhile isDigit, r'.dropWhile isDigit) else none) = some (i, r ++ t) := by
    intro sign s' h
    cases s' with
    | nil => cases h
    | cons c r' =>
      simp only [List.cons_append] at h ⊢
      split_ifs at h ⊢ with h1 h2
      · simp only [Option.some.injEq, Prod.mk.injEq] at h ⊢
        exact ⟨h.1, by rw [h.2]⟩
      · simp only [Option.some.injEq, Prod.mk.injEq] at h ⊢
        obtain ⟨e1, e2⟩ := h
        obtain ⟨d1, d2⟩ := dropWhile_append_stop (p := isDigit) (s := r') t (by rw [e2]; exact hr)
        rw [d1, d2]
        exact ⟨e1, by rw [e2]⟩
  unfold scanInt at *
  cases s with
  | nil => cases h
  | cons c s' =>
    by_cases hc : c = '-'
    · rw [List.cons_append]
      simp only [if_pos hc] at h ⊢
      exact key [c] s' h
    · rw [List.cons_append]
      simp only [if_neg hc] at h ⊢
      exact key [] (c :: s') h

theorem scanExp_append {s : List Char} (t : List Char) (h : Stop (scanExp s).2) : scanExp (s ++ t) = ((scanExp s).1, (scanExp s).2 ++ t) := by
  have hstop := h.facts
  unfold scanExp at *
  rcases s with _ | ⟨c, _ | ⟨d, r⟩⟩
  · obtain ⟨_, _, e, -⟩ := hstop; cases e
  · obtain ⟨c', t', e, h1, h2, h3, h4, -⟩ := hstop
    simp only at e
    injection e with e1 e2
    subst e1
    cases t with
    | nil => rfl
    | cons a t => simp only [List.cons_append, List.nil_append]; rw [if_neg (by tauto)]
  · simp only [List.cons_append] at h hstop ⊢
    split_ifs at h hstop ⊢ with h1 h2 h3
    · simp only at hstop
      obtain ⟨c', t', e, -⟩ := hstop
      obtain ⟨d1, d2⟩ := dropWhile_append_stop (p := isDigit) (s := r) t (by rw [e]; simp)
      rw [d1, d2]
    · cases r with
      | nil =>
        simp only at hstop
        obtain ⟨c', t', e, k1, k2, k3, k4, -⟩ := hstop
        injection e with e1 e2
        subst e1; tauto
      | cons f r =>
        simp only [List.cons_append] at hstop ⊢
        split_ifs at hstop ⊢ with h4
        · simp only at hstop
          obtain ⟨c', t', e, -⟩ := hstop
          obtain ⟨d1, d2⟩ := dropWhile_append_stop (p := isDigit) (s := r) t (by rw [e]; simp)
          rw [d1, d2]
        · rfl
    · rfl
    · rfl

theorem scanFrac_append {s : List Char} (t : List Char) (h : Stop (scanFrac s).2 ∨ (∃ c d r, (scanFrac s).2 = c :: d :: r ∧ (c = 'e' ∨ c = 'E'))) :
    scanFrac (s ++ t) = ((scanFrac s).1, (scanFrac s).2 ++ t) := by
  have hstop : ∃ c t, (scanFrac s).2 = c :: t ∧ c ≠ '.' := by
    rcases h with h | ⟨c, d, r, e, h⟩
    · obtain ⟨c', t', e, h1, h2, -⟩ := h.facts; exact ⟨c', t', e, h2⟩
    · exact ⟨c, _, e, by rcases h with rfl | rfl <;> decide⟩
  clear h
  unfold scanFrac at *
  rcases s with _ | ⟨c, _ | ⟨d, r⟩⟩
  · obtain ⟨_, _, e, -⟩ := hstop; cases e
  · obtain ⟨c', t', e, h1⟩ := hstop
    simp only at e
    injection e with e1 e2
    subst e1
    cases t with
    | nil => rfl
    | cons a t => simp only [List.cons_append, List.nil_append]; rw [if_neg (by tauto)]
  · simp only [List.cons_append] at hstop ⊢
    split_ifs at hstop ⊢ with h1
    · simp only at hstop
      obtain ⟨c', t', e, -⟩ := hstop
      obtain ⟨d1, d2⟩ := dropWhile_append_stop (p := isDigit) (s := r) t (by rw [e]; simp)
      rw [d1, d2]
    · rfl

theorem scanExp_cases (s : List Char) : ((scanExp s).1 = [] ∧ (scanExp s).2 = s) ∨ ∃ c d r, s = c :: d :: r ∧ (c = 'e' ∨ c = 'E') := by
  unfold scanExp
  rcases s with _ | ⟨c, _ | ⟨d, r⟩⟩
  · exact Or.inl ⟨rfl, rfl⟩
  · exact Or.inl ⟨rfl, rfl⟩
  · simp only
    split_ifs with h1
    · exact Or.inr ⟨c, d, r, rfl, h1⟩
    · exact Or.inr ⟨c, d, r, rfl, h1⟩
    · exact Or.inl ⟨rfl, rfl⟩
    · exact Or.inl ⟨rfl, rfl⟩

theorem scanNum_append {s l r : List Char} (t : List Char) (hr : Stop r) (h : scanNum s = some (l, r)) : scanNum (s ++ t) = some (l, r ++ t) := by
  unfold scanNum at *
  cases hi : scanInt s with
  | none => rw [hi] at h; cases h
  | some p =>
    rw [hi] at h
    simp only [Option.some.injEq, Prod.mk.injEq] at h
    obtain ⟨e1, e2⟩ := h
    rw [← e2] at hr
    have h3 := scanExp_append t hr
    have h2 : scanFrac (p.2 ++ t) = ((scanFrac p.2).1, (scanFrac p.2).2 ++ t) := by
      apply scanFrac_append
      rcases scanExp_cases (scanFrac p.2).2 with ⟨-, h⟩ | h
      · left; rwa [h] at hr
      · exact Or.inr h
    have hne : p.2 ≠ [] := by
      intro hp
      rw [hp] at hr
      obtain ⟨c, t', e, -⟩ := hr
      simp [scanFrac, scanExp] at e
    rw [scanInt_append (i := p.1) (r := p.2) t hne (by rw [hi])]
    simp only
    rw [h2]
    simp only
    rw [h3]
    simp only [e1, e2]

theorem word_append {w : List Char} {v x : Val} {s r : List Char} (t : List Char) (h : word w v s = some (x, r)) : word w v (s ++ t) = some (x, r ++ t) := by
  unfold word at *
  split_ifs at h with hp
  simp only [Option.some.injEq, Prod.mk.injEq] at h
  obtain ⟨rfl, rfl⟩ := h
  obtain ⟨u, rfl⟩ := hp
  rw [if_pos (by rw [List.append_assoc]; exact List.prefix_append _ _), List.append_assoc, List.drop_left, List.drop_left]

theorem word_val {w : List Char} {v x : Val} {s r : List Char} (h : word w v s = some (x, r)) : x = v := by
  unfold word at h
  split_ifs at h
  simp only [Option.some.injEq, Prod.mk.injEq] at h
  exact h.1.symm

theorem loadNum_num {s r : List Char} {v : Val} (h : loadNum s = some (v, r)) : ∃ l, v = .num l := by
  unfold loadNum at h
  split at h
  · simp only [Option.some.injEq, Prod.mk.injEq] at h; exact ⟨_, h.1.symm⟩
  · split at h
    · rename_i e; rw [h] at e; exact ⟨_, word_val e⟩
    · split at h
      · rename_i e; rw [h] at e; exact ⟨_, word_val e⟩
      · exact ⟨_, word_val h⟩

theorem scanNum_none_word {w s : List Char} (hw : ∃ c d u, w = c :: d :: u ∧ isDigit c = false ∧ (c = '-' → isDigit d = false)) (hp : w <+: s) : scanNum s = none := by
  obtain ⟨c, d, u, rfl, h1, h2⟩ := hw
  obtain ⟨t, rfl⟩ := hp
  have z : ∀ x, isDigit x = false → x ≠ '0' := by rintro x h rfl; revert h; decide
  unfold scanNum scanInt
  simp only [List.cons_append]
  by_cases hc : c = '-'
  · simp only [if_pos hc]
    rw [if_neg (z d (h2 hc)), if_neg (by rw [h2 hc]; simp)]
  · simp only [if_neg hc]
    rw [if_neg (z c h1), if_neg (by rw [h1]; simp)]

theorem loadNum_append {s r : List Char} {v : Val} (t : List Char) (hr : Stop r) (h : loadNum s = some (v, r)) : loadNum (s ++ t) = some (v, r ++ t) := by
  have pre : ∀ (w : List Char) (x y : Val) (r : List Char), word w x s = some (y, r) → w <+: s ++ t := by
    intro w x y r h
    unfold word at h
    split_ifs at h with hp
    exact hp.trans (List.prefix_append _ _)
  have no : ∀ (w w' : List Char) (x x' y : Val) (r : List Char), word w x s = some (y, r) → w.head? ≠ w'.head? → w ≠ [] → w' ≠ [] → word w' x' (s ++ t) = none := by
    intro w w' x x' y r h hne hw hw'
    obtain ⟨u, hu⟩ := pre w x y r h
    unfold word
    rw [if_neg]
    rintro ⟨u', hu'⟩
    rw [← hu] at hu'
    rcases w with _ | ⟨a, w⟩
    · exact hw rfl
    · rcases w' with _ | ⟨b, w'⟩
      · exact hw' rfl
      · simp only [List.cons_append, List.cons.injEq] at hu'
        exact hne (by rw [hu'.1]; rfl)
  unfold loadNum at h
  split at h
  · rename_i hn
    simp only [Option.some.injEq, Prod.mk.injEq] at h
    obtain ⟨rfl, rfl⟩ := h
    unfold loadNum
    rw [scanNum_append t hr hn]
  · split at h
    · rename_i e
      rw [h] at e
      unfold loadNum
      rw [scanNum_none_word (w := "NaN".toList) ⟨_, _, _, rfl, by decide, by decide⟩ (pre _ _ _ _ e), word_append t e]
    · split at h
      · rename_i e
        rw [h] at e
        unfold loadNum
        rw [scanNum_none_word (w := "Infinity".toList) ⟨_, _, _, rfl, by decide, by decide⟩ (pre _ _ _ _ e),
          no _ "NaN".toList _ _ _ _ e (by decide) (by decide) (by decide), word_append t e]
      · unfold loadNum
        rw [scanNum_none_word (w := "-Infinity".toList) ⟨_, _, _, rfl, by decide, by decide⟩ (pre _ _ _ _ h),
          no _ "NaN".toList _ _ _ _ h (by decide) (by decide) (by decide), no _ "Infinity".toList _ _ _ _ h (by decide) (by decide) (by decide), word_append t h]

/-- Text after a value does not change it, unless the value is a number at the very end. -/
theorem append_parsers (t : List Char) : ∀ n, (∀ s v r, value n s = some (v, r) → (Stop r ∨ ∀ l, v ≠ .num l) → value n (s ++ t) = some (v, r ++ t)) ∧
    (∀ s l r, elements n s = some (l, r) → elements n (s ++ t) = some (l, r ++ t)) ∧
    (∀ s l r, members n s = some (l, r) → members n (s ++ t) = some (l, r ++ t)) := by
  intro n
  induction n with
  | zero => exact ⟨by simp [value], by simp [elements], by simp [members]⟩
  | succ n ih =>
    obtain ⟨i1, i2, i3⟩ := ih
    refine ⟨fun s v r => ?_, fun s l r => ?_, fun s l r => ?_⟩
    · cases s with
      | nil => simp [value]
      | cons c s =>
        rw [List.cons_append, value, value]
        split_ifs with h1 h2 h3 h4 h5 h6
        · cases hl : loadStr s with
          | none => simp
          | some p =>
            rw [loadStr_append (u := p.1) (r := p.2) t (by rw [hl])]
            intro e _; simp only [Option.some.injEq, Prod.mk.injEq] at e ⊢
            exact ⟨e.1, by rw [e.2]⟩
        · cases hw : skipWs s with
          | nil => simp
          | cons d u =>
            rw [skipWs_append (by rw [hw]; simp), hw]
            simp only [List.cons_append]
            split_ifs with hd
            · intro e _; simp only [Option.some.injEq, Prod.mk.injEq] at e ⊢
              exact ⟨e.1, by rw [e.2]⟩
            · cases hm : members n (d :: u) with
              | none => simp
              | some p =>
                rw [← List.cons_append, i3 _ p.1 p.2 hm]
                intro e _; simp only [Option.some.injEq, Prod.mk.injEq] at e ⊢
                exact ⟨e.1, by rw [e.2]⟩
        · cases hw : skipWs s with
          | nil => simp
          | cons d u =>
            rw [skipWs_append (by rw [hw]; simp), hw]
            simp only [List.cons_append]
            split_ifs with hd
            · intro e _; simp only [Option.some.injEq, Prod.mk.injEq] at e ⊢
              exact ⟨e.1, by rw [e.2]⟩
            · cases hm : elements n (d :: u) with
              | none => simp
              | some p =>
                rw [← List.cons_append, i2 _ p.1 p.2 hm]
                intro e _; simp only [Option.some.injEq, Prod.mk.injEq] at e ⊢
                exact ⟨e.1, by rw [e.2]⟩
        · intro e _; rw [← List.cons_append]; exact word_append t e
        · intro e _; rw [← List.cons_append]; exact word_append t e
        · intro e _; rw [← List.cons_append]; exact word_append t e
        · intro e hst; rw [← List.cons_append]
          obtain ⟨l, hl⟩ := loadNum_num e
          exact loadNum_append t (hst.resolve_right fun h => h l hl) e
    · rw [elements, elements]
      cases hv : value n s with
      | none => simp
      | some p =>
        simp only
        cases hw : skipWs p.2 with
        | nil => simp
        | cons d u =>
          simp only
          by_cases hd : d = ',' ∨ d = ']' ∨ d = '}'
          · rw [i1 s p.1 p.2 hv (Or.inl (stop_of_skipWs hw hd))]
            simp only
            rw [skipWs_append (by rw [hw]; simp), hw]
            simp only [List.cons_append]
            split_ifs with h1 h2
            · intro e; simp only [Option.some.injEq, Prod.mk.injEq] at e ⊢
              exact ⟨e.1, by rw [e.2]⟩
            · cases hm : elements n (skipWs u) with
              | none => simp
              | some q =>
                have hne : skipWs u ≠ [] := by
                  intro h; rw [h] at hm
                  have := ((eats_parsers n).2.1 _ q.1 q.2 hm).2
                  simp at this
                rw [skipWs_append hne, i2 _ q.1 q.2 hm]
                intro e; simp only [Option.some.injEq, Prod.mk.injEq] at e ⊢
                exact ⟨e.1, by rw [e.2]⟩
            · simp
          · rw [if_neg (by tauto), if_neg (by tauto)]; simp
    · cases s with
      | nil => simp [members]
      | cons c s =>
        rw [List.cons_append, members, members]
        split_ifs with h1
        · cases hl : loadStr s with
          | none => simp
          | some p =>
            rw [loadStr_append (u := p.1) (r := p.2) t (by rw [hl])]
            simp only
            cases hw : skipWs p.2 with
            | nil => simp
            | cons d u =>
              rw [skipWs_append (by rw [hw]; simp), hw]
              simp only [List.cons_append]
              split_ifs with h2
              · cases hv : value n (skipWs u) with
                | none => simp
                | some q =>
                  have hne : skipWs u ≠ [] := by
                    intro h; rw [h] at hv
                    have := ((eats_parsers n).1 _ q.1 q.2 hv).2
                    simp at this
                  simp only
                  cases hw2 : skipWs q.2 with
                  | nil => simp
                  | cons d' u' =>
                    simp only
                    by_cases hd : d' = ',' ∨ d' = ']' ∨ d' = '}'
                    · rw [skipWs_append hne, i1 _ q.1 q.2 hv (Or.inl (stop_of_skipWs hw2 hd))]
                      simp only
                      rw [skipWs_append (by rw [hw2]; simp), hw2]
                      simp only [List.cons_append]
                      split_ifs with h3 h4
                      · intro e; simp only [Option.some.injEq, Prod.mk.injEq] at e ⊢
                        exact ⟨e.1, by rw [e.2]⟩
                      · cases hm : members n (skipWs u') with
                        | none => simp
                        | some q' =>
                          have hne' : skipWs u' ≠ [] := by
                            intro h; rw [h] at hm
                            have := ((eats_parsers n).2.2 _ q'.1 q'.2 hm).2
                            simp at this
                          rw [skipWs_append hne', i3 _ q'.1 q'.2 hm]
                          intro e; simp only [Option.some.injEq, Prod.mk.injEq] at e ⊢
                          exact ⟨e.1, by rw [e.2]⟩
                      · simp
                    · rw [if_neg (by tauto), if_neg (by tauto)]; simp
              · simp
        · simp

theorem skipWs_ne_nil_append {r t : List Char} (ht : skipWs t ≠ []) : skipWs (r ++ t) ≠ [] := by
  induction r with
  | nil => exact ht
  | cons c r ih =>
    unfold skipWs at *
    rw [List.cons_append, List.dropWhile_cons]
    split_ifs
    · exact ih
    · simp

/-- If a text that is not just a number can be read, no longer text with more than white space added can. -/
theorem load_append {s t : List Char} {v : Val} (h : load s = .ok v) (hv : ∀ l, v ≠ .num l) (ht : skipWs t ≠ []) : load (s ++ t) = .error .jsonDecode := by
  rw [load_eq s (2 * (s ++ t).length + 1) (by simp only [List.length_append]; omega)] at h
  cases hx : value (2 * (s ++ t).length + 1) (skipWs s) with
  | none => rw [hx] at h; cases h
  | some p =>
    rw [hx] at h
    simp only at h
    split_ifs at h with hw
    injection h with h
    have hne : skipWs s ≠ [] := by
      intro h; rw [h] at hx
      have := ((eats_parsers _).1 _ p.1 p.2 hx).2
      simp at this
    have h1 := (append_parsers t _).1 _ p.1 p.2 hx (Or.inr (by rw [h]; exact hv))
    rw [load_eq (s ++ t) (2 * (s ++ t).length + 1) (by omega), skipWs_append hne, h1]
    simp only
    rw [if_neg (skipWs_ne_nil_append ht)]

end Dec.Text
