import Verif.Model.MakeRst
import Mathlib.Tactic

/-! # C98: the text conversions of `make_rst.py` -/

namespace Dec.Props

open MakeRst

/-! ## `strip`, `lazy`, `greedy` -/

theorem strip_iff {p s r : List Char} : strip p s = some r ↔ s = p ++ r := by
  induction p generalizing s with
  | nil => simp [strip, eq_comm]
  | cons c p ih =>
    cases s with
    | nil => simp [strip]
    | cons d s =>
      simp only [strip, List.cons_append, List.cons.injEq]
      by_cases h : c = d
      · simp [h, ih]
      · simp [h, Ne.symm h]

theorem strip_none {p s : List Char} : strip p s = none ↔ ¬ p <+: s := by
  constructor
  · rintro h ⟨t, rfl⟩
    rw [(strip_iff (r := t)).2 rfl] at h; cases h
  · intro h
    cases hs : strip p s with
    | none => rfl
    | some r => exact absurd ⟨r, (strip_iff.1 hs).symm⟩ h

theorem strip_append (p r : List Char) : strip p (p ++ r) = some r := strip_iff.2 rfl

theorem lazy_spec {dot : Char → Bool} {close name rest : List Char} (hdot : ∀ c ∈ name, dot c = true) (hc : ∀ a b, name = a ++ b → b ≠ [] → ¬ close <+: b ++ close ++ rest) :
    lazy dot close (name ++ close ++ rest) = some (name, rest) := by
  induction name with
  | nil =>
    have e : strip close (close ++ rest) = some rest := strip_append _ _
    simp only [List.nil_append]
    cases hs : close ++ rest with
    | nil => rw [hs] at e; simp only [lazy, e, Option.map_some]
    | cons c s => rw [hs] at e; simp only [lazy, e]
  | cons c name ih =>
    have h1 := strip_none.2 (hc [] (c :: name) rfl (by simp))
    have h2 := ih (fun d hd => hdot d (List.mem_cons_of_mem _ hd)) (fun a b hab hb => hc (c :: a) b (by rw [hab]; rfl) hb)
    simp only [List.cons_append] at h1 ⊢
    simp only [lazy, h1, hdot c (List.mem_cons_self ..), if_true, h2, Option.map_some]

theorem lazy_shrinks {dot : Char → Bool} {close s name rest : List Char} (h : lazy dot close s = some (name, rest)) : s = name ++ close ++ rest := by
  induction s generalizing name with
  | nil =>
    simp only [lazy, Option.map_eq_some_iff, Prod.mk.injEq] at h
    obtain ⟨r, h1, rfl, rfl⟩ := h
    simpa using strip_iff.1 h1
  | cons c s ih =>
    simp only [lazy] at h
    cases hs : strip close (c :: s) with
    | some r =>
      rw [hs] at h
      simp only [Option.some.injEq, Prod.mk.injEq] at h
      obtain ⟨rfl, rfl⟩ := h
      simpa using strip_iff.1 hs
    | none =>
      rw [hs] at h
      simp only at h
      by_cases hd : dot c = true
      · rw [if_pos hd] at h
        simp only [Option.map_eq_some_iff, Prod.mk.injEq] at h
        obtain ⟨⟨n', r'⟩, h1, rfl, rfl⟩ := h
        rw [ih h1]; rfl
      · rw [if_neg hd] at h; cases h

theorem greedy_shrinks {dot : Char → Bool} {close s name rest : List Char} (h : greedy dot close s = some (name, rest)) : s = name ++ close ++ rest := by
  induction s generalizing name with
  | nil =>
    simp only [greedy, Option.map_eq_some_iff, Prod.mk.injEq] at h
    obtain ⟨r, h1, rfl, rfl⟩ := h
    simpa using strip_iff.1 h1
  | cons c s ih =>
    simp only [greedy] at h
    cases hs : (if dot c = true then greedy dot close s else none) with
    | some r =>
      rw [hs] at h
      simp only [Option.some.injEq, Prod.mk.injEq] at h
      obtain ⟨h1, h2⟩ := h
      subst h1
      by_cases hd : dot c = true
      · rw [if_pos hd] at hs
        have := ih (name := r.1) (by rw [hs, ← h2])
        rw [this]; rfl
      · rw [if_neg hd] at hs; cases hs
    | none =>
      rw [hs] at h
      simp only [Option.map_eq_some_iff, Prod.mk.injEq] at h
      obtain ⟨r, h1, rfl, rfl⟩ := h
      simpa using strip_iff.1 h1

/-- Behind the last `]` of the line there is nothing more to match. -/
theorem greedy_none {dot : Char → Bool} {z : Char} {s : List Char} (h : ∀ c ∈ s.takeWhile dot, c ≠ z) (h2 : (s.dropWhile dot).head? ≠ some z) : greedy dot [z] s = none := by
  induction s with
  | nil => rfl
  | cons c s ih =>
    simp only [greedy]
    by_cases hd : dot c = true
    · rw [List.takeWhile_cons_of_pos hd] at h
      rw [List.dropWhile_cons_of_pos hd] at h2
      rw [if_pos hd, ih (fun d hd => h d (List.mem_cons_of_mem _ hd)) h2]
      have : z ≠ c := fun e => h c (List.mem_cons_self ..) e.symm
      simp [strip, this]
    · rw [List.dropWhile_cons_of_neg hd] at h2
      have : z ≠ c := by rintro rfl; simp at h2
      simp [hd, strip, this]

theorem greedy_spec {dot : Char → Bool} {z : Char} (hz : dot z = true) {name rest : List Char} (hdot : ∀ c ∈ name, dot c = true) (h : ∀ c ∈ rest.takeWhile dot, c ≠ z)
    (h2 : (rest.dropWhile dot).head? ≠ some z) : greedy dot [z] (name ++ [z] ++ rest) = some (name, rest) := by
  induction name with
  | nil =>
    simp only [List.nil_append, List.singleton_append, greedy, hz, if_true, greedy_none h h2]
    simp [strip]
  | cons c name ih =>
    have := ih fun d hd => hdot d (List.mem_cons_of_mem _ hd)
    simp only [List.cons_append, greedy, hdot c (List.mem_cons_self ..), if_true]
    rw [this]

/-! ## `sub` -/

/-- Every match consumes something. -/
def Shrinks (m : Matcher) : Prop := ∀ s r s', m s = some (r, s') → s'.length < s.length

theorem subN_fuel {m : Matcher} (hm : Shrinks m) (n : ℕ) (s : List Char) (h : s.length ≤ n) : subN m n s = sub m s := by
  unfold sub
  induction n using Nat.strong_induction_on generalizing s with
  | _ n ih =>
    cases s with
    | nil => cases n <;> rfl
    | cons c s =>
      cases n with
      | zero => simp at h
      | succ n =>
        have hl : s.length ≤ n := by simpa using h
        simp only [List.length_cons, subN]
        cases hc : m (c :: s) with
        | none =>
          simp only
          rw [ih n (by omega) s hl]
        | some q =>
          obtain ⟨r, s'⟩ := q
          have h' := hm _ _ _ hc
          simp only [List.length_cons] at h'
          simp only
          rw [ih n (by omega) s' (by omega)]
          by_cases e : n = s.length
          · rw [← e, ih n (by omega) s' (by omega)]
          · rw [ih s.length (by omega) s' (by omega)]

theorem sub_nil (m : Matcher) : sub m [] = [] := rfl

theorem sub_none {m : Matcher} (c : Char) (s : List Char) (h : m (c :: s) = none) : sub m (c :: s) = c :: sub m s := by
  simp only [sub, List.length_cons, subN, h]

theorem sub_some {m : Matcher} (hm : Shrinks m) {s r s' : List Char} (h : m s = some (r, s')) : sub m s = r ++ sub m s' := by
  have hl := hm _ _ _ h
  cases s with
  | nil => simp at hl
  | cons c s =>
    conv_lhs => simp only [sub, List.length_cons, subN, h]
    rw [subN_fuel hm s.length s' (by simpa using Nat.lt_succ_iff.1 hl)]

/-- Characters at which no match starts are copied. -/
theorem sub_plain {m : Matcher} (p t : List Char) (h : ∀ a b, p = a ++ b → b ≠ [] → m (b ++ t) = none) : sub m (p ++ t) = p ++ sub m t := by
  induction p with
  | nil => rfl
  | cons c p ih =>
    have h0 := h [] (c :: p) rfl (by simp)
    rw [List.cons_append] at h0 ⊢
    rw [sub_none c _ h0, ih fun a b hab hb => h (c :: a) b (by rw [hab]; rfl) hb]
    rfl

/-- No proper beginning of `op` is an end of `op`. -/
def NoBorder (op : List Char) : Prop := ∀ r, r <+: op → r <:+ op → r = [] ∨ r = op

theorem noBorder_of {op : List Char} (h : ∀ n ≤ op.length, op.take n = op.drop (op.length - n) → n = 0 ∨ n = op.length) : NoBorder op := by
  intro r h1 h2
  have e1 := List.prefix_iff_eq_take.1 h1
  have e2 := List.suffix_iff_eq_drop.1 h2
  rcases h r.length h1.length_le (e1.symm.trans e2) with h0 | h0
  · exact Or.inl (List.length_eq_zero_iff.1 h0)
  · exact Or.inr (h1.eq_of_length h0)

/-- No occurrence of such an opening starts in a plain text and ends behind it. -/
theorem no_straddle {op : List Char} (hop : NoBorder op) {p b t : List Char} (hp : ¬ op <:+: p) {a : List Char} (hab : p = a ++ b) (hb : b ≠ []) (ht : t = [] ∨ op <+: t) : ¬ op <+: b ++ t := by
  rintro ⟨w, hw⟩
  have key : ¬ op <+: b := fun h => hp (hab ▸ (h.isInfix.trans (List.suffix_append a b).isInfix))
  rcases le_total op.length b.length with hl | hl
  · exact key (List.prefix_of_prefix_length_le ⟨w, hw⟩ ⟨t, rfl⟩ hl)
  · rcases ht with rfl | ⟨t', rfl⟩
    · rw [List.append_nil] at hw; exact key ⟨w, hw⟩
    · obtain ⟨r, hr⟩ : b <+: op := List.prefix_of_prefix_length_le ⟨_, rfl⟩ ⟨w, hw⟩ hl
      have hw : r ++ w = op ++ t' := by
        refine List.append_cancel_left (as := b) ?_
        rw [← List.append_assoc, hr]; exact hw
      have hlr : r.length ≤ op.length := by rw [← hr, List.length_append]; omega
      have h1 : r <+: op := List.prefix_of_prefix_length_le ⟨w, hw⟩ ⟨t', rfl⟩ hlr
      rcases hop r h1 ⟨b, hr⟩ with rfl | rfl
      · rw [List.append_nil] at hr
        exact key (hr ▸ List.prefix_rfl)
      · have := congrArg List.length hr
        rw [List.length_append] at this
        exact hb (List.length_eq_zero_iff.1 (by omega))

/-! ## Texts with tokens -/

/-- A text with tokens in it: `p`, then for every entry the token and the plain text behind it. -/
def withTokens {α : Type} (f : α → List Char) (p : List Char) : List (α × List Char) → List Char
  | [] => p
  | (x, q) :: l => p ++ f x ++ withTokens f q l

/-- The plain parts of such a text. -/
def plains {α : Type} (p : List Char) (l : List (α × List Char)) : List (List Char) := p :: l.map Prod.snd

/-- If a matcher starts nowhere in the plain parts, and matches each token and replaces it by `g`, `sub` replaces exactly the tokens. -/
theorem sub_tokens {α : Type} {m : Matcher} (hm : Shrinks m) (f g : α → List Char) (ok : α → List Char → Prop) (p : List Char) (l : List (α × List Char))
    (hp : ∀ q ∈ plains p l, ∀ a b t, q = a ++ b → b ≠ [] → (t = [] ∨ ∃ x s, ok x s ∧ t = f x ++ s) → m (b ++ t) = none)
    (htok : ∀ x s, ok x s → m (f x ++ s) = some (g x, s))
    (hok : ∀ l₁ x q l₂, l = l₁ ++ (x, q) :: l₂ → ok x (withTokens f q l₂)) :
    sub m (withTokens f p l) = withTokens g p l := by
  induction l generalizing p with
  | nil =>
    have := sub_plain (m := m) p [] fun a b hab hb => hp p (List.mem_cons_self ..) a b [] hab hb (Or.inl rfl)
    simpa [withTokens, sub_nil] using this
  | cons e l ih =>
    obtain ⟨x, q⟩ := e
    simp only [withTokens]
    rw [List.append_assoc, sub_plain p _ fun a b hab hb => hp p (List.mem_cons_self ..) a b _ hab hb (Or.inr ⟨x, _, hok [] x q l rfl, rfl⟩), sub_some hm (htok x _ (hok [] x q l rfl)),
      ih q (fun q' hq' => hp q' (by unfold plains at hq' ⊢; exact List.mem_cons_of_mem _ hq')) (fun l₁ y r l₂ h => hok ((x, q) :: l₁) y r l₂ (by rw [h]; rfl))]
    rw [List.append_assoc]

theorem bracket_shrinks {dot : Char → Bool} {op close pre post : List Char} (h : 0 < op.length) : Shrinks (bracket dot op close pre post) := by
  intro s r s' hs
  simp only [bracket, bind, Option.bind_eq_some_iff] at hs
  obtain ⟨u, h1, ⟨name, rest⟩, h2, h3⟩ := hs
  simp only [Option.some.injEq, Prod.mk.injEq] at h3
  obtain ⟨-, rfl⟩ := h3
  rw [strip_iff.1 h1, lazy_shrinks h2]
  simp only [List.length_append]; omega

theorem literal_shrinks {p r : List Char} (h : 0 < p.length) : Shrinks (literal p r) := by
  intro s r' s' hs
  simp only [literal, Option.map_eq_some_iff, Prod.mk.injEq] at hs
  obtain ⟨u, h1, -, rfl⟩ := hs
  rw [strip_iff.1 h1, List.length_append]; omega

theorem bracket_tokens {dot : Char → Bool} {op close pre post : List Char} (hop : NoBorder op) (h0 : 0 < op.length) (p : List Char) (l : List (List Char × List Char))
    (hp : ∀ q ∈ plains p l, ¬ op <:+: q) (hk : ∀ e ∈ l, (∀ c ∈ e.1, dot c = true) ∧ ∀ a b rest, e.1 = a ++ b → b ≠ [] → ¬ close <+: b ++ close ++ rest) :
    sub (bracket dot op close pre post) (withTokens (fun k => op ++ k ++ close) p l) = withTokens (fun k => pre ++ k ++ post) p l := by
  refine sub_tokens (bracket_shrinks h0) _ _ (fun k _ => (∀ c ∈ k, dot c = true) ∧ ∀ a b rest, k = a ++ b → b ≠ [] → ¬ close <+: b ++ close ++ rest) p l ?_ ?_ ?_
  · intro q hq a b t hab hb ht
    have ht' : t = [] ∨ op <+: t := by
      rcases ht with h | ⟨x, s, -, rfl⟩
      · exact Or.inl h
      · exact Or.inr ⟨x ++ close ++ s, by simp [List.append_assoc]⟩
    simp only [bracket, strip_none.2 (no_straddle hop (hp q hq) hab hb ht'), bind, Option.bind_none]
  · rintro k s ⟨h1, h2⟩
    have e1 : strip op (op ++ k ++ close ++ s) = some (k ++ close ++ s) := by
      rw [List.append_assoc, List.append_assoc, strip_append, List.append_assoc]
    simp only [bracket, e1, bind, Option.bind_some, lazy_spec h1 fun a b hab hb => h2 a b s hab hb]
  · intro l₁ x q l₂ h
    exact hk (x, q) (by rw [h]; simp)

theorem literal_tokens {op r : List Char} (hop : NoBorder op) (h0 : 0 < op.length) (p : List Char) (l : List (Unit × List Char)) (hp : ∀ q ∈ plains p l, ¬ op <:+: q) :
    sub (literal op r) (withTokens (fun _ => op) p l) = withTokens (fun _ => r) p l := by
  refine sub_tokens (literal_shrinks h0) _ _ (fun _ _ => True) p l ?_ ?_ (fun _ _ _ _ _ => trivial)
  · intro q hq a b t hab hb ht
    have ht' : t = [] ∨ op <+: t := by
      rcases ht with h | ⟨x, s, -, rfl⟩
      · exact Or.inl h
      · exact Or.inr ⟨s, rfl⟩
    simp only [literal, strip_none.2 (no_straddle hop (hp q hq) hab hb ht'), Option.map_none]
  · intro _ s _
    simp only [literal, strip_append, Option.map_some]

theorem occurs_iff {p s : List Char} : occurs p s = true ↔ p <:+: s := by
  induction s with
  | nil =>
    simp only [occurs, List.infix_nil]
    cases p <;> simp [strip]
  | cons c s ih =>
    simp only [occurs, Bool.or_eq_true, ih, List.infix_cons_iff]
    refine or_congr ?_ Iff.rfl
    rw [Option.isSome_iff_exists]
    exact ⟨fun ⟨r, h⟩ => ⟨r, (strip_iff.1 h).symm⟩, fun ⟨r, h⟩ => ⟨r, strip_iff.2 h.symm⟩⟩

/-! ## C98 -/

/-- **C98.** `fix_citations` turns every ``:raw-latex:`\cite{key}` `` into ``:cite:`key` `` and changes nothing else; keys contain no backquote and no newline. -/
theorem C98_citations (p : List Char) (l : List (List Char × List Char)) (hp : ∀ q ∈ plains p l, ¬ ":raw-latex:`\\cite{".toList <:+: q) (hk : ∀ e ∈ l, '`' ∉ e.1 ∧ '\n' ∉ e.1) :
    fix_citations (withTokens (fun k => ":raw-latex:`\\cite{".toList ++ k ++ "}`".toList) p l) = withTokens (fun k => ":cite:`".toList ++ k ++ "`".toList) p l := by
  refine bracket_tokens (noBorder_of (by decide)) (by decide) p l hp fun e he => ⟨fun c hc => ?_, fun a b rest hab hb hpre => ?_⟩
  · have : c ≠ '\n' := fun h => (hk e he).2 (h ▸ hc)
    simp [notNewline, this]
  · have hq : '`' ∉ b := fun h => (hk e he).1 (hab ▸ List.mem_append_right _ h)
    obtain ⟨w, hw⟩ := hpre
    have e2 : "}`".toList = ['}', '`'] := by decide
    rw [e2] at hw
    match b, hb with
    | [c], _ => simp at hw
    | c :: d :: b, _ =>
      simp only [List.cons_append, List.cons.injEq] at hw
      exact hq (by rw [← hw.2.1]; simp)

/-- **C98.** The first half of `fix_eq_labels` turns every `\label{eq:key}` into a line break and `:label: key`, and changes nothing else; keys contain no closing brace. -/
theorem C98_labels (p : List Char) (l : List (List Char × List Char)) (hp : ∀ q ∈ plains p l, ¬ "\\label{eq:".toList <:+: q) (hk : ∀ e ∈ l, '}' ∉ e.1) :
    fixLabels (withTokens (fun k => "\\label{eq:".toList ++ k ++ "}".toList) p l) = withTokens (fun k => "\n   :label: ".toList ++ k) p l := by
  have := bracket_tokens (dot := fun _ => true) (close := "}".toList) (pre := "\n   :label: ".toList) (post := []) (noBorder_of (op := labelOpen) (by decide)) (by decide) p l hp fun e he => ⟨fun c hc => rfl, fun a b rest hab hb hpre => ?_⟩
  · simp only [List.append_nil] at this
    exact this
  · have hq : '}' ∉ b := fun h => hk e he (hab ▸ List.mem_append_right _ h)
    obtain ⟨w, hw⟩ := hpre
    have e2 : "}".toList = ['}'] := by decide
    rw [e2] at hw
    match b, hb with
    | c :: b, _ =>
      simp only [List.cons_append, List.cons.injEq] at hw
      exact hq (by rw [← hw.1]; simp)


theorem refMatch_shrinks : Shrinks refMatch := by
  intro s r s' hs
  simp only [refMatch, bind, Option.bind_eq_some_iff] at hs
  obtain ⟨u, h1, ⟨name, rest⟩, h2, h3⟩ := hs
  simp only [Option.some.injEq, Prod.mk.injEq] at h3
  obtain ⟨-, rfl⟩ := h3
  rw [strip_iff.1 h1, greedy_shrinks h2]
  have : refOpen.length = 4 := by decide
  simp only [List.length_append, this]; omega

/-- Behind a reference, no `]` follows on the same line, and there is a line break before the next reference. -/
def OneRefPerLine (l : List (List Char × List Char)) : Prop :=
  ∀ l₁ k q l₂, l = l₁ ++ (k, q) :: l₂ → '\n' ∉ k ∧ ']' ∉ q.takeWhile (· ≠ '\n') ∧ (l₂ = [] ∨ '\n' ∈ q)

theorem takeWhile_line {q t : List Char} (h : t = [] ∨ '\n' ∈ q) : (q ++ t).takeWhile notNewline = q.takeWhile (· ≠ '\n') := by
  have e : notNewline = fun c => decide (c ≠ '\n') := rfl
  rw [e]
  rcases h with rfl | h
  · rw [List.append_nil]
  · induction q with
    | nil => simp at h
    | cons c q ih =>
      by_cases hc : c = '\n'
      · simp [hc]
      · rw [List.cons_append, List.takeWhile_cons_of_pos (by simpa using hc), List.takeWhile_cons_of_pos (by simpa using hc)]
        rw [ih (by simpa [Ne.symm hc] using h)]

theorem dropWhile_line (t : List Char) : (t.dropWhile notNewline).head? ≠ some ']' := by
  induction t with
  | nil => simp
  | cons c t ih =>
    by_cases hc : c = '\n'
    · rw [List.dropWhile_cons_of_neg (by simp [notNewline, hc])]; simp [hc]
    · rw [List.dropWhile_cons_of_pos (by simp [notNewline, hc])]; exact ih

theorem withTokens_head {α : Type} (f : α → List Char) (q : List Char) (l : List (α × List Char)) : ∃ t, withTokens f q l = q ++ t ∧ (l = [] → t = []) := by
  cases l with
  | nil => exact ⟨[], by simp [withTokens], fun _ => rfl⟩
  | cons e l => exact ⟨f e.1 ++ withTokens f e.2 l, by simp [withTokens], by simp⟩

/-- **C98.** The second half of `fix_eq_labels` turns every `[eq:key]` into `` :eq:`key` `` (with a blank on both sides), and changes nothing else, if no line has a `]` behind a reference. -/
theorem C98_references (p : List Char) (l : List (List Char × List Char)) (hp : ∀ q ∈ plains p l, ¬ "[eq:".toList <:+: q) (hl : OneRefPerLine l) :
    fixRefs (withTokens (fun k => "[eq:".toList ++ k ++ "]".toList) p l) = withTokens (fun k => " :eq:`".toList ++ k ++ "` ".toList) p l := by
  refine sub_tokens refMatch_shrinks _ _ (fun k s => '\n' ∉ k ∧ ']' ∉ s.takeWhile notNewline) p l ?_ ?_ ?_
  · intro q hq a b t hab hb ht
    have ht' : t = [] ∨ refOpen <+: t := by
      rcases ht with h | ⟨x, s, -, rfl⟩
      · exact Or.inl h
      · exact Or.inr ⟨x ++ "]".toList ++ s, by simp only [refOpen, List.append_assoc]⟩
    simp only [refMatch, strip_none.2 (no_straddle (noBorder_of (op := refOpen) (by decide)) (hp q hq) hab hb ht'), bind, Option.bind_none]
  · rintro k s ⟨h1, h2⟩
    have e1 : strip refOpen ("[eq:".toList ++ k ++ "]".toList ++ s) = some (k ++ [']'] ++ s) := by
      rw [List.append_assoc, List.append_assoc, show "[eq:".toList = refOpen from rfl, strip_append, List.append_assoc]
      rfl
    have e2 : "]".toList = [']'] := by decide
    simp only [refMatch, e1, bind, Option.bind_some]
    rw [e2, greedy_spec (z := ']') (by decide) (fun c hc => ?_) (fun c hc e => h2 (e ▸ hc)) (dropWhile_line s)]
    · rfl
    · have : c ≠ '\n' := fun h => h1 (h ▸ hc)
      simp [notNewline, this]
  · intro l₁ k q l₂ h
    obtain ⟨h1, h2, h3⟩ := hl l₁ k q l₂ h
    obtain ⟨t, ht, h0⟩ := withTokens_head (fun k => "[eq:".toList ++ k ++ "]".toList) q l₂
    refine ⟨h1, ?_⟩
    rw [ht, takeWhile_line (h3.imp_left h0)]
    exact h2

/-- **C98** (defect). Two references on one line are merged into one. -/
theorem C98_references_merge (a x b : List Char) (h : '\n' ∉ a ∧ '\n' ∉ x ∧ '\n' ∉ b) :
    fixRefs ("[eq:".toList ++ a ++ "]".toList ++ x ++ "[eq:".toList ++ b ++ "]".toList) = " :eq:`".toList ++ (a ++ "]".toList ++ x ++ "[eq:".toList ++ b) ++ "` ".toList := by
  have hn : ∀ c ∈ a ++ "]".toList ++ x ++ "[eq:".toList ++ b, notNewline c = true := by
    intro c hc
    have : c ≠ '\n' := by
      rintro rfl
      simp only [List.mem_append, h.1, h.2.1, h.2.2] at hc
      revert hc; decide
    simp [notNewline, this]
  have e2 : "]".toList = [']'] := by decide
  generalize hN : a ++ "]".toList ++ x ++ "[eq:".toList ++ b = N at hn ⊢
  have hm : refMatch (refOpen ++ (N ++ [']'] ++ [])) = some (" :eq:`".toList ++ N ++ "` ".toList, []) := by
    simp only [refMatch, strip_append, bind, Option.bind_some]
    rw [e2, greedy_spec (z := ']') (rest := []) (by decide) hn (by simp) (by simp)]
    rfl
  have := sub_some refMatch_shrinks hm
  rw [sub_nil, List.append_nil] at this
  rw [List.append_nil] at this
  rw [← this, ← hN]
  unfold fixRefs
  congr 1

/-- **C98**: the white space that may precede the name of the file is the white space of Unicode: tab to carriage return, the four separators, the blank, and the other spaces by their code points. -/
theorem C98_white_space (c : Char) : space c = true ↔ c.toNat ∈ [9, 10, 11, 12, 13, 28, 29, 30, 31, 32, 133, 160, 5760, 8192, 8193, 8194, 8195, 8196, 8197, 8198, 8199, 8200, 8201, 8202, 8232, 8233, 8239, 8287, 12288] := by
  simp only [space, List.mem_cons, List.not_mem_nil, Bool.or_eq_true, Bool.and_eq_true, decide_eq_true_eq, beq_iff_eq, or_false]
  generalize c.toNat = m
  constructor
  · intro h; omega
  · intro h; omega

/-- **C98** (defect): one of the letters of `figure|image` in front of `::` is enough, so that other directives are changed as well; in `.. include:: data.pdf` the name of the file is changed. -/
theorem C98_any_directive (c : Char) (hc : c ∈ ['f', 'i', 'g', 'u', 'r', 'e', '|', 'm', 'a']) (w name : List Char) (hw : ∀ c ∈ w, space c = true)
    (hname : '\n' ∉ name ∧ ¬ ".pdf".toList <:+: name ∧ name.head?.all (fun c => !space c) = true) (rest : List Char) :
    pdfMatch (c :: ("::".toList ++ w ++ name ++ ".pdf".toList) ++ rest) = some (c :: (":: ".toList ++ name ++ ".png".toList), rest) := by
  have hc' : figureOrImage c = true := by
    simp only [List.mem_cons, List.not_mem_nil, or_false] at hc
    rcases hc with rfl | rfl | rfl | rfl | rfl | rfl | rfl | rfl | rfl <;> decide
  have e1 : "::".toList ++ w ++ name ++ ".pdf".toList ++ rest = "::".toList ++ (w ++ (name ++ ".pdf".toList ++ rest)) := by simp only [List.append_assoc]
  have hd : (w ++ (name ++ ".pdf".toList ++ rest)).dropWhile space = name ++ ".pdf".toList ++ rest := by
    rw [List.dropWhile_append_of_pos hw]
    cases name with
    | nil => exact List.dropWhile_cons_of_neg (by decide)
    | cons d name =>
      have : space d = false := by simpa using hname.2.2
      exact List.dropWhile_cons_of_neg (by simp [this])
  rw [List.cons_append, e1]
  simp only [pdfMatch, hc', if_true, strip_append, bind, Option.bind_some, hd]
  rw [lazy_spec]
  · rfl
  · intro d hd
    have : d ≠ '\n' := fun h => hname.1 (h ▸ hd)
    simp [notNewline, this]
  · intro a b hab hb
    rw [List.append_assoc]
    exact no_straddle (noBorder_of (by decide)) hname.2.1 hab hb (Or.inr ⟨rest, rfl⟩)


/-- A directive as `fix_pdf2png` sees it: a letter, white space, and the name of a file. -/
structure Directive where
  letter : Char
  white : List Char
  name : List Char

/-- The text of a directive with a file of type pdf. -/
def Directive.pdf (x : Directive) : List Char := x.letter :: ("::".toList ++ x.white ++ x.name ++ ".pdf".toList)
/-- The text of the directive with a file of type png, with one blank. -/
def Directive.png (x : Directive) : List Char := x.letter :: (":: ".toList ++ x.name ++ ".png".toList)
/-- The directive ends with one of the letters, and its file name has no line break, no `.pdf` and no white space in front. -/
def Directive.Good (x : Directive) : Prop :=
  x.letter ∈ ['f', 'i', 'g', 'u', 'r', 'e', '|', 'm', 'a'] ∧ (∀ c ∈ x.white, space c = true) ∧ '\n' ∉ x.name ∧ ¬ ".pdf".toList <:+: x.name ∧ x.name.head?.all (fun c => !space c) = true

theorem pdfMatch_shrinks : Shrinks pdfMatch := by
  intro s r s' hs
  cases s with
  | nil => cases hs
  | cons c s =>
    simp only [pdfMatch] at hs
    by_cases hc : figureOrImage c = true
    · rw [if_pos hc] at hs
      simp only [bind, Option.bind_eq_some_iff] at hs
      obtain ⟨u, h1, ⟨name, rest⟩, h2, h3⟩ := hs
      simp only [Option.some.injEq, Prod.mk.injEq] at h3
      obtain ⟨-, rfl⟩ := h3
      have hl : rest.length ≤ (u.dropWhile space).length := by
        rw [lazy_shrinks h2, List.length_append]; omega
      have hl' : (u.dropWhile space).length ≤ u.length := (List.dropWhile_suffix _).length_le
      rw [strip_iff.1 h1]
      simp only [List.length_cons, List.length_append]; omega
    · rw [if_neg hc] at hs; cases hs

/-- **C98.** `fix_pdf2png` turns `figure:: NAME.pdf` and `image:: NAME.pdf` into `figure:: NAME.png` and `image:: NAME.png` and changes nothing else in a text without further `::`. -/
theorem C98_pictures (p : List Char) (l : List (Directive × List Char)) (hp : ∀ q ∈ plains p l, ¬ "::".toList <:+: q) (hl : ∀ e ∈ l, e.1.Good) :
    fix_pdf2png (withTokens Directive.pdf p l) = withTokens Directive.png p l := by
  have e2 : "::".toList = [':', ':'] := by decide
  refine sub_tokens (m := pdfMatch) pdfMatch_shrinks _ _ (fun x _ => x.Good) p l ?_ ?_ ?_
  · intro q hq a b t hab hb ht
    match b, hb with
    | d :: b, _ =>
      have hn : strip "::".toList (b ++ t) = none := by
        rw [strip_none]
        rintro ⟨w, hw⟩
        rw [e2] at hw
        have hlet : ∀ y ∈ ['f', 'i', 'g', 'u', 'r', 'e', '|', 'm', 'a'], y ≠ ':' := by decide
        match b with
        | [] =>
          rcases ht with rfl | ⟨x, s, hx, rfl⟩
          · simp at hw
          · simp only [Directive.pdf, List.nil_append, List.cons_append, List.cons.injEq] at hw
            exact hlet _ hx.1 hw.1.symm
        | [y] =>
          rcases ht with rfl | ⟨x, s, hx, rfl⟩
          · simp at hw
          · simp only [Directive.pdf, List.nil_append, List.cons_append, List.cons.injEq] at hw
            exact hlet _ hx.1 hw.2.1.symm
        | y :: z :: b =>
          simp only [List.cons_append, List.nil_append, List.cons.injEq] at hw
          refine hp q hq ⟨a ++ [d], b, ?_⟩
          obtain ⟨rfl, rfl, -⟩ := hw
          rw [hab, e2]; simp
      rw [List.cons_append]
      simp only [pdfMatch, hn, bind, Option.bind_none, ite_self]
  · rintro x s ⟨h1, h2, h3⟩
    exact C98_any_directive x.letter h1 x.white x.name h2 h3 s
  · intro l₁ x q l₂ h
    exact hl (x, q) (by rw [h]; simp)

/-- **C98.** A text that does not define `\tabularnewline` passes `fix_tabularnewline` unchanged. -/
theorem C98_tabular_absent (s : List Char) (h : ¬ "\\providecommand{\\tabularnewline}{\\\\}".toList <:+: s) : fix_tabularnewline s = s := by
  unfold fix_tabularnewline
  rw [if_neg]
  rw [occurs_iff]; exact h

/-- **C98.** Otherwise the definitions are removed, and then every use of `\tabularnewline` becomes `\\`. -/
theorem C98_tabular (p q : List Char) (l l' : List (Unit × List Char)) (hl : l ≠ []) (hp : ∀ r ∈ plains p l, ¬ "\\providecommand{\\tabularnewline}{\\\\}".toList <:+: r)
    (hq : ∀ r ∈ plains q l', ¬ "\\tabularnewline".toList <:+: r) (h : withTokens (fun _ => []) p l = withTokens (fun _ => "\\tabularnewline".toList) q l') :
    fix_tabularnewline (withTokens (fun _ => "\\providecommand{\\tabularnewline}{\\\\}".toList) p l) = withTokens (fun _ => "\\\\".toList) q l' := by
  unfold fix_tabularnewline
  rw [if_pos]
  · have h1 := literal_tokens (op := tabDef) (r := []) (noBorder_of (by decide)) (by decide) p l hp
    have h2 := literal_tokens (op := tabUse) (r := "\\\\".toList) (noBorder_of (by decide)) (by decide) q l' hq
    rw [show "\\providecommand{\\tabularnewline}{\\\\}".toList = tabDef from rfl, h1, h]
    exact h2
  · rw [occurs_iff]
    cases l with
    | nil => exact absurd rfl hl
    | cons e l => exact ⟨p, withTokens _ e.2 l, rfl⟩

/-- The sample texts of `/repo/make_rst.py:13-46`. -/
def sampleRst : List Char := "The Euler Identity is given by:\n\n.. math::\n\n   e^{i\\pi} + 1 = 0\n   \\label{eq:euler}\n\nand we can refer back to the Euler Identity as Eq. [eq:euler].\n".toList
/-- What the second doctest expects, `/repo/make_rst.py:37-46`. -/
def sampleRstCorrect : List Char := "The Euler Identity is given by:\n\n.. math::\n\n   e^{i\\pi} + 1 = 0\n   :label: euler\n\nand we can refer back to the Euler Identity as Eq. :eq:`euler`.\n".toList

/-- **C98** (defect). The doctests of `latex2rst_` and `latex2rst` contradict each other: whatever `pandoc` does, if it produces `sample_rst` from the prepared sample, `latex2rst` does not
produce `sample_rst_correct` but a text with additional blanks and an additional line. -/
theorem C98_doctests_conflict {E : Type} (pandoc : List Char → Except E (List Char)) (tex : List Char) (h : pandoc (fix_tabularnewline tex) = .ok sampleRst) :
    latex2rst pandoc tex ≠ .ok sampleRstCorrect ∧
      latex2rst pandoc tex = .ok ("The Euler Identity is given by:\n\n.. math::\n\n   e^{i\\pi} + 1 = 0\n   \n   :label: euler\n\nand we can refer back to the Euler Identity as Eq.  :eq:`euler` .\n".toList) := by
  have e : fix_citations (fix_pdf2png (fix_eq_labels sampleRst)) =
      "The Euler Identity is given by:\n\n.. math::\n\n   e^{i\\pi} + 1 = 0\n   \n   :label: euler\n\nand we can refer back to the Euler Identity as Eq.  :eq:`euler` .\n".toList := by decide +kernel
  have h1 : latex2rst pandoc tex = .ok (fix_citations (fix_pdf2png (fix_eq_labels sampleRst))) := by
    simp only [latex2rst, h, bind, Except.bind]
  rw [e] at h1
  refine ⟨?_, h1⟩
  rw [h1]
  intro hh
  have := Except.ok.inj hh
  revert this
  decide +kernel

/-! ## All together -/

/-- `latex2rst` is one run of `pandoc` on the prepared text and then the four substitutions. -/
theorem latex2rst_ok {E : Type} {pandoc : List Char → Except E (List Char)} {tex out : List Char} (h : pandoc (fix_tabularnewline tex) = .ok out) :
    latex2rst pandoc tex = .ok (fix_citations (fix_pdf2png (fixRefs (fixLabels out)))) := by
  simp only [latex2rst, h, bind, Except.bind, fix_eq_labels]

/-- The text has no label, no reference, no directive, no citation, in this order. -/
theorem no_labels {s : List Char} (h : ¬ "\\label{eq:".toList <:+: s) : fixLabels s = s := by
  have := C98_labels s [] (by simpa [plains] using h) (by simp)
  simpa only [withTokens] using this
theorem no_references {s : List Char} (h : ¬ "[eq:".toList <:+: s) : fixRefs s = s := by
  have := C98_references s [] (by simpa [plains] using h) (by intro l₁ k q l₂ e; simp at e)
  simpa only [withTokens] using this
theorem no_directives {s : List Char} (h : ¬ "::".toList <:+: s) : fix_pdf2png s = s := by
  have := C98_pictures s [] (by simpa [plains] using h) (by simp)
  simpa only [withTokens] using this
theorem no_citations {s : List Char} (h : ¬ ":raw-latex:`\\cite{".toList <:+: s) : fix_citations s = s := by
  have := C98_citations s [] (by simpa [plains] using h) (by simp)
  simpa only [withTokens] using this

/-- **C98.** `latex2rst` passes the prepared text to `pandoc` and, where the result has none of the marks, returns what `pandoc` returned. -/
theorem C98_latex2rst_plain {E : Type} (pandoc : List Char → Except E (List Char)) (tex out : List Char) (h : pandoc (fix_tabularnewline tex) = .ok out)
    (h1 : ¬ "\\label{eq:".toList <:+: out) (h2 : ¬ "[eq:".toList <:+: out) (h3 : ¬ "::".toList <:+: out) (h4 : ¬ ":raw-latex:`\\cite{".toList <:+: out) :
    latex2rst pandoc tex = .ok out := by
  rw [latex2rst_ok h, no_labels h1, no_references h2, no_directives h3, no_citations h4]

/-- **C98.** What `pandoc` gets: a text that does not define `\tabularnewline` as it is, and a text that does with the definitions removed and the uses replaced. -/
theorem C98_latex2rst_tabular {E : Type} (pandoc : List Char → Except E (List Char)) (out : List Char)
    (h1 : ¬ "\\label{eq:".toList <:+: out) (h2 : ¬ "[eq:".toList <:+: out) (h3 : ¬ "::".toList <:+: out) (h4 : ¬ ":raw-latex:`\\cite{".toList <:+: out) :
    (∀ s, ¬ "\\providecommand{\\tabularnewline}{\\\\}".toList <:+: s → pandoc s = .ok out → latex2rst pandoc s = .ok out) ∧
      ∀ (p q : List Char) (l l' : List (Unit × List Char)), l ≠ [] → (∀ r ∈ plains p l, ¬ "\\providecommand{\\tabularnewline}{\\\\}".toList <:+: r) →
        (∀ r ∈ plains q l', ¬ "\\tabularnewline".toList <:+: r) → withTokens (fun _ => []) p l = withTokens (fun _ => "\\tabularnewline".toList) q l' →
        pandoc (withTokens (fun _ => "\\\\".toList) q l') = .ok out → latex2rst pandoc (withTokens (fun _ => "\\providecommand{\\tabularnewline}{\\\\}".toList) p l) = .ok out := by
  refine ⟨fun s hs h => C98_latex2rst_plain pandoc s out ?_ h1 h2 h3 h4, fun p q l l' hl hp hq hw h => C98_latex2rst_plain pandoc _ out ?_ h1 h2 h3 h4⟩
  · rw [C98_tabular_absent s hs]; exact h
  · rw [C98_tabular p q l l' hl hp hq hw]; exact h

/-- **C98.** If `pandoc` fails, `latex2rst` fails in the same way. -/
theorem C98_latex2rst_error {E : Type} (pandoc : List Char → Except E (List Char)) (tex : List Char) (e : E) (h : pandoc (fix_tabularnewline tex) = .error e) : latex2rst pandoc tex = .error e := by
  simp only [latex2rst, h, bind, Except.bind]

/-- **C98.** `latex2rst` rewrites the citations. -/
theorem C98_latex2rst_citations {E : Type} (pandoc : List Char → Except E (List Char)) (tex p : List Char) (l : List (List Char × List Char))
    (h : pandoc (fix_tabularnewline tex) = .ok (withTokens (fun k => ":raw-latex:`\\cite{".toList ++ k ++ "}`".toList) p l))
    (hp : ∀ q ∈ plains p l, ¬ ":raw-latex:`\\cite{".toList <:+: q) (hk : ∀ e ∈ l, '`' ∉ e.1 ∧ '\n' ∉ e.1)
    (h1 : ¬ "\\label{eq:".toList <:+: withTokens (fun k => ":raw-latex:`\\cite{".toList ++ k ++ "}`".toList) p l)
    (h2 : ¬ "[eq:".toList <:+: withTokens (fun k => ":raw-latex:`\\cite{".toList ++ k ++ "}`".toList) p l)
    (h3 : ¬ "::".toList <:+: withTokens (fun k => ":raw-latex:`\\cite{".toList ++ k ++ "}`".toList) p l) :
    latex2rst pandoc tex = .ok (withTokens (fun k => ":cite:`".toList ++ k ++ "`".toList) p l) := by
  rw [latex2rst_ok h, no_labels h1, no_references h2, no_directives h3, C98_citations p l hp hk]

/-- **C98.** `latex2rst` rewrites the pictures. -/
theorem C98_latex2rst_pictures {E : Type} (pandoc : List Char → Except E (List Char)) (tex p : List Char) (l : List (Directive × List Char))
    (h : pandoc (fix_tabularnewline tex) = .ok (withTokens Directive.pdf p l)) (hp : ∀ q ∈ plains p l, ¬ "::".toList <:+: q) (hl : ∀ e ∈ l, e.1.Good)
    (h1 : ¬ "\\label{eq:".toList <:+: withTokens Directive.pdf p l) (h2 : ¬ "[eq:".toList <:+: withTokens Directive.pdf p l)
    (h4 : ¬ ":raw-latex:`\\cite{".toList <:+: withTokens Directive.png p l) : latex2rst pandoc tex = .ok (withTokens Directive.png p l) := by
  rw [latex2rst_ok h, no_labels h1, no_references h2, C98_pictures p l hp hl, no_citations h4]

/-- **C98.** `latex2rst` rewrites the labels. -/
theorem C98_latex2rst_labels {E : Type} (pandoc : List Char → Except E (List Char)) (tex p : List Char) (l : List (List Char × List Char))
    (h : pandoc (fix_tabularnewline tex) = .ok (withTokens (fun k => "\\label{eq:".toList ++ k ++ "}".toList) p l))
    (hp : ∀ q ∈ plains p l, ¬ "\\label{eq:".toList <:+: q) (hk : ∀ e ∈ l, '}' ∉ e.1)
    (h2 : ¬ "[eq:".toList <:+: withTokens (fun k => "\n   :label: ".toList ++ k) p l) (h3 : ¬ "::".toList <:+: withTokens (fun k => "\n   :label: ".toList ++ k) p l)
    (h4 : ¬ ":raw-latex:`\\cite{".toList <:+: withTokens (fun k => "\n   :label: ".toList ++ k) p l) :
    latex2rst pandoc tex = .ok (withTokens (fun k => "\n   :label: ".toList ++ k) p l) := by
  rw [latex2rst_ok h, C98_labels p l hp hk, no_references h2, no_directives h3, no_citations h4]

/-- **C98.** `latex2rst` rewrites the references. -/
theorem C98_latex2rst_references {E : Type} (pandoc : List Char → Except E (List Char)) (tex p : List Char) (l : List (List Char × List Char))
    (h : pandoc (fix_tabularnewline tex) = .ok (withTokens (fun k => "[eq:".toList ++ k ++ "]".toList) p l)) (hp : ∀ q ∈ plains p l, ¬ "[eq:".toList <:+: q) (hl : OneRefPerLine l)
    (h1 : ¬ "\\label{eq:".toList <:+: withTokens (fun k => "[eq:".toList ++ k ++ "]".toList) p l)
    (h3 : ¬ "::".toList <:+: withTokens (fun k => " :eq:`".toList ++ k ++ "` ".toList) p l) (h4 : ¬ ":raw-latex:`\\cite{".toList <:+: withTokens (fun k => " :eq:`".toList ++ k ++ "` ".toList) p l) :
    latex2rst pandoc tex = .ok (withTokens (fun k => " :eq:`".toList ++ k ++ "` ".toList) p l) := by
  rw [latex2rst_ok h, no_labels h1, C98_references p l hp hl, no_directives h3, no_citations h4]

/-- A citation in what `pandoc` returned. -/
example : latex2rst (E := Unit) (fun _ => .ok "See :raw-latex:`\\cite{ab}`.".toList) "See \\cite{ab}.".toList = .ok "See :cite:`ab`.".toList :=
  C98_latex2rst_citations _ _ "See ".toList [("ab".toList, ".".toList)] rfl (by decide) (by decide) (by decide) (by decide) (by decide)
/-- A picture in what `pandoc` returned. -/
example : latex2rst (E := Unit) (fun _ => .ok ".. image:: a.pdf".toList) "x".toList = .ok ".. image:: a.png".toList :=
  C98_latex2rst_pictures _ _ ".. imag".toList [(⟨'e', " ".toList, "a".toList⟩, [])] rfl (by decide) (by intro e he; simp only [List.mem_singleton] at he; subst he; exact ⟨by decide, by decide, by decide, by decide, by decide⟩)
    (by decide) (by decide) (by decide)
/-- A label, and a reference, in what `pandoc` returned. -/
example : latex2rst (E := Unit) (fun _ => .ok "a \\label{eq:k} b".toList) "x".toList = .ok "a \n   :label: k b".toList :=
  C98_latex2rst_labels _ _ "a ".toList [("k".toList, " b".toList)] rfl (by decide) (by decide) (by decide) (by decide) (by decide)

/-! ## Files -/

section
variable {E : Type} (pandoc lyx : List Char → Except E (List Char)) (fs : Files)

theorem splitext_append (s : List Char) : (splitext s).1 ++ (splitext s).2 = s := by
  have h1 : ∀ (P : Char → Bool) (t : List Char), (t.reverse.dropWhile P).reverse ++ (t.reverse.takeWhile P).reverse = t := by
    intro P t
    rw [← List.reverse_append, List.takeWhile_append_dropWhile, List.reverse_reverse]
  unfold splitext
  simp only
  generalize hd : splitDir s = d
  have hs : d.1 ++ d.2 = s := by rw [← hd]; exact h1 _ s
  split
  · simp
  · next c r hr =>
    have hc : c = '.' := by
      have := List.head?_dropWhile_not (fun c => decide (c ≠ '.')) (d.2.dropWhile (· = '.')).reverse
      rw [hr] at this
      simpa using this
    have := h1 (fun c => decide (c ≠ '.')) (d.2.dropWhile (· = '.'))
    rw [hr, hc] at this
    simp only [List.reverse_cons, List.append_assoc, List.singleton_append] at this
    simp only [List.append_assoc]
    rw [this, List.takeWhile_append_dropWhile, hs]

theorem rst_ne (name : List Char) : name ++ ".tex".toList ≠ name ++ ".rst".toList := by
  intro h
  have := List.append_cancel_left h
  revert this; decide

/-- What becomes of the files: the input and the converter of a `.tex` or `.lyx` file. -/
def source (fname : List Char) : Option (List Char → Except E (List Char)) :=
  if (splitext fname).2 = ".tex".toList then some (latex2rst pandoc)
  else if (splitext fname).2 = ".lyx".toList then some fun s => do let t ← lyx s; latex2rst pandoc t
  else none

theorem process_source (fname src : List Char) (conv : List Char → Except E (List Char)) (hc : source pandoc lyx fname = some conv) (hsrc : fs fname = some src) :
    process pandoc lyx fs fname = match conv src with
      | .error e => (fs.set ((splitext fname).1 ++ ".rst".toList) [], .error (.tool e))
      | .ok text => (fs.set ((splitext fname).1 ++ ".rst".toList) text, .ok ()) := by
  have ha := splitext_append fname
  unfold source at hc
  unfold process
  rw [hsrc, Option.isNone_some, if_neg (by simp)]
  simp only
  by_cases h1 : (splitext fname).2 = ".tex".toList
  · rw [if_pos h1] at hc ⊢
    obtain rfl := Option.some.inj hc
    rw [h1] at ha
    simp only [convert, ha, hsrc]
    cases latex2rst pandoc src <;> rfl
  · rw [if_neg h1] at hc ⊢
    by_cases h2 : (splitext fname).2 = ".lyx".toList
    · rw [if_pos h2] at hc ⊢
      obtain rfl := Option.some.inj hc
      rw [h2] at ha
      simp only [convert, ha, hsrc]
      cases (lyx src >>= latex2rst pandoc) <;> rfl
    · rw [if_neg h2] at hc; cases hc

/-- **C98.** A `.tex` or `.lyx` file is converted into the `.rst` file of the same name, and no other file changes. -/
theorem C98_process (fname src out : List Char) (conv : List Char → Except E (List Char)) (hc : source pandoc lyx fname = some conv) (hsrc : fs fname = some src) (hout : conv src = .ok out) :
    (process pandoc lyx fs fname).2 = .ok () ∧ (process pandoc lyx fs fname).1 ((splitext fname).1 ++ ".rst".toList) = some out ∧
      ∀ x, x ≠ (splitext fname).1 ++ ".rst".toList → (process pandoc lyx fs fname).1 x = fs x := by
  rw [process_source pandoc lyx fs fname src conv hc hsrc, hout]
  exact ⟨rfl, if_pos rfl, fun x hx => if_neg hx⟩

/-- **C98** (defect). If the conversion fails, the `.rst` file that was there before is lost: it is left empty. (`make` then takes it to be up to date.) -/
theorem C98_failure_empties (fname src : List Char) (e : E) (conv : List Char → Except E (List Char)) (hc : source pandoc lyx fname = some conv) (hsrc : fs fname = some src) (hout : conv src = .error e) :
    (process pandoc lyx fs fname).2 = .error (.tool e) ∧ (process pandoc lyx fs fname).1 ((splitext fname).1 ++ ".rst".toList) = some [] ∧
      ∀ x, x ≠ (splitext fname).1 ++ ".rst".toList → (process pandoc lyx fs fname).1 x = fs x := by
  rw [process_source pandoc lyx fs fname src conv hc hsrc, hout]
  exact ⟨rfl, if_pos rfl, fun x hx => if_neg hx⟩

/-- **C98.** A missing file, an unknown extension and a `.rst` file change nothing; the first two are exceptions. -/
theorem C98_process_nothing (fname : List Char) (h : fs fname = none ∨ source pandoc lyx fname = none) :
    (process pandoc lyx fs fname).1 = fs ∧
      (process pandoc lyx fs fname).2 = if (fs fname).isNone then .error .assertion else if (splitext fname).2 = ".rst".toList then .ok () else .error .unrecognized := by
  unfold process
  by_cases h0 : (fs fname).isNone = true
  · simp [h0]
  · rw [if_neg h0, if_neg h0]
    have h' : source pandoc lyx fname = none := h.resolve_left (fun e => h0 (by rw [e]; rfl))
    unfold source at h'
    simp only
    by_cases h1 : (splitext fname).2 = ".tex".toList
    · rw [if_pos h1] at h'; cases h'
    · rw [if_neg h1] at h' ⊢
      by_cases h2 : (splitext fname).2 = ".lyx".toList
      · rw [if_pos h2] at h'; cases h'
      · rw [if_neg h2]
        by_cases h3 : (splitext fname).2 = ".rst".toList
        · rw [if_pos h3, if_pos h3]; exact ⟨rfl, rfl⟩
        · rw [if_neg h3, if_neg h3]; exact ⟨rfl, rfl⟩

/-- **C98.** Several files are converted one after the other; the first exception ends the run, and the files behind it are not looked at. -/
theorem C98_first_failure (l l' : List (List Char)) (fname : List Char) (fs' : Files) (hl : main pandoc lyx fs l = (fs', .ok ())) (e : Failure E)
    (he : (process pandoc lyx fs' fname).2 = .error e) : main pandoc lyx fs (l ++ fname :: l') = ((process pandoc lyx fs' fname).1, .error e) := by
  induction l generalizing fs with
  | nil =>
    simp only [main, Prod.mk.injEq, and_true] at hl
    subst hl
    rw [List.nil_append, main]
    cases hp : process pandoc lyx fs fname with
    | mk a b =>
      rw [hp] at he
      simp only at he
      subst he
      rfl
  | cons f l ih =>
    rw [List.cons_append, main]
    rw [main] at hl
    cases hp : process pandoc lyx fs f with
    | mk a b =>
      rw [hp] at hl
      cases b with
      | error e' => simp at hl
      | ok u => exact ih a hl

end

/-! ## Concrete cases -/

/-- Two citations and the text between them. -/
example : fix_citations "See :raw-latex:`\\cite{ab}` and :raw-latex:`\\cite{cd}`.".toList = "See :cite:`ab` and :cite:`cd`.".toList :=
  C98_citations "See ".toList [("ab".toList, " and ".toList), ("cd".toList, ".".toList)] (by decide) (by decide)
/-- A reference on each of two lines. -/
example : OneRefPerLine [("a".toList, " and\n".toList), ("b".toList, ".".toList)] := by
  intro l₁ k q l₂ h
  match l₁, h with
  | [], h => simp only [List.nil_append, List.cons.injEq, Prod.mk.injEq] at h; obtain ⟨⟨rfl, rfl⟩, rfl⟩ := h; decide
  | [_], h => simp only [List.cons_append, List.nil_append, List.cons.injEq, Prod.mk.injEq] at h; obtain ⟨-, ⟨rfl, rfl⟩, rfl⟩ := h; decide
  | _ :: _ :: l, h => simp at h
/-- The sample of the module: two directives. -/
example : Directive.Good ⟨'e', " ".toList, "pic/displ".toList⟩ ∧ splitext "doc/hodge.star.tex".toList = ("doc/hodge.star".toList, ".tex".toList) := by
  refine ⟨⟨by decide, by decide, by decide, by decide, by decide⟩, by decide⟩

end Dec.Props
