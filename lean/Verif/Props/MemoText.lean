import Verif.Model.MemoText
import Verif.Props.JsonText

/-!
# C88: memoised evaluation over a shared file, with commits that overlap

The model is `Model/MemoText.lean`: the file is its text, any number of processes start, call the memoised function, commit at exit in pieces, or are killed, in any order.
-/

namespace Dec.Props

open Dec.Text Dec.MemoText

variable {Obj Exc : Type}

/-- What a user of `memoize` has to guarantee: results survive the way to the file and back, arguments with the same text have the same outcome, and the texts contain no split surrogate pair
(and only code points). -/
structure FaithfulText (M : MemoText.Memo Obj Exc) : Prop where
  decode : ∀ x r, M.process x = .ok r → M.fout (.str (M.fin r)) = .ok r
  key : ∀ x y, M.fin x = M.fin y → M.process x = M.process y
  text : ∀ x, GoodStr (M.fin x)

/-- A table all entries of which are texts of arguments with the texts of their results. -/
def RightTable (M : MemoText.Memo Obj Exc) (v : Val) : Prop :=
  ∃ l, v = .dict l ∧ l.Pairwise (fun a b => a.1 < b.1) ∧ ∀ e ∈ l, ∃ x r, M.process x = .ok r ∧ e = (M.fin x, .str (M.fin r))

/-- The file is absent, unreadable or holds a right table. -/
def RightFile (M : MemoText.Memo Obj Exc) (file : Option (List Char)) : Prop :=
  ∀ f, file = some f → load f = .error .jsonDecode ∨ ∃ v, load f = .ok v ∧ RightTable M v

/-- Whenever a process opens the file for its commit, the processes that are writing at that moment (if any) write the same table. Histories in which commits do not overlap are the
special case in which nobody is writing. -/
def OverlapsAgree (M : MemoText.Memo Obj Exc) : MemoText.State → List (MemoText.Event Obj) → Prop
  | _, [] => True
  | s, e :: es => (∀ i d, e = .exitBegin i → s.proc i = some (.running d true) → ∀ j w, s.proc j = some (.writing w) → w.text = dump d) ∧
      OverlapsAgree M (MemoText.step M s e).1 es

theorem memoText_set_same (s : MemoText.State) (i : ℕ) (p : Option Proc) : (s.setProc i p).proc i = p := by simp [MemoText.State.setProc]
theorem memoText_set_ne (s : MemoText.State) {i j : ℕ} (p : Option Proc) (h : j ≠ i) : (s.setProc i p).proc j = s.proc j := by simp [MemoText.State.setProc, h]

theorem dictSet_mem {k : PyStr} {v : Val} {l : List (PyStr × Val)} {e : PyStr × Val} (h : e ∈ dictSet k v l) : e = (k, v) ∨ e ∈ l := by
  induction l with
  | nil => simpa [dictSet] using h
  | cons a l ih =>
    unfold dictSet at h
    split_ifs at h with h1 h2
    · rcases List.mem_cons.1 h with h | h
      · exact Or.inl h
      · exact Or.inr (List.mem_cons_of_mem _ h)
    · rcases List.mem_cons.1 h with h | h
      · exact Or.inl h
      · exact Or.inr h
    · rcases List.mem_cons.1 h with h | h
      · exact Or.inr (h ▸ List.mem_cons_self)
      · rcases ih h with h | h
        · exact Or.inl h
        · exact Or.inr (List.mem_cons_of_mem _ h)

theorem dictSet_sorted {k : PyStr} {v : Val} {l : List (PyStr × Val)} (h : l.Pairwise (fun a b => a.1 < b.1)) : (dictSet k v l).Pairwise (fun a b => a.1 < b.1) := by
  induction l with
  | nil => simp [dictSet]
  | cons a l ih =>
    rw [List.pairwise_cons] at h
    unfold dictSet
    split_ifs with h1 h2
    · rw [List.pairwise_cons]; exact ⟨fun b hb => h1 ▸ h.1 b hb, h.2⟩
    · rw [List.pairwise_cons]
      refine ⟨fun b hb => ?_, List.pairwise_cons.2 h⟩
      rcases List.mem_cons.1 hb with hb | hb
      · rw [hb]; exact h2
      · exact lt_trans h2 (h.1 b hb)
    · rw [List.pairwise_cons]
      refine ⟨fun b hb => ?_, ih h.2⟩
      rcases dictSet_mem hb with hb | hb
      · rw [hb]; exact lt_of_le_of_ne (not_lt.1 h2) (Ne.symm h1)
      · exact h.1 b hb

theorem dictSet_find {k : PyStr} {v : Val} (l : List (PyStr × Val)) : (dictSet k v l).find? (fun e => e.1 == k) = some (k, v) := by
  induction l with
  | nil => simp [dictSet]
  | cons a l ih =>
    unfold dictSet
    split_ifs with h1 h2
    · simp
    · simp
    · rw [List.find?_cons, ih]
      have : (a.1 == k) = false := by simpa using fun e => h1 e.symm
      simp [this]

theorem dictSet_find_ne {k k' : PyStr} {v : Val} (hk : k' ≠ k) (l : List (PyStr × Val)) : (dictSet k v l).find? (fun e => e.1 == k') = l.find? (fun e => e.1 == k') := by
  have hb : (k == k') = false := by simpa using fun e => hk e.symm
  induction l with
  | nil => simp [dictSet, hb]
  | cons a l ih =>
    unfold dictSet
    split_ifs with h1 h2
    · rw [List.find?_cons, List.find?_cons, ← h1]; simp [hb]
    · rw [List.find?_cons]; simp [hb]
    · rw [List.find?_cons, List.find?_cons, ih]

theorem RightTable.good {M : MemoText.Memo Obj Exc} (hM : FaithfulText M) {v : Val} (h : RightTable M v) : Good v := by
  obtain ⟨l, rfl, hp, he⟩ := h
  refine .dict (fun e h => ?_) hp (fun e h => ?_)
  · obtain ⟨x, r, -, rfl⟩ := he e h; exact hM.text x
  · obtain ⟨x, r, -, rfl⟩ := he e h; exact .str (hM.text r)

/-- A text that agrees with that of a right table, up to a missing end and zero bytes, is rejected or read as that table. -/
theorem RightTable.agree {M : MemoText.Memo Obj Exc} (hM : FaithfulText M) {v : Val} (h : RightTable M v) {f : List Char} (hf : Agree (dump v) f) :
    load f = .error .jsonDecode ∨ ∃ v, load f = .ok v ∧ RightTable M v := by
  rcases hf.cases with h' | h'
  · by_cases hne : f = dump v
    · right; exact ⟨v, by rw [hne]; exact C78_roundtrip v (h.good hM), h⟩
    · left
      refine C78_incomplete_rejected v (h.good hM) ?_ f h' hne
      obtain ⟨l, rfl, -⟩ := h
      intro l e; cases e
  · left; exact load_zero_byte f h'

/-- A call on a right table leaves a right table and returns what the wrapped function returns. -/
theorem call_right {M : MemoText.Memo Obj Exc} (hM : FaithfulText M) {v : Val} (h : RightTable M v) (x : Obj) :
    (MemoText.call M v x).2.1 = M.process x ∧ ∀ d, (MemoText.call M v x).1 = some d → RightTable M d := by
  obtain ⟨l, rfl, hp, he⟩ := h
  unfold MemoText.call
  simp only [isIn, getKey, setKey]
  cases hf : l.find? (fun e => e.1 == M.fin x) with
  | some e =>
    have h1 := List.find?_some hf
    have h2 := List.mem_of_find?_eq_some hf
    have : (l.any fun e => e.1 == M.fin x) = true := List.any_eq_true.2 ⟨e, h2, h1⟩
    simp only [this, Option.map_some]
    obtain ⟨y, r, hy, rfl⟩ := he e h2
    have hk : M.fin y = M.fin x := by simpa using h1
    refine ⟨?_, by simp⟩
    rw [hM.decode y r hy, ← hM.key y x hk, hy]
  | none =>
    have : (l.any fun e => e.1 == M.fin x) = false := by
      rw [List.find?_eq_none] at hf
      simpa using hf
    simp only [this]
    cases hx : M.process x with
    | error e => exact ⟨rfl, by simp⟩
    | ok r =>
      refine ⟨rfl, ?_⟩
      intro d hd
      simp only [Option.some.injEq] at hd
      subst hd
      refine ⟨_, rfl, dictSet_sorted hp, fun e h => ?_⟩
      rcases dictSet_mem h with h | h
      · exact ⟨x, r, hx, h⟩
      · exact he e h

/-- What is kept by histories in which overlapping commits agree. -/
structure MemoTextInv (M : MemoText.Memo Obj Exc) (s : MemoText.State) : Prop where
  running : ∀ i d c, s.proc i = some (.running d c) → RightTable M d
  writing : ∀ i w, s.proc i = some (.writing w) → ∃ v, RightTable M v ∧ w.text = dump v ∧ ∃ f, s.file = some f ∧ Agree w.text f
  same : ∀ i w j w', s.proc i = some (.writing w) → s.proc j = some (.writing w') → w.text = w'.text
  file : RightFile M s.file

/-- Replacing a process by nothing or by a right session keeps the invariant. -/
theorem MemoTextInv.setRunning {M : MemoText.Memo Obj Exc} {s : MemoText.State} (h : MemoTextInv M s) (i : ℕ) (p : Option Proc)
    (hp : p = none ∨ ∃ d c, p = some (.running d c) ∧ RightTable M d) : MemoTextInv M (s.setProc i p) := by
  have nw : ∀ j w, (s.setProc i p).proc j = some (.writing w) → s.proc j = some (.writing w) := by
    intro j w hw
    by_cases hj : j = i
    · subst hj
      rw [memoText_set_same] at hw
      rcases hp with hp | ⟨d, c, hp, -⟩ <;> rw [hp] at hw <;> cases hw
    · rwa [memoText_set_ne _ _ hj] at hw
  refine ⟨fun j d c hj => ?_, fun j w hj => h.writing j w (nw j w hj), fun j w j' w' hj hj' => h.same j w j' w' (nw _ _ hj) (nw _ _ hj'), h.file⟩
  by_cases hji : j = i
  · subst hji
    rw [memoText_set_same] at hj
    rcases hp with hp | ⟨d', c', hp, hd⟩
    · rw [hp] at hj; cases hj
    · rw [hp] at hj; injection hj with hj; injection hj with h1 h2; rw [← h1]; exact hd
  · rw [memoText_set_ne _ _ hji] at hj; exact h.running j d c hj

theorem MemoTextInv.step {M : MemoText.Memo Obj Exc} (hM : FaithfulText M) {s : MemoText.State} (h : MemoTextInv M s) (e : MemoText.Event Obj)
    (ho : ∀ i d, e = .exitBegin i → s.proc i = some (.running d true) → ∀ j w, s.proc j = some (.writing w) → w.text = dump d) :
    MemoTextInv M (MemoText.step M s e).1 := by
  -- a step of a writer
  have wr : ∀ (i : ℕ) (w : Writer) (k : ℕ) (p : Option Proc), s.proc i = some (.writing w) → (p = none ∨ ∃ n, p = some (.writing ⟨w.text, n⟩)) →
      MemoTextInv M { s.setProc i p with file := some (overwrite (s.file.getD []) w.pos ((w.text.drop w.pos).take k)) } := by
    intro i w k p hi hp
    obtain ⟨v, hv, hw, f, hf, ha⟩ := h.writing i w hi
    have ha' : Agree w.text (overwrite f w.pos ((w.text.drop w.pos).take k)) := ha.overwrite _ _
    have nw : ∀ j x, (s.setProc i p).proc j = some (.writing x) → x.text = w.text := by
      intro j x hj
      by_cases hji : j = i
      · subst hji
        rw [memoText_set_same] at hj
        rcases hp with hp | ⟨n, hp⟩ <;> rw [hp] at hj
        · cases hj
        · injection hj with hj; injection hj with hj; rw [← hj]
      · rw [memoText_set_ne _ _ hji] at hj; exact h.same j x i w hj hi
    refine ⟨fun j d c hj => ?_, fun j x hj => ?_, fun j x j' x' hj hj' => (nw j x hj).trans (nw j' x' hj').symm, fun g hg => ?_⟩
    · change (s.setProc i p).proc j = _ at hj
      by_cases hji : j = i
      · subst hji
        rw [memoText_set_same] at hj
        rcases hp with hp | ⟨n, hp⟩ <;> rw [hp] at hj <;> cases hj
      · rw [memoText_set_ne _ _ hji] at hj; exact h.running j d c hj
    · have := nw j x hj
      rw [this]
      refine ⟨v, hv, hw, _, rfl, ?_⟩
      rw [hf]; exact ha'
    · injection hg with hg
      rw [hf] at hg
      rw [← hg]
      rw [hw] at ha' ⊢
      exact hv.agree hM ha'
  cases e with
  | start i =>
    simp only [MemoText.step]
    cases hi : s.proc i with
    | some p => exact h
    | none =>
      cases hf : s.file with
      | none => exact h.setRunning i _ (Or.inr ⟨_, _, rfl, [], rfl, List.Pairwise.nil, by simp⟩)
      | some f =>
        cases hl : load f with
        | error e => simpa only [hl] using h
        | ok v =>
          simp only [hl]
          rcases h.file f hf with h' | ⟨v', h', hv⟩
          · rw [hl] at h'; cases h'
          · rw [hl] at h'; injection h' with h'; subst h'
            exact h.setRunning i _ (Or.inr ⟨_, _, rfl, hv⟩)
  | call i x =>
    simp only [MemoText.step]
    split
    · rename_i d c hi
      have hc := (call_right hM (h.running i d c hi) x).2
      rcases hd : MemoText.call M d x with ⟨_ | d', r, ran⟩
      · exact h
      · exact h.setRunning i _ (Or.inr ⟨_, _, rfl, hc d' (by rw [hd])⟩)
    · exact h
  | exitBegin i =>
    simp only [MemoText.step]
    split
    · rename_i d hi
      have hd := h.running i d true hi
      have nw : ∀ j x, (s.setProc i (some (.writing ⟨dump d, 0⟩))).proc j = some (.writing x) → x.text = dump d := by
        intro j x hj
        by_cases hji : j = i
        · subst hji; rw [memoText_set_same] at hj; injection hj with hj; injection hj with hj; rw [← hj]
        · rw [memoText_set_ne _ _ hji] at hj; exact ho i d rfl hi j x hj
      refine ⟨fun j d' c hj => ?_, fun j x hj => ?_, fun j x j' x' hj hj' => (nw j x hj).trans (nw j' x' hj').symm, fun g hg => ?_⟩
      · change (s.setProc i _).proc j = _ at hj
        by_cases hji : j = i
        · subst hji; rw [memoText_set_same] at hj; cases hj
        · rw [memoText_set_ne _ _ hji] at hj; exact h.running j d' c hj
      · rw [nw j x hj]; exact ⟨d, hd, rfl, [], rfl, Agree.nil _⟩
      · injection hg with hg; subst hg; exact hd.agree hM (Agree.nil _)
    · exact h.setRunning i _ (Or.inl rfl)
    · exact h
  | flush i k =>
    simp only [MemoText.step]
    split
    · rename_i w hi; exact wr i w k _ hi (Or.inr ⟨_, rfl⟩)
    · exact h
  | exitEnd i =>
    simp only [MemoText.step]
    split
    · rename_i w hi
      have := wr i w w.text.length none hi (Or.inl rfl)
      rwa [List.take_of_length_le (by rw [List.length_drop]; omega)] at this
    · exact h
  | crash i => exact h.setRunning i _ (Or.inl rfl)

theorem memoTextInv_run {M : MemoText.Memo Obj Exc} (hM : FaithfulText M) (es : List (MemoText.Event Obj)) : ∀ s : MemoText.State, MemoTextInv M s → OverlapsAgree M s es →
    MemoTextInv M (MemoText.run M s es) := by
  induction es with
  | nil => intro s h _; exact h
  | cons e es ih => intro s h ho; exact ih _ (h.step hM e fun i d he hi => ho.1 i d he hi) ho.2

theorem memoTextInv_init {M : MemoText.Memo Obj Exc} (file : Option (List Char)) (hf : RightFile M file) : MemoTextInv M (MemoText.init file) :=
  ⟨fun i d c h => (by cases h), fun i w h => (by cases h), fun i w j w' h => (by cases h), hf⟩

/-- **C88.** Whatever was started, called, committed and killed before, in whatever order and with whatever pieces of text written, a memoised call returns or raises exactly what the wrapped function
returns or raises, as long as commits that overlap in time write the same table. -/
theorem C88_transparent (M : MemoText.Memo Obj Exc) (hM : FaithfulText M) (file : Option (List Char)) (hf : RightFile M file) (es : List (MemoText.Event Obj))
    (ho : OverlapsAgree M (MemoText.init file) es) (i : ℕ) (x : Obj) (r : Except Exc Obj) (ran : Bool)
    (h : (MemoText.step M (MemoText.run M (MemoText.init file) es) (.call i x)).2 = .returned r ran) : r = M.process x := by
  have inv := memoTextInv_run hM es _ (memoTextInv_init file hf) ho
  simp only [MemoText.step] at h
  split at h
  · rename_i d c hi
    have hc := (call_right hM (inv.running i d c hi) x).1
    rcases hd : MemoText.call M d x with ⟨_ | d', r', ran'⟩ <;> rw [hd] at h hc <;> injection h with h1 h2 <;> rw [← h1] <;> exact hc
  · cases h

/-- **C88.** In such histories the file is always absent, rejected by the next start, or a table of right entries. -/
theorem C88_file (M : MemoText.Memo Obj Exc) (hM : FaithfulText M) (file : Option (List Char)) (hf : RightFile M file) (es : List (MemoText.Event Obj))
    (ho : OverlapsAgree M (MemoText.init file) es) : RightFile M (MemoText.run M (MemoText.init file) es).file :=
  (memoTextInv_run hM es _ (memoTextInv_init file hf) ho).file

/-- Process `i` neither begins to exit nor is killed. -/
def StaysIn (i : ℕ) (es : List (MemoText.Event Obj)) : Prop := MemoText.Event.exitBegin i ∉ es ∧ MemoText.Event.crash i ∉ es

/-- The session of `i` has an entry. -/
def HasEntry (i : ℕ) (k : PyStr) (v : Val) (s : MemoText.State) : Prop :=
  ∃ l c, s.proc i = some (.running (.dict l) c) ∧ l.find? (fun e => e.1 == k) = some (k, v)

theorem isIn_of_find {l : List (PyStr × Val)} {k : PyStr} {e : PyStr × Val} (h : l.find? (fun e => e.1 == k) = some e) : isIn k (.dict l) = some true := by
  have h1 := List.find?_some h
  have h2 := List.mem_of_find?_eq_some h
  simp only [isIn, Option.some.injEq]
  exact List.any_eq_true.2 ⟨e, h2, h1⟩

theorem HasEntry.step {M : MemoText.Memo Obj Exc} {i : ℕ} {k : PyStr} {v : Val} {s : MemoText.State} (h : HasEntry i k v s) (e : MemoText.Event Obj)
    (h1 : e ≠ .exitBegin i) (h2 : e ≠ .crash i) : HasEntry i k v (MemoText.step M s e).1 := by
  obtain ⟨l, c, hi, hl⟩ := h
  have other : ∀ (j : ℕ) (p : Option Proc) (f : Option (List Char)), j ≠ i → HasEntry i k v { s.setProc j p with file := f } :=
    fun j p f hj => ⟨l, c, (memoText_set_ne s p (Ne.symm hj)).trans hi, hl⟩
  have same : HasEntry i k v s := ⟨l, c, hi, hl⟩
  cases e with
  | start j =>
    simp only [MemoText.step]
    by_cases hj : j = i
    · subst hj; rw [hi]; exact same
    · split
      · exact same
      · split
        · exact other j _ s.file hj
        · split
          · exact other j _ s.file hj
          · exact same
  | call j x =>
    by_cases hj : j = i
    · subst hj
      simp only [MemoText.step, hi]
      unfold MemoText.call
      by_cases hx : M.fin x = k
      · rw [hx, isIn_of_find hl]
        simp only [getKey, hl, Option.map_some]
        exact same
      · split
        · rename_i d r ran hd
          split at hd
          · cases hd
          · split at hd <;> cases hd
          · split at hd
            · cases hd
            · simp only [setKey, Prod.mk.injEq, Option.some.injEq] at hd
              obtain ⟨rfl, -⟩ := hd
              exact ⟨_, true, memoText_set_same _ _ _, by rw [dictSet_find_ne (Ne.symm hx)]; exact hl⟩
        · exact same
    · simp only [MemoText.step]
      split
      · split
        · exact other j _ s.file hj
        · exact same
      · exact same
  | exitBegin j =>
    have hj : j ≠ i := fun e => h1 (by rw [e])
    simp only [MemoText.step]
    split
    · exact other j _ _ hj
    · exact other j _ s.file hj
    · exact same
  | flush j n =>
    by_cases hj : j = i
    · subst hj; simp only [MemoText.step, hi]; exact same
    · simp only [MemoText.step]
      split
      · exact other j _ _ hj
      · exact same
  | exitEnd j =>
    by_cases hj : j = i
    · subst hj; simp only [MemoText.step, hi]; exact same
    · simp only [MemoText.step]
      split
      · exact other j _ _ hj
      · exact same
  | crash j => exact other j _ s.file fun e => h2 (by rw [e])

theorem HasEntry.run {M : MemoText.Memo Obj Exc} {i : ℕ} {k : PyStr} {v : Val} (es : List (MemoText.Event Obj)) : ∀ s : MemoText.State, HasEntry i k v s → StaysIn i es →
    HasEntry i k v (MemoText.run M s es) := by
  induction es with
  | nil => intro s h _; exact h
  | cons e es ih =>
    intro s h hs
    exact ih _ (h.step e (fun he => hs.1 (by simp [he])) (fun he => hs.2 (by simp [he]))) ⟨fun h => hs.1 (by simp [h]), fun h => hs.2 (by simp [h])⟩

/-- **C88.** Whatever the file contained and whatever other processes do to it, even with overlapping commits of different tables: what a session has computed itself is computed once, and
every later call with the same text of the argument in that session returns what the wrapped function returns. -/
theorem C88_own_results (M : MemoText.Memo Obj Exc) (hM : FaithfulText M) (s : MemoText.State) (i : ℕ) (x y : Obj) (r : Obj) (hk : M.fin y = M.fin x)
    (h : (MemoText.step M s (.call i x)).2 = .returned (.ok r) true) (es : List (MemoText.Event Obj)) (hs : StaysIn i es) :
    M.process y = .ok r ∧ (MemoText.step M (MemoText.run M (MemoText.step M s (.call i x)).1 es) (.call i y)).2 = .returned (.ok r) false := by
  have key : M.process x = .ok r ∧ HasEntry i (M.fin x) (.str (M.fin r)) (MemoText.step M s (.call i x)).1 := by
    simp only [MemoText.step] at h ⊢
    split at h
    · rename_i d c hi
      rcases hd : MemoText.call M d x with ⟨d', r', ran'⟩
      have hr : r' = .ok r ∧ ran' = true := by
        rw [hd] at h
        cases d' <;> (injection h with h1 h2; exact ⟨h1, h2⟩)
      obtain ⟨rfl, rfl⟩ := hr
      have hd' := hd
      unfold MemoText.call at hd
      split at hd
      · simp at hd
      · split at hd <;> simp at hd
      · split at hd
        · simp at hd
        · rename_i q hq
          cases d with
          | dict l =>
            simp only [setKey, Prod.mk.injEq, Except.ok.injEq] at hd
            obtain ⟨h1, h2, -⟩ := hd
            subst h2
            refine ⟨hq, ?_⟩
            rw [← h1]
            exact ⟨_, true, memoText_set_same _ _ _, dictSet_find _⟩
          | _ => simp [setKey] at hd
    · cases h
  obtain ⟨hx, he⟩ := key
  refine ⟨by rw [hM.key y x hk, hx], ?_⟩
  obtain ⟨l, c, hi, hl⟩ := HasEntry.run (M := M) es _ he hs
  generalize MemoText.run M (MemoText.step M s (.call i x)).1 es = u at *
  simp only [MemoText.step, hi]
  unfold MemoText.call
  rw [hk, isIn_of_find hl]
  simp only [getKey, hl, Option.map_some, hM.decode x r hx]

/-- Process `i` is the only one that writes, and its text up to its position is in the file. -/
def WritesAlone (i : ℕ) (T : List Char) (s : MemoText.State) : Prop :=
  ∃ p, p ≤ T.length ∧ s.proc i = some (.writing ⟨T, p⟩) ∧ (∀ j w, j ≠ i → s.proc j ≠ some (.writing w)) ∧ s.file = some (T.take p)

theorem WritesAlone.step {M : MemoText.Memo Obj Exc} {i : ℕ} {T : List Char} {s : MemoText.State} (h : WritesAlone i T s) (e : MemoText.Event Obj)
    (h1 : ∀ j, e ≠ .exitBegin j) (h2 : e ≠ .exitEnd i) (h3 : e ≠ .crash i) : WritesAlone i T (MemoText.step M s e).1 := by
  obtain ⟨p, hp, hi, ho, hf⟩ := h
  have same : WritesAlone i T s := ⟨p, hp, hi, ho, hf⟩
  have other : ∀ (j : ℕ) (q : Option Proc), j ≠ i → (∀ w, q ≠ some (.writing w)) → WritesAlone i T (s.setProc j q) := by
    intro j q hj hq
    refine ⟨p, hp, (memoText_set_ne s q (Ne.symm hj)).trans hi, fun j' w hj' => ?_, hf⟩
    by_cases hjj : j' = j
    · subst hjj; rw [memoText_set_same]; exact hq w
    · rw [memoText_set_ne _ _ hjj]; exact ho j' w hj'
  cases e with
  | start j =>
    simp only [MemoText.step]
    by_cases hj : j = i
    · subst hj; rw [hi]; exact same
    · split
      · exact same
      · rw [hf]
        simp only
        split
        · exact other j _ hj (by simp)
        · exact same
  | call j x =>
    simp only [MemoText.step]
    by_cases hj : j = i
    · subst hj; rw [hi]; exact same
    · split
      · split
        · exact other j _ hj (by simp)
        · exact same
      · exact same
  | exitBegin j => exact absurd rfl (h1 j)
  | flush j k =>
    simp only [MemoText.step]
    by_cases hj : j = i
    · subst hj
      rw [hi]
      simp only [hf, Option.getD_some]
      refine ⟨min (p + k) T.length, min_le_right _ _, memoText_set_same _ _ _, fun j' w hj' => ?_, ?_⟩
      · change (s.setProc _ _).proc j' ≠ _
        rw [memoText_set_ne _ _ hj']; exact ho j' w hj'
      · simp only [Option.some.injEq]
        rw [overwrite_take hp]
        rcases le_total (p + k) T.length with h | h
        · rw [min_eq_left h]
        · rw [min_eq_right h, List.take_of_length_le h, List.take_length]
    · split
      · rename_i w hw; exact absurd hw (ho j w hj)
      · exact same
  | exitEnd j =>
    simp only [MemoText.step]
    have hj : j ≠ i := fun e => h2 (by rw [e])
    split
    · rename_i w hw; exact absurd hw (ho j w hj)
    · exact same
  | crash j => exact other j _ (fun e => h3 (by rw [e])) (by simp)

/-- **C88.** A process commits while nobody else is writing, and nobody else opens the file for writing before it is done (other processes may start, call and be killed meanwhile, and the text
may be written in any pieces): the file is then exactly the text of its table, and a process started next has exactly that table. -/
theorem C88_commit (M : MemoText.Memo Obj Exc) (s : MemoText.State) (i : ℕ) (d : Val) (hd : Good d) (hi : s.proc i = some (.running d true))
    (ho : ∀ j w, s.proc j ≠ some (.writing w)) (es : List (MemoText.Event Obj)) (h1 : ∀ j, MemoText.Event.exitBegin j ∉ es) (h2 : MemoText.Event.exitEnd i ∉ es)
    (h3 : MemoText.Event.crash i ∉ es) (j : ℕ) (hj : j = i ∨ (MemoText.run M s (.exitBegin i :: es)).proc j = none) :
    (MemoText.run M s (.exitBegin i :: es ++ [.exitEnd i])).file = some (dump d) ∧
    (MemoText.run M s (.exitBegin i :: es ++ [.exitEnd i, .start j])).proc j = some (.running d false) := by
  have w0 : WritesAlone i (dump d) (MemoText.step M s (.exitBegin i)).1 := by
    simp only [MemoText.step, hi]
    refine ⟨0, Nat.zero_le _, memoText_set_same _ _ _, fun j w hj => ?_, by simp⟩
    change (s.setProc _ _).proc j ≠ _
    rw [memoText_set_ne _ _ hj]; exact ho j w
  have all : ∀ (es : List (MemoText.Event Obj)) (t : MemoText.State), WritesAlone i (dump d) t → (∀ j, MemoText.Event.exitBegin j ∉ es) → MemoText.Event.exitEnd i ∉ es →
      MemoText.Event.crash i ∉ es → WritesAlone i (dump d) (MemoText.run M t es) := by
    intro es
    induction es with
    | nil => intro t h _ _ _; exact h
    | cons e es ih =>
      intro t h a b c
      refine ih _ (h.step e (fun j he => a j (by simp [he])) (fun he => b (by simp [he])) (fun he => c (by simp [he]))) (fun j h => a j (by simp [h])) (fun h => b (by simp [h]))
        (fun h => c (by simp [h]))
  have w1 : WritesAlone i (dump d) (MemoText.run M s (.exitBegin i :: es)) := all es _ w0 h1 h2 h3
  have r1 : MemoText.run M s (.exitBegin i :: es ++ [.exitEnd i]) = (MemoText.step M (MemoText.run M s (.exitBegin i :: es)) (.exitEnd i)).1 := by
    simp only [MemoText.run, List.foldl_append, List.foldl_cons, List.foldl_nil]
  have r2 : MemoText.run M s (.exitBegin i :: es ++ [.exitEnd i, .start j]) = (MemoText.step M (MemoText.run M s (.exitBegin i :: es ++ [.exitEnd i])) (.start j)).1 := by
    simp only [MemoText.run, List.foldl_append, List.foldl_cons, List.foldl_nil]
  generalize hu : MemoText.run M s (.exitBegin i :: es) = u at *
  obtain ⟨p, hp, hi', ho', hf⟩ := w1
  have hfile : (MemoText.step M u (.exitEnd i)).1.file = some (dump d) := by
    simp only [MemoText.step, hi', hf, Option.getD_some]
    have := overwrite_take hp ((dump d).length)
    rw [List.take_of_length_le (l := (dump d).drop p) (by rw [List.length_drop]; omega), List.take_of_length_le (l := dump d) (i := p + (dump d).length) (by omega)] at this
    rw [this]
  have hproc : (MemoText.step M u (.exitEnd i)).1.proc j = none := by
    simp only [MemoText.step, hi']
    by_cases hji : j = i
    · subst hji; exact memoText_set_same _ _ _
    · rw [memoText_set_ne _ _ hji]; exact hj.resolve_left hji
  refine ⟨by rw [r1]; exact hfile, ?_⟩
  rw [r2, r1]
  generalize (MemoText.step M u (.exitEnd i)).1 = z at *
  simp only [MemoText.step, hproc, hfile, C78_roundtrip d hd]
  exact memoText_set_same _ _ _

/-- **C88.** If the file holds a JSON value that is not an object, the import succeeds but no call ever returns: each raises an exception, and the session's table stays what it is. -/
theorem C88_not_an_object (M : MemoText.Memo Obj Exc) (v : Val) (hv : ∀ l, v ≠ .dict l) (s : MemoText.State) (i : ℕ) (c : Bool) (hi : s.proc i = some (.running v c)) (x : Obj) :
    (MemoText.step M s (.call i x)).1 = s ∧ ∃ e ran, (MemoText.step M s (.call i x)).2 = .returned (.error e) ran := by
  have key : ∃ e ran, MemoText.call M v x = (none, .error e, ran) := by
    have g : getKey (M.fin x) v = none := by cases v <;> first | rfl | exact absurd rfl (hv _)
    have t : ∀ r, setKey (M.fin x) (.str (M.fin r)) v = none := by intro r; cases v <;> first | rfl | exact absurd rfl (hv _)
    unfold MemoText.call
    rw [g]
    rcases isIn (M.fin x) v with _ | _ | _
    · exact ⟨_, _, rfl⟩
    · rcases M.process x with e | r
      · exact ⟨_, _, rfl⟩
      · simp only [t r]; exact ⟨_, _, rfl⟩
    · exact ⟨_, _, rfl⟩
  obtain ⟨e, ran, h⟩ := key
  simp only [MemoText.step, hi, h, true_and]
  exact ⟨e, ran, rfl⟩

/-- **C88.** If the wrapped function raises for an argument that the table does not have, the exception is passed on, nothing is stored, and the call does not count as one that ran to its end: the
next call with the same argument tries again. -/
theorem C88_exception (M : MemoText.Memo Obj Exc) (l : List (PyStr × Val)) (s : MemoText.State) (i : ℕ) (c : Bool) (hi : s.proc i = some (.running (.dict l) c)) (x : Obj)
    (hx : ∀ p ∈ l, p.1 ≠ M.fin x) (e : Exc) (he : M.process x = .error e) :
    MemoText.step M s (.call i x) = (s, .returned (.error e) false) := by
  have h : isIn (M.fin x) (.dict l) = some false := by
    simp only [isIn, Option.some.injEq]
    rw [← Bool.not_eq_true]
    intro h
    simp at h
    aesop
  simp only [MemoText.step, hi, MemoText.call, h, he]

/-- **C88.** If the file holds an array, the wrapped function is run exactly for the arguments whose text is not an element of the array; in both cases the call
raises `TypeError`. -/
theorem C88_array_runs (M : MemoText.Memo Obj Exc) (l : List Val) (s : MemoText.State) (i : ℕ) (c : Bool) (hi : s.proc i = some (.running (.list l) c)) (x : Obj) :
    (Val.str (M.fin x) ∈ l → (MemoText.step M s (.call i x)).2 = .returned (.error M.typeError) false) ∧
    (Val.str (M.fin x) ∉ l → ∀ r, M.process x = .ok r → (MemoText.step M s (.call i x)).2 = .returned (.error M.typeError) true) := by
  have e : ∀ v : Val, isStr (M.fin x) v = true ↔ v = .str (M.fin x) := fun v => by cases v <;> simp [isStr]
  have e' : l.any (isStr (M.fin x)) = true ↔ Val.str (M.fin x) ∈ l := by
    rw [List.any_eq_true]
    exact ⟨fun ⟨v, h1, h2⟩ => (e v).1 h2 ▸ h1, fun h => ⟨_, h, (e _).2 rfl⟩⟩
  refine ⟨fun h => ?_, fun h r hr => ?_⟩
  · simp only [MemoText.step, hi, MemoText.call, isIn, e'.2 h, getKey]
  · have : l.any (isStr (M.fin x)) = false := by rw [Bool.eq_false_iff]; exact fun h' => h (e'.1 h')
    simp only [MemoText.step, hi, MemoText.call, isIn, this, hr, setKey]

/-- A memoised function with the arguments `a` and `b` and the results `1` and `2`. -/
def twoValues : MemoText.Memo (Fin 4) Unit where
  fin := fun x => [[97], [98], [49], [50]].getD x []
  fout := fun v => if isStr [49] v then .ok 2 else if isStr [50] v then .ok 3 else .error ()
  process := fun x => if x = 0 then .ok 2 else if x = 1 then .ok 3 else .error ()
  typeError := ()

theorem twoValues_faithful : FaithfulText twoValues := by
  refine ⟨?_, ?_, ?_⟩
  · decide
  · decide
  · intro x
    fin_cases x <;> exact ⟨by decide, by simp [twoValues]⟩

/-- **C88, defect.** Nothing keeps two processes from committing at the same time. With two processes that each compute one value, no process killed and no other fault, a later session returns for
`b` the value of `a`, although the memoised function satisfies everything that `memoize` asks for. -/
theorem C88_overlap_wrong_answer : ∃ (M : MemoText.Memo (Fin 4) Unit) (es : List (MemoText.Event (Fin 4))), FaithfulText M ∧ (∀ i, MemoText.Event.crash i ∉ es) ∧
    ∃ i x r, (MemoText.step M (MemoText.run M (MemoText.init none) es) (.call i x)).2 = .returned (.ok r) false ∧ M.process x ≠ .ok r := by
  refine ⟨twoValues, [.start 0, .start 1, .call 0 0, .call 1 1, .exitBegin 0, .flush 0 6, .exitBegin 1, .exitEnd 1, .exitEnd 0, .start 2], twoValues_faithful, by simp, 2, 1, 2, ?_, by decide⟩
  have g : Good (table [([98], [49])]) := by
    refine good_table ?_ (by simp)
    simp only [List.mem_cons, List.not_mem_nil, or_false, forall_eq]
    exact ⟨⟨by simp, by simp⟩, by simp, by simp⟩
  have l := C78_roundtrip _ g
  have t : dump (table [([98], [49])]) = "{\n  \"b\": \"1\"\n}".toList := by
    simp [table, dump, dumpAt, dumpDict, dumpStr, escape, nl]
  rw [t] at l
  have p0 : twoValues.process 0 = .ok 2 := by decide
  have p1 : twoValues.process 1 = .ok 3 := by decide
  have f0 : twoValues.fin 0 = [97] := by decide
  have f1 : twoValues.fin 1 = [98] := by decide
  have f2 : twoValues.fin 2 = [49] := by decide
  have f3 : twoValues.fin 3 = [50] := by decide
  have fo : twoValues.fout (.str [49]) = .ok 2 := by decide
  have dA : dump (.dict [([97], .str [49])]) = "{\n  \"a\": \"1\"\n}".toList := by simp [dump, dumpAt, dumpDict, dumpStr, escape, nl]
  have dB : dump (.dict [([98], .str [50])]) = "{\n  \"b\": \"2\"\n}".toList := by simp [dump, dumpAt, dumpDict, dumpStr, escape, nl]
  have o : overwrite (overwrite [] 0 ['{', '\n', ' ', ' ', '\"', 'b', '\"', ':', ' ', '\"', '2', '\"', '\n', '}']) 6 ['\"', ':', ' ', '\"', '1', '\"', '\n', '}'] =
      "{\n  \"b\": \"1\"\n}".toList := by decide
  simp [MemoText.run, MemoText.step, MemoText.init, MemoText.State.setProc, MemoText.call, isIn, getKey, setKey, dictSet, p0, p1, f0, f1, f2, f3, dA, dB]
  rw [o]
  simp only [l, table, List.map_cons, List.map_nil]
  simp [fo]

/-- The states of three processes. -/
def threeProcs (f : Option (List Char)) (a b c : Option Proc) : MemoText.State := ⟨f, fun j => if j = 0 then a else if j = 1 then b else if j = 2 then c else none⟩

theorem threeProcs_writing {f : Option (List Char)} {a b c : Option Proc} {j : ℕ} {w : Writer} (h : (threeProcs f a b c).proc j = some (.writing w)) :
    a = some (.writing w) ∨ b = some (.writing w) ∨ c = some (.writing w) := by
  simp only [threeProcs] at h
  by_cases h0 : j = 0
  · rw [if_pos h0] at h; exact Or.inl h
  · by_cases h1 : j = 1
    · rw [if_neg h0, if_pos h1] at h; exact Or.inr (Or.inl h)
    · by_cases h2 : j = 2
      · rw [if_neg h0, if_neg h1, if_pos h2] at h; exact Or.inr (Or.inr h)
      · rw [if_neg h0, if_neg h1, if_neg h2] at h; cases h

theorem threeProcs_set0 (f : Option (List Char)) (a b c p : Option Proc) : (threeProcs f a b c).setProc 0 p = threeProcs f p b c := by
  simp only [threeProcs, MemoText.State.setProc, MemoText.State.mk.injEq, true_and]
  funext j
  split_ifs <;> rfl

theorem threeProcs_set1 (f : Option (List Char)) (a b c p : Option Proc) : (threeProcs f a b c).setProc 1 p = threeProcs f a p c := by
  simp only [threeProcs, MemoText.State.setProc, MemoText.State.mk.injEq, true_and]
  funext j
  split_ifs <;> first | rfl | omega

theorem threeProcs_set2 (f : Option (List Char)) (a b c p : Option Proc) : (threeProcs f a b c).setProc 2 p = threeProcs f a b p := by
  simp only [threeProcs, MemoText.State.setProc, MemoText.State.mk.injEq, true_and]
  funext j
  split_ifs <;> first | rfl | omega

/-- The hypotheses of `C88_transparent` are met by a history in which two commits of the same table overlap, and the call in the next session is answered from the file. -/
example : FaithfulText twoValues ∧ RightFile twoValues none ∧
    ∃ es : List (MemoText.Event (Fin 4)), es = [.start 0, .start 1, .call 0 0, .call 1 0, .exitBegin 0, .flush 0 3, .exitBegin 1, .exitEnd 0, .exitEnd 1, .start 2] ∧
      OverlapsAgree twoValues (MemoText.init none) es ∧
      (MemoText.step twoValues (MemoText.run twoValues (MemoText.init none) es) (.call 2 0)).2 = .returned (.ok 2) false := by
  have g : Good (table [([97], [49])]) := by
    refine good_table ?_ (by simp)
    simp only [List.mem_cons, List.not_mem_nil, or_false, forall_eq]
    exact ⟨⟨by simp, by simp⟩, by simp, by simp⟩
  have l := C78_roundtrip _ g
  have t : dump (table [([97], [49])]) = "{\n  \"a\": \"1\"\n}".toList := by
    simp [table, dump, dumpAt, dumpDict, dumpStr, escape, nl]
  generalize hv : table [([97], [49])] = v at *
  have hv' : v = .dict [([97], .str [49])] := by rw [← hv]; rfl
  have e0 : MemoText.call twoValues (.dict []) 0 = (some v, .ok 2, true) := by rw [hv']; rfl
  have e1 : MemoText.call twoValues v 0 = (none, .ok 2, false) := by rw [hv']; rfl
  obtain ⟨f1, hf1⟩ : ∃ f, f = overwrite [] 0 ((dump v).take 3) := ⟨_, rfl⟩
  obtain ⟨f2, hf2⟩ : ∃ f, f = overwrite [] 3 ((dump v).drop 3) := ⟨_, rfl⟩
  have o : overwrite f2 0 ((dump v).drop 0) = dump v := by rw [hf2, t]; decide
  have hm : min (0 + 3) (dump v).length = 3 := by rw [t]; decide
  have s1 : (MemoText.step twoValues (threeProcs none none none none) (.start 0)).1 = threeProcs none (some (.running (.dict []) true)) none none :=
    threeProcs_set0 ..
  have s2 : (MemoText.step twoValues (threeProcs none (some (.running (.dict []) true)) none none) (.start 1)).1 =
      threeProcs none (some (.running (.dict []) true)) (some (.running (.dict []) true)) none := threeProcs_set1 ..
  have c1 : ∀ (s : MemoText.State) (i : ℕ), s.proc i = some (.running (.dict []) true) → (MemoText.step twoValues s (.call i 0)).1 = s.setProc i (some (.running v true)) := by
    intro s i hi; simp only [MemoText.step, hi, e0]
  have c2 : ∀ (s : MemoText.State) (i : ℕ), s.proc i = some (.running v false) → (MemoText.step twoValues s (.call i 0)).2 = .returned (.ok 2) false := by
    intro s i hi; simp only [MemoText.step, hi, e1]
  have b1 : ∀ (s : MemoText.State) (i : ℕ), s.proc i = some (.running v true) →
      (MemoText.step twoValues s (.exitBegin i)).1 = { s.setProc i (some (.writing ⟨dump v, 0⟩)) with file := some [] } := by
    intro s i hi; simp only [MemoText.step, hi]
  have n1 : ∀ (s : MemoText.State) (i p : ℕ), s.proc i = some (.writing ⟨dump v, p⟩) →
      (MemoText.step twoValues s (.exitEnd i)).1 = { s.setProc i none with file := some (overwrite (s.file.getD []) p ((dump v).drop p)) } := by
    intro s i p hi; simp only [MemoText.step, hi]
  have k1 : ∀ (s : MemoText.State) (i : ℕ), s.proc i = some (.writing ⟨dump v, 0⟩) →
      (MemoText.step twoValues s (.flush i 3)).1 = { s.setProc i (some (.writing ⟨dump v, 3⟩)) with file := some (overwrite (s.file.getD []) 0 ((dump v).take 3)) } := by
    intro s i hi; simp only [MemoText.step, hi, hm, List.drop_zero]
  have r1 : ∀ (s : MemoText.State) (i : ℕ), s.proc i = none → s.file = some (dump v) → (MemoText.step twoValues s (.start i)).1 = s.setProc i (some (.running v false)) := by
    intro s i hi hf; simp only [MemoText.step, hi, hf, l]
  have ff : ∀ f f' a b c, ({ threeProcs f a b c with file := f' } : MemoText.State) = threeProcs f' a b c := fun _ _ _ _ _ => rfl
  have s3 : (MemoText.step twoValues (threeProcs none (some (.running (.dict []) true)) (some (.running (.dict []) true)) none) (.call 0 0)).1 =
      threeProcs none (some (.running v true)) (some (.running (.dict []) true)) none := by rw [c1 _ 0 rfl, threeProcs_set0]
  have s4 : (MemoText.step twoValues (threeProcs none (some (.running v true)) (some (.running (.dict []) true)) none) (.call 1 0)).1 =
      threeProcs none (some (.running v true)) (some (.running v true)) none := by rw [c1 _ 1 rfl, threeProcs_set1]
  have s5 : (MemoText.step twoValues (threeProcs none (some (.running v true)) (some (.running v true)) none) (.exitBegin 0)).1 =
      threeProcs (some []) (some (.writing ⟨dump v, 0⟩)) (some (.running v true)) none := by rw [b1 _ 0 rfl, threeProcs_set0, ff]
  have s6 : (MemoText.step twoValues (threeProcs (some []) (some (.writing ⟨dump v, 0⟩)) (some (.running v true)) none) (.flush 0 3)).1 =
      threeProcs (some f1) (some (.writing ⟨dump v, 3⟩)) (some (.running v true)) none := by rw [k1 _ 0 rfl, threeProcs_set0, ff, hf1]; rfl
  have s7 : (MemoText.step twoValues (threeProcs (some f1) (some (.writing ⟨dump v, 3⟩)) (some (.running v true)) none) (.exitBegin 1)).1 =
      threeProcs (some []) (some (.writing ⟨dump v, 3⟩)) (some (.writing ⟨dump v, 0⟩)) none := by rw [b1 _ 1 rfl, threeProcs_set1, ff]
  have s8 : (MemoText.step twoValues (threeProcs (some []) (some (.writing ⟨dump v, 3⟩)) (some (.writing ⟨dump v, 0⟩)) none) (.exitEnd 0)).1 =
      threeProcs (some f2) none (some (.writing ⟨dump v, 0⟩)) none := by rw [n1 _ 0 3 rfl, threeProcs_set0, ff, hf2]; rfl
  have s9 : (MemoText.step twoValues (threeProcs (some f2) none (some (.writing ⟨dump v, 0⟩)) none) (.exitEnd 1)).1 =
      threeProcs (some (dump v)) none none none := by
    rw [n1 _ 1 0 rfl, threeProcs_set1, ff]
    change threeProcs (some (overwrite f2 0 ((dump v).drop 0))) none none none = _
    rw [o]
  have s10 : (MemoText.step twoValues (threeProcs (some (dump v)) none none none) (.start 2)).1 = threeProcs (some (dump v)) none none (some (.running v false)) := by
    rw [r1 _ 2 rfl rfl, threeProcs_set2]
  have s0 : MemoText.init none = threeProcs none none none none := by
    simp only [MemoText.init, threeProcs, MemoText.State.mk.injEq, true_and]; funext j; split_ifs <;> rfl
  refine ⟨twoValues_faithful, fun f h => (by cases h), _, rfl, ?_, ?_⟩
  · have no : ∀ (e : MemoText.Event (Fin 4)) (s : MemoText.State), (∀ i, e ≠ .exitBegin i) → ∀ i d, e = .exitBegin i → s.proc i = some (.running d true) →
        ∀ j w, s.proc j = some (.writing w) → w.text = dump d := fun e s h i d he => absurd he (h i)
    simp only [OverlapsAgree, and_true, s0, s1, s2, s3, s4, s5, s6, s7, s8, s9, s10]
    refine ⟨no _ _ (by simp), no _ _ (by simp), no _ _ (by simp), no _ _ (by simp), ?_, no _ _ (by simp), ?_, no _ _ (by simp), no _ _ (by simp), no _ _ (by simp)⟩
    · intro i d he hi j w hw
      rcases threeProcs_writing hw with h | h | h <;> cases h
    · intro i d he hi j w hw
      injection he with he
      subst he
      have hd : v = d := by
        change some (Proc.running v true) = _ at hi
        injection hi with hi; injection hi
      rcases threeProcs_writing hw with h | h | h
      · injection h with h; injection h with h; rw [← h, ← hd]
      · cases h
      · cases h
  · simp only [MemoText.run, List.foldl_cons, List.foldl_nil, s0, s1, s2, s3, s4, s5, s6, s7, s8, s9, s10]
    exact c2 _ 2 rfl

/-- The hypotheses of `C88_own_results` and `C88_commit`: a session computes a value, another one starts and is killed, the first one goes on and commits in pieces. -/
example : ∃ s : MemoText.State, (MemoText.step twoValues s (.call 0 0)).2 = .returned (.ok 2) true ∧ StaysIn (Obj := Fin 4) 0 [.start 1, .call 1 1, .crash 1] ∧
    (MemoText.step twoValues s (.call 0 0)).1.proc 0 = some (.running (.dict [([97], .str [49])]) true) ∧ Good (.dict [([97], .str [49])]) ∧
    (∀ j w, (MemoText.step twoValues s (.call 0 0)).1.proc j ≠ some (.writing w)) := by
  have p0 : twoValues.process 0 = .ok 2 := by decide
  have f0 : twoValues.fin 0 = [97] := by decide
  have f2 : twoValues.fin 2 = [49] := by decide
  refine ⟨⟨none, fun j => if j = 0 then some (.running (.dict []) true) else none⟩, ?_, by simp [StaysIn], ?_, ?_, ?_⟩
  · simp [MemoText.step, MemoText.call, isIn, setKey, p0, f0]
  · simp [MemoText.step, MemoText.State.setProc, MemoText.call, isIn, setKey, dictSet, p0, f0, f2]
  · exact good_table (l := [([97], [49])]) (by simp [GoodStr]) (by simp)
  · intro j w
    by_cases h0 : j = 0
    · subst h0; simp [MemoText.step, MemoText.State.setProc, MemoText.call, isIn, setKey, dictSet, p0, f0, f2]
    · simp [MemoText.step, MemoText.State.setProc, MemoText.call, isIn, setKey, dictSet, p0, f0, f2, h0]

/-- A file with the JSON list `["a"]` can be imported. -/
example : ∃ v, (∀ l, v ≠ Val.dict l) ∧ load (dump v) = .ok v := by
  have g : Good (.list [.str [97]]) := by
    refine .list ?_
    simp only [List.mem_cons, List.not_mem_nil, or_false, forall_eq]
    exact .str ⟨by simp, by simp⟩
  exact ⟨_, by simp, C78_roundtrip _ g⟩

end Dec.Props
