import Verif.Model.Data
import Mathlib.Tactic

/-!
# The data store and memoisation: C39, C40, C41
-/

namespace Dec.Props

open Dec.Data

set_option linter.unusedVariables false
set_option linter.unusedSimpArgs false

section memo

variable {Obj Exc : Type*}

/-! ## C39 -/

/-- The assumptions on the memoised function: decoding the encoding of a result gives the result back, and arguments with equal keys have
equal results. -/
structure Faithful (M : Memo Obj Exc) : Prop where
  decode : ∀ x r, M.process x = .ok r → M.fout (M.fin r) = r
  key : ∀ x y, M.fin x = M.fin y → M.process x = M.process y

/-- Every entry of the table is the encoded result of some argument with that key. -/
def ValidMap (M : Memo Obj Exc) (m : String → Option String) : Prop :=
  ∀ k s, m k = some s → ∃ x r, M.fin x = k ∧ M.process x = .ok r ∧ s = M.fin r

/-- The file on disk holds only valid entries (in particular: no file at all). -/
def ValidDisk (M : Memo Obj Exc) : Disk → Prop
  | .stored m => ValidMap M m
  | _ => True

/-- The invariant of all histories. -/
def MemoInv (M : Memo Obj Exc) (s : State) : Prop :=
  ValidDisk M s.disk ∧ ∀ i σ, s.sess i = some σ → ValidMap M σ.dct

theorem memoInv_step (M : Memo Obj Exc) (s : State) (h : MemoInv M s) (e : Event Obj) : MemoInv M (step M s e).1 := by
  obtain ⟨h1, h2⟩ := h
  have hset : ∀ i (x : Option Session), (∀ σ, x = some σ → ValidMap M σ.dct) →
      ∀ j σ, (s.setSess i x).sess j = some σ → ValidMap M σ.dct := by
    intro i x hx j σ hj
    unfold State.setSess at hj
    simp only at hj
    split_ifs at hj with hji
    · exact hx σ hj
    · exact h2 j σ hj
  cases e with
  | start i =>
    unfold step
    simp only
    split
    · exact ⟨h1, h2⟩
    · split
      · refine ⟨h1, hset i _ ?_⟩
        rintro σ ⟨⟩ k v hk; exact absurd hk (by simp)
      · rename_i m hm
        refine ⟨h1, hset i _ ?_⟩
        rintro σ ⟨⟩
        rw [hm] at h1; exact h1
      · exact ⟨h1, h2⟩
  | call i x =>
    unfold step
    simp only
    split
    · exact ⟨h1, h2⟩
    · rename_i σ hσ
      split_ifs with hw
      · exact ⟨h1, h2⟩
      · split
        · exact ⟨h1, h2⟩
        · split
          · exact ⟨h1, h2⟩
          · rename_i r hr
            refine ⟨h1, hset i _ ?_⟩
            rintro σ' ⟨⟩ k v hk
            simp only at hk
            split_ifs at hk with hk'
            · subst hk'
              simp only [Option.some.injEq] at hk
              exact ⟨x, r, rfl, hr, hk.symm⟩
            · exact h2 i σ hσ k v hk
  | exitBegin i =>
    unfold step
    simp only
    split
    · exact ⟨h1, h2⟩
    · split_ifs
      · exact ⟨h1, h2⟩
      · exact ⟨trivial, h2⟩
      · exact ⟨h1, hset i none (by simp)⟩
  | exitEnd i =>
    unfold step
    simp only
    split
    · exact ⟨h1, h2⟩
    · rename_i σ hσ
      split_ifs
      · exact ⟨h2 i σ hσ, hset i none (by simp)⟩
      · exact ⟨h1, h2⟩
  | crash i => exact ⟨h1, hset i none (by simp)⟩

theorem memo_step_obs (M : Memo Obj Exc) (hM : Faithful M) (s : State) (h : MemoInv M s) (i : ℕ) (x : Obj) (r : Except Exc Obj) (c : Bool)
    (ho : (step M s (.call i x)).2 = .returned r c) : r = M.process x := by
  unfold step at ho
  simp only at ho
  split at ho
  · cases ho
  · rename_i σ hσ
    split_ifs at ho
    split at ho
    · rename_i v hv
      simp only [Obs.returned.injEq] at ho
      obtain ⟨y, q, e1, e2, e3⟩ := h.2 i σ hσ _ _ hv
      rw [← ho.1, e3, hM.decode y q e2, ← e2, hM.key y x e1]
    · split at ho
      · rename_i e he
        simp only [Obs.returned.injEq] at ho; rw [← ho.1, he]
      · rename_i q hq
        simp only [Obs.returned.injEq] at ho; rw [← ho.1, hq]

theorem run_append (M : Memo Obj Exc) (s : State) (es fs : List (Event Obj)) :
    run M s (es ++ fs) = ((run M (run M s es).1 fs).1, (run M s es).2 ++ (run M (run M s es).1 fs).2) := by
  induction es generalizing s with
  | nil => rfl
  | cons e es ih => simp only [List.cons_append, run, ih]

theorem memoInv_run (M : Memo Obj Exc) (s : State) (h : MemoInv M s) (es : List (Event Obj)) : MemoInv M (run M s es).1 := by
  induction es generalizing s with
  | nil => exact h
  | cons e es ih => simp only [run]; exact ih _ (memoInv_step M s h e)

theorem memoInv_init (M : Memo Obj Exc) (d : Disk) (hd : ValidDisk M d) : MemoInv M (init d) := ⟨hd, by simp [init]⟩

/-- C39: in every history of starts, calls, exits and crashes of any number of processes, from an absent file (or one with valid entries), every
call that returns (normally or by raising) does what the wrapped function does on the same argument. -/
theorem C39_transparent (M : Memo Obj Exc) (hM : Faithful M) (d : Disk) (hd : ValidDisk M d) (es : List (Event Obj)) (i : ℕ) (x : Obj)
    (r : Except Exc Obj) (c : Bool) (h : (Event.call i x, Obs.returned r c) ∈ (run M (init d) es).2) : r = M.process x := by
  have key : ∀ (s : State), MemoInv M s → ∀ es : List (Event Obj), (Event.call i x, Obs.returned r c) ∈ (run M s es).2 → r = M.process x := by
    intro s hs es
    induction es generalizing s with
    | nil => intro h; cases h
    | cons e es ih =>
      intro h
      simp only [run, List.mem_cons, Prod.mk.injEq] at h
      rcases h with ⟨rfl, ho⟩ | h
      · exact memo_step_obs M hM s hs i x r c ho.symm
      · exact ih _ (memoInv_step M s hs e) h
  exact key _ (memoInv_init M d hd) es h

/-- C39: a call in a running process (that is not just exiting) always returns something. -/
theorem C39_call_returns (M : Memo Obj Exc) (s : State) (i : ℕ) (x : Obj) (hi : s.sess i ≠ none) (hw : s.writer ≠ some i) :
    ∃ r c, (step M s (.call i x)).2 = .returned r c := by
  obtain ⟨σ, hσ⟩ := Option.ne_none_iff_exists'.1 hi
  unfold step
  simp only [hσ, if_neg hw]
  split
  · exact ⟨_, _, rfl⟩
  · split <;> exact ⟨_, _, rfl⟩

/-! ## C40 -/

/-- The number of times the wrapped function was run successfully for the key `k` by process `i`. -/
def computations (M : Memo Obj Exc) (i : ℕ) (k : String) (l : List (Event Obj × Obs Obj Exc)) : ℕ :=
  l.countP fun p => match p with
    | (.call j x, .returned _ true) => j = i ∧ M.fin x = k
    | _ => false

/-- The process an event belongs to. -/
def proc : Event Obj → ℕ
  | .start i | .call i _ | .exitBegin i | .exitEnd i | .crash i => i

/-- The key is known to process `i` or to the file. -/
def Known (s : State) (i : ℕ) (k : String) : Prop :=
  match s.sess i with
  | some σ => σ.dct k ≠ none
  | none => ∃ m, s.disk = .stored m ∧ m k ≠ none

/-- One step computes a key only if it is not known to the process, and knows it afterwards. -/
theorem computations_step (M : Memo Obj Exc) (s : State) (e : Event Obj) (i : ℕ) (k : String) (h : computations M i k [(e, (step M s e).2)] ≠ 0) :
    (∃ σ, s.sess i = some σ ∧ σ.dct k = none) ∧ (∃ σ, (step M s e).1.sess i = some σ ∧ σ.dct k ≠ none) ∧
      computations M i k [(e, (step M s e).2)] = 1 := by
  cases e with
  | call j x =>
    unfold step at h ⊢
    simp only at h ⊢
    split at h
    · simp [computations] at h
    · rename_i σ hσ
      split_ifs at h with hw
      · simp [computations] at h
      · split at h
        · simp [computations] at h
        · rename_i hn
          split at h
          · simp [computations] at h
          · rename_i r hr
            simp only [hσ, hw, hn, hr, if_false]
            simp only [computations, List.countP_cons, List.countP_nil] at h ⊢
            have hh : j = i ∧ M.fin x = k := by by_contra hh; simp [hh] at h
            obtain ⟨rfl, rfl⟩ := hh
            refine ⟨⟨σ, hσ, hn⟩, ⟨⟨fun k => if k = M.fin x then some (M.fin r) else σ.dct k, true⟩, by simp [State.setSess], by simp⟩, by simp⟩
  | start j => simp [computations] at h
  | exitBegin j => simp [computations] at h
  | exitEnd j => simp [computations] at h
  | crash j => simp [computations] at h

/-- C40: while a process runs (whatever it and other processes do, including crashes of others), it computes each key at most once. -/
theorem C40_once_per_session (M : Memo Obj Exc) (s : State) (es : List (Event Obj)) (i : ℕ) (k : String)
    (hns : ∀ j, Event.start j ∈ es → j ≠ i) : computations M i k (run M s es).2 ≤ 1 := by
  have know : ∀ (s : State) (e : Event Obj), e ≠ .start i → (s.sess i = none ∨ ∃ σ, s.sess i = some σ ∧ σ.dct k ≠ none) →
      ((step M s e).1.sess i = none ∨ ∃ σ, (step M s e).1.sess i = some σ ∧ σ.dct k ≠ none) := by
    intro s e he h
    cases e with
    | start j =>
      have hj : i ≠ j := fun hh => he (by rw [hh])
      unfold step; simp only
      split
      · exact h
      · split <;> simpa [State.setSess, hj] using h
    | call j x =>
      unfold step; simp only
      split
      · exact h
      · rename_i σ hσ
        split_ifs
        · exact h
        · split
          · exact h
          · split
            · exact h
            · by_cases hj : i = j
              · subst hj
                rcases h with h | ⟨σ', h', h''⟩
                · rw [h] at hσ; cases hσ
                · rw [hσ] at h'; cases h'
                  refine Or.inr ⟨⟨fun k => if k = M.fin x then some (M.fin _) else σ.dct k, true⟩, by simp only [State.setSess, if_true]; rfl, ?_⟩
                  simp only; split_ifs
                  · simp
                  · exact h''
              · simpa [State.setSess, hj] using h
    | exitBegin j =>
      unfold step; simp only
      split
      · exact h
      · split_ifs
        · exact h
        · exact h
        · by_cases hj : i = j
          · subst hj; exact Or.inl (by simp [State.setSess])
          · simpa [State.setSess, hj] using h
    | exitEnd j =>
      unfold step; simp only
      split
      · exact h
      · split_ifs
        · by_cases hj : i = j
          · subst hj; exact Or.inl (by simp [State.setSess])
          · simpa [State.setSess, hj] using h
        · exact h
    | crash j =>
      unfold step; simp only
      by_cases hj : i = j
      · subst hj; exact Or.inl (by simp [State.setSess])
      · simpa [State.setSess, hj] using h
  have zero : ∀ (es : List (Event Obj)) (s : State), (∀ j, Event.start j ∈ es → j ≠ i) →
      (s.sess i = none ∨ ∃ σ, s.sess i = some σ ∧ σ.dct k ≠ none) → computations M i k (run M s es).2 = 0 := by
    intro es
    induction es with
    | nil => intro s _ _; rfl
    | cons e es ih =>
      intro s hns h
      have h1 : computations M i k [(e, (step M s e).2)] = 0 := by
        by_contra hh
        obtain ⟨⟨σ, e1, e2⟩, -, -⟩ := computations_step M s e i k hh
        rcases h with h | ⟨σ', h', h''⟩
        · rw [h] at e1; cases e1
        · rw [e1] at h'; cases h'; exact h'' e2
      have h2 := ih (step M s e).1 (fun j hj => hns j (List.mem_cons_of_mem _ hj))
        (know s e (fun hh => hns i (by rw [hh]; exact List.mem_cons_self) rfl) h)
      have : computations M i k (run M s (e :: es)).2 = computations M i k [(e, (step M s e).2)] + computations M i k (run M (step M s e).1 es).2 := by
        simp only [run, computations, List.countP_cons, List.countP_nil]; omega
      rw [this, h1, h2]
  induction es generalizing s with
  | nil => simp [run, computations]
  | cons e es ih =>
    have hns' : ∀ j, Event.start j ∈ es → j ≠ i := fun j hj => hns j (List.mem_cons_of_mem _ hj)
    have : computations M i k (run M s (e :: es)).2 = computations M i k [(e, (step M s e).2)] + computations M i k (run M (step M s e).1 es).2 := by
      simp only [run, computations, List.countP_cons, List.countP_nil]; omega
    rw [this]
    by_cases h0 : computations M i k [(e, (step M s e).2)] = 0
    · rw [h0, zero_add]; exact ih _ hns'
    · obtain ⟨-, h2, h3⟩ := computations_step M s e i k h0
      rw [h3, zero es _ hns' (Or.inr h2)]

/-- C40: for one process that is started and cleanly exited again and again, each key is computed at most once over the whole history, whatever
was on disk in the beginning. -/
theorem C40_once_across_clean_exits (M : Memo Obj Exc) (d : Disk) (es : List (Event Obj)) (k : String)
    (h0 : ∀ e ∈ es, proc e = 0) (hc : ∀ j, Event.crash j ∉ es) : computations M 0 k (run M (init d) es).2 ≤ 1 := by
  -- while the process is absent nothing is being written, and while it writes the table is kept
  let Inv : State → Prop := fun s => (s.sess 0 = none → s.writer = none) ∧
    ((∃ σ, s.sess 0 = some σ ∧ σ.changed = false) → ∃ σ m, s.sess 0 = some σ ∧ s.disk = .stored m ∧ m = σ.dct) ∧
    (∀ j, s.writer = some j → j = 0)
  have hinv : ∀ s (e : Event Obj), proc e = 0 → (∀ j, e ≠ .crash j) → Inv s → Inv (step M s e).1 := by
    rintro s e he hcr ⟨h1, h2, h3⟩
    cases e with
    | start j =>
      cases he
      unfold step; simp only
      split
      · exact ⟨h1, h2, h3⟩
      · rename_i hn
        split
        · exact ⟨by simp [State.setSess], by simp [State.setSess], h3⟩
        · rename_i m hm
          refine ⟨by simp [State.setSess], fun _ => ⟨⟨m, false⟩, m, by simp [State.setSess], by simpa [State.setSess] using hm, rfl⟩, h3⟩
        · exact ⟨h1, h2, h3⟩
    | call j x =>
      cases he
      unfold step; simp only
      split
      · exact ⟨h1, h2, h3⟩
      · split_ifs
        · exact ⟨h1, h2, h3⟩
        · split
          · exact ⟨h1, h2, h3⟩
          · split
            · exact ⟨h1, h2, h3⟩
            · exact ⟨by simp [State.setSess], by simp [State.setSess], h3⟩
    | exitBegin j =>
      cases he
      unfold step; simp only
      split
      · exact ⟨h1, h2, h3⟩
      · rename_i σ hσ
        split_ifs with hw hch
        · exact ⟨h1, h2, h3⟩
        · refine ⟨by simp [hσ], ?_, by simp⟩
          rintro ⟨σ', e1, e2⟩
          simp only at e1; rw [hσ] at e1; cases e1; rw [hch] at e2; cases e2
        · exact ⟨fun _ => not_not.1 hw, by simp [State.setSess], h3⟩
    | exitEnd j =>
      cases he
      unfold step; simp only
      split
      · exact ⟨h1, h2, h3⟩
      · split_ifs
        · exact ⟨by simp [State.setSess], by simp [State.setSess], by simp⟩
        · exact ⟨h1, h2, h3⟩
    | crash j => exact absurd rfl (hcr j)
  have hknown : ∀ s (e : Event Obj), proc e = 0 → (∀ j, e ≠ .crash j) → Inv s → Known s 0 k → Known (step M s e).1 0 k := by
    rintro s e he hcr ⟨h1, h2, h3⟩ hk
    cases e with
    | start j =>
      cases he
      unfold step; simp only
      split
      · exact hk
      · rename_i hn
        unfold Known at hk
        rw [hn] at hk
        obtain ⟨m, e1, e2⟩ := hk
        simp only [e1]
        simpa [Known, State.setSess] using e2
    | call j x =>
      cases he
      unfold step; simp only
      split
      · exact hk
      · rename_i σ hσ
        split_ifs
        · exact hk
        · split
          · exact hk
          · split
            · exact hk
            · unfold Known at hk ⊢
              rw [hσ] at hk
              simp only [State.setSess, if_true]
              split_ifs
              · simp
              · exact hk
    | exitBegin j =>
      cases he
      unfold step; simp only
      split
      · exact hk
      · rename_i σ hσ
        split_ifs with hw hch
        · exact hk
        · unfold Known at hk ⊢
          simp only [hσ] at hk ⊢; exact hk
        · unfold Known at hk ⊢
          simp only [hσ] at hk
          obtain ⟨σ', m, e1, e2, e3⟩ := h2 ⟨σ, hσ, by simpa using hch⟩
          rw [hσ] at e1; cases e1
          simp only [State.setSess, if_true]
          exact ⟨m, e2, by rw [e3]; exact hk⟩
    | exitEnd j =>
      cases he
      unfold step; simp only
      split
      · exact hk
      · rename_i σ hσ
        split_ifs with hw
        · unfold Known at hk ⊢
          simp only [hσ] at hk
          simp only [State.setSess, if_true]
          exact ⟨_, rfl, hk⟩
        · exact hk
    | crash j => exact absurd rfl (hcr j)
  have hcons : ∀ s (e : Event Obj) es, computations M 0 k (run M s (e :: es)).2
      = computations M 0 k [(e, (step M s e).2)] + computations M 0 k (run M (step M s e).1 es).2 := by
    intro s e es
    simp only [run, computations, List.countP_cons, List.countP_nil]; omega
  have zero : ∀ (es : List (Event Obj)) (s : State), (∀ e ∈ es, proc e = 0) → (∀ j, Event.crash j ∉ es) → Inv s → Known s 0 k →
      computations M 0 k (run M s es).2 = 0 := by
    intro es
    induction es with
    | nil => intro s _ _ _ _; rfl
    | cons e es ih =>
      intro s p1 p2 p3 p4
      have q1 := p1 e List.mem_cons_self
      have q2 : ∀ j, e ≠ .crash j := fun j hj => p2 j (by rw [hj]; exact List.mem_cons_self)
      rw [hcons, ih _ (fun e he => p1 e (List.mem_cons_of_mem _ he)) (fun j hj => p2 j (List.mem_cons_of_mem _ hj)) (hinv s e q1 q2 p3)
        (hknown s e q1 q2 p3 p4), add_zero]
      by_contra hh
      obtain ⟨⟨σ, e1, e2⟩, -, -⟩ := computations_step M s e 0 k hh
      unfold Known at p4
      rw [e1] at p4
      exact p4 e2
  have main : ∀ (es : List (Event Obj)) (s : State), (∀ e ∈ es, proc e = 0) → (∀ j, Event.crash j ∉ es) → Inv s →
      computations M 0 k (run M s es).2 ≤ 1 := by
    intro es
    induction es with
    | nil => intro s _ _ _; simp [run, computations]
    | cons e es ih =>
      intro s p1 p2 p3
      have q1 := p1 e List.mem_cons_self
      have q2 : ∀ j, e ≠ .crash j := fun j hj => p2 j (by rw [hj]; exact List.mem_cons_self)
      have r1 : ∀ e ∈ es, proc e = 0 := fun e he => p1 e (List.mem_cons_of_mem _ he)
      have r2 : ∀ j, Event.crash j ∉ es := fun j hj => p2 j (List.mem_cons_of_mem _ hj)
      have r3 := hinv s e q1 q2 p3
      rw [hcons]
      by_cases h : computations M 0 k [(e, (step M s e).2)] = 0
      · rw [h, zero_add]; exact ih _ r1 r2 r3
      · obtain ⟨-, ⟨σ, e1, e2⟩, e3⟩ := computations_step M s e 0 k h
        rw [e3, zero es _ r1 r2 r3 (by unfold Known; rw [e1]; exact e2)]
  exact main es _ h0 hc ⟨fun _ => rfl, by simp [init], by simp [init]⟩

/-- C40: only a commit changes the file: starts, calls and crashes leave it alone. -/
theorem disk_unchanged (M : Memo Obj Exc) (s : State) (es : List (Event Obj)) (he : ∀ j, Event.exitBegin j ∉ es ∧ Event.exitEnd j ∉ es) :
    (run M s es).1.disk = s.disk := by
  induction es generalizing s with
  | nil => rfl
  | cons e es ih =>
    simp only [run]
    rw [ih _ fun j => ⟨fun h => (he j).1 (List.mem_cons_of_mem _ h), fun h => (he j).2 (List.mem_cons_of_mem _ h)⟩]
    cases e with
    | start j => unfold step; simp only; split; · rfl
                 split <;> rfl
    | call j x => unfold step; simp only; split; · rfl
                  split_ifs
                  · rfl
                  · split; · rfl
                    split <;> rfl
    | exitBegin j => exact absurd List.mem_cons_self (he j).1
    | exitEnd j => exact absurd List.mem_cons_self (he j).2
    | crash j => rfl

/-- C40: a crash loses at most what was added since the last clean exit.  After a clean exit of process `i` that had something to save, and after
any starts, calls and crashes (of any processes, at any moment), a process `j` that starts afresh has exactly the table of process `i`. -/
theorem C40_crash_keeps_last_commit (M : Memo Obj Exc) (s : State) (i : ℕ) (σ : Session) (hi : s.sess i = some σ) (hw : s.writer = none)
    (hch : σ.changed = true) (es : List (Event Obj)) (he : ∀ j, Event.exitBegin j ∉ es ∧ Event.exitEnd j ∉ es) (j : ℕ)
    (hj : (run M s ([.exitBegin i, .exitEnd i] ++ es)).1.sess j = none) :
    (run M s ([.exitBegin i, .exitEnd i] ++ es ++ [.start j])).1.sess j = some ⟨σ.dct, false⟩ := by
  rw [run_append]
  have hd : (run M s ([.exitBegin i, .exitEnd i] ++ es)).1.disk = .stored σ.dct := by
    rw [run_append, disk_unchanged M _ es he]
    simp [run, step, hi, hw, hch, State.setSess]
  generalize (run M s ([.exitBegin i, .exitEnd i] ++ es)).1 = t at hj hd
  simp [run, step, hj, hd, State.setSess]

/-- In every history a process that is committing is still running. -/
theorem writer_runs (M : Memo Obj Exc) (d : Disk) (es : List (Event Obj)) (i : ℕ) (hw : (run M (init d) es).1.writer = some i) :
    (run M (init d) es).1.sess i ≠ none := by
  have key : ∀ (es : List (Event Obj)) (s : State), (∀ i, s.writer = some i → s.sess i ≠ none) →
      ∀ i, (run M s es).1.writer = some i → (run M s es).1.sess i ≠ none := by
    intro es
    induction es with
    | nil => intro s h; exact h
    | cons e es ih =>
      intro s h
      simp only [run]
      refine ih _ ?_
      intro i hi
      have set : ∀ (j : ℕ) (x : Option Session), (j = i → x ≠ none) → s.writer = some i → (s.setSess j x).sess i ≠ none := by
        intro j x hx hs
        unfold State.setSess
        by_cases hj : i = j
        · subst hj; simpa using hx rfl
        · simpa [hj] using h i hs
      cases e with
      | start j =>
        unfold step at hi ⊢; simp only at hi ⊢
        split at hi
        · exact h i hi
        · split at hi
          · exact set j _ (by simp) hi
          · exact set j _ (by simp) hi
          · exact h i hi
      | call j x =>
        unfold step at hi ⊢; simp only at hi ⊢
        split at hi
        · exact h i hi
        · split_ifs at hi ⊢ with hw
          · exact h i hi
          · split at hi
            · exact h i hi
            · split at hi
              · exact h i hi
              · exact set j _ (by simp) hi
      | exitBegin j =>
        unfold step at hi ⊢; simp only at hi ⊢
        split at hi
        · exact h i hi
        · rename_i σ hσ
          split_ifs at hi ⊢ with h1 h2
          · exact h i hi
          · simp only [Option.some.injEq] at hi; subst hi; simp [hσ]
          · have : s.writer = some i := hi
            rw [not_not.1 h1] at this; cases this
      | exitEnd j =>
        unfold step at hi ⊢; simp only at hi ⊢
        split at hi
        · exact h i hi
        · split_ifs at hi ⊢ with h1
          exact h i hi
      | crash j =>
        unfold step at hi ⊢; simp only at hi ⊢
        split_ifs at hi with h1
        exact set j none (fun hj => absurd (hj ▸ hi) h1) hi
  exact key es _ (by simp [init]) i hw

/-- C40: after any history whatsoever, crashes in the middle of a commit included, a process that runs alone and has something to save commits it
by a clean exit, and the next process starts with exactly its table. -/
theorem C40_commit_after_any_history (M : Memo Obj Exc) (d : Disk) (es : List (Event Obj)) (i : ℕ) (σ : Session)
    (hi : (run M (init d) es).1.sess i = some σ) (hch : σ.changed = true) (alone : ∀ j, j ≠ i → (run M (init d) es).1.sess j = none) (j : ℕ) :
    (run M (init d) (es ++ [.exitBegin i, .exitEnd i, .start j])).1.sess j = some ⟨σ.dct, false⟩ := by
  rw [run_append]
  have hw := writer_runs M d es
  generalize (run M (init d) es).1 = s at *
  have hn : s.setSess i none = ⟨s.disk, fun _ => none, s.writer⟩ := by
    unfold State.setSess
    congr 1
    funext k
    by_cases hk : k = i
    · simp [hk]
    · simp [hk, alone k hk]
  have hwi : s.writer = none ∨ s.writer = some i := by
    cases hs : s.writer with
    | none => exact Or.inl rfl
    | some k =>
      by_cases hk : k = i
      · exact Or.inr (by rw [hk])
      · exact absurd (alone k hk) (hw k hs)
  rcases hwi with h | h
  · simp [run, step, hi, h, hch, State.setSess]
    by_cases hj : j = i
    · simp [hj]
    · simp [hj, alone j hj]
  · simp [run, step, hi, h, hch, State.setSess]
    by_cases hj : j = i
    · simp [hj]
    · simp [hj, alone j hj]

/-- A concrete case: process 0 dies in the middle of its commit while process 1 is running. -/
example (M : Memo Obj Exc) (x : Obj) : let s := (run M (init .absent) [.start 0, .call 0 x, .start 1, .exitBegin 0, .crash 0]).1
    s.sess 1 = some ⟨fun _ => none, true⟩ ∧ (∀ j, j ≠ 1 → s.sess j = none) ∧ s.disk = .torn := by
  cases hx : M.process x <;> simp [run, step, init, State.setSess, hx] <;> intro j hj <;> simp +contextual [hj]

/-- C40, a limit of the code: two processes that run at the same time do not merge their tables, the last commit wins.  A key that one of them has
computed and committed is computed again by a later process, although nothing crashed. -/
theorem C40_concurrent_lost_update (M : Memo Obj Exc) (x y r q : Obj) (hx : M.process x = .ok r) (hy : M.process y = .ok q) (hk : M.fin x ≠ M.fin y) :
    (run M (init .absent) [.start 0, .start 1, .call 0 x, .call 1 y, .exitBegin 0, .exitEnd 0, .exitBegin 1, .exitEnd 1, .start 2, .call 2 x, .call 2 y]).2.map (·.2)
      = [.silent, .silent, .returned (.ok r) true, .returned (.ok q) true, .silent, .silent, .silent, .silent, .silent, .returned (.ok r) true, .returned (.ok (M.fout (M.fin q))) false] := by
  simp [run, step, init, State.setSess, hx, hy, hk, Ne.symm hk]

/-- C40: as long as no process dies in the middle of its commit, every process that starts while nobody is writing starts. -/
theorem C40_start_succeeds (M : Memo Obj Exc) (d : Disk) (hd : d ≠ .torn) (es : List (Event Obj))
    (hc : ∀ es₁ es₂ i, es = es₁ ++ .crash i :: es₂ → (run M (init d) es₁).1.writer ≠ some i) (j : ℕ)
    (hw : (run M (init d) es).1.writer = none) (hj : (run M (init d) es).1.sess j = none) :
    (∀ e, (step M (run M (init d) es).1 (.start j)).2 ≠ .startError e) ∧ (step M (run M (init d) es).1 (.start j)).1.sess j ≠ none := by
  have hinv : ∀ es : List (Event Obj), (∀ es₁ es₂ i, es = es₁ ++ .crash i :: es₂ → (run M (init d) es₁).1.writer ≠ some i) →
      ((run M (init d) es).1.disk = .torn → (run M (init d) es).1.writer ≠ none) := by
    intro es
    induction es using List.reverseRecOn with
    | nil => intro _ h; exact absurd h hd
    | append_singleton es e ih =>
      intro hc
      have ih' := ih fun es₁ es₂ i h => hc es₁ (es₂ ++ [e]) i (by rw [h]; simp)
      rw [run_append]
      generalize hs : (run M (init d) es).1 = s at ih'
      have hcr : ∀ i, e = .crash i → s.writer ≠ some i := by
        intro i hi; rw [← hs]; exact hc es [] i (by rw [hi])
      simp only [run]
      cases e with
      | start j => unfold step; simp only; split; · exact ih'
                   split <;> exact ih'
      | call j x => unfold step; simp only; split; · exact ih'
                    split_ifs
                    · exact ih'
                    · split; · exact ih'
                      split <;> exact ih'
      | exitBegin j => unfold step; simp only; split; · exact ih'
                       split_ifs
                       · exact ih'
                       · simp
                       · exact ih'
      | exitEnd j => unfold step; simp only; split; · exact ih'
                     split_ifs
                     · simp
                     · exact ih'
      | crash j =>
        unfold step
        simp only [State.setSess, if_neg (hcr j rfl)]
        exact ih'
  have hd' : (run M (init d) es).1.disk ≠ .torn := fun h => hinv es hc h hw
  generalize (run M (init d) es).1 = s at hd' hj
  unfold step
  simp only [hj]
  cases h : s.disk with
  | absent => exact ⟨by simp, by simp [State.setSess]⟩
  | stored m => exact ⟨by simp, by simp [State.setSess]⟩
  | torn => exact absurd h hd'

/-- C40, the code violates the crash-safety part: when a process with something to save dies between the truncation of the file and the end of the
write, every later start fails with an uncaught JSON decoding error (as long as no surviving process completes a commit). -/
theorem C40_crash_in_commit_blocks_start (M : Memo Obj Exc) (s : State) (i : ℕ) (σ : Session) (hi : s.sess i = some σ) (hw : s.writer = none)
    (hch : σ.changed = true) (es : List (Event Obj)) (he : ∀ j, Event.exitBegin j ∉ es ∧ Event.exitEnd j ∉ es) (j : ℕ)
    (hj : (run M s ([.exitBegin i, .crash i] ++ es)).1.sess j = none) :
    (step M (run M s ([.exitBegin i, .crash i] ++ es)).1 (.start j)).2 = .startError .jsonDecode := by
  have hd : (run M s ([.exitBegin i, .crash i] ++ es)).1.disk = .torn := by
    rw [run_append, disk_unchanged M _ es he]
    simp [run, step, hi, hw, hch, State.setSess]
  generalize (run M s ([.exitBegin i, .crash i] ++ es)).1 = t at hj hd
  simp [step, hj, hd]

/-- Non-vacuity: a faithful memoised function (it fails on 0), and a history with two processes, a restart and a crash. -/
example : ∃ M : Memo ℕ String, Faithful M ∧ ValidDisk M .absent ∧
    (run M (init .absent) [.start 0, .call 0 3, .call 0 3, .start 1, .call 1 3, .crash 1, .exitBegin 0, .exitEnd 0, .start 2, .call 2 3]).2.map (·.2)
      = [.silent, .returned (.ok 3) true, .returned (.ok 3) false, .silent, .returned (.ok 3) true, .silent, .silent, .silent, .silent, .returned (.ok 3) false] := by
  refine ⟨⟨fun n => String.ofList (List.replicate n 'a'), fun s => s.length, fun n => if n = 0 then .error "zero" else .ok n⟩, ⟨?_, ?_⟩, trivial, ?_⟩
  · intro x r h
    simp
  · intro x y h
    have : x = y := by
      have := congrArg String.length h
      simpa using this
    rw [this]
  · simp [run, step, init, State.setSess]
    rfl

end memo

/-! ## C41 -/

mutual
/-- What comes back from the store: arrays and tuples have become lists. -/
def stored : Py → Py
  | .tuple l => .list (storedList l)
  | .list l => .list (storedList l)
  | .dict l => .dict (storedDict l)
  | .arr l => .list (l.map .num)
  | .mat l => .list (l.map fun r => .list (r.map .num))
  | v => v
def storedList : List Py → List Py
  | [] => []
  | v :: l => stored v :: storedList l
def storedDict : List (String × Py) → List (String × Py)
  | [] => []
  | (k, v) :: l => (k, stored v) :: storedDict l
end

mutual
/-- The value contains no object that JSON cannot represent. -/
def serialisable : Py → Prop
  | .other => False
  | .tuple l => serialisableList l
  | .list l => serialisableList l
  | .dict l => serialisableDict l
  | _ => True
def serialisableList : List Py → Prop
  | [] => True
  | v :: l => serialisable v ∧ serialisableList l
def serialisableDict : List (String × Py) → Prop
  | [] => True
  | (_, v) :: l => serialisable v ∧ serialisableDict l
end

theorem decodeList_map (l : List Json) : decodeList l = l.map decode := by
  induction l with
  | nil => rfl
  | cons a l ih => simp [decodeList, ih]

mutual
theorem encode_spec : ∀ v : Py, (serialisable v → ∃ j, encode v = some j ∧ decode j = stored v) ∧ (¬ serialisable v → encode v = none)
  | .none => by simp [serialisable, encode, decode, stored]
  | .bool b => by simp [serialisable, encode, decode, stored]
  | .num q => by simp [serialisable, encode, decode, stored]
  | .str s => by simp [serialisable, encode, decode, stored]
  | .list l => by
    have := encodeList_spec l
    constructor
    · intro h
      obtain ⟨js, e1, e2⟩ := this.1 (by simpa [serialisable] using h)
      exact ⟨.list js, by simp [encode, e1], by simp [decode, stored, e2]⟩
    · intro h
      simp [encode, this.2 (by simpa [serialisable] using h)]
  | .tuple l => by
    have := encodeList_spec l
    constructor
    · intro h
      obtain ⟨js, e1, e2⟩ := this.1 (by simpa [serialisable] using h)
      exact ⟨.list js, by simp [encode, e1], by simp [decode, stored, e2]⟩
    · intro h
      simp [encode, this.2 (by simpa [serialisable] using h)]
  | .dict l => by
    have := encodeDict_spec l
    constructor
    · intro h
      obtain ⟨js, e1, e2⟩ := this.1 (by simpa [serialisable] using h)
      exact ⟨.obj js, by simp [encode, e1], by simp [decode, stored, e2]⟩
    · intro h
      simp [encode, this.2 (by simpa [serialisable] using h)]
  | .arr l => by simp [serialisable, encode, decode, stored, decodeList_map, Function.comp_def]
  | .mat l => by simp [serialisable, encode, decode, stored, decodeList_map, Function.comp_def]
  | .other => by simp [serialisable, encode]
theorem encodeList_spec : ∀ l : List Py, (serialisableList l → ∃ js, encodeList l = some js ∧ decodeList js = storedList l) ∧
    (¬ serialisableList l → encodeList l = none)
  | [] => by simp [serialisableList, encodeList, decodeList, storedList]
  | v :: l => by
    have h1 := encode_spec v
    have h2 := encodeList_spec l
    constructor
    · intro h
      simp only [serialisableList] at h
      obtain ⟨j, e1, e2⟩ := h1.1 h.1
      obtain ⟨js, e3, e4⟩ := h2.1 h.2
      exact ⟨j :: js, by simp [encodeList, e1, e3], by simp [decodeList, storedList, e2, e4]⟩
    · intro h
      simp only [serialisableList, not_and_or] at h
      rcases h with h | h
      · simp [encodeList, h1.2 h]
      · rw [encodeList, h2.2 h]; cases encode v <;> rfl
theorem encodeDict_spec : ∀ l : List (String × Py), (serialisableDict l → ∃ js, encodeDict l = some js ∧ decodeDict js = storedDict l) ∧
    (¬ serialisableDict l → encodeDict l = none)
  | [] => by simp [serialisableDict, encodeDict, decodeDict, storedDict]
  | (k, v) :: l => by
    have h1 := encode_spec v
    have h2 := encodeDict_spec l
    constructor
    · intro h
      simp only [serialisableDict] at h
      obtain ⟨j, e1, e2⟩ := h1.1 h.1
      obtain ⟨js, e3, e4⟩ := h2.1 h.2
      exact ⟨(k, j) :: js, by simp [encodeDict, e1, e3], by simp [decodeDict, storedDict, e2, e4]⟩
    · intro h
      simp only [serialisableDict, not_and_or] at h
      rcases h with h | h
      · simp [encodeDict, h1.2 h]
      · rw [encodeDict, h2.2 h]; cases encode v <;> rfl
end

/-- No proper part of the path is a file. -/
def NoFileAbove (fs : FS) (p : Path) : Prop := ∀ q, q <+: p → q ≠ p → ∀ c, fs q ≠ some (.file c)

theorem prefix_dir {fs : FS} (h : fs.WF) {p q : Path} (hq : q <+: p) (hne : q ≠ p) (hp : fs p ≠ none) : fs q = some .dir := by
  obtain ⟨t, rfl⟩ := hq
  induction t using List.reverseRecOn with
  | nil => simp at hne
  | append_singleton t a ih =>
    rw [← List.append_assoc] at hp
    have h1 := h.2 _ _ hp
    by_cases ht : t = []
    · subst ht; simpa using h1
    · exact ih (by simpa using ht) (by rw [h1]; simp)

theorem dropLast_prefix_ne {p : Path} (hp : p ≠ []) : p.dropLast <+: p ∧ p.dropLast ≠ p := by
  refine ⟨List.dropLast_prefix p, fun h => ?_⟩
  have := congrArg List.length h
  rw [List.length_dropLast] at this
  have := List.length_pos_iff.2 hp
  omega

theorem prefix_dropLast {p q : Path} (hq : q <+: p) (hne : q ≠ p) : q <+: p.dropLast := by
  obtain ⟨t, rfl⟩ := hq
  rcases List.eq_nil_or_concat t with rfl | ⟨t, a, rfl⟩
  · simp at hne
  · rw [List.concat_eq_append, ← List.append_assoc, List.dropLast_concat]; exact List.prefix_append _ _

/-- The tree after the parent directories of `p` have been made, as `setitem` does when they are missing. -/
noncomputable def withParents (fs : FS) (p : Path) : FS := by
  classical exact fun q => if q <+: p.dropLast ∧ fs q = none then some .dir else fs q

theorem setitem_eq (fs : FS) (hfs : fs.WF) (p : Path) (hp : p ≠ []) (v : Py) (hf : NoFileAbove fs p) :
    setitem fs p v = write (withParents fs p) p v := by
  classical
  unfold setitem
  have h1 := dropLast_prefix_ne hp
  split
  · rename_i hd
    have : withParents fs p = fs := by
      funext q
      unfold withParents
      rw [if_neg]
      rintro ⟨hq, hn⟩
      by_cases hqe : q = p.dropLast
      · rw [hqe, hd] at hn; cases hn
      · rw [prefix_dir hfs hq hqe (by rw [hd]; simp)] at hn; cases hn
    rw [this]
  · rename_i c hd
    exact absurd hd (hf _ h1.1 h1.2 c)
  · rename_i hd
    have : makedirs fs p.dropLast = .ok (withParents fs p) := by
      unfold makedirs
      rw [if_neg]
      · rfl
      · rintro ⟨q, hq, c, hc⟩
        refine hf q (hq.trans h1.1) ?_ c hc
        intro hqp
        have e1 := hq.length_le
        rw [hqp, List.length_dropLast] at e1
        have := List.length_pos_iff.2 hp
        omega
    rw [this]

theorem withParents_self (fs : FS) (p : Path) (hp : p ≠ []) : withParents fs p p = fs p := by
  unfold withParents
  rw [if_neg]
  rintro ⟨hq, -⟩
  have e1 := hq.length_le
  rw [List.length_dropLast] at e1
  have := List.length_pos_iff.2 hp
  omega

/-- C41: storing a serialisable value under a name that is not a directory and does not lie below a file succeeds, and reading it gives the
value back, arrays (and tuples) as lists; every other file keeps its value. -/
theorem C41_set_get (fs : FS) (hfs : fs.WF) (p : Path) (hp : p ≠ []) (v : Py) (hv : serialisable v) (hdir : fs p ≠ some .dir)
    (hf : NoFileAbove fs p) :
    (setitem fs p v).2 = .ok () ∧ getitem (setitem fs p v).1 p = .ok (stored v) ∧
    ∀ q c, q ≠ p → fs q = some (.file c) → getitem (setitem fs p v).1 q = getitem fs q := by
  obtain ⟨j, e1, e2⟩ := (encode_spec v).1 hv
  have hw : setitem fs p v = ((withParents fs p).set p (some (.file (.doc j))), .ok ()) := by
    rw [setitem_eq fs hfs p hp v hf]
    unfold write
    rw [withParents_self fs p hp]
    split
    · rename_i h; exact absurd h hdir
    · rw [e1]
  rw [hw]
  refine ⟨rfl, by simp [getitem, FS.set, e2], fun q c hq hc => ?_⟩
  have : (withParents fs p).set p (some (.file (.doc j))) q = fs q := by
    unfold FS.set withParents; simp [hq, hc]
  unfold getitem
  simp only [this, hc]
  cases c <;> rfl

/-- C41: storing keeps the store a tree, and creates nothing but the file and its missing parent directories. -/
theorem C41_set_wf (fs : FS) (hfs : fs.WF) (p : Path) (hp : p ≠ []) (v : Py) (hdir : fs p ≠ some .dir) (hf : NoFileAbove fs p) :
    FS.WF (setitem fs p v).1 ∧ ∀ q, ¬ q <+: p → (setitem fs p v).1 q = fs q := by
  have hkey : ∀ n : Content, FS.WF ((withParents fs p).set p (some (.file n))) ∧ ∀ q, ¬ q <+: p → ((withParents fs p).set p (some (.file n))) q = fs q := by
    intro n
    refine ⟨⟨?_, ?_⟩, ?_⟩
    · unfold FS.set; rw [if_neg (Ne.symm hp)]; unfold withParents; simp [hfs.1]
    · intro q s hq
      by_cases hqp : q ++ [s] = p
      · have hd : q = p.dropLast := by rw [← hqp, List.dropLast_concat]
        have hne : q ≠ p := fun h => by have := congrArg List.length h; rw [← hqp] at this; simp at this
        unfold FS.set withParents
        simp only [if_neg hne]
        split_ifs with h
        · rfl
        · simp only [not_and] at h
          have hn := h (by rw [hd])
          cases hqq : fs q with
          | none => exact absurd hqq hn
          | some nd =>
            cases nd with
            | dir => rfl
            | file c => exact absurd hqq (hf q (by rw [← hqp]; exact List.prefix_append _ _) hne c)
      · have hqs : withParents fs p (q ++ [s]) ≠ none := by
          unfold FS.set at hq; rwa [if_neg hqp] at hq
        by_cases hpre : q ++ [s] <+: p.dropLast
        · have h1 : q <+: p.dropLast := (List.prefix_append q [s]).trans hpre
          have hne : q ≠ p := by
            intro h; have := hpre.length_le; rw [h, List.length_append, List.length_dropLast] at this; simp at this; omega
          unfold FS.set withParents
          simp only [if_neg hne]
          split_ifs with h
          · rfl
          · simp only [not_and] at h
            have hn := h h1
            cases hqq : fs q with
            | none => exact absurd hqq hn
            | some nd =>
              cases nd with
              | dir => rfl
              | file c => exact absurd hqq (hf q (h1.trans (List.dropLast_prefix p)) hne c)
        · have h2 : fs (q ++ [s]) ≠ none := by
            unfold withParents at hqs; simp only [hpre, false_and, if_false] at hqs; exact hqs
          have h3 := hfs.2 q s h2
          have hne : q ≠ p := fun h => hdir (by rw [← h]; exact h3)
          unfold FS.set withParents
          simp [hne, h3]
    · intro q hq
      have hne : q ≠ p := fun h => hq (by rw [h])
      unfold FS.set withParents
      simp only [if_neg hne]
      rw [if_neg]
      rintro ⟨h, -⟩
      exact hq (h.trans (List.dropLast_prefix p))
  rw [setitem_eq fs hfs p hp v hf]
  unfold write
  rw [withParents_self fs p hp]
  split
  · rename_i h; exact absurd h hdir
  · split
    · exact hkey _
    · exact hkey _

/-- C41, a weakness of the code: storing a value that is not serialisable raises `TypeError`, but the previous content of the file is lost, and
reading the name then fails. -/
theorem C41_failed_set_destroys (fs : FS) (hfs : fs.WF) (p : Path) (hp : p ≠ []) (v : Py) (hv : ¬ serialisable v) (hdir : fs p ≠ some .dir)
    (hf : NoFileAbove fs p) :
    (setitem fs p v).2 = .error .typeError ∧ getitem (setitem fs p v).1 p = .error .jsonDecode := by
  have hw : setitem fs p v = ((withParents fs p).set p (some (.file .torn)), .error .typeError) := by
    rw [setitem_eq fs hfs p hp v hf]
    unfold write
    rw [withParents_self fs p hp]
    split
    · rename_i h; exact absurd h hdir
    · rw [(encode_spec v).2 hv]
  rw [hw]
  exact ⟨rfl, by simp [getitem, FS.set]⟩

/-- C41: reading an absent name raises `FileNotFoundError`. -/
theorem C41_get_absent (fs : FS) (p : Path) (h : fs p = none) (hf : NoFileAbove fs p) : getitem fs p = .error .fileNotFound := by
  unfold getitem
  rw [h]
  simp only
  rw [if_neg]
  rintro ⟨q, h1, h2, c, h3⟩
  exact hf q h1 h2 c h3

/-- C41: deleting a file makes its name absent and touches nothing else. -/
theorem C41_delete (fs : FS) (hfs : fs.WF) (p : Path) (c : Content) (h : fs p = some (.file c)) :
    (delitem fs p).2 = .ok () ∧ getitem (delitem fs p).1 p = .error .fileNotFound ∧ FS.WF (delitem fs p).1 ∧
    ∀ q, q ≠ p → (delitem fs p).1 q = fs q := by
  have hd : delitem fs p = (fs.set p none, .ok ()) := by unfold delitem; rw [h]
  have hset : ∀ q, q ≠ p → fs.set p none q = fs q := fun q hq => by unfold FS.set; rw [if_neg hq]
  rw [hd]
  refine ⟨rfl, ?_, ⟨?_, ?_⟩, hset⟩
  · apply C41_get_absent
    · simp [FS.set]
    · intro q h1 h2 c' h3
      simp only [hset q h2] at h3
      rw [prefix_dir hfs h1 h2 (by rw [h]; simp)] at h3
      cases h3
  · have hne : ([] : Path) ≠ p := fun hh => by rw [← hh, hfs.1] at h; cases h
    simp only [hset _ hne]; exact hfs.1
  · intro q s hq
    have h1 : fs (q ++ [s]) ≠ none := by
      intro hh; apply hq
      show (if q ++ [s] = p then none else fs (q ++ [s])) = none
      split_ifs
      · rfl
      · exact hh
    have h2 := hfs.2 q s h1
    have hne : q ≠ p := fun hh => by rw [hh, h] at h2; cases h2
    simp only [hset _ hne]; exact h2

/-- C41: a directory can be deleted exactly when it is empty; a failed deletion changes nothing; deleting an absent name raises
`FileNotFoundError`. -/
theorem C41_delete_directory (fs : FS) (p : Path) :
    (fs p = some .dir → ((delitem fs p).2 = .ok () ↔ ∀ s, fs (p ++ [s]) = none)) ∧
    ((delitem fs p).2 ≠ .ok () → (delitem fs p).1 = fs) ∧
    (fs p = none → NoFileAbove fs p → (delitem fs p).2 = .error .fileNotFound) := by
  refine ⟨fun h => ?_, fun h => ?_, fun h hf => ?_⟩
  · unfold delitem; rw [h]; simp only
    by_cases he : ∃ s, fs (p ++ [s]) ≠ none
    · rw [if_pos he]
      obtain ⟨s, hs⟩ := he
      constructor
      · intro hh; cases hh
      · intro hh; exact absurd (hh s) hs
    · rw [if_neg he]
      simp only [not_exists, not_not] at he
      simp [he]
  · unfold delitem at h ⊢
    split at h
    · split_ifs at h ⊢
      · rfl
      · exact absurd rfl h
    · exact absurd rfl h
    · rfl
  · unfold delitem; rw [h]; simp only
    rw [if_neg]
    rintro ⟨q, h1, h2, c, h3⟩
    exact hf q h1 h2 c h3

/-- Non-vacuity: the empty store and the name `test/array.json`, as in the doctest of `/repo/dec/data.py:44-66`. -/
example : FS.WF (fun p => if p = [] then some .dir else none) ∧ NoFileAbove (fun p => if p = [] then some .dir else none) ["test", "array.json"] ∧
    serialisable (.dict [("a", .arr [1, 2, 3]), ("b", .tuple [.num 2, .str "x"])]) := by
  refine ⟨⟨by simp, by intro p s; simp⟩, ?_, by simp [serialisable, serialisableDict, serialisableList]⟩
  intro q _ _ c
  simp only
  split_ifs <;> simp

end Dec.Props
