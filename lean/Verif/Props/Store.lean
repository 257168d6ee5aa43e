import Verif.Props.Data

/-!
# C41 for whole histories: the store is a map

The theorems of `Props/Data` describe one operation. Here a client performs any finite sequence of operations on a set of names none of which
lies below another one, and the outcomes it sees are those of a plain map from names to values.
-/

namespace Dec.Props

open Dec.Data

/-- What a client does: `d[p] = v`, `d[p]`, `del d[p]`. -/
inductive StoreOp
  | set (p : Path) (v : Py)
  | get (p : Path)
  | del (p : Path)

/-- The name an operation is about. -/
def StoreOp.name : StoreOp → Path
  | .set p _ => p
  | .get p => p
  | .del p => p

/-- The outcome of an operation: an exception, or the value (nothing, for `set` and `del`). -/
abbrev StoreOut := Except Err (Option Py)

/-- Performing one operation on the directory, with `getitem`, `setitem`, `delitem` of `/repo/dec/data.py:14-41`. -/
noncomputable def StoreOp.perform (fs : FS) : StoreOp → FS × StoreOut
  | .set p v => ((setitem fs p v).1, (setitem fs p v).2.map fun _ => none)
  | .get p => (fs, (getitem fs p).map some)
  | .del p => ((delitem fs p).1, (delitem fs p).2.map fun _ => none)

/-- Performing a history: the outcomes, in order. -/
noncomputable def performAll (fs : FS) : List StoreOp → List StoreOut
  | [] => []
  | o :: l => (o.perform fs).2 :: performAll (o.perform fs).1 l

/-- The specification: a name is bound to a value, or to rubbish that a failed assignment left behind, or unbound. -/
inductive Bound
  | value (v : Py)
  | rubbish

open Classical in
/-- One operation on a map. -/
noncomputable def StoreOp.spec (m : Path → Option Bound) : StoreOp → (Path → Option Bound) × StoreOut
  | .set p v =>
    if serialisable v then (Function.update m p (some (.value (stored v))), .ok none)
    else (Function.update m p (some .rubbish), .error .typeError)
  | .get p => (m, match m p with
    | none => .error .fileNotFound
    | some .rubbish => .error .jsonDecode
    | some (.value v) => .ok (some v))
  | .del p => (Function.update m p none, match m p with
    | none => .error .fileNotFound
    | some _ => .ok none)

/-- A history on a map. -/
noncomputable def specAll (m : Path → Option Bound) : List StoreOp → List StoreOut
  | [] => []
  | o :: l => (o.spec m).2 :: specAll (o.spec m).1 l

/-- The directory represents the map on the names of `S`. -/
structure Represents (S : Set Path) (fs : FS) (m : Path → Option Bound) : Prop where
  wf : fs.WF
  noFile : ∀ p ∈ S, NoFileAbove fs p
  absent : ∀ p ∈ S, m p = none → fs p = none
  rubbish : ∀ p ∈ S, m p = some .rubbish → fs p = some (.file .torn)
  value : ∀ p ∈ S, ∀ v, m p = some (.value v) → ∃ j, fs p = some (.file (.doc j)) ∧ decode j = v

theorem Represents.notDir {S : Set Path} {fs : FS} {m : Path → Option Bound} (h : Represents S fs m) {p : Path} (hp : p ∈ S) :
    fs p ≠ some .dir := by
  rcases hm : m p with _ | v | _
  · rw [h.absent p hp hm]; simp
  · obtain ⟨j, e, _⟩ := h.value p hp v hm
    rw [e]; simp
  · rw [h.rubbish p hp hm]; simp

theorem setitem_at (fs : FS) (hfs : fs.WF) (p : Path) (hp : p ≠ []) (v : Py) (hdir : fs p ≠ some .dir) (hf : NoFileAbove fs p) :
    (serialisable v → (setitem fs p v).2 = .ok () ∧ ∃ j, (setitem fs p v).1 p = some (.file (.doc j)) ∧ decode j = stored v) ∧
    (¬ serialisable v → (setitem fs p v).2 = .error .typeError ∧ (setitem fs p v).1 p = some (.file .torn)) := by
  rw [setitem_eq fs hfs p hp v hf]
  unfold write
  rw [withParents_self fs p hp]
  split
  · rename_i h; exact absurd h hdir
  · refine ⟨fun hv => ?_, fun hv => ?_⟩
    · obtain ⟨j, e1, e2⟩ := (encode_spec v).1 hv
      rw [e1]
      exact ⟨rfl, j, by simp [FS.set], e2⟩
    · rw [(encode_spec v).2 hv]
      exact ⟨rfl, by simp [FS.set]⟩

theorem step_spec (S : Set Path) (hS : ∀ p ∈ S, p ≠ []) (hanti : ∀ p ∈ S, ∀ q ∈ S, p <+: q → p = q) (fs : FS) (m : Path → Option Bound)
    (h : Represents S fs m) (o : StoreOp) (ho : o.name ∈ S) :
    (o.perform fs).2 = (o.spec m).2 ∧ Represents S (o.perform fs).1 (o.spec m).1 := by
  cases o with
  | set p v =>
    have hp : p ∈ S := ho
    have hne := hS p hp
    obtain ⟨hgood, hbad⟩ := setitem_at fs h.wf p hne v (h.notDir hp) (h.noFile p hp)
    obtain ⟨hwf, hother⟩ := C41_set_wf fs h.wf p hne v (h.notDir hp) (h.noFile p hp)
    have hq : ∀ q ∈ S, q ≠ p → (setitem fs p v).1 q = fs q := fun q hq hne => hother q fun hpre => hne (hanti q hq p hp hpre)
    have hexists : (setitem fs p v).1 p ≠ none := by
      by_cases hv : serialisable v
      · obtain ⟨_, j, e, _⟩ := hgood hv; rw [e]; simp
      · rw [(hbad hv).2]; simp
    have hnf : ∀ q ∈ S, NoFileAbove (setitem fs p v).1 q := by
      intro q hqS r hr hrne c hc
      by_cases hrp : r <+: p
      · by_cases hrp' : r = p
        · exact hrne ((hanti r (hrp' ▸ hp) q hqS hr))
        · rw [prefix_dir hwf hrp hrp' hexists] at hc; cases hc
      · rw [hother r hrp] at hc
        exact h.noFile q hqS r hr hrne c hc
    by_cases hv : serialisable v
    · obtain ⟨e1, j, e2, e3⟩ := hgood hv
      simp only [StoreOp.perform, StoreOp.spec, if_pos hv]
      refine ⟨by rw [e1]; rfl, hwf, hnf, fun q hqS hm => ?_, fun q hqS hm => ?_, fun q hqS w hm => ?_⟩
      · by_cases hqp : q = p
        · subst hqp; simp at hm
        · rw [Function.update_of_ne hqp] at hm; rw [hq q hqS hqp]; exact h.absent q hqS hm
      · by_cases hqp : q = p
        · subst hqp; simp at hm
        · rw [Function.update_of_ne hqp] at hm; rw [hq q hqS hqp]; exact h.rubbish q hqS hm
      · by_cases hqp : q = p
        · subst hqp
          simp at hm
          exact ⟨j, e2, by rw [e3, hm]⟩
        · rw [Function.update_of_ne hqp] at hm; rw [hq q hqS hqp]; exact h.value q hqS w hm
    · obtain ⟨e1, e2⟩ := hbad hv
      simp only [StoreOp.perform, StoreOp.spec, if_neg hv]
      refine ⟨by rw [e1]; rfl, hwf, hnf, fun q hqS hm => ?_, fun q hqS hm => ?_, fun q hqS w hm => ?_⟩
      · by_cases hqp : q = p
        · subst hqp; simp at hm
        · rw [Function.update_of_ne hqp] at hm; rw [hq q hqS hqp]; exact h.absent q hqS hm
      · by_cases hqp : q = p
        · subst hqp; exact e2
        · rw [Function.update_of_ne hqp] at hm; rw [hq q hqS hqp]; exact h.rubbish q hqS hm
      · by_cases hqp : q = p
        · subst hqp; simp at hm
        · rw [Function.update_of_ne hqp] at hm; rw [hq q hqS hqp]; exact h.value q hqS w hm
  | get p =>
    have hp : p ∈ S := ho
    refine ⟨?_, h⟩
    simp only [StoreOp.perform, StoreOp.spec]
    rcases hm : m p with _ | v | _
    · rw [C41_get_absent fs p (h.absent p hp hm) (h.noFile p hp)]; rfl
    · obtain ⟨j, e, e'⟩ := h.value p hp v hm
      simp only [getitem, e]
      rw [e']; rfl
    · simp only [getitem, h.rubbish p hp hm]
      rfl
  | del p =>
    have hp : p ∈ S := ho
    simp only [StoreOp.perform, StoreOp.spec]
    have key : ∀ c, fs p = some (.file c) → m p ≠ none → (delitem fs p).2 = .ok () ∧ Represents S (delitem fs p).1 (Function.update m p none) := by
      intro c hc hm
      obtain ⟨e1, e2, e3, e4⟩ := C41_delete fs h.wf p c hc
      have e5 : (delitem fs p).1 p = none := by simp [delitem, hc, FS.set]
      refine ⟨e1, e3, fun q hqS r hr hrne c' hc' => ?_, fun q hqS hm => ?_, fun q hqS hm => ?_, fun q hqS w hm => ?_⟩
      · by_cases hrp : r = p
        · rw [hrp, e5] at hc'; cases hc'
        · rw [e4 r hrp] at hc'; exact h.noFile q hqS r hr hrne c' hc'
      · by_cases hqp : q = p
        · rw [hqp, e5]
        · rw [Function.update_of_ne hqp] at hm; rw [e4 q hqp]; exact h.absent q hqS hm
      · by_cases hqp : q = p
        · subst hqp; simp at hm
        · rw [Function.update_of_ne hqp] at hm; rw [e4 q hqp]; exact h.rubbish q hqS hm
      · by_cases hqp : q = p
        · subst hqp; simp at hm
        · rw [Function.update_of_ne hqp] at hm; rw [e4 q hqp]; exact h.value q hqS w hm
    rcases hm : m p with _ | v | _
    · have ha := h.absent p hp hm
      have e1 := (C41_delete_directory fs p).2.2 ha (h.noFile p hp)
      have e2 := (C41_delete_directory fs p).2.1 (by rw [e1]; simp)
      refine ⟨by rw [e1]; rfl, ?_⟩
      rw [e2, show Function.update m p none = m by rw [← hm]; exact Function.update_eq_self p m]
      exact h
    · obtain ⟨j, e, _⟩ := h.value p hp v hm
      obtain ⟨k1, k2⟩ := key _ e (by rw [hm]; simp)
      exact ⟨by rw [k1]; rfl, k2⟩
    · obtain ⟨k1, k2⟩ := key _ (h.rubbish p hp hm) (by rw [hm]; simp)
      exact ⟨by rw [k1]; rfl, k2⟩

/-- C41: for names none of which lies below another, every history of assignments, reads and deletions gives exactly the outcomes of a map,
from any directory that represents the map at the start. -/
theorem C41_history (S : Set Path) (hS : ∀ p ∈ S, p ≠ []) (hanti : ∀ p ∈ S, ∀ q ∈ S, p <+: q → p = q) (fs : FS) (m : Path → Option Bound)
    (h : Represents S fs m) (l : List StoreOp) (hl : ∀ o ∈ l, o.name ∈ S) : performAll fs l = specAll m l := by
  induction l generalizing fs m with
  | nil => rfl
  | cons o l ih =>
    obtain ⟨e1, e2⟩ := step_spec S hS hanti fs m h o (hl o (by simp))
    simp only [performAll, specAll, e1]
    rw [ih _ _ e2 fun o' ho' => hl o' (by simp [ho'])]

/-- C41: in particular from the empty data directory, where every name is unbound. -/
theorem C41_history_empty (S : Set Path) (hS : ∀ p ∈ S, p ≠ []) (hanti : ∀ p ∈ S, ∀ q ∈ S, p <+: q → p = q) (l : List StoreOp)
    (hl : ∀ o ∈ l, o.name ∈ S) :
    performAll (fun p => if p = [] then some .dir else none) l = specAll (fun _ => none) l := by
  refine C41_history S hS hanti _ _ ⟨⟨by simp, by intro p s; simp⟩, ?_, ?_, by simp, by simp⟩ l hl
  · intro p _ q _ _ c
    simp only
    split_ifs <;> simp
  · intro p hp _
    simp [hS p hp]

/-- Non-vacuity: the two names of the doctest, `/repo/dec/data.py:44-66`; neither lies below the other. -/
example : ∀ p ∈ ({["test", "test.json"], ["test", "array.json"]} : Set Path), ∀ q ∈ ({["test", "test.json"], ["test", "array.json"]} : Set Path),
    p <+: q → p = q := by
  intro p hp q hq
  rcases hp with rfl | rfl <;> rcases hq with rfl | rfl <;> simp

/-- And what the client of the doctest sees: the array comes back as a list, and after the deletion the name is absent. -/
example : performAll (fun p => if p = [] then some .dir else none)
    [.set ["test", "array.json"] (.arr [1, 2]), .get ["test", "array.json"], .get ["test", "test.json"], .del ["test", "array.json"],
      .get ["test", "array.json"]] =
    [.ok none, .ok (some (.list [.num 1, .num 2])), .error .fileNotFound, .ok none, .error .fileNotFound] := by
  rw [C41_history_empty {["test", "test.json"], ["test", "array.json"]}]
  · simp [specAll, StoreOp.spec, serialisable, stored]
  · intro p hp; rcases hp with rfl | rfl <;> simp
  · intro p hp q hq
    rcases hp with rfl | rfl <;> rcases hq with rfl | rfl <;> simp
  · intro o ho; fin_cases ho <;> simp [StoreOp.name]

end Dec.Props
