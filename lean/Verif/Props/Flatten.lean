import Verif.Lib.Grid2

set_option linter.unusedSimpArgs false
set_option linter.unusedVariables false

/-! # C28: flattening and unflattening -/

namespace Dec.Props

open Dec.G2

variable {α : Type*}

/-- The number of entries of a tuple of arrays of the given shapes. -/
def total (l : List (ℕ × ℕ)) : ℕ := (l.map fun s => s.1 * s.2).sum

theorem slice_add (x : List α) (m a b : ℕ) : slice x (m + a) (m + b) = slice (x.drop m) a b := by
  unfold slice
  rw [List.drop_take, List.drop_take, List.drop_drop]
  congr 1; omega

theorem split_cons (x : List α) (m : ℕ) (idx : List ℕ) : split x (m :: idx.map (m + ·)) = x.take m :: split (x.drop m) idx := by
  unfold split
  rw [List.cons_append, List.zipWith_cons_cons]
  congr 1
  have hlast : ∀ (L : List ℕ) (a : ℕ), List.zipWith (slice x) ((m + a) :: L.map (m + ·)) (L.map (m + ·) ++ [x.length])
      = List.zipWith (slice (x.drop m)) (a :: L) (L ++ [(x.drop m).length]) := by
    intro L
    induction L with
    | nil =>
      intro a
      simp only [List.map_nil, List.nil_append, List.zipWith_cons_cons, List.zipWith_nil_left, List.cons.injEq, and_true]
      unfold slice
      rw [List.take_length, List.take_length, List.drop_drop]
    | cons b L ih =>
      intro a
      simp only [List.map_cons, List.cons_append, List.zipWith_cons_cons]
      rw [ih b, slice_add]
  exact hlast idx 0

theorem cumul_cons (s : ℕ × ℕ) (l : List (ℕ × ℕ)) : cumul_index (s :: l) = (s.1 * s.2) :: (cumul_index l).map (s.1 * s.2 + ·) := rfl

theorem cumul_ne_nil {l : List (ℕ × ℕ)} (h : l ≠ []) : cumul_index l ≠ [] := by
  cases l with
  | nil => exact absurd rfl h
  | cons s l => rw [cumul_cons]; exact List.cons_ne_nil _ _

/-- Cutting off the blocks one after the other. -/
theorem reshape_cons (x : List α) (s : ℕ × ℕ) {l : List (ℕ × ℕ)} (hl : l ≠ []) :
    (List.zip (split x (cumul_index (s :: l)).dropLast) (s :: l)).mapM (fun p => reshape1 p.1 p.2)
      = (reshape1 (x.take (s.1 * s.2)) s >>= fun a =>
          (List.zip (split (x.drop (s.1 * s.2)) (cumul_index l).dropLast) l).mapM (fun p => reshape1 p.1 p.2) >>= fun as => .ok (a :: as)) := by
  rw [cumul_cons, List.dropLast_cons_of_ne_nil (by simpa using cumul_ne_nil hl), ← List.map_dropLast, split_cons, List.zip_cons_cons, List.mapM_cons]
  rfl

theorem reshape_spec (l : List (ℕ × ℕ)) (hl : l ≠ []) (x : List α) :
    (x.length = total l → ∃ as : List (Arr α), (List.zip (split x (cumul_index l).dropLast) l).mapM (fun p => reshape1 p.1 p.2) = .ok as ∧
      as.map (fun a => (a.r, a.c)) = l ∧ as.flatMap Arr.data = x ∧ ∀ a ∈ as, a.Wf) ∧
    (x.length ≠ total l → (List.zip (split x (cumul_index l).dropLast) l).mapM (fun p => reshape1 p.1 p.2) = .error .valueError) := by
  induction l generalizing x with
  | nil => exact absurd rfl hl
  | cons s l ih =>
    rcases eq_or_ne l [] with rfl | hl'
    · have e : (List.zip (split x (cumul_index [s]).dropLast) [s]).mapM (fun p => reshape1 p.1 p.2) = (reshape1 x s >>= fun a => .ok [a]) := by
        simp [cumul_index, cumsum, split, slice]
        rfl
      rw [e]
      have ht : total [s] = s.1 * s.2 := by simp [total]
      rw [ht]
      refine ⟨fun h => ⟨[⟨s.1, s.2, x⟩], ?_, rfl, by simp, by simpa [Arr.Wf] using h⟩, fun h => ?_⟩
      · unfold reshape1; rw [if_pos h]; rfl
      · unfold reshape1; rw [if_neg h]; rfl
    · have ht : total (s :: l) = s.1 * s.2 + total l := by simp [total]
      rw [reshape_cons x s hl', ht]
      obtain ⟨i1, i2⟩ := ih hl' (x.drop (s.1 * s.2))
      refine ⟨fun h => ?_, fun h => ?_⟩
      · obtain ⟨as, h1, h2, h3, h4⟩ := i1 (by simp; omega)
        refine ⟨⟨s.1, s.2, x.take (s.1 * s.2)⟩ :: as, ?_, by simp [h2], by simp [h3], ?_⟩
        · unfold reshape1 at h1 ⊢; rw [if_pos (by simp; omega), h1]; rfl
        · intro a ha
          rcases List.mem_cons.mp ha with rfl | ha
          · simp only [Arr.Wf, List.length_take]; omega
          · exact h4 a ha
      · unfold reshape1 at i2 ⊢
        by_cases hs : (x.take (s.1 * s.2)).length = s.1 * s.2
        · rw [if_pos hs]
          simp only [List.length_take] at hs
          rw [i2 (by simp only [List.length_drop]; omega)]
          rfl
        · rw [if_neg hs]; rfl

theorem reshape_tup (x : List α) {l : List (ℕ × ℕ)} (hl : l ≠ []) :
    reshape x (.tup l) = ((List.zip (split x (cumul_index l).dropLast) l).mapM (fun p => reshape1 p.1 p.2) >>= fun as => .ok (.tup as)) := by
  simp only [reshape, if_neg hl]

/-- The arrays of a value. -/
def arrays : Val α → List (Arr α)
  | .arr a => [a]
  | .tup l => l
  | .zero => []

/-- Every numpy array has as many entries as its shape says. -/
def AllWf (v : Val α) : Prop := ∀ a ∈ arrays v, a.Wf

/-- The shapes of the arrays of a value. -/
def shapesOf : Shape → List (ℕ × ℕ)
  | .arr s => [s]
  | .tup l => l

/-- **C28**: unflattening a flattened value gives the value back; only the empty tuple and the integer `0` cannot be flattened. -/
theorem C28_reshape_unshape (v : Val α) (hv : AllWf v) (x : List α) (s : Shape) (h : unshape v = .ok (x, s)) : reshape x s = .ok v := by
  cases v with
  | arr a =>
    obtain ⟨rfl, rfl⟩ : a.data = x ∧ Shape.arr (a.r, a.c) = s := by simpa [unshape] using h
    exact reshape_arr_data (hv a (by simp [arrays]))
  | zero => simp [unshape] at h
  | tup as =>
    by_cases he : as = []
    · simp [unshape, he] at h
    · obtain ⟨rfl, rfl⟩ : as.flatMap Arr.data = x ∧ Shape.tup (as.map fun a => (a.r, a.c)) = s := by simpa [unshape, he] using h
      have hl : as.map (fun a => (a.r, a.c)) ≠ [] := by simpa using he
      rw [reshape_tup _ hl]
      have key : ∀ as : List (Arr α), as ≠ [] → (∀ a ∈ as, a.Wf) →
          (List.zip (split (as.flatMap Arr.data) (cumul_index (as.map fun a => (a.r, a.c))).dropLast) (as.map fun a => (a.r, a.c))).mapM (fun p => reshape1 p.1 p.2) = .ok as := by
        intro as
        induction as with
        | nil => intro h; exact absurd rfl h
        | cons a as ih =>
          intro _ hw
          have ha : a.data.length = a.r * a.c := hw a (by simp)
          rcases eq_or_ne as [] with rfl | has
          · have e : (List.zip (split a.data []) [(a.r, a.c)]).mapM (fun p => reshape1 p.1 p.2) = (reshape1 a.data (a.r, a.c) >>= fun b => .ok [b]) := by
              simp [split, slice]; rfl
            simp only [List.flatMap_cons, List.flatMap_nil, List.append_nil, List.map_cons, List.map_nil]
            show (List.zip (split a.data []) [(a.r, a.c)]).mapM (fun p => reshape1 p.1 p.2) = _
            rw [e]; unfold reshape1; rw [if_pos ha]; rfl
          · rw [List.map_cons, reshape_cons _ _ (by simpa using has), List.flatMap_cons]
            simp only
            rw [List.take_left' ha, List.drop_left' ha, ih has fun b hb => hw b (by simp [hb])]
            unfold reshape1; rw [if_pos ha]; rfl
      rw [key as he hv]; rfl

/-- **C28**: flattening an unflattened array gives the array back, and unflattening succeeds exactly on the arrays with as many entries as the shape asks for. -/
theorem C28_unshape_reshape (x : List α) (s : Shape) (hs : shapesOf s ≠ []) :
    (x.length = total (shapesOf s) → ∃ v, reshape x s = .ok v ∧ AllWf v ∧ unshape v = .ok (x, s)) ∧
    (x.length ≠ total (shapesOf s) → reshape x s = .error .valueError) := by
  cases s with
  | arr p =>
    have ht : total (shapesOf (.arr p)) = p.1 * p.2 := by simp [total, shapesOf]
    rw [ht]
    refine ⟨fun h => ⟨.arr ⟨p.1, p.2, x⟩, reshape_arr h, by simpa [AllWf, arrays, Arr.Wf] using h, rfl⟩, fun h => ?_⟩
    simp only [reshape, reshape1]; rw [if_neg h]; rfl
  | tup l =>
    have hs : l ≠ [] := hs
    show (x.length = total l → _) ∧ (x.length ≠ total l → _)
    rw [reshape_tup _ hs]
    obtain ⟨h1, h2⟩ := reshape_spec l hs x
    refine ⟨fun h => ?_, fun h => by rw [h2 h]; rfl⟩
    obtain ⟨as, e1, e2, e3, e4⟩ := h1 h
    refine ⟨.tup as, by rw [e1]; rfl, e4, ?_⟩
    have : as ≠ [] := by rintro rfl; exact hs (by simpa using e2.symm)
    simp only [unshape, if_neg this, e2, e3]

/-- Flattening loses nothing: two values with the same flat array and the same shape are equal. -/
theorem C28_injective (v w : Val α) (hv : AllWf v) (hw : AllWf w) (x : List α) (s : Shape) (h1 : unshape v = .ok (x, s)) (h2 : unshape w = .ok (x, s)) : v = w := by
  have e1 := C28_reshape_unshape v hv x s h1
  rw [C28_reshape_unshape w hw x s h2] at e1
  injection e1 with e1; exact e1.symm

/-- **C28**: the last entry of `cumul_index` is the number of entries of the flat array, and `countshape` is the same number. -/
theorem C28_counts (l : List (ℕ × ℕ)) (hl : l ≠ []) (a b c d : ℕ) :
    (cumul_index l).getLastD 0 = total l ∧ (cumul_index l).length = l.length ∧
    countshape 1 (.tup [(a, b), (c, d)]) = .ok (total [(a, b), (c, d)]) ∧ countshape 0 (.arr (a, b)) = .ok (total [(a, b)]) ∧ countshape 2 (.arr (a, b)) = .ok (total [(a, b)]) := by
  refine ⟨?_, ?_, by simp [countshape, total], by simp [countshape, total], by simp [countshape, total]⟩
  · have key : ∀ l : List (ℕ × ℕ), (cumul_index l).getLastD 0 = total l := by
      intro l
      induction l with
      | nil => rfl
      | cons s l ih =>
        rw [cumul_cons]
        rcases eq_or_ne l [] with rfl | h
        · simp [cumul_index, cumsum, total]
        · have hne := cumul_ne_nil h
          have : total (s :: l) = s.1 * s.2 + total l := by simp [total]
          rw [this, ← ih, List.getLastD_cons, List.getLastD_eq_getLast?, List.getLastD_eq_getLast?, List.getLast?_map]
          cases h' : (cumul_index l).getLast? with
          | none => exact absurd (List.getLast?_eq_none_iff.mp h') hne
          | some z => simp
    exact key l
  · clear hl
    induction l with
    | nil => rfl
    | cons s l ih => rw [cumul_cons]; simp [ih]

/-! ## Flat indices -/

/-- The blocks of consecutive integers from `o`. -/
def blocks : ℕ → List (ℕ × ℕ) → List (Arr ℕ)
  | _, [] => []
  | o, s :: l => ⟨s.1, s.2, List.range' o (s.1 * s.2)⟩ :: blocks (o + s.1 * s.2) l

theorem arange_blocks (l : List (ℕ × ℕ)) (hl : l ≠ []) (o : ℕ) :
    (List.zip (split (List.range' o (total l)) (cumul_index l).dropLast) l).mapM (fun p => reshape1 p.1 p.2) = .ok (blocks o l) := by
  induction l generalizing o with
  | nil => exact absurd rfl hl
  | cons s l ih =>
    rcases eq_or_ne l [] with rfl | hl'
    · have e : (List.zip (split (List.range' o (s.1 * s.2)) []) [s]).mapM (fun p => reshape1 p.1 p.2) = (reshape1 (List.range' o (s.1 * s.2)) s >>= fun a => .ok [a]) := by
        simp [split, slice]; rfl
      have ht : total [s] = s.1 * s.2 := by simp [total]
      rw [ht]
      show (List.zip (split (List.range' o (s.1 * s.2)) []) [s]).mapM (fun p => reshape1 p.1 p.2) = _
      rw [e]; unfold reshape1; rw [if_pos (by simp)]; rfl
    · have ht : total (s :: l) = s.1 * s.2 + total l := by simp [total]
      have e : List.range' o (s.1 * s.2 + total l) = List.range' o (s.1 * s.2) ++ List.range' (o + s.1 * s.2) (total l) := by
        rw [← List.range'_append_1]
      rw [reshape_cons _ s hl', ht, e, List.take_left' (by simp), List.drop_left' (by simp), ih hl']
      unfold reshape1; rw [if_pos (by simp)]; rfl

theorem arange2_tup (l : List (ℕ × ℕ)) (hl : l ≠ []) : arange2 (.tup l) = .ok (.tup (blocks 0 l)) := by
  simp only [arange2]
  rw [(C28_counts l hl 0 0 0 0).1, reshape_tup _ hl, List.range_eq_range', arange_blocks l hl 0]; rfl

theorem blocks_range (l : List (ℕ × ℕ)) (o : ℕ) : ∀ A ∈ blocks o l, ∀ x ∈ A.data, o ≤ x ∧ x < o + total l := by
  induction l generalizing o with
  | nil => intro A hA; simp [blocks] at hA
  | cons s l ih =>
    intro A hA x hx
    have ht : total (s :: l) = s.1 * s.2 + total l := by simp [total]
    rw [ht]
    rcases List.mem_cons.mp hA with rfl | hA
    · simp only [List.mem_range'_1] at hx; omega
    · have := ih (o + s.1 * s.2) A hA x hx; omega

theorem divmod {d r c m : ℕ} (hc : c < m) : r * m + c = d ↔ (c < m ∧ r = d / m ∧ c = d % m) := by
  have hm : 0 < m := by omega
  constructor
  · rintro rfl
    refine ⟨hc, ?_, ?_⟩
    · rw [Nat.mul_comm, Nat.mul_add_div hm, Nat.div_eq_of_lt hc, Nat.add_zero]
    · rw [Nat.mul_comm, Nat.mul_add_mod, Nat.mod_eq_of_lt hc]
  · rintro ⟨_, rfl, rfl⟩
    rw [Nat.mul_comm]; exact Nat.div_add_mod d m

/-- The search for the block of a flat index, with the blocks numbered from `k` and the indices starting at `o`. -/
theorem unravel_blocks (l : List (ℕ × ℕ)) (o k : ℕ) (i : ℤ) :
    (∀ q r c, unravelLoop i k (List.zip (o :: (cumul_index l).map (o + ·)).dropLast (o :: (cumul_index l).map (o + ·)).tail) l = .ok (q, r, c) ↔
      k ≤ q ∧ ∃ A, (blocks o l)[q - k]? = some A ∧ r < A.r ∧ c < A.c ∧ (A.data[r * A.c + c]?).map Int.ofNat = some i) ∧
    (¬ (o ≤ i ∧ i < o + total l) → unravelLoop i k (List.zip (o :: (cumul_index l).map (o + ·)).dropLast (o :: (cumul_index l).map (o + ·)).tail) l = .error .valueError) := by
  induction l generalizing o k with
  | nil =>
    refine ⟨fun q r c => ?_, fun _ => by simp [unravelLoop]⟩
    simp [unravelLoop, blocks]
  | cons s l ih =>
    obtain ⟨s1, s2⟩ := s
    have ht : total ((s1, s2) :: l) = s1 * s2 + total l := by simp [total]
    have hz : List.zip (o :: (cumul_index ((s1, s2) :: l)).map (o + ·)).dropLast (o :: (cumul_index ((s1, s2) :: l)).map (o + ·)).tail
        = (o, o + s1 * s2) :: List.zip ((o + s1 * s2) :: (cumul_index l).map (o + s1 * s2 + ·)).dropLast ((o + s1 * s2) :: (cumul_index l).map (o + s1 * s2 + ·)).tail := by
      rw [cumul_cons, List.map_cons, List.map_map]
      have : (fun x => o + x) ∘ (fun x => s1 * s2 + x) = fun x => o + s1 * s2 + x := by funext x; simp [Nat.add_assoc]
      rw [this, List.dropLast_cons_of_ne_nil (List.cons_ne_nil _ _)]
      simp only [List.tail_cons, List.zip_cons_cons]
    rw [hz, ht]
    obtain ⟨i1, i2⟩ := ih (o + s1 * s2) (k + 1)
    simp only [unravelLoop]
    by_cases hi : (o : ℤ) ≤ i ∧ i < ((o + s1 * s2 : ℕ) : ℤ)
    · rw [if_pos hi]
      obtain ⟨d, rfl⟩ : ∃ d : ℕ, i = o + d := ⟨(i - o).toNat, by omega⟩
      have hd : d < s1 * s2 := by push_cast at hi; omega
      have hs2 : 0 < s2 := Nat.pos_of_ne_zero (by rintro rfl; simp at hd)
      have e : unravel_index ((o : ℤ) + d - o) (s1, s2) = .ok (d / s2, d % s2) := by
        unfold unravel_index
        rw [if_pos ⟨by omega, by push_cast; have : (d : ℤ) < s1 * s2 := (by exact_mod_cast hd); linarith⟩]
        simp
      rw [e]
      refine ⟨fun q r c => ?_, fun h => absurd ⟨by omega, by push_cast; omega⟩ h⟩
      show Except.ok (k, d / s2, d % s2) = Except.ok (q, r, c) ↔ _
      constructor
      · intro h
        injection h with h
        simp only [Prod.mk.injEq] at h
        obtain ⟨rfl, rfl, rfl⟩ := h
        refine ⟨le_rfl, ⟨s1, s2, List.range' o (s1 * s2)⟩, by simp [blocks], ?_, Nat.mod_lt _ hs2, ?_⟩
        · exact Nat.div_lt_of_lt_mul (by rw [Nat.mul_comm]; exact hd)
        · show ((List.range' o (s1 * s2))[d / s2 * s2 + d % s2]?).map Int.ofNat = some _
          rw [Nat.div_add_mod' d s2, List.getElem?_range' (by simpa using hd)]
          simp
      · rintro ⟨hq, A, hA, hr, hc, hv⟩
        rcases Nat.eq_or_lt_of_le hq with rfl | hq
        · simp only [blocks, Nat.sub_self, List.getElem?_cons_zero, Option.some.injEq] at hA
          subst hA
          have hlt : r * s2 + c < s1 * s2 := by simp only at hr hc; nlinarith
          simp only [] at hv hc
          rw [List.getElem?_range' (by simpa using hlt)] at hv
          simp only [Nat.one_mul, Option.map_some, Option.some.injEq] at hv
          have : r * s2 + c = d := by
            have : ((o + (r * s2 + c) : ℕ) : ℤ) = o + d := hv
            push_cast at this; exact_mod_cast (by linarith : ((r : ℤ) * s2 + c = d))
          obtain ⟨_, rfl, rfl⟩ := (divmod hc).mp this
          rfl
        · obtain ⟨z, rfl⟩ : ∃ z, q = k + 1 + z := ⟨q - (k + 1), by omega⟩
          rw [show k + 1 + z - k = z + 1 by omega] at hA
          simp only [blocks, List.getElem?_cons_succ] at hA
          exfalso
          obtain ⟨x, hx1, hx2⟩ := Option.map_eq_some_iff.mp hv
          have := (blocks_range l (o + s1 * s2) A (List.mem_of_getElem? hA) x (List.mem_of_getElem? hx1)).1
          have hx2 : (x : ℤ) = o + d := hx2
          omega
    · rw [if_neg hi]
      refine ⟨fun q r c => ?_, fun h => i2 (by push_cast at hi h ⊢; omega)⟩
      rw [i1 q r c]
      constructor
      · rintro ⟨hq, A, hA, h⟩
        refine ⟨by omega, A, ?_, h⟩
        rw [show q - k = (q - (k + 1)) + 1 by omega]
        simpa [blocks] using hA
      · rintro ⟨hq, A, hA, hr, hc, hv⟩
        rcases Nat.eq_or_lt_of_le hq with rfl | hq
        · simp only [blocks, Nat.sub_self, List.getElem?_cons_zero, Option.some.injEq] at hA
          subst hA
          exfalso
          obtain ⟨x, hx1, hx2⟩ := Option.map_eq_some_iff.mp hv
          have hm := List.mem_of_getElem? hx1
          simp only [List.mem_range'_1] at hm
          have hx2 : (x : ℤ) = i := hx2
          push_cast at hi
          omega
        · refine ⟨hq, A, ?_, hr, hc, hv⟩
          rw [show q - k = (q - (k + 1)) + 1 by omega] at hA
          simpa [blocks] using hA

/-- **C28**: `unravel_idx(i, shape)` returns exactly the block, row and column at which `arange2(shape)` holds `i`. -/
theorem C28_unravel (l : List (ℕ × ℕ)) (hl : l ≠ []) (i : ℤ) (k r c : ℕ) :
    ∃ as, arange2 (.tup l) = .ok (.tup as) ∧
      (unravel_idx i l = .ok (k, r, c) ↔ ∃ A, as[k]? = some A ∧ r < A.r ∧ c < A.c ∧ (A.data[r * A.c + c]?).map Int.ofNat = some i) := by
  refine ⟨_, arange2_tup l hl, ?_⟩
  have := (unravel_blocks l 0 0 i).1 k r c
  simpa [unravel_idx] using this

/-- **C28**: an index is accepted exactly when it is in range; otherwise `ValueError` is raised. -/
theorem C28_unravel_range (l : List (ℕ × ℕ)) (i : ℤ) :
    ((0 ≤ i ∧ i < total l) → ∃ k r c, unravel_idx i l = .ok (k, r, c)) ∧ (¬ (0 ≤ i ∧ i < total l) → unravel_idx i l = .error .valueError) := by
  refine ⟨fun h => ?_, fun h => ?_⟩
  · have key : ∀ (l : List (ℕ × ℕ)) (o k : ℕ), (o : ℤ) ≤ i ∧ i < o + total l →
        ∃ p, unravelLoop i k (List.zip (o :: (cumul_index l).map (o + ·)).dropLast (o :: (cumul_index l).map (o + ·)).tail) l = .ok p := by
      intro l
      induction l with
      | nil => intro o k h; simp [total] at h; omega
      | cons s l ih =>
        intro o k h
        obtain ⟨s1, s2⟩ := s
        have ht : total ((s1, s2) :: l) = s1 * s2 + total l := by simp [total]
        have hz : List.zip (o :: (cumul_index ((s1, s2) :: l)).map (o + ·)).dropLast (o :: (cumul_index ((s1, s2) :: l)).map (o + ·)).tail
            = (o, o + s1 * s2) :: List.zip ((o + s1 * s2) :: (cumul_index l).map (o + s1 * s2 + ·)).dropLast ((o + s1 * s2) :: (cumul_index l).map (o + s1 * s2 + ·)).tail := by
          rw [cumul_cons, List.map_cons, List.map_map]
          have : (fun x => o + x) ∘ (fun x => s1 * s2 + x) = fun x => o + s1 * s2 + x := by funext x; simp [Nat.add_assoc]
          rw [this, List.dropLast_cons_of_ne_nil (List.cons_ne_nil _ _)]
          simp only [List.tail_cons, List.zip_cons_cons]
        rw [hz]
        rw [ht] at h
        simp only [unravelLoop]
        by_cases hi : (o : ℤ) ≤ i ∧ i < ((o + s1 * s2 : ℕ) : ℤ)
        · rw [if_pos hi]
          have e : unravel_index (i - o) (s1, s2) = .ok ((i - o).toNat / s2, (i - o).toNat % s2) := by
            unfold unravel_index
            rw [if_pos ⟨by omega, by push_cast at hi ⊢; omega⟩]
          rw [e]; exact ⟨_, rfl⟩
        · rw [if_neg hi]
          exact ih (o + s1 * s2) (k + 1) (by push_cast at hi h ⊢; omega)
    obtain ⟨⟨k, r, c⟩, hp⟩ := key l 0 0 (by simpa using h)
    exact ⟨k, r, c, by simpa [unravel_idx] using hp⟩
  · have := (unravel_blocks l 0 0 i).2 (by simpa using h)
    simpa [unravel_idx] using this

/-- `arange2` of a single shape is the array of the flat positions. -/
theorem C28_arange2 (s : ℕ × ℕ) : arange2 (.arr s) = .ok (.arr ⟨s.1, s.2, List.range (s.1 * s.2)⟩) := by
  simp only [arange2]
  rw [(C28_counts [s] (by simp) 0 0 0 0).1, show total [s] = s.1 * s.2 by simp [total]]
  exact reshape_arr (by simp)

/-- The docstring example of `unravel_idx`. -/
example : unravel_idx 200 [(11, 12), (13, 14)] = .ok (1, 4, 12) := rfl
/-- A tuple of two arrays of different shapes. -/
example : AllWf (.tup [⟨2, 3, [0, 1, 2, 3, 4, 5]⟩, ⟨2, 2, [6, 7, 8, 9]⟩] : Val ℕ) ∧
    unshape (.tup [⟨2, 3, [0, 1, 2, 3, 4, 5]⟩, ⟨2, 2, [6, 7, 8, 9]⟩] : Val ℕ) = .ok ([0, 1, 2, 3, 4, 5, 6, 7, 8, 9], .tup [(2, 3), (2, 2)]) := by
  refine ⟨?_, rfl⟩
  intro a ha
  simp only [arrays, List.mem_cons, List.not_mem_nil, or_false] at ha
  rcases ha with rfl | rfl <;> rfl

end Dec.Props
