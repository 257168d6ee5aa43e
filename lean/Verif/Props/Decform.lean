import Verif.Model.Decform
import Verif.Lib.Tab
import Verif.Props.Wedge

set_option linter.unusedSimpArgs false
set_option linter.unusedVariables false

/-! # C30: arithmetic on discrete forms; C56: equality of discrete forms -/

namespace Dec.Props

open Dec.Decform

/-- Two forms with the same degree, duality and grid. -/
def SameKind (x y : DForm) : Prop := x.degree = y.degree ∧ x.isprimal = y.isprimal ∧ x.grid = y.grid

/-- `z` is a form of the same kind as `x`, with as many entries, and its entries are `f 0, f 1, ...`. -/
def HasEntries (z x : DForm) (f : ℕ → ℝ) : Prop :=
  SameKind z x ∧ z.array.length = x.array.length ∧ ∀ i < x.array.length, z.array.getD i 0 = f i

/-- The array of a form has the length advertised by its grid. -/
def WellFormed (h : Heap) (x : DForm) : Prop := (h x.grid).N x.degree x.isprimal = .ok x.array.length

theorem WellFormed.length {h : Heap} {x y : DForm} (hx : WellFormed h x) (hy : WellFormed h y) (k : SameKind x y) : x.array.length = y.array.length := by
  obtain ⟨h1, h2, h3⟩ := k
  unfold WellFormed at hx hy
  rw [h1, h2, h3, hy] at hx
  injection hx with hx; exact hx.symm

/-! ## C30 -/

/-- **C30**: an operation on two forms that differ in degree, duality or grid is rejected, whatever the operation and the arrays. -/
theorem C30_rejects (op : BinOp) (x y : DForm) (hne : ¬ SameKind x y) : binary op x (.form y) = .error .assertion := by
  simp only [binary]
  split_ifs with h1 h2 h3
  · rfl
  · rfl
  · rfl
  · exact absurd ⟨not_not.1 h1, not_not.1 h3, not_not.1 h2⟩ hne

theorem binary_form (op : BinOp) {x y : DForm} (hk : SameKind x y) (hl : x.array.length = y.array.length) :
    binary op x (.form y) = .ok ⟨x.degree, x.isprimal, x.grid, List.zipWith op.fn x.array y.array⟩ := by
  obtain ⟨h1, h2, h3⟩ := hk
  simp only [binary, if_neg (not_not.2 h1), if_neg (not_not.2 h2), if_neg (not_not.2 h3), bop, if_pos hl, Bind.bind, Except.bind]

theorem entries_form (op : BinOp) {x y : DForm} (hk : SameKind x y) (hl : x.array.length = y.array.length) :
    ∃ z, binary op x (.form y) = .ok z ∧ HasEntries z x fun i => op.fn (x.array.getD i 0) (y.array.getD i 0) := by
  refine ⟨_, binary_form op hk hl, ⟨rfl, rfl, rfl⟩, by simp [hl], fun i hi => ?_⟩
  have hi' : i < y.array.length := hl ▸ hi
  simp [List.getD_eq_getElem?_getD, List.getElem?_eq_getElem hi, List.getElem?_eq_getElem hi', List.getElem?_zipWith]

/-- **C30**: the operations on two forms of the same kind act entry by entry and keep the kind. -/
theorem C30_entrywise (x y : DForm) (hk : SameKind x y) (hl : x.array.length = y.array.length) :
    (∃ z, binary .add x (.form y) = .ok z ∧ HasEntries z x fun i => x.array.getD i 0 + y.array.getD i 0) ∧
    (∃ z, binary .sub x (.form y) = .ok z ∧ HasEntries z x fun i => x.array.getD i 0 - y.array.getD i 0) ∧
    (∃ z, binary .mul x (.form y) = .ok z ∧ HasEntries z x fun i => x.array.getD i 0 * y.array.getD i 0) ∧
    ((∀ v ∈ y.array, v ≠ 0) → ∃ z, binary .truediv x (.form y) = .ok z ∧ HasEntries z x fun i => x.array.getD i 0 / y.array.getD i 0) ∧
    HasEntries (neg x) x fun i => - x.array.getD i 0 := by
  refine ⟨entries_form .add hk hl, entries_form .sub hk hl, entries_form .mul hk hl, fun _ => entries_form .truediv hk hl, ⟨rfl, rfl, rfl⟩, by simp [neg], fun i hi => ?_⟩
  simp [neg, List.getD_eq_getElem?_getD, List.getElem?_eq_getElem hi]

/-- **C30**: the same with a number in place of one operand, on either side (`x + c`, `c + x`, `x - c`, `c - x`, `x * c`, `c * x`, `x / c`). -/
theorem C30_scalar (x : DForm) (c : ℝ) :
    (∃ z, binary .add x (.scalar c) = .ok z ∧ HasEntries z x fun i => x.array.getD i 0 + c) ∧
    (∃ z, binary .radd x (.scalar c) = .ok z ∧ HasEntries z x fun i => c + x.array.getD i 0) ∧
    (∃ z, binary .sub x (.scalar c) = .ok z ∧ HasEntries z x fun i => x.array.getD i 0 - c) ∧
    (∃ z, binary .rsub x (.scalar c) = .ok z ∧ HasEntries z x fun i => c - x.array.getD i 0) ∧
    (∃ z, binary .mul x (.scalar c) = .ok z ∧ HasEntries z x fun i => x.array.getD i 0 * c) ∧
    (∃ z, binary .rmul x (.scalar c) = .ok z ∧ HasEntries z x fun i => c * x.array.getD i 0) ∧
    (c ≠ 0 → ∃ z, binary .truediv x (.scalar c) = .ok z ∧ HasEntries z x fun i => x.array.getD i 0 / c) := by
  have key : ∀ op : BinOp, ∃ z, binary op x (.scalar c) = .ok z ∧ HasEntries z x fun i => op.fn (x.array.getD i 0) c := by
    intro op
    refine ⟨_, rfl, ⟨rfl, rfl, rfl⟩, by simp, fun i hi => ?_⟩
    simp [List.getD_eq_getElem?_getD, List.getElem?_eq_getElem hi]
  exact ⟨key .add, key .radd, key .sub, key .rsub, key .mul, key .rmul, fun _ => key .truediv⟩

/-- Two forms are determined by their kind and their entries. -/
theorem HasEntries.unique {z w x : DForm} {f : ℕ → ℝ} (hz : HasEntries z x f) (hw : HasEntries w x f) : z = w := by
  obtain ⟨d, p, g, a⟩ := z
  obtain ⟨d', p', g', a'⟩ := w
  obtain ⟨⟨h1, h2, h3⟩, h4, h5⟩ := hz
  obtain ⟨⟨k1, k2, k3⟩, k4, k5⟩ := hw
  simp only at h1 h2 h3 h4 h5 k1 k2 k3 k4 k5
  subst h1 h2 h3 k1 k2 k3
  congr 1
  refine List.ext_getElem (h4.trans k4.symm) fun i hi hi' => ?_
  have e := (h5 i (h4 ▸ hi)).trans (k5 i (h4 ▸ hi)).symm
  simpa [List.getD_eq_getElem?_getD, List.getElem?_eq_getElem hi, List.getElem?_eq_getElem hi'] using e

/-- **C30**: forms of one kind on one grid are a vector space under the overloaded operators. `x + y` is `binary .add x (.form y)`, `c * x` is
`binary .rmul x (.scalar c)`. -/
theorem C30_module (h : Heap) (x y z : DForm) (hx : WellFormed h x) (hy : WellFormed h y) (hz : WellFormed h z) (kxy : SameKind x y) (kxz : SameKind x z)
    (c d : ℝ) :
    binary .add x (.form y) = binary .add y (.form x) ∧
    (binary .add x (.form y) >>= fun s => binary .add s (.form z)) = (binary .add y (.form z) >>= fun s => binary .add x (.form s)) ∧
    (binary .add x (.form (neg x)) = binary .rmul x (.scalar 0)) ∧
    (binary .rmul y (.scalar 0) >>= fun o => binary .add x (.form o)) = .ok x ∧
    binary .sub x (.form y) = binary .add x (.form (neg y)) ∧
    binary .rmul x (.scalar 1) = .ok x ∧
    (binary .rmul x (.scalar (-1)) = .ok (neg x)) ∧
    (binary .rmul x (.scalar c) >>= fun s => binary .rmul s (.scalar d)) = binary .rmul x (.scalar (d * c)) ∧
    (binary .add x (.form y) >>= fun s => binary .rmul s (.scalar c))
      = (binary .rmul x (.scalar c) >>= fun s => binary .rmul y (.scalar c) >>= fun t => binary .add s (.form t)) ∧
    binary .rmul x (.scalar (c + d)) = (binary .rmul x (.scalar c) >>= fun s => binary .rmul x (.scalar d) >>= fun t => binary .add s (.form t)) ∧
    binary .mul x (.scalar c) = binary .rmul x (.scalar c) ∧
    binary .truediv x (.scalar c) = binary .rmul x (.scalar c⁻¹) := by
  have lxy := hx.length hy kxy
  have lxz := hx.length hz kxz
  obtain ⟨dx, px, gx, a⟩ := x
  obtain ⟨dy, py, gy, b⟩ := y
  obtain ⟨dz, pz, gz, e⟩ := z
  obtain ⟨h1, h2, h3⟩ := kxy
  obtain ⟨k1, k2, k3⟩ := kxz
  simp only at h1 h2 h3 k1 k2 k3 lxy lxz
  subst h1 h2 h3 k1 k2 k3
  have ea := eq_tab' (x := a) rfl 0
  have eb := eq_tab' (x := b) lxy.symm 0
  have ee := eq_tab' (x := e) lxz.symm 0
  generalize a.length = n at *
  generalize (fun i => a.getD i 0) = A at ea
  generalize (fun i => b.getD i 0) = B at eb
  generalize (fun i => e.getD i 0) = E at ee
  subst ea eb ee
  simp only [binary, neg, ne_eq, not_true_eq_false, if_false, bop, length_tab, map_tab, zipWith_tab, if_true, Bind.bind, Except.bind, BinOp.fn]
  refine ⟨?_, ?_, ?_, ?_, ?_, ?_, ?_, ?_, ?_, ?_, ?_, ?_⟩
  all_goals first
    | rfl
    | (refine congrArg Except.ok (congrArg (DForm.mk _ _ _) (tab_congr fun i _ => ?_)); ring)

/-- **C30**: the wedge product and the contraction are rejected across grids, also when the two grids were built from the same arguments; the
contraction is rejected when its first operand is not a 1-form. -/
theorem C30_rejects_products (h : Heap) (x y : DForm) (t : Bool) :
    (x.grid ≠ y.grid → W h x y t = .error .assertion ∧ Decform.xor h x y = .error .assertion ∧ C h x y t = .error .assertion) ∧
    (x.degree ≠ 1 → C h x y t = .error .assertion) := by
  refine ⟨fun hne => ⟨by simp [W, hne], by simp [Decform.xor, W, hne], by simp [C, hne]⟩, fun hne => by simp [C, hne]⟩

theorem bop_single {op : ℝ → ℝ → ℝ} {a : List ℝ} {v : ℝ} (hl : a.length ≠ 1) : bop op a [v] = .ok (a.map (op · v)) := by
  match a, hl with
  | [], _ => rfl
  | [_], hl => simp at hl
  | _ :: _ :: _, _ => simp [bop]

theorem bop_mismatch {op : ℝ → ℝ → ℝ} {a b : List ℝ} (hl : a.length ≠ b.length) (ha : a.length ≠ 1) (hb : b.length ≠ 1) : bop op a b = .error .valueError := by
  match a, b, hl, ha, hb with
  | [], [], hl, _, _ => simp at hl
  | [], [_], _, _, hb => simp at hb
  | [_], _, _, ha, _ => simp at ha
  | _ :: _ :: _, [_], _, _, hb => simp at hb
  | [], _ :: _ :: _, _, _, _ => simp [bop]
  | _ :: _ :: _, [], _, _, _ => simp [bop]
  | _ :: _ :: _, _ :: _ :: _, hl, _, _ => simp only [bop, if_neg hl]

/-- **C30**: for arrays that do not have the advertised length the operation is not always rejected: an array with one entry is spread over the
other one (numpy broadcasting); all other mismatches raise `ValueError`. -/
theorem C30_mismatched_lengths (op : BinOp) (x y : DForm) (hk : SameKind x y) (hl : x.array.length ≠ y.array.length) :
    (y.array.length ≠ 1 → x.array.length ≠ 1 → binary op x (.form y) = .error .valueError) ∧
    (∀ v, y.array = [v] → ∃ z, binary op x (.form y) = .ok z ∧ HasEntries z x fun i => op.fn (x.array.getD i 0) v) ∧
    (∀ v, x.array = [v] → ∃ z, binary op x (.form y) = .ok z ∧ HasEntries z y fun i => op.fn v (y.array.getD i 0)) := by
  obtain ⟨dx, px, gx, a⟩ := x
  obtain ⟨dy, py, gy, b⟩ := y
  obtain ⟨h1, h2, h3⟩ := hk
  simp only at h1 h2 h3 hl
  subst h1 h2 h3
  simp only [binary, ne_eq, not_true_eq_false, if_false]
  refine ⟨fun hb ha => ?_, fun v hv => ?_, fun v hv => ?_⟩
  · rw [bop_mismatch hl ha hb]; rfl
  · subst hv
    rw [bop_single (by simpa using hl)]
    refine ⟨_, rfl, ⟨rfl, rfl, rfl⟩, by simp, fun i hi => ?_⟩
    simp only at hi
    simp [List.getD_eq_getElem?_getD, List.getElem?_eq_getElem hi]
  · subst hv
    have e : bop op.fn [v] b = .ok (b.map (op.fn v)) := by
      unfold bop
      rw [if_neg hl]
    rw [e]
    refine ⟨_, rfl, ⟨rfl, rfl, rfl⟩, by simp, fun i hi => ?_⟩
    simp only at hi
    simp [List.getD_eq_getElem?_getD, List.getElem?_eq_getElem hi]

/-- Non-vacuity: two primal 0-forms on a periodic grid of three vertices. -/
example : ∃ (h : Heap) (x y : DForm), WellFormed h x ∧ WellFormed h y ∧ SameKind x y ∧ x ≠ y :=
  ⟨fun _ => ops1 (Periodic.make 3), ⟨0, true, 0, [1, 2, 3]⟩, ⟨0, true, 0, [4, 5, 6]⟩, rfl, rfl, ⟨rfl, rfl, rfl⟩, by simp⟩

/-! ## C56: equality -/

theorem eq_same {x y : DForm} (hk : SameKind x y) (hl : x.array.length = y.array.length) :
    ∃ r, Decform.eq x y = .ok r ∧ (r = true ↔ ∀ i < x.array.length, |x.array.getD i 0 - y.array.getD i 0| ≤ 1 / 10 ^ 8 + 1 / 10 ^ 5 * |y.array.getD i 0|) := by
  unfold Decform.eq
  rw [if_pos (show x.degree = y.degree ∧ x.isprimal = y.isprimal ∧ x.grid = y.grid from hk)]
  simp only [allclose, bop, if_pos hl, Bind.bind, Except.bind]
  refine ⟨_, rfl, ?_⟩
  rw [decide_eq_true_iff]
  rw [eq_tab' (x := x.array) rfl 0, eq_tab' (x := y.array) hl.symm 0, zipWith_tab]
  constructor
  · intro h i hi
    simp only [length_tab] at hi
    rw [getD_tab hi, getD_tab hi]
    have := h _ (List.mem_map_of_mem (List.mem_range.2 hi))
    beta_reduce at this
    by_contra hc
    rw [if_neg hc] at this
    exact zero_ne_one this
  · intro h v hv
    obtain ⟨i, hi, rfl⟩ := List.mem_map.1 hv
    have hi' := List.mem_range.1 hi
    have := h i (by simpa using hi')
    rw [getD_tab hi', getD_tab hi'] at this
    exact if_pos this

/-- **C56**: `x == y` for forms of the same kind and size is the entrywise comparison `|x_i - y_i| <= 1e-8 + 1e-5 |y_i|`; forms of different
kinds are unequal; `!=` is the negation. -/
theorem C56_equality (x y : DForm) :
    (SameKind x y → x.array.length = y.array.length →
      ∃ r, Decform.eq x y = .ok r ∧ Decform.ne x y = .ok (!r) ∧
        (r = true ↔ ∀ i < x.array.length, |x.array.getD i 0 - y.array.getD i 0| ≤ 1 / 10 ^ 8 + 1 / 10 ^ 5 * |y.array.getD i 0|)) ∧
    (¬ SameKind x y → Decform.eq x y = .ok false ∧ Decform.ne x y = .ok true) := by
  refine ⟨fun hk hl => ?_, fun hk => ?_⟩
  · obtain ⟨r, h1, h2⟩ := eq_same hk hl
    exact ⟨r, h1, by simp [Decform.ne, h1, Bind.bind, Except.bind], h2⟩
  · have h1 : Decform.eq x y = .ok false := if_neg hk
    exact ⟨h1, by simp [Decform.ne, h1, Bind.bind, Except.bind]⟩

/-- **C56**: `x == x` for every form. -/
theorem C56_reflexive (x : DForm) : Decform.eq x x = .ok true := by
  obtain ⟨r, h1, h2⟩ := eq_same (x := x) (y := x) ⟨rfl, rfl, rfl⟩ rfl
  rw [h1, h2.2 fun i _ => ?_]
  rw [sub_self, abs_zero]; positivity

/-- **C56**: the comparison is not symmetric: the tolerance is relative to the right operand only. -/
theorem C56_not_symmetric : ∃ x y : DForm, Decform.eq x y = .ok true ∧ Decform.eq y x = .ok false := by
  refine ⟨⟨0, true, 0, [0]⟩, ⟨0, true, 0, [1 / 10 ^ 8 + 1 / 10 ^ 14]⟩, ?_, ?_⟩
  · obtain ⟨r, h1, h2⟩ := eq_same (x := ⟨0, true, 0, [0]⟩) (y := ⟨0, true, 0, [1 / 10 ^ 8 + 1 / 10 ^ 14]⟩) ⟨rfl, rfl, rfl⟩ rfl
    rw [h1, h2.2]
    intro i hi
    obtain rfl : i = 0 := by simp at hi; exact hi
    simp only [List.getD_cons_zero]
    rw [zero_sub, abs_neg, abs_of_pos (by positivity)]
    norm_num
  · obtain ⟨r, h1, h2⟩ := eq_same (x := ⟨0, true, 0, [1 / 10 ^ 8 + 1 / 10 ^ 14]⟩) (y := ⟨0, true, 0, [0]⟩) ⟨rfl, rfl, rfl⟩ rfl
    rw [h1]
    congr 1
    rw [← Bool.not_eq_true, h2]
    intro h
    have := h 0 (by simp)
    simp only [List.getD_cons_zero] at this
    rw [sub_zero, abs_of_pos (by positivity)] at this
    norm_num at this

/-- **C56**: the comparison is not transitive. -/
theorem C56_not_transitive : ∃ x y z : DForm, Decform.eq x y = .ok true ∧ Decform.eq y z = .ok true ∧ Decform.eq x z = .ok false := by
  have key : ∀ a b : ℝ, ∃ r, Decform.eq ⟨0, true, 0, [a]⟩ ⟨0, true, 0, [b]⟩ = .ok r ∧ (r = true ↔ |a - b| ≤ 1 / 10 ^ 8 + 1 / 10 ^ 5 * |b|) := by
    intro a b
    obtain ⟨r, h1, h2⟩ := eq_same (x := ⟨0, true, 0, [a]⟩) (y := ⟨0, true, 0, [b]⟩) ⟨rfl, rfl, rfl⟩ rfl
    refine ⟨r, h1, h2.trans ⟨fun h => by simpa using h 0 (by simp), fun h i hi => ?_⟩⟩
    obtain rfl : i = 0 := by simp at hi; exact hi
    simpa using h
  refine ⟨⟨0, true, 0, [-1 / 10 ^ 8]⟩, ⟨0, true, 0, [0]⟩, ⟨0, true, 0, [1 / 10 ^ 8]⟩, ?_, ?_, ?_⟩
  · obtain ⟨r, h1, h2⟩ := key (-1 / 10 ^ 8) 0
    rw [h1, h2.2]
    rw [sub_zero, abs_div, abs_neg, abs_one, abs_of_pos (by positivity : (0 : ℝ) < 10 ^ 8)]
    norm_num
  · obtain ⟨r, h1, h2⟩ := key 0 (1 / 10 ^ 8)
    rw [h1, h2.2]
    rw [zero_sub, abs_neg, abs_of_pos (by positivity)]
    norm_num
  · obtain ⟨r, h1, h2⟩ := key (-1 / 10 ^ 8) (1 / 10 ^ 8)
    rw [h1]
    congr 1
    rw [← Bool.not_eq_true, h2, abs_of_neg (by norm_num), abs_of_pos (by positivity)]
    norm_num

end Dec.Props
