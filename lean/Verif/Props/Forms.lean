import Verif.Model.Forms
import Mathlib.Tactic
import Mathlib.Data.List.Nodup
import Mathlib.Data.Nat.Choose.Basic

set_option linter.unusedSimpArgs false
set_option linter.unusedVariables false

/-!
# C49: combinatorics of degrees
-/

namespace Dec.Props

open Dec.Forms

/-- C49: `nCr(n, r)` is the binomial coefficient for `0 ≤ r ≤ n`. -/
theorem C49_nCr (n r : ℕ) (h : r ≤ n) : nCr n r = .ok (n.choose r) := by
  have e1 : ((n : ℤ) - r).toNat = n - r := by omega
  unfold nCr
  rw [if_neg (by omega), Int.toNat_natCast, Int.toNat_natCast, e1, Nat.div_div_eq_div_mul, ← Nat.choose_eq_factorial_div_factorial h]

/-- C49: `nCr` raises `ValueError` for every other pair of integers. -/
theorem C49_nCr_raises (n r : ℤ) (h : ¬ (0 ≤ r ∧ r ≤ n)) : nCr n r = .error .valueError := by
  unfold nCr
  rw [if_pos (by omega)]

example : nCr 5 2 = .ok 10 ∧ nCr 2 3 = .error .valueError := by decide

theorem mem_irange {n : ℕ} {k : ℤ} : k ∈ irange n ↔ 0 ≤ k ∧ k < n := by
  unfold irange
  simp only [List.mem_map, List.mem_range]
  constructor
  · rintro ⟨a, ha, rfl⟩; omega
  · rintro ⟨h0, h1⟩; exact ⟨k.toNat, by omega, by omega⟩

theorem nodup_irange (n : ℕ) : (irange n).Nodup := by
  unfold irange
  exact List.nodup_range.map (fun a b h => by simpa using h)

theorem mem_product {α β : Type*} {a : List α} {b : List β} {p : α × β} : p ∈ product a b ↔ p.1 ∈ a ∧ p.2 ∈ b := by
  unfold product
  simp only [List.mem_flatMap, List.mem_map]
  constructor
  · rintro ⟨x, hx, y, hy, rfl⟩; exact ⟨hx, hy⟩
  · rintro ⟨hx, hy⟩; exact ⟨p.1, hx, p.2, hy, rfl⟩

theorem nodup_product {α β : Type*} {a : List α} {b : List β} (ha : a.Nodup) (hb : b.Nodup) : (product a b).Nodup := by
  have : product a b = a ×ˢ b := rfl
  rw [this]
  exact ha.product hb

/-- C49: `operators_by_degree(n)` lists the derivatives of forms of degree `0 … n-1`, each once, with the right codomain. -/
theorem C49_by_degree_D (n : ℕ) : (operators_by_degree n).D.Nodup ∧ ∀ k m : ℤ, (k, m) ∈ (operators_by_degree n).D ↔ 0 ≤ k ∧ k + 1 ≤ n ∧ m = k + 1 := by
  refine ⟨(nodup_irange n).map fun a b h => by simpa using congrArg Prod.fst h, fun k m => ?_⟩
  simp only [operators_by_degree, List.mem_map, mem_irange, Prod.mk.injEq]
  constructor
  · rintro ⟨a, ⟨h0, h1⟩, rfl, rfl⟩; omega
  · rintro ⟨h0, h1, rfl⟩; exact ⟨k, ⟨h0, by omega⟩, rfl, rfl⟩

/-- C49: the Hodge stars of every degree `0 … n`. -/
theorem C49_by_degree_H (n : ℕ) : (operators_by_degree n).H.Nodup ∧ ∀ k m : ℤ, (k, m) ∈ (operators_by_degree n).H ↔ 0 ≤ k ∧ 0 ≤ m ∧ k + m = n := by
  refine ⟨(nodup_irange (n + 1)).map fun a b h => by simpa using congrArg Prod.fst h, fun k m => ?_⟩
  simp only [operators_by_degree, List.mem_map, mem_irange, Prod.mk.injEq]
  constructor
  · rintro ⟨a, ⟨h0, h1⟩, rfl, rfl⟩; push_cast at h1; omega
  · rintro ⟨h0, h1, h2⟩; exact ⟨k, ⟨h0, by push_cast; omega⟩, rfl, by omega⟩

/-- C49: the wedge products whose result is a form, each unordered pair of degrees once. -/
theorem C49_by_degree_W (n : ℕ) : (operators_by_degree n).W.Nodup ∧
    ∀ k l m : ℤ, ((k, l), m) ∈ (operators_by_degree n).W ↔ 0 ≤ k ∧ k ≤ l ∧ m = k + l ∧ m ≤ n := by
  refine ⟨((nodup_product (nodup_irange _) (nodup_irange _)).filter _).map fun a b h => congrArg Prod.fst h, fun k l m => ?_⟩
  simp only [operators_by_degree, List.mem_map, List.mem_filter, mem_product, mem_irange, Prod.mk.injEq, decide_eq_true_eq, Nat.cast_add, Nat.cast_one]
  constructor
  · rintro ⟨⟨a, b⟩, ⟨⟨⟨h0, h1⟩, h2, h3⟩, h4, h5⟩, hab, hm⟩
    cases hab
    dsimp only at *
    exact ⟨h0, h4, hm.symm, by omega⟩
  · rintro ⟨h0, h1, rfl, h2⟩
    refine ⟨(k, l), ⟨⟨⟨?_, ?_⟩, ?_, ?_⟩, ?_, ?_⟩, rfl, rfl⟩ <;> dsimp only <;> omega

/-- C49: the contractions of forms of degree `1 … n`. -/
theorem C49_by_degree_C (n : ℕ) : (operators_by_degree n).C.Nodup ∧
    ∀ k l m : ℤ, ((k, l), m) ∈ (operators_by_degree n).C ↔ k = 1 ∧ 1 ≤ l ∧ l ≤ n ∧ m = l - 1 := by
  have e : (irange (n + 1)).drop 1 = (List.range n).map fun k : ℕ => ((k : ℤ) + 1) := by
    unfold irange
    rw [List.range_succ_eq_map]
    simp [Function.comp_def]
  refine ⟨?_, fun k l m => ?_⟩
  · show (((irange (n + 1)).drop 1).map fun k : ℤ => (((1 : ℤ), k), k - 1)).Nodup
    rw [e]
    refine (List.nodup_range.map fun a b h => by simpa using h).map fun a b h => by simpa using congrArg (fun q => q.1.2) h
  · simp only [operators_by_degree, e, List.mem_map, List.mem_range, Prod.mk.injEq]
    constructor
    · rintro ⟨a, ⟨b, hb, rfl⟩, ⟨rfl, rfl⟩, rfl⟩; omega
    · rintro ⟨rfl, h1, h2, rfl⟩; exact ⟨l, ⟨(l - 1).toNat, by omega, by omega⟩, ⟨rfl, rfl⟩, rfl⟩

/-- C49: `operators_by_degree` agrees with the degree functions of `operators_lambda`. -/
theorem C49_lambda (n : ℕ) :
    (∀ p ∈ (operators_by_degree n).D, p.2 = lamD p.1) ∧ (∀ p ∈ (operators_by_degree n).H, p.2 = lamH n p.1) ∧
    (∀ p ∈ (operators_by_degree n).W, p.2 = lamW p.1.1 p.1.2) ∧ (∀ p ∈ (operators_by_degree n).C, lamC p.1.1 p.1.2 = .ok p.2) := by
  refine ⟨fun p hp => ?_, fun p hp => ?_, fun p hp => ?_, fun p hp => ?_⟩
  · exact (((C49_by_degree_D n).2 p.1 p.2).1 hp).2.2
  · have := ((C49_by_degree_H n).2 p.1 p.2).1 hp
    unfold lamH; omega
  · exact (((C49_by_degree_W n).2 p.1.1 p.1.2 p.2).1 hp).2.2.1
  · obtain ⟨h1, _, _, h2⟩ := ((C49_by_degree_C n).2 p.1.1 p.1.2 p.2).1 hp
    unfold lamC; rw [if_pos h1, h2]

theorem C49_lambda_asserts (k l : ℤ) (h : k ≠ 1) : lamC k l = .error .assertion := if_neg h

/-- The kinds of forms in dimension `n`. -/
def IsKind (n : ℕ) (f : ℤ × Bool) : Prop := 0 ≤ f.1 ∧ f.1 ≤ n

theorem mem_forms {n : ℕ} {f : FKind} : f ∈ product (irange (n + 1)) [true, false] ↔ IsKind n f := by
  rw [mem_product, mem_irange]
  unfold IsKind
  obtain ⟨k, t⟩ := f
  cases t <;> simp

theorem nodup_forms (n : ℕ) : (product (irange (n + 1)) [true, false]).Nodup := nodup_product (nodup_irange _) (by simp)

/-- C49: `operators(n)` lists one projection and one reconstruction for every kind of form, one derivative for every kind of form of
degree less than `n`, and one Hodge star for every kind of form; the star changes `(k, t)` into `(n - k, not t)` and the derivative
`(k, t)` into `(k + 1, t)`. -/
theorem C49_operators (n : ℕ) (a : String) (s t : Option FKind) :
    ((a, s, t) ∈ (operators n).P ↔ ∃ f, IsKind n f ∧ a = opName "P" f.1 f.2 ∧ s = none ∧ t = some f) ∧
    ((a, s, t) ∈ (operators n).R ↔ ∃ f, IsKind n f ∧ a = opName "R" f.1 f.2 ∧ s = some f ∧ t = none) ∧
    ((a, s, t) ∈ (operators n).D ↔ ∃ f, IsKind n f ∧ IsKind n (f.1 + 1, f.2) ∧ a = opName "D" f.1 f.2 ∧ s = some f ∧ t = some (f.1 + 1, f.2)) ∧
    ((a, s, t) ∈ (operators n).H ↔ ∃ f g, IsKind n f ∧ IsKind n g ∧ f.1 + g.1 = n ∧ g.2 = !f.2 ∧ a = opName "H" f.1 f.2 ∧ s = some f ∧ t = some g) := by
  refine ⟨?_, ?_, ?_, ?_⟩
  · simp only [operators, List.mem_map, mem_forms, Prod.mk.injEq]
    constructor
    · rintro ⟨f, hf, rfl, rfl, rfl⟩; exact ⟨f, hf, rfl, rfl, rfl⟩
    · rintro ⟨f, hf, rfl, rfl, rfl⟩; exact ⟨f, hf, rfl, rfl, rfl⟩
  · simp only [operators, List.mem_map, mem_forms, Prod.mk.injEq]
    constructor
    · rintro ⟨f, hf, rfl, rfl, rfl⟩; exact ⟨f, hf, rfl, rfl, rfl⟩
    · rintro ⟨f, hf, rfl, rfl, rfl⟩; exact ⟨f, hf, rfl, rfl, rfl⟩
  · simp only [operators, List.mem_map, List.mem_filter, mem_forms, Prod.mk.injEq, decide_eq_true_eq]
    constructor
    · rintro ⟨f, ⟨hf, hn⟩, rfl, rfl, rfl⟩; exact ⟨f, hf, ⟨by have := hf.1; simp only; omega, by simp only; omega⟩, rfl, rfl, rfl⟩
    · rintro ⟨f, hf, hg, rfl, rfl, rfl⟩; exact ⟨f, ⟨hf, by have := hg.2; simp only at this; omega⟩, rfl, rfl, rfl⟩
  · simp only [operators, List.mem_map, mem_forms, Prod.mk.injEq]
    constructor
    · rintro ⟨f, hf, rfl, rfl, rfl⟩
      exact ⟨f, ((n : ℤ) - f.1, !f.2), hf, ⟨by have := hf.2; simp only; omega, by have := hf.1; simp only; omega⟩, by simp only; omega, rfl, rfl, rfl, rfl⟩
    · rintro ⟨f, g, hf, hg, h1, h2, rfl, rfl, rfl⟩
      exact ⟨f, hf, rfl, rfl, by congr 1; ext <;> simp [h2]; omega⟩

/-- C49: every operator is listed once. -/
theorem C49_operators_nodup (n : ℕ) : (operators n).P.Nodup ∧ (operators n).R.Nodup ∧ (operators n).D.Nodup ∧ (operators n).H.Nodup := by
  have h := nodup_forms n
  refine ⟨h.map fun a b e => ?_, h.map fun a b e => ?_, (h.filter _).map fun a b e => ?_, h.map fun a b e => ?_⟩
  · simpa using congrArg (fun q : Op => q.2.2) e
  all_goals simpa using congrArg (fun q : Op => q.2.1) e

/-- Non-vacuity: in dimension two. -/
example : (operators 2).D = [("D0", some (0, true), some (1, true)), ("D0d", some (0, false), some (1, false)),
    ("D1", some (1, true), some (2, true)), ("D1d", some (1, false), some (2, false))] := by decide

end Dec.Props
