import Verif.Props.DecformOps
import Verif.Lib.Lin2
import Verif.Lib.Laplace

set_option linter.unusedSimpArgs false
set_option linter.unusedVariables false

/-! # C89: expressions of discrete forms

Expressions are what a user writes with forms: sums, differences, multiples, `.D`, `.H`, `^`, `.W(…, toprimal)` and `.C(…, toprimal)`. A type is a degree with a side. Well-typed expressions never raise
and have the value their type promises, and an expression is a linear function of every variable that occurs linearly in it. -/

namespace Dec.Props

open Dec.Decform Dec.G2

/-- What a user writes. -/
inductive Expr
  | var (i : ℕ)
  | add (a b : Expr)
  | sub (a b : Expr)
  | neg (a : Expr)
  | scale (c : ℝ) (a : Expr)
  | der (a : Expr)
  | star (a : Expr)
  | wedge (a b : Expr) (toprimal : Bool)
  | contr (a b : Expr) (toprimal : Bool)

/-- Python evaluates the operands from left to right and then applies the method of `Model/Decform.lean`. (The integer `0`, which the derivative of a 1-form on a one-dimensional grid is, is not a form: no
well-typed expression contains it.) -/
noncomputable def Expr.eval (h : Heap) (env : ℕ → DForm) : Expr → Except Err DForm
  | .var i => .ok (env i)
  | .add a b => do let x ← a.eval h env; let y ← b.eval h env; binary .add x (.form y)
  | .sub a b => do let x ← a.eval h env; let y ← b.eval h env; binary .sub x (.form y)
  | .neg a => do let x ← a.eval h env; .ok (Decform.neg x)
  | .scale c a => do let x ← a.eval h env; binary .rmul x (.scalar c)
  | .der a => do
    let x ← a.eval h env
    match ← D h x with
    | some y => .ok y
    | none => .error .typeError
  | .star a => do let x ← a.eval h env; H h x
  | .wedge a b u => do let x ← a.eval h env; let y ← b.eval h env; W h x y u
  | .contr a b u => do let x ← a.eval h env; let y ← b.eval h env; C h x y u

/-- `HasType dim products Γ e d t`: with variables of the types `Γ`, the expression `e` is a form of degree `d` on the primal (`t = true`) or dual side. `products` tells whether the grid has
wedge products and contractions. -/
inductive HasType (dim : ℕ) (products : Bool) (Γ : ℕ → ℕ × Bool) : Expr → ℕ → Bool → Prop
  | var (i : ℕ) : (Γ i).1 ≤ dim → HasType dim products Γ (.var i) (Γ i).1 (Γ i).2
  | add {a b d t} : HasType dim products Γ a d t → HasType dim products Γ b d t → HasType dim products Γ (.add a b) d t
  | sub {a b d t} : HasType dim products Γ a d t → HasType dim products Γ b d t → HasType dim products Γ (.sub a b) d t
  | neg {a d t} : HasType dim products Γ a d t → HasType dim products Γ (.neg a) d t
  | scale {a d t} (c : ℝ) : HasType dim products Γ a d t → HasType dim products Γ (.scale c a) d t
  | der {a d t} : HasType dim products Γ a d t → d < dim → HasType dim products Γ (.der a) (d + 1) t
  | star {a d t} : HasType dim products Γ a d t → HasType dim products Γ (.star a) (dim - d) (!t)
  | wedge {a b d e s t} (u : Bool) : products = true → HasType dim products Γ a d s → HasType dim products Γ b e t → d + e ≤ dim → HasType dim products Γ (.wedge a b u) (d + e) u
  | contr {a b e s t} (u : Bool) : products = true → HasType dim products Γ a 1 s → HasType dim products Γ b e t → 1 ≤ e → HasType dim products Γ (.contr a b u) (e - 1) u

/-- The variable occurs in the expression. -/
def Expr.mentions (i : ℕ) : Expr → Prop
  | .var j => j = i
  | .add a b => a.mentions i ∨ b.mentions i
  | .sub a b => a.mentions i ∨ b.mentions i
  | .neg a => a.mentions i
  | .scale _ a => a.mentions i
  | .der a => a.mentions i
  | .star a => a.mentions i
  | .wedge a b _ => a.mentions i ∨ b.mentions i
  | .contr a b _ => a.mentions i ∨ b.mentions i

/-- The variable `i` occurs linearly: in every summand, and in exactly one factor of every product. -/
inductive LinearIn (i : ℕ) : Expr → Prop
  | var : LinearIn i (.var i)
  | add {a b} : LinearIn i a → LinearIn i b → LinearIn i (.add a b)
  | sub {a b} : LinearIn i a → LinearIn i b → LinearIn i (.sub a b)
  | neg {a} : LinearIn i a → LinearIn i (.neg a)
  | scale {a} (c : ℝ) : LinearIn i a → LinearIn i (.scale c a)
  | der {a} : LinearIn i a → LinearIn i (.der a)
  | star {a} : LinearIn i a → LinearIn i (.star a)
  | wedgeLeft {a b} (u : Bool) : LinearIn i a → ¬ b.mentions i → LinearIn i (.wedge a b u)
  | wedgeRight {a b} (u : Bool) : ¬ a.mentions i → LinearIn i b → LinearIn i (.wedge a b u)
  | contrLeft {a b} (u : Bool) : LinearIn i a → ¬ b.mentions i → LinearIn i (.contr a b u)
  | contrRight {a b} (u : Bool) : ¬ a.mentions i → LinearIn i b → LinearIn i (.contr a b u)

/-- `x` is a well-formed form of the stated degree and side on the grid at the address `g`. -/
def IsOf (h : Heap) (g d : ℕ) (t : Bool) (x : DForm) : Prop := x.grid = g ∧ x.degree = d ∧ x.isprimal = t ∧ WellFormed h x

/-- `z` is `c*x + y`, entry by entry, and has their kind. -/
def Comb (c : ℝ) (x y z : DForm) : Prop :=
  SameKind x z ∧ SameKind y z ∧ x.array.length = z.array.length ∧ y.array.length = z.array.length ∧
    ∀ i < z.array.length, z.array.getD i 0 = c * x.array.getD i 0 + y.array.getD i 0

/-- The environment with one variable replaced. -/
def withVar (env : ℕ → DForm) (i : ℕ) (x : DForm) : ℕ → DForm := fun j => if j = i then x else env j

/-! ## What the proofs need of a grid -/

/-- The operators of a grid are total on arrays of the right lengths, and linear. -/
structure SoundOps (o : Ops) (products : Bool) (c : ℕ → Bool → ℕ) : Prop where
  N : ∀ d t, d ≤ o.dim → o.N d t = .ok (c d t)
  D : ∀ d t, d < o.dim → ∃ L : List ℝ → List ℝ, Lin (c d t) (c (d + 1) t) L ∧ ∀ a : List ℝ, a.length = c d t → o.D d t a = .ok (some (L a))
  H : ∀ d t, d ≤ o.dim → ELin (c d t) (c (o.dim - d) (!t)) (o.H d t)
  W : products = true → ∀ d p e q u, d + e ≤ o.dim → EBil (c d p) (c e q) (c (d + e) u) (o.W d p e q u)
  C : products = true → ∀ p e q u, 1 ≤ e → e ≤ o.dim → EBil (c 1 p) (c e q) (c (e - 1) u) (o.C p e q u)

variable {h : Heap} {g : ℕ} {products : Bool} {c : ℕ → Bool → ℕ} {Γ : ℕ → ℕ × Bool} {env : ℕ → DForm}

theorem isOf_length {d : ℕ} {t : Bool} {x : DForm} (S : SoundOps (h g) products c) (hd : d ≤ (h g).dim) (hx : IsOf h g d t x) : x.array.length = c d t := by
  obtain ⟨rfl, rfl, rfl, hw⟩ := hx
  unfold WellFormed at hw
  rw [S.N _ _ hd] at hw
  injection hw with hw
  exact hw.symm

theorem isOf_of {d : ℕ} {t : Bool} {a : List ℝ} (S : SoundOps (h g) products c) (hd : d ≤ (h g).dim) (ha : a.length = c d t) : IsOf h g d t ⟨d, t, g, a⟩ := by
  refine ⟨rfl, rfl, rfl, ?_⟩
  unfold WellFormed
  rw [S.N _ _ hd, ha]

theorem IsOf.eq {d : ℕ} {t : Bool} {x : DForm} (hx : IsOf h g d t x) : x = ⟨d, t, g, x.array⟩ := by
  obtain ⟨rfl, rfl, rfl, -⟩ := hx
  rfl

theorem HasType.le {e : Expr} {d : ℕ} {t : Bool} {dim : ℕ} (he : HasType dim products Γ e d t) : d ≤ dim := by
  induction he with
  | var i hi => exact hi
  | add _ _ ih _ => exact ih
  | sub _ _ ih _ => exact ih
  | neg _ ih => exact ih
  | scale _ _ ih => exact ih
  | der _ hd _ => exact hd
  | star _ _ => exact Nat.sub_le _ _
  | wedge _ _ _ _ hd _ _ => exact hd
  | contr _ _ _ _ _ _ ih => omega

/-- The value of an expression, described by what it does to arrays. -/
theorem eval_binary {op : BinOp} {d : ℕ} {t : Bool} {a b : List ℝ} (hl : a.length = b.length) :
    binary op ⟨d, t, g, a⟩ (.form ⟨d, t, g, b⟩) = .ok ⟨d, t, g, List.zipWith op.fn a b⟩ :=
  binary_form op (x := ⟨d, t, g, a⟩) (y := ⟨d, t, g, b⟩) ⟨rfl, rfl, rfl⟩ hl

theorem eval_sound (S : SoundOps (h g) products c) (hΓ : ∀ i, IsOf h g (Γ i).1 (Γ i).2 (env i)) {e : Expr} {d : ℕ} {t : Bool}
    (he : HasType (h g).dim products Γ e d t) : ∃ z, e.eval h env = .ok z ∧ IsOf h g d t z := by
  induction he with
  | var i hi => exact ⟨_, rfl, hΓ i⟩
  | @add a b d t ha hb iha ihb =>
    obtain ⟨x, ex, hx⟩ := iha
    obtain ⟨y, ey, hy⟩ := ihb
    have lx := isOf_length S ha.le hx
    have ly := isOf_length S ha.le hy
    refine ⟨⟨d, t, g, List.zipWith BinOp.add.fn x.array y.array⟩, ?_, isOf_of S ha.le (by simp [lx, ly])⟩
    simp only [Expr.eval, ex, ey, bind, Except.bind]
    rw [hx.eq, hy.eq]; exact eval_binary (by rw [lx, ly])
  | @sub a b d t ha hb iha ihb =>
    obtain ⟨x, ex, hx⟩ := iha
    obtain ⟨y, ey, hy⟩ := ihb
    have lx := isOf_length S ha.le hx
    have ly := isOf_length S ha.le hy
    refine ⟨⟨d, t, g, List.zipWith BinOp.sub.fn x.array y.array⟩, ?_, isOf_of S ha.le (by simp [lx, ly])⟩
    simp only [Expr.eval, ex, ey, bind, Except.bind]
    rw [hx.eq, hy.eq]; exact eval_binary (by rw [lx, ly])
  | @neg a d t ha iha =>
    obtain ⟨x, ex, hx⟩ := iha
    have lx := isOf_length S ha.le hx
    refine ⟨Decform.neg x, by simp only [Expr.eval, ex, bind, Except.bind], ?_⟩
    rw [hx.eq]; exact isOf_of S ha.le (by simp [lx])
  | @scale a d t r ha iha =>
    obtain ⟨x, ex, hx⟩ := iha
    have lx := isOf_length S ha.le hx
    refine ⟨⟨d, t, g, x.array.map (BinOp.rmul.fn · r)⟩, ?_, isOf_of S ha.le (by simp [lx])⟩
    simp only [Expr.eval, ex, bind, Except.bind]
    rw [hx.eq]; rfl
  | @der a d t ha hd iha =>
    obtain ⟨x, ex, hx⟩ := iha
    have lx := isOf_length S ha.le hx
    obtain ⟨L, hL, eL⟩ := S.D d t hd
    refine ⟨⟨d + 1, t, g, L x.array⟩, ?_, isOf_of S hd (hL.len _ lx)⟩
    simp only [Expr.eval, ex, bind, Except.bind]
    rw [hx.eq]
    simp only [D, bind, Except.bind, eL _ lx]
  | @star a d t ha iha =>
    obtain ⟨x, ex, hx⟩ := iha
    have lx := isOf_length S ha.le hx
    obtain ⟨L, hL, eL⟩ := S.H d t ha.le
    refine ⟨⟨(h g).dim - d, !t, g, L x.array⟩, ?_, isOf_of S (Nat.sub_le _ _) (hL.len _ lx)⟩
    simp only [Expr.eval, ex, bind, Except.bind]
    rw [hx.eq]
    simp only [H, bind, Except.bind, eL _ lx]
  | @wedge a b d e s t u hp ha hb hd iha ihb =>
    obtain ⟨x, ex, hx⟩ := iha
    obtain ⟨y, ey, hy⟩ := ihb
    have lx := isOf_length S ha.le hx
    have ly := isOf_length S hb.le hy
    obtain ⟨B, hB, eB⟩ := S.W hp d s e t u hd
    refine ⟨⟨d + e, u, g, B x.array y.array⟩, ?_, isOf_of S hd ((hB.left _ ly).len _ lx)⟩
    simp only [Expr.eval, ex, ey, bind, Except.bind]
    rw [hx.eq, hy.eq]
    simp only [W, bind, Except.bind, eB _ _ lx ly, ne_eq, not_true_eq_false, if_false]
  | @contr a b e s t u hp ha hb hd iha ihb =>
    obtain ⟨x, ex, hx⟩ := iha
    obtain ⟨y, ey, hy⟩ := ihb
    have lx := isOf_length S ha.le hx
    have ly := isOf_length S hb.le hy
    obtain ⟨B, hB, eB⟩ := S.C hp s e t u hd hb.le
    refine ⟨⟨e - 1, u, g, B x.array y.array⟩, ?_, isOf_of S (by have := hb.le; omega) ((hB.left _ ly).len _ lx)⟩
    simp only [Expr.eval, ex, ey, bind, Except.bind]
    rw [hx.eq, hy.eq]
    simp only [C, bind, Except.bind, eB _ _ lx ly, ne_eq, not_true_eq_false, or_self, if_false]

/-! ## Linear combinations of arrays -/

/-- `z = r x + y` for arrays of length `n`. -/
def LC (n : ℕ) (r : ℝ) (x y z : List ℝ) : Prop :=
  x.length = n ∧ y.length = n ∧ z.length = n ∧ ∀ i < n, z.getD i 0 = r * x.getD i 0 + y.getD i 0

theorem LC.eq {n : ℕ} {r : ℝ} {x y z : List ℝ} (h : LC n r x y z) : z = vadd (x.map (r • ·)) y := by
  obtain ⟨hx, hy, hz, he⟩ := h
  refine List.ext_getElem (by simp [hx, hy, hz]) fun i h1 h2 => ?_
  have := he i (hz ▸ h1)
  rw [List.getD_eq_getElem?_getD, List.getD_eq_getElem?_getD, List.getD_eq_getElem?_getD, List.getElem?_eq_getElem h1, List.getElem?_eq_getElem (by omega),
    List.getElem?_eq_getElem (by omega)] at this
  simpa [vadd] using this

theorem LC.of_eq {n : ℕ} {r : ℝ} {x y z : List ℝ} (hx : x.length = n) (hy : y.length = n) (h : z = vadd (x.map (r • ·)) y) : LC n r x y z := by
  subst h
  refine ⟨hx, hy, by simp [hx, hy], fun i hi => ?_⟩
  rw [getD_vadd (by simp [hx]) hy hi, getD_smul r hx hi]

theorem LC.map {n m : ℕ} {r : ℝ} {x y z : List ℝ} (h : LC n r x y z) {L : List ℝ → List ℝ} (hL : Lin n m L) : LC m r (L x) (L y) (L z) := by
  refine LC.of_eq (hL.len _ h.1) (hL.len _ h.2.1) ?_
  rw [h.eq, hL.add _ _ (by simp [h.1]) h.2.1, hL.smul r x h.1]

theorem getD_zipWith {n i : ℕ} (f : ℝ → ℝ → ℝ) {x y : List ℝ} (hx : x.length = n) (hy : y.length = n) (hi : i < n) :
    (List.zipWith f x y).getD i 0 = f (x.getD i 0) (y.getD i 0) := by
  rw [List.getD_eq_getElem?_getD, List.getD_eq_getElem?_getD, List.getD_eq_getElem?_getD, List.getElem?_eq_getElem (by simp [hx, hy, hi]), List.getElem?_eq_getElem (by omega),
    List.getElem?_eq_getElem (by omega)]
  simp

theorem getD_mapReal {n i : ℕ} (f : ℝ → ℝ) {x : List ℝ} (hx : x.length = n) (hi : i < n) : (x.map f).getD i 0 = f (x.getD i 0) := by
  rw [List.getD_eq_getElem?_getD, List.getD_eq_getElem?_getD, List.getElem?_eq_getElem (by simp [hx, hi]), List.getElem?_eq_getElem (by omega)]
  simp

theorem LC.zipWith {n : ℕ} {r : ℝ} {x y z x' y' z' : List ℝ} (h : LC n r x y z) (h' : LC n r x' y' z') (f : ℝ → ℝ → ℝ)
    (hf : ∀ a b a' b' : ℝ, f (r * a + b) (r * a' + b') = r * f a a' + f b b') : LC n r (List.zipWith f x x') (List.zipWith f y y') (List.zipWith f z z') := by
  obtain ⟨h1, h2, h3, h4⟩ := h
  obtain ⟨h1', h2', h3', h4'⟩ := h'
  refine ⟨by simp [h1, h1'], by simp [h2, h2'], by simp [h3, h3'], fun i hi => ?_⟩
  rw [getD_zipWith f h1 h1' hi, getD_zipWith f h2 h2' hi, getD_zipWith f h3 h3' hi, h4 i hi, h4' i hi, hf]

theorem LC.mapWith {n : ℕ} {r : ℝ} {x y z : List ℝ} (h : LC n r x y z) (f : ℝ → ℝ) (hf : ∀ a b : ℝ, f (r * a + b) = r * f a + f b) :
    LC n r (x.map f) (y.map f) (z.map f) := by
  obtain ⟨h1, h2, h3, h4⟩ := h
  refine ⟨by simp [h1], by simp [h2], by simp [h3], fun i hi => ?_⟩
  rw [getD_mapReal f h1 hi, getD_mapReal f h2 hi, getD_mapReal f h3 hi, h4 i hi, hf]

theorem Comb.lc {r : ℝ} {d : ℕ} {t : Bool} {x y z : DForm} (S : SoundOps (h g) products c) (hd : d ≤ (h g).dim) (hx : IsOf h g d t x) (hy : IsOf h g d t y) (hz : IsOf h g d t z)
    (hc : Comb r x y z) : LC (c d t) r x.array y.array z.array := by
  have lz := isOf_length S hd hz
  exact ⟨isOf_length S hd hx, isOf_length S hd hy, lz, fun i hi => hc.2.2.2.2 i (by omega)⟩

theorem LC.comb {r : ℝ} {n d : ℕ} {t : Bool} {x y z : DForm} (hx : IsOf h g d t x) (hy : IsOf h g d t y) (hz : IsOf h g d t z) (hl : LC n r x.array y.array z.array) :
    Comb r x y z := by
  obtain ⟨h1, h2, h3, -⟩ := hx
  obtain ⟨h1', h2', h3', -⟩ := hy
  obtain ⟨h1'', h2'', h3'', -⟩ := hz
  obtain ⟨l1, l2, l3, l4⟩ := hl
  refine ⟨⟨by rw [h2, h2''], by rw [h3, h3''], by rw [h1, h1'']⟩, ⟨by rw [h2', h2''], by rw [h3', h3''], by rw [h1', h1'']⟩, by rw [l1, l3], by rw [l2, l3], fun i hi => l4 i (by omega)⟩

theorem eval_congr {e : Expr} {i : ℕ} (he : ¬ e.mentions i) (X Y : DForm) : e.eval h (withVar env i X) = e.eval h (withVar env i Y) := by
  induction e with
  | var j =>
    have hj : ¬ j = i := he
    simp only [Expr.eval, withVar, if_neg hj]
  | add a b iha ihb => simp only [Expr.mentions, not_or] at he; simp only [Expr.eval, iha he.1, ihb he.2]
  | sub a b iha ihb => simp only [Expr.mentions, not_or] at he; simp only [Expr.eval, iha he.1, ihb he.2]
  | neg a iha => simp only [Expr.eval, iha he]
  | scale c a iha => simp only [Expr.eval, iha he]
  | der a iha => simp only [Expr.eval, iha he]
  | star a iha => simp only [Expr.eval, iha he]
  | wedge a b u iha ihb => simp only [Expr.mentions, not_or] at he; simp only [Expr.eval, iha he.1, ihb he.2]
  | contr a b u iha ihb => simp only [Expr.mentions, not_or] at he; simp only [Expr.eval, iha he.1, ihb he.2]

theorem withVar_ok {i : ℕ} {X : DForm} (hΓ : ∀ i, IsOf h g (Γ i).1 (Γ i).2 (env i)) (hX : IsOf h g (Γ i).1 (Γ i).2 X) (j : ℕ) :
    IsOf h g (Γ j).1 (Γ j).2 (withVar env i X j) := by
  unfold withVar
  split_ifs with hj
  · subst hj; exact hX
  · exact hΓ j

/-- The three values of an expression that is linear in a variable. -/
theorem eval_linear (S : SoundOps (h g) products c) (hΓ : ∀ i, IsOf h g (Γ i).1 (Γ i).2 (env i)) {i : ℕ} {r : ℝ} {X Y Z : DForm} (hX : IsOf h g (Γ i).1 (Γ i).2 X)
    (hY : IsOf h g (Γ i).1 (Γ i).2 Y) (hZ : IsOf h g (Γ i).1 (Γ i).2 Z) (hc : Comb r X Y Z) {e : Expr} {d : ℕ} {t : Bool}
    (he : HasType (h g).dim products Γ e d t) (hl : LinearIn i e) :
    ∃ x y z : List ℝ, e.eval h (withVar env i X) = .ok ⟨d, t, g, x⟩ ∧ e.eval h (withVar env i Y) = .ok ⟨d, t, g, y⟩ ∧ e.eval h (withVar env i Z) = .ok ⟨d, t, g, z⟩ ∧
      LC (c d t) r x y z := by
  induction he with
  | var j hj =>
    cases hl
    refine ⟨X.array, Y.array, Z.array, ?_, ?_, ?_, hc.lc S hj hX hY hZ⟩
    · simp only [Expr.eval, withVar, if_true]; rw [← hX.eq]
    · simp only [Expr.eval, withVar, if_true]; rw [← hY.eq]
    · simp only [Expr.eval, withVar, if_true]; rw [← hZ.eq]
  | @add a b d t ha hb iha ihb =>
    cases hl with | add la lb =>
    obtain ⟨x, y, z, ex, ey, ez, hh⟩ := iha la
    obtain ⟨x', y', z', ex', ey', ez', hh'⟩ := ihb lb
    refine ⟨_, _, _, ?_, ?_, ?_, hh.zipWith hh' BinOp.add.fn (fun a b a' b' => by simp only [BinOp.fn]; ring)⟩
    · simp only [Expr.eval, ex, ex', bind, Except.bind]; exact eval_binary (by rw [hh.1, hh'.1])
    · simp only [Expr.eval, ey, ey', bind, Except.bind]; exact eval_binary (by rw [hh.2.1, hh'.2.1])
    · simp only [Expr.eval, ez, ez', bind, Except.bind]; exact eval_binary (by rw [hh.2.2.1, hh'.2.2.1])
  | @sub a b d t ha hb iha ihb =>
    cases hl with | sub la lb =>
    obtain ⟨x, y, z, ex, ey, ez, hh⟩ := iha la
    obtain ⟨x', y', z', ex', ey', ez', hh'⟩ := ihb lb
    refine ⟨_, _, _, ?_, ?_, ?_, hh.zipWith hh' BinOp.sub.fn (fun a b a' b' => by simp only [BinOp.fn]; ring)⟩
    · simp only [Expr.eval, ex, ex', bind, Except.bind]; exact eval_binary (by rw [hh.1, hh'.1])
    · simp only [Expr.eval, ey, ey', bind, Except.bind]; exact eval_binary (by rw [hh.2.1, hh'.2.1])
    · simp only [Expr.eval, ez, ez', bind, Except.bind]; exact eval_binary (by rw [hh.2.2.1, hh'.2.2.1])
  | @neg a d t ha iha =>
    cases hl with | neg la =>
    obtain ⟨x, y, z, ex, ey, ez, hh⟩ := iha la
    refine ⟨_, _, _, ?_, ?_, ?_, hh.mapWith (- ·) (fun a b => by ring)⟩
    · simp only [Expr.eval, ex, bind, Except.bind]; rfl
    · simp only [Expr.eval, ey, bind, Except.bind]; rfl
    · simp only [Expr.eval, ez, bind, Except.bind]; rfl
  | @scale a d t q ha iha =>
    cases hl with | scale _ la =>
    obtain ⟨x, y, z, ex, ey, ez, hh⟩ := iha la
    refine ⟨_, _, _, ?_, ?_, ?_, hh.mapWith (BinOp.rmul.fn · q) (fun a b => by simp only [BinOp.fn]; ring)⟩
    · simp only [Expr.eval, ex, bind, Except.bind]; rfl
    · simp only [Expr.eval, ey, bind, Except.bind]; rfl
    · simp only [Expr.eval, ez, bind, Except.bind]; rfl
  | @der a d t ha hd iha =>
    cases hl with | der la =>
    obtain ⟨x, y, z, ex, ey, ez, hh⟩ := iha la
    obtain ⟨L, hL, eL⟩ := S.D d t hd
    refine ⟨_, _, _, ?_, ?_, ?_, hh.map hL⟩
    · simp only [Expr.eval, ex, D, bind, Except.bind, eL _ hh.1]
    · simp only [Expr.eval, ey, D, bind, Except.bind, eL _ hh.2.1]
    · simp only [Expr.eval, ez, D, bind, Except.bind, eL _ hh.2.2.1]
  | @star a d t ha iha =>
    cases hl with | star la =>
    obtain ⟨x, y, z, ex, ey, ez, hh⟩ := iha la
    obtain ⟨L, hL, eL⟩ := S.H d t ha.le
    refine ⟨_, _, _, ?_, ?_, ?_, hh.map hL⟩
    · simp only [Expr.eval, ex, H, bind, Except.bind, eL _ hh.1]
    · simp only [Expr.eval, ey, H, bind, Except.bind, eL _ hh.2.1]
    · simp only [Expr.eval, ez, H, bind, Except.bind, eL _ hh.2.2.1]
  | @wedge a b d e s t u hp ha hb hd iha ihb =>
    obtain ⟨B, hB, eB⟩ := S.W hp d s e t u hd
    cases hl with
    | wedgeLeft _ la lb =>
      obtain ⟨x, y, z, ex, ey, ez, hh⟩ := iha la
      obtain ⟨w, ew, hw⟩ := eval_sound S (withVar_ok hΓ hX) hb
      have lw := isOf_length S hb.le hw
      rw [hw.eq] at ew
      have ewY := (eval_congr (h := h) (env := env) lb Y X).trans ew
      have ewZ := (eval_congr (h := h) (env := env) lb Z X).trans ew
      refine ⟨_, _, _, ?_, ?_, ?_, hh.map (hB.left _ lw)⟩
      · simp only [Expr.eval, ex, ew, W, bind, Except.bind, eB _ _ hh.1 lw, ne_eq, not_true_eq_false, if_false]
      · simp only [Expr.eval, ey, ewY, W, bind, Except.bind, eB _ _ hh.2.1 lw, ne_eq, not_true_eq_false, if_false]
      · simp only [Expr.eval, ez, ewZ, W, bind, Except.bind, eB _ _ hh.2.2.1 lw, ne_eq, not_true_eq_false, if_false]
    | wedgeRight _ la lb =>
      obtain ⟨x, y, z, ex, ey, ez, hh⟩ := ihb lb
      obtain ⟨w, ew, hw⟩ := eval_sound S (withVar_ok hΓ hX) ha
      have lw := isOf_length S ha.le hw
      rw [hw.eq] at ew
      have ewY := (eval_congr (h := h) (env := env) la Y X).trans ew
      have ewZ := (eval_congr (h := h) (env := env) la Z X).trans ew
      refine ⟨_, _, _, ?_, ?_, ?_, hh.map (hB.right _ lw)⟩
      · simp only [Expr.eval, ex, ew, W, bind, Except.bind, eB _ _ lw hh.1, ne_eq, not_true_eq_false, if_false]
      · simp only [Expr.eval, ey, ewY, W, bind, Except.bind, eB _ _ lw hh.2.1, ne_eq, not_true_eq_false, if_false]
      · simp only [Expr.eval, ez, ewZ, W, bind, Except.bind, eB _ _ lw hh.2.2.1, ne_eq, not_true_eq_false, if_false]
  | @contr a b e s t u hp ha hb hd iha ihb =>
    obtain ⟨B, hB, eB⟩ := S.C hp s e t u hd hb.le
    cases hl with
    | contrLeft _ la lb =>
      obtain ⟨x, y, z, ex, ey, ez, hh⟩ := iha la
      obtain ⟨w, ew, hw⟩ := eval_sound S (withVar_ok hΓ hX) hb
      have lw := isOf_length S hb.le hw
      rw [hw.eq] at ew
      have ewY := (eval_congr (h := h) (env := env) lb Y X).trans ew
      have ewZ := (eval_congr (h := h) (env := env) lb Z X).trans ew
      refine ⟨_, _, _, ?_, ?_, ?_, hh.map (hB.left _ lw)⟩
      · simp only [Expr.eval, ex, ew, C, bind, Except.bind, eB _ _ hh.1 lw, ne_eq, not_true_eq_false, or_self, if_false]
      · simp only [Expr.eval, ey, ewY, C, bind, Except.bind, eB _ _ hh.2.1 lw, ne_eq, not_true_eq_false, or_self, if_false]
      · simp only [Expr.eval, ez, ewZ, C, bind, Except.bind, eB _ _ hh.2.2.1 lw, ne_eq, not_true_eq_false, or_self, if_false]
    | contrRight _ la lb =>
      obtain ⟨x, y, z, ex, ey, ez, hh⟩ := ihb lb
      obtain ⟨w, ew, hw⟩ := eval_sound S (withVar_ok hΓ hX) ha
      have lw := isOf_length S ha.le hw
      rw [hw.eq] at ew
      have ewY := (eval_congr (h := h) (env := env) la Y X).trans ew
      have ewZ := (eval_congr (h := h) (env := env) la Z X).trans ew
      refine ⟨_, _, _, ?_, ?_, ?_, hh.map (hB.right _ lw)⟩
      · simp only [Expr.eval, ex, ew, C, bind, Except.bind, eB _ _ lw hh.1, ne_eq, not_true_eq_false, or_self, if_false]
      · simp only [Expr.eval, ey, ewY, C, bind, Except.bind, eB _ _ lw hh.2.1, ne_eq, not_true_eq_false, or_self, if_false]
      · simp only [Expr.eval, ez, ewZ, C, bind, Except.bind, eB _ _ lw hh.2.2.1, ne_eq, not_true_eq_false, or_self, if_false]

/-! ## The grids -/

/-- Does the grid have wedge products and contractions? Only the regular grid has none. -/
def hasProducts : Kind → Bool
  | .regular => false
  | _ => true

/-- Sizes for which the grid can be built, and for which the Chebyshev star does not raise (C05). -/
def Usable (k : Kind) (n : ℕ) : Prop := validSize k n ∧ (k = .chebyshev → n ≤ 927)

theorem Usable.refinable {k : Kind} {n : ℕ} (h : Usable k n) (hp : hasProducts k = true) : Refinable k n :=
  ⟨h.1, fun e => (by subst e; cases hp), h.2⟩

theorem sound1 {k : Kind} {n : ℕ} (hk : Usable k n) (a b : ℝ) :
    SoundOps (ops1 (grid k n a b)) (hasProducts k) (fun d t => if hd : d < 2 then (grid k n a b).N ⟨d, hd⟩ t else 0) := by
  have hF := grid_factor k n hk.1 a b
  have hS := grid_stars k n hk.1 hk.2 a b
  have hw : hasProducts k = true → WedgeGrid (grid k n a b) := by
    intro hp
    cases k
    · exact Or.inl ⟨n, a, b, rfl⟩
    · cases hp
    · exact Or.inr ⟨n, a, b, hk.1, hk.2 rfl, rfl⟩
  refine ⟨fun d t hd => ?_, fun d t hd => ?_, fun d t hd => ?_, fun hp d p e q u hd => ?_, fun hp p e q u h1 h2 => ?_⟩
  · have hd : d < 2 := Nat.lt_succ_of_le hd
    simp only [ops1, key_ok hd, bind, Except.bind, dif_pos hd]
  · obtain rfl : d = 0 := Nat.lt_one_iff.1 hd
    obtain ⟨L, hL, eL⟩ := hF.d t
    refine ⟨L, hL, fun x hx => ?_⟩
    have e := eL x hx
    simp only [ops1, key_ok (show 0 < 2 by omega), bind, Except.bind]
    unfold Grid1.d0 at e
    cases hD : (grid k n a b).D 0 t x with
    | none => rw [hD] at e; cases e
    | some v => rw [hD] at e; injection e with e; rw [show (⟨0, by omega⟩ : Fin 2) = 0 from rfl, hD, e]
  · have hd : d < 2 := Nat.lt_succ_of_le hd
    have := hS.lin ⟨d, hd⟩ t
    have e : (1 - (⟨d, hd⟩ : Fin 2)) = ⟨1 - d, by omega⟩ := by
      obtain rfl | rfl : d = 0 ∨ d = 1 := by omega
      · rfl
      · rfl
    rw [e] at this
    rw [show (ops1 (grid k n a b)).dim = 1 from rfl]
    rw [dif_pos hd, dif_pos (show 1 - d < 2 by omega)]
    refine this.congr fun x hx => ?_
    simp only [ops1, key_ok hd, bind, Except.bind]
  · have hd : d + e ≤ 1 := hd
    obtain ⟨⟨M, R, -⟩, hW, -⟩ := (hw hp).refining
    obtain ⟨B, hB, eB, -⟩ := R.wedge ⟨d, by omega⟩ ⟨e, by omega⟩ hd p q u
    have ee : (Fin.ofNat 2 (d + e)) = ⟨d + e, by omega⟩ := by ext; simp; omega
    rw [dif_pos (show d < 2 by omega), dif_pos (show e < 2 by omega), dif_pos (show d + e < 2 by omega)]
    refine ⟨B, ?_, fun x y hx hy => ?_⟩
    · rw [← ee]; exact hB
    · simp only [ops1, key_ok (show d < 2 by omega), key_ok (show e < 2 by omega), bind, Except.bind]
      unfold Grid1.wedge; rw [hW]; exact eB x y hx hy
  · have h2 : e ≤ 1 := h2
    obtain rfl : e = 1 := le_antisymm h2 h1
    obtain ⟨⟨M, R, -⟩, -, hC⟩ := (hw hp).refining
    obtain ⟨B, hB, eB⟩ := R.contraction p q u
    refine ⟨B, hB, fun x y hx hy => ?_⟩
    simp only [ops1, key_ok (show 1 < 2 by omega), bind, Except.bind]
    unfold Grid1.contraction; rw [hC]; exact eB x y hx hy

theorem sound2 {k k' : Kind} {n n' : ℕ} (hk : Usable k n) (hk' : Usable k' n') (a b a' b' : ℝ) :
    SoundOps (ops2 (product (grid k n a b) (grid k' n' a' b'))) (hasProducts k && hasProducts k')
      (fun d t => if hd : d < 3 then count (grid k n a b) (grid k' n' a' b') ⟨d, hd⟩ t else 0) := by
  have hx := grid_factor k n hk.1 a b
  have hy := grid_factor k' n' hk'.1 a' b'
  have sx := grid_stars k n hk.1 hk.2 a b
  have sy := grid_stars k' n' hk'.1 hk'.2 a' b'
  refine ⟨fun d t hd => ?_, fun d t hd => ?_, fun d t hd => ?_, fun hp d p e q u hd => ?_, fun hp p e q u h1 h2 => ?_⟩
  · have hd : d < 3 := Nat.lt_succ_of_le hd
    simp only [ops2, key_ok hd, bind, Except.bind, dif_pos hd]
    exact N_eq hx hy _ _
  · have hd : d < 2 := hd
    have e : (⟨d, by omega⟩ : Fin 3) + 1 = ⟨d + 1, by omega⟩ := by
      obtain rfl | rfl : d = 0 ∨ d = 1 := by omega
      · rfl
      · rfl
    obtain ⟨L, hL, eL⟩ := elin2_D hx hy ⟨d, by omega⟩ (by intro h; have := congrArg Fin.val h; simp at this; omega) t
    rw [e] at hL
    rw [dif_pos (show d < 3 by omega), dif_pos (show d + 1 < 3 by omega)]
    refine ⟨L, hL, fun x hx => ?_⟩
    simp only [ops2, key_ok (show d < 3 by omega), bind, Except.bind, eL x hx]
  · have hd : d < 3 := Nat.lt_succ_of_le hd
    have e : (2 - (⟨d, hd⟩ : Fin 3)) = ⟨2 - d, by omega⟩ := by
      obtain rfl | rfl | rfl : d = 0 ∨ d = 1 ∨ d = 2 := by omega
      · rfl
      · rfl
      · rfl
    have := elin2_H hx hy sx sy ⟨d, hd⟩ t
    rw [e] at this
    rw [show (ops2 (product (grid k n a b) (grid k' n' a' b'))).dim = 2 from rfl]
    rw [dif_pos hd, dif_pos (show 2 - d < 3 by omega)]
    refine this.congr fun x hx => ?_
    simp only [ops2, key_ok hd, bind, Except.bind]
  · have hd : d + e ≤ 2 := hd
    rw [Bool.and_eq_true] at hp
    obtain ⟨M, rx⟩ := grid_refined (hk.refinable hp.1) a b
    obtain ⟨M', ry⟩ := grid_refined (hk'.refinable hp.2) a' b'
    obtain ⟨B, hB, eB, -⟩ := wedge_form hx hy rx ry ⟨d, by omega⟩ ⟨e, by omega⟩ hd p q u
    have ee : deg2 ⟨d, by omega⟩ ⟨e, by omega⟩ = ⟨d + e, by omega⟩ := Fin.ext (deg2_val (d0 := ⟨d, by omega⟩) (d1 := ⟨e, by omega⟩) hd)
    rw [ee] at hB
    rw [dif_pos (show d < 3 by omega), dif_pos (show e < 3 by omega), dif_pos (show d + e < 3 by omega)]
    refine ⟨B, hB, fun x y hx hy => ?_⟩
    simp only [ops2, key_ok (show d < 3 by omega), key_ok (show e < 3 by omega), bind, Except.bind]
    exact eB x y hx hy
  · have h2 : e ≤ 2 := h2
    rw [Bool.and_eq_true] at hp
    obtain ⟨M, rx⟩ := grid_refined (hk.refinable hp.1) a b
    obtain ⟨M', ry⟩ := grid_refined (hk'.refinable hp.2) a' b'
    obtain ⟨B, hB, eB⟩ := contraction_form hx hy rx ry ⟨e, by omega⟩ (by intro h; have := congrArg Fin.val h; simp at this; omega) p q u
    have ee : (⟨e, by omega⟩ : Fin 3) - 1 = ⟨e - 1, by omega⟩ := by
      obtain rfl | rfl : e = 1 ∨ e = 2 := by omega
      · rfl
      · rfl
    rw [ee] at hB
    rw [dif_pos (show 1 < 3 by omega), dif_pos (show e < 3 by omega), dif_pos (show e - 1 < 3 by omega)]
    refine ⟨B, hB, fun x y hx hy => ?_⟩
    simp only [ops2, key_ok (show e < 3 by omega), bind, Except.bind]
    exact eB x y hx hy

/-! ## C89 -/

/-- A grid of the library at the address `g`: one-dimensional of any kind, or a product of two. The last argument tells whether it has products. -/
inductive IsGrid (h : Heap) (g : ℕ) : Bool → Prop
  | line (k : Kind) (n : ℕ) (a b : ℝ) : Usable k n → h g = ops1 (grid k n a b) → IsGrid h g (hasProducts k)
  | plane (k k' : Kind) (n n' : ℕ) (a b a' b' : ℝ) : Usable k n → Usable k' n' → h g = ops2 (product (grid k n a b) (grid k' n' a' b')) → IsGrid h g (hasProducts k && hasProducts k')

theorem IsGrid.sound {h : Heap} {g : ℕ} {products : Bool} (hg : IsGrid h g products) : ∃ c, SoundOps (h g) products c := by
  cases hg with
  | line k n a b hk e => rw [e]; exact ⟨_, sound1 hk a b⟩
  | plane k k' n n' a b a' b' hk hk' e => rw [e]; exact ⟨_, sound2 hk hk' a b a' b'⟩

/-- **C89.** A well-typed expression never raises, on any grid and for all forms of the types of the variables, and its value is a well-formed form of the degree and side of its type, on the same
grid. -/
theorem C89_well_typed (h : Heap) (g : ℕ) (products : Bool) (hg : IsGrid h g products) (Γ : ℕ → ℕ × Bool) (env : ℕ → DForm) (hΓ : ∀ i, IsOf h g (Γ i).1 (Γ i).2 (env i)) (e : Expr)
    (d : ℕ) (t : Bool) (he : HasType (h g).dim products Γ e d t) : ∃ z, e.eval h env = .ok z ∧ IsOf h g d t z := by
  obtain ⟨c, S⟩ := hg.sound
  exact eval_sound S hΓ he

/-- **C89.** An expression is a linear function of a variable that occurs linearly: with `c*x + y` for the variable its value is `c` times the value with `x` plus the value with `y`. With one variable
and one operator this says that `D` and `H` are linear, and that `W` and `C` are linear in each factor. -/
theorem C89_linear (h : Heap) (g : ℕ) (products : Bool) (hg : IsGrid h g products) (Γ : ℕ → ℕ × Bool) (env : ℕ → DForm) (hΓ : ∀ i, IsOf h g (Γ i).1 (Γ i).2 (env i)) (e : Expr)
    (d : ℕ) (t : Bool) (he : HasType (h g).dim products Γ e d t) (i : ℕ) (hi : LinearIn i e) (c : ℝ) (x y z : DForm) (hx : IsOf h g (Γ i).1 (Γ i).2 x) (hy : IsOf h g (Γ i).1 (Γ i).2 y)
    (hz : IsOf h g (Γ i).1 (Γ i).2 z) (hc : Comb c x y z) :
    ∃ vx vy vz, e.eval h (withVar env i x) = .ok vx ∧ e.eval h (withVar env i y) = .ok vy ∧ e.eval h (withVar env i z) = .ok vz ∧ Comb c vx vy vz := by
  obtain ⟨N, S⟩ := hg.sound
  obtain ⟨u, v, w, eu, ev, ew, hl⟩ := eval_linear S hΓ hx hy hz hc he hi
  exact ⟨_, _, _, eu, ev, ew, LC.comb (isOf_of S he.le hl.1) (isOf_of S he.le hl.2.1) (isOf_of S he.le hl.2.2.1) hl⟩

/-- **C89.** `c*x + y` as Python computes it is the combination that `C89_linear` speaks of. -/
theorem C89_combination (x y : DForm) (hk : SameKind x y) (hl : x.array.length = y.array.length) (c : ℝ) :
    ∃ u z, binary .rmul x (.scalar c) = .ok u ∧ binary .add u (.form y) = .ok z ∧ Comb c x y z := by
  obtain ⟨dx, tx, gx, ax⟩ := x
  obtain ⟨dy, ty, gy, ay⟩ := y
  obtain ⟨rfl, rfl, rfl⟩ := hk
  have hl : ax.length = ay.length := hl
  refine ⟨_, _, rfl, eval_binary (by simp [hl]), ⟨rfl, rfl, rfl⟩, ⟨rfl, rfl, rfl⟩, by simp [hl], by simp [hl], fun i hi => ?_⟩
  have hi' : i < ax.length := by simpa [hl] using hi
  show (List.zipWith BinOp.add.fn (ax.map (BinOp.rmul.fn · c)) ay).getD i 0 = c * ax.getD i 0 + ay.getD i 0
  rw [getD_zipWith BinOp.add.fn (n := ax.length) (by simp) hl.symm hi', getD_mapReal _ rfl hi']
  rfl

/-- The hypotheses are met by the expression `H(D(x)) + v.C(w ^ H(x))` on a torus; it is linear in `x`. -/
example : ∃ (h : Heap) (Γ : ℕ → ℕ × Bool) (env : ℕ → DForm), IsGrid h 7 true ∧ (∀ i, IsOf h 7 (Γ i).1 (Γ i).2 (env i)) ∧
    HasType (h 7).dim true Γ (.add (.star (.der (.var 0))) (.contr (.var 1) (.wedge (.var 2) (.star (.var 0)) true) false)) 1 false ∧
    LinearIn 0 (.add (.star (.der (.var 0))) (.contr (.var 1) (.wedge (.var 2) (.star (.var 0)) true) false)) := by
  refine ⟨fun _ => ops2 (product (grid .periodic 3 0 1) (grid .periodic 4 0 2)), fun i => if i = 0 then (0, true) else if i = 1 then (1, true) else (0, true),
    fun i => if i = 0 then ⟨0, true, 7, List.replicate 12 1⟩ else if i = 1 then ⟨1, true, 7, List.replicate 24 2⟩ else ⟨0, true, 7, List.replicate 12 3⟩, ?_, ?_, ?_, ?_⟩
  · exact .plane .periodic .periodic 3 4 0 1 0 2 ⟨by norm_num [validSize], by simp⟩ ⟨by norm_num [validSize], by simp⟩ rfl
  · intro i
    have w : ∀ (d : ℕ) (hd : d < 3) (t : Bool) (a : List ℝ), a.length = count (grid .periodic 3 0 1) (grid .periodic 4 0 2) ⟨d, hd⟩ t →
        IsOf (fun _ => ops2 (product (grid .periodic 3 0 1) (grid .periodic 4 0 2))) 7 d t ⟨d, t, 7, a⟩ := by
      intro d hd t a ha
      have hd' : d ≤ 2 := by omega
      exact isOf_of (sound2 ⟨by norm_num [validSize], by simp⟩ ⟨by norm_num [validSize], by simp⟩ 0 1 0 2) hd' (by rw [dif_pos hd]; exact ha)
    by_cases h0 : i = 0
    · simp only [h0, if_true]; exact w 0 (by omega) true _ rfl
    · by_cases h1 : i = 1
      · simp only [h1, if_true, one_ne_zero, if_false]; exact w 1 (by omega) true _ rfl
      · simp only [h0, h1, if_false]; exact w 0 (by omega) true _ rfl
  · refine .add (.star (.der (.var 0 ?_) ?_)) (.contr (e := 2) (s := true) (t := true) false rfl (.var 1 ?_) (.wedge (d := 0) (e := 2) (s := true) (t := false) true rfl (.var 2 ?_) (.star (d := 0) (t := true) (.var 0 ?_)) ?_) ?_) <;> simp [ops2]
  · exact .add (.star (.der .var)) (.contrRight _ (by simp [Expr.mentions]) (.wedgeRight _ (by simp [Expr.mentions]) (.star .var)))

end Dec.Props
