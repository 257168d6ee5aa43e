import Verif.Lib.Orthogonal
import Verif.Props.Poisson2
import Verif.Props.Scaling
import Verif.Lib.Refine2

set_option linter.unusedSimpArgs false
set_option linter.unusedVariables false

/-! # C103: the discrete Hodge decomposition of 1-forms on products of periodic and regular grids -/

namespace Dec.Props

open Finset Real Dec.Sp Dec.G2

/-! ## The pairing -/

theorem dot_vadd {m : ℕ} {x x' y : List ℝ} (hx : x.length = m) (hx' : x'.length = m) (hy : y.length = m) : dot (vadd x x') y = dot x y + dot x' y := by
  rw [eq_tab' hx 0, eq_tab' hx' 0, eq_tab' hy 0, vadd_tab, dot_tab, dot_tab, dot_tab, ← sum_add_distrib]
  exact sum_congr rfl fun _ _ => by ring

theorem take_vadd (m : ℕ) (x y : List ℝ) : (vadd x y).take m = vadd (x.take m) (y.take m) := by unfold vadd; rw [List.take_zipWith]
theorem drop_vadd (m : ℕ) (x y : List ℝ) : (vadd x y).drop m = vadd (x.drop m) (y.drop m) := by unfold vadd; rw [List.drop_zipWith]

theorem dot_self_zero {m : ℕ} {x : List ℝ} (hx : x.length = m) (h : dot x x = 0) : x = List.replicate m 0 := by
  rw [eq_tab' hx 0] at h ⊢
  rw [dot_tab, sum_eq_zero_iff_of_nonneg fun i _ => mul_self_nonneg _] at h
  rw [replicate_tab]
  exact tab_congr fun i hi => mul_self_eq_zero.1 (h i (mem_range.2 hi))

theorem dot_zero_right (x : List ℝ) (m : ℕ) : dot x (List.replicate m 0) = 0 := by
  unfold dot vmul
  refine List.sum_eq_zero fun z hz => ?_
  obtain ⟨i, hi, rfl⟩ := List.getElem_of_mem hz
  simp

theorem vadd_vsub_cancel {m : ℕ} {x y : List ℝ} (hx : x.length = m) (hy : y.length = m) : vadd (vsub x y) y = x := by
  rw [eq_tab' hx 0, eq_tab' hy 0, vsub_tab, vadd_tab]
  exact tab_congr fun i _ => by ring

theorem vsub_mtab (r c : ℕ) (F G : ℕ → ℕ → ℝ) : (mtab r c fun j i => F j i - G j i).data = vsub (mtab r c F).data (mtab r c G).data := by
  have h := vadd_mtab r c (fun j i => F j i - G j i) G
  simp only [sub_add_cancel] at h
  rw [h, eq_tab' (length_data r c fun j i => F j i - G j i) 0, eq_tab' (length_data r c G) 0, vadd_tab, vsub_tab]
  exact tab_congr fun i _ => by ring

section
variable {g g' : Grid1} {t : Bool}

/-- Both numbers of edges, and how the blocks of the two kinds of cells match. -/
def Matching (g g' : Grid1) (t : Bool) : Prop := count g g' 1 (!t) = count g g' 1 t ∧ xEdges g g' (!t) + xEdges g g' t = count g g' 1 t

theorem pair1_swap (α β : List ℝ) : pair1 g g' (!t) β α = -pair1 g g' t α β := by
  unfold pair1
  rw [Bool.not_not, dot_comm (β.take _), dot_comm (β.drop _)]
  ring

theorem pair1_add (hm : Matching g g' t) {x x' y : List ℝ} (hx : x.length = count g g' 1 t) (hx' : x'.length = count g g' 1 t) (hy : y.length = count g g' 1 (!t)) :
    pair1 g g' t (vadd x x') y = pair1 g g' t x y + pair1 g g' t x' y := by
  obtain ⟨h1, h2⟩ := hm
  unfold pair1
  rw [take_vadd, drop_vadd, dot_vadd (m := xEdges g g' t) (by rw [List.length_take]; omega) (by rw [List.length_take]; omega) (by rw [List.length_drop]; omega),
    dot_vadd (m := xEdges g g' (!t)) (by rw [List.length_drop]; omega) (by rw [List.length_drop]; omega) (by rw [List.length_take]; omega)]
  ring

theorem dot_smul_left (x y : List ℝ) (c : ℝ) : dot (x.map (c • ·)) y = c * dot x y := by
  rw [dot_comm, dot_comm x]; exact dot_smul y x c

theorem pair1_smul (c : ℝ) (x y : List ℝ) : pair1 g g' t (x.map (c • ·)) y = c * pair1 g g' t x y := by
  unfold pair1
  rw [← List.map_take, ← List.map_drop, dot_smul_left, dot_smul_left]; ring

end

/-! ## Constants on one grid -/

/-- The length of an edge. -/
noncomputable def len (g : Grid1) (t : Bool) (i : ℕ) : ℝ := G2.hi g t i - G2.lo g t i

theorem minSize_of_valid {k : Kind} {n : ℕ} (hn : validSize k n) : minSize k ≤ n := by cases k <;> exact hn

theorem len_pos (k : Kind) (n : ℕ) (hn : validSize k n) {a b : ℝ} (hab : a < b) (t : Bool) (i : ℕ) (hi : i < (grid k n a b).N 1 t) : 0 < len (grid k n a b) t i := by
  have F := grid_factor k n hn a b
  have key : IsPartition a b ((grid k n a b).cells.e t).1 ((grid k n a b).cells.e t).2 → 0 < len (grid k n a b) t i := fun h => by
    have := h.2.2.2.2.1 i (by rw [F.e1]; exact hi)
    unfold len G2.hi G2.lo
    linarith
  cases k
  · have hn : 1 ≤ n := hn
    cases t
    · unfold len G2.hi G2.lo
      obtain ⟨-, -, -, h, -⟩ := C12_periodic n hn a b hab
      have := h.2.2.2.2.1 i (by have := F.e1 false; exact lt_of_lt_of_eq hi this.symm)
      exact sub_pos.2 this
    · exact key (C12_periodic n hn a b hab).1
  · cases t
    · exact key (C12_interval_dual .regular n hn a b hab).2.1
    · exact key (C12_interval_primal .regular n hn a b hab).1
  · cases t
    · exact key (C12_interval_dual .chebyshev n hn a b hab).2.1
    · exact key (C12_interval_primal .chebyshev n hn a b hab).1

theorem P1_const (k : Kind) (n : ℕ) (hn : validSize k n) (a b : ℝ) (t : Bool) (c : ℝ) :
    (grid k n a b).P 1 t (fun _ => c) = tab ((grid k n a b).N 1 t) fun i => c * len (grid k n a b) t i := by
  rw [P1_tab (grid_factor k n hn a b)]
  refine tab_congr fun i _ => ?_
  rw [intervalIntegral.integral_const]
  unfold len; simp [mul_comm]

theorem P0_const (k : Kind) (n : ℕ) (hn : validSize k n) (a b : ℝ) (t : Bool) (c : ℝ) : (grid k n a b).P 0 t (fun _ => c) = tab ((grid k n a b).N 0 t) fun _ => c := by
  show ((grid k n a b).cells.v t).map _ = _
  rw [(grid_factor k n hn a b).v_tab, map_tab]

/-- The stars of constants: a constant becomes a multiple of the lengths and the lengths become a constant. -/
theorem star_lengths (k : Kind) (n : ℕ) (hn : validSize k n) (hk : k ≠ .chebyshev) {a b : ℝ} (hab : a < b) (t : Bool) : ∃ r q : ℝ, ∀ c : ℝ,
    (grid k n a b).H 1 t (tab ((grid k n a b).N 1 t) fun i => c * len (grid k n a b) t i) = .ok (tab ((grid k n a b).N 1 t) fun _ => c * r) ∧
    (grid k n a b).H 0 t (tab ((grid k n a b).N 0 t) fun _ => c) = .ok (tab ((grid k n a b).N 0 t) fun i => c * q * len (grid k n a b) (!t) i) := by
  have hm := minSize_of_valid hn
  have res : ∀ (s : Bool) (c : ℝ), ResolvedOn k n s fun _ => c := fun s c => by simpa using (resolved_one k n hm s).smul c
  refine ⟨(b - a) / (defaultMax k - defaultMin k), ((b - a) / (defaultMax k - defaultMin k))⁻¹, fun c => ⟨?_, ?_⟩⟩
  · have h := (C51_hodge_off_by_length k n hm a b hab (!t) (fun _ => c) (res _ c)).2 fun h => absurd h hk
    rw [Bool.not_not, P1_const k n hn, P0_const k n hn, (grid_swap hn a b t).2] at h
    rw [h]
    unfold smul
    rw [map_tab]
    exact congrArg Except.ok (tab_congr fun _ _ => mul_comm _ _)
  · have h := (C51_hodge_off_by_length k n hm a b hab t (fun _ => c) (res _ c)).1
    rw [P1_const k n hn, P0_const k n hn, (grid_swap hn a b t).1] at h
    rw [h]
    unfold smul
    rw [map_tab]
    exact congrArg Except.ok (tab_congr fun _ _ => by ring)

/-- A harmonic 1-form: its derivative is zero, and so is the derivative of its star. -/
def Harmonic (g : Grid2) (t : Bool) (h : List ℝ) : Prop :=
  (∃ w, g.D 1 t h = .ok w ∧ ∀ z ∈ w, z = 0) ∧ ∃ s w, g.H 1 t h = .ok s ∧ g.D 1 (!t) s = .ok w ∧ ∀ z ∈ w, z = 0

section
variable (k k' : Kind) (n n' : ℕ) (hn : validSize k n) (hn' : validSize k' n') (hk : k ≠ .chebyshev) (hk' : k' ≠ .chebyshev) (xmin xmax ymin ymax : ℝ)
  (hx : xmin < xmax) (hy : ymin < ymax) (t : Bool)

local notation "gx" => grid k n xmin xmax
local notation "gy" => grid k' n' ymin ymax
local notation "𝔾" => product (grid k n xmin xmax) (grid k' n' ymin ymax)
local notation "𝔫" => count (grid k n xmin xmax) (grid k' n' ymin ymax)

include hn hn' in
theorem matching : Matching gx gy t := by
  obtain ⟨ex1, ex2⟩ := grid_swap hn xmin xmax t
  obtain ⟨ey1, ey2⟩ := grid_swap hn' ymin ymax t
  unfold Matching xEdges
  show (gy).N 0 (!t) * (gx).N 1 (!t) + (gy).N 1 (!t) * (gx).N 0 (!t) = (gy).N 0 t * (gx).N 1 t + (gy).N 1 t * (gx).N 0 t ∧
    (gy).N 0 (!t) * (gx).N 1 (!t) + (gy).N 0 t * (gx).N 1 t = (gy).N 0 t * (gx).N 1 t + (gy).N 1 t * (gx).N 0 t
  rw [ex1, ex2, ey1, ey2]
  constructor <;> ring

/-- The operators as maps of arrays, with their adjointness. -/
structure Calc (δ η : Fin 3 → Bool → List ℝ → List ℝ) : Prop where
  o : Ops δ η 𝔾 𝔫
  adj : ∀ (s : Bool) (a β : List ℝ), a.length = 𝔫 0 s → β.length = 𝔫 1 (!s) → pair1 gx gy s (δ 0 s a) β = -dot a (δ 1 (!s) β)
  dd : ∀ (s : Bool) (a : List ℝ), a.length = 𝔫 0 s → δ 1 s (δ 0 s a) = List.replicate (𝔫 2 s) 0
  hh : ∀ (s : Bool) (α : List ℝ), α.length = 𝔫 1 s → η 1 (!s) (η 1 s α) = α.map ((-1 : ℝ) • ·)
  symm : ∀ (s : Bool) (α β : List ℝ), α.length = 𝔫 1 s → β.length = 𝔫 1 s → pair1 gx gy s α (η 1 s β) = pair1 gx gy s β (η 1 s α)
  pos : ∀ (s : Bool) (α : List ℝ), α.length = 𝔫 1 s → (∃ z ∈ α, z ≠ 0) → 0 < pair1 gx gy s α (η 1 s α)

include hn hn' in
theorem count_iff (d : Fin 3) (s : Bool) (a : List ℝ) : (𝔾).N d s = .ok a.length ↔ a.length = 𝔫 d s := by
  rw [N_eq (grid_factor k n hn xmin xmax) (grid_factor k' n' hn' ymin ymax), Except.ok.injEq, eq_comm]

include hn hn' hk hk' hx hy in
theorem exists_calc : ∃ δ η, Calc k k' n n' xmin xmax ymin ymax δ η := by
  have Fx := grid_factor k n hn xmin xmax
  have Fy := grid_factor k' n' hn' ymin ymax
  obtain ⟨δ, η, o⟩ := exists_ops' Fx Fy (grid_stars k n hn (fun h => absurd h hk) xmin xmax) (grid_stars k' n' hn' (fun h => absurd h hk') ymin ymax)
  have ci := count_iff k k' n n' hn hn' xmin xmax ymin ymax
  refine ⟨δ, η, o, fun s a β ha hβ => ?_, fun s a ha => ?_, fun s α hα => ?_, fun s α β hα hβ => ?_, fun s α hα h => ?_⟩
  · obtain ⟨da, dβ, h1, h2, h3⟩ := C72_adjoint k k' n n' hn hn' xmin xmax ymin ymax s hx hy a β ((ci 0 s a).2 ha) ((ci 1 (!s) β).2 hβ)
    obtain rfl := Except.ok.inj ((o.D 0 s (by decide) a ha).symm.trans h1)
    obtain rfl := Except.ok.inj ((o.D 1 (!s) (by decide) β hβ).symm.trans h2)
    exact h3
  · obtain ⟨u, h1, w, h2, h3, h4⟩ := C25_derivative_squared k k' n n' hn hn' xmin xmax ymin ymax s a ((ci 0 s a).2 ha)
    obtain rfl := Except.ok.inj ((o.D 0 s (by decide) a ha).symm.trans h1)
    obtain rfl := Except.ok.inj ((o.D 1 s (by decide) _ ((o.linD 0 s (by decide)).len a ha)).symm.trans h2)
    rw [zeros_eq h4, (ci 2 s _).1 h3]
  · obtain ⟨u, h1, h2, h3⟩ := C26_hodge_one k k' n n' hn hn' (fun h => absurd h hk) (fun h => absurd h hk') xmin xmax ymin ymax s α ((ci 1 s α).2 hα)
    obtain rfl := Except.ok.inj ((o.H 1 s α hα).symm.trans h1)
    rw [o.H 1 (!s) _ ((ci 1 (!s) _).1 h2), Except.ok.injEq] at h3
    rw [h3]
    exact List.map_congr_left fun x _ => by simp
  · obtain ⟨u, v, h1, h2, h3, -⟩ := C73_star_product_one k k' n n' hn hn' hk hk' xmin xmax ymin ymax s α β ((ci 1 s α).2 hα) ((ci 1 s β).2 hβ)
    obtain rfl := Except.ok.inj ((o.H 1 s α hα).symm.trans h1)
    obtain rfl := Except.ok.inj ((o.H 1 s β hβ).symm.trans h2)
    exact h3
  · obtain ⟨u, v, h1, h2, -, h3⟩ := C73_star_product_one k k' n n' hn hn' hk hk' xmin xmax ymin ymax s α α ((ci 1 s α).2 hα) ((ci 1 s α).2 hα)
    obtain rfl := Except.ok.inj ((o.H 1 s α hα).symm.trans h1)
    exact h3 h

variable {k k' n n' xmin xmax ymin ymax} {δ η : Fin 3 → Bool → List ℝ → List ℝ} (C : Calc k k' n n' xmin xmax ymin ymax δ η)
include C

namespace Calc

theorem lD0 {s : Bool} {a : List ℝ} (ha : a.length = 𝔫 0 s) : (δ 0 s a).length = 𝔫 1 s := (C.o.linD 0 s (by decide)).len a ha
theorem lD1 {s : Bool} {a : List ℝ} (ha : a.length = 𝔫 1 s) : (δ 1 s a).length = 𝔫 2 s := (C.o.linD 1 s (by decide)).len a ha
theorem lH {s : Bool} {a : List ℝ} (ha : a.length = 𝔫 1 s) : (η 1 s a).length = 𝔫 1 (!s) := (C.o.linH 1 s).len a ha

theorem lH' {s : Bool} {a : List ℝ} (ha : a.length = 𝔫 1 (!s)) : (η 1 (!s) a).length = 𝔫 1 s := by
  have := C.lH ha; rwa [Bool.not_not] at this

theorem harmonic_iff {s : Bool} {h : List ℝ} (hl : h.length = 𝔫 1 s) :
    Harmonic 𝔾 s h ↔ δ 1 s h = List.replicate (𝔫 2 s) 0 ∧ δ 1 (!s) (η 1 s h) = List.replicate (𝔫 2 (!s)) 0 := by
  have l1 := C.lD1 hl
  have l2 := C.lD1 (C.lH hl)
  unfold Harmonic
  constructor
  · rintro ⟨⟨w, h1, h2⟩, u, v, h3, h4, h5⟩
    obtain rfl := Except.ok.inj ((C.o.D 1 s (by decide) h hl).symm.trans h1)
    obtain rfl := Except.ok.inj ((C.o.H 1 s h hl).symm.trans h3)
    obtain rfl := Except.ok.inj ((C.o.D 1 (!s) (by decide) _ (C.lH hl)).symm.trans h4)
    exact ⟨(mem_zero l1).1 h2, (mem_zero l2).1 h5⟩
  · rintro ⟨h1, h2⟩
    exact ⟨⟨_, C.o.D 1 s (by decide) h hl, (mem_zero l1).2 h1⟩, _, _, C.o.H 1 s h hl, C.o.D 1 (!s) (by decide) _ (C.lH hl), (mem_zero l2).2 h2⟩

theorem orth_exact {s : Bool} {a h : List ℝ} (ha : a.length = 𝔫 0 s) (hl : h.length = 𝔫 1 s) : pair1 gx gy s (δ 0 s a) (η 1 s h) = -dot a (δ 1 (!s) (η 1 s h)) :=
  C.adj s a _ ha (C.lH hl)

theorem orth_coexact {s : Bool} {b h : List ℝ} (hb : b.length = 𝔫 0 (!s)) (hl : h.length = 𝔫 1 s) :
    pair1 gx gy s (η 1 (!s) (δ 0 (!s) b)) (η 1 s h) = -dot b (δ 1 s h) := by
  have l1 := C.lD0 hb
  have hh := C.hh (!s) _ l1
  rw [Bool.not_not] at hh
  rw [C.symm s _ _ (C.lH' l1) hl, hh]
  have e1 := pair1_swap (g := gx) (g' := gy) (t := s) h ((δ 0 (!s) b).map ((-1 : ℝ) • ·))
  rw [pair1_smul] at e1
  have e2 := C.adj (!s) b h hb (by rw [Bool.not_not]; exact hl)
  rw [Bool.not_not] at e2
  rw [e2] at e1
  linarith

theorem ip_add {s : Bool} (hm : Matching gx gy s) {x x' y : List ℝ} (h1 : x.length = 𝔫 1 s) (h2 : x'.length = 𝔫 1 s) (h3 : y.length = 𝔫 1 s) :
    pair1 gx gy s (vadd x x') (η 1 s y) = pair1 gx gy s x (η 1 s y) + pair1 gx gy s x' (η 1 s y) := pair1_add hm h1 h2 (C.lH h3)

theorem ip_add' {s : Bool} (hm : Matching gx gy s) {x x' y : List ℝ} (h1 : x.length = 𝔫 1 s) (h2 : x'.length = 𝔫 1 s) (h3 : y.length = 𝔫 1 s) :
    pair1 gx gy s y (η 1 s (vadd x x')) = pair1 gx gy s y (η 1 s x) + pair1 gx gy s y (η 1 s x') := by
  rw [C.symm s _ _ h3 (by simp [h1, h2]), C.ip_add hm h1 h2 h3, C.symm s _ _ h1 h3, C.symm s _ _ h2 h3]

theorem ip_sub' {s : Bool} (hm : Matching gx gy s) {x x' y : List ℝ} (h1 : x.length = 𝔫 1 s) (h2 : x'.length = 𝔫 1 s) (h3 : y.length = 𝔫 1 s) :
    pair1 gx gy s y (η 1 s (vsub x x')) = pair1 gx gy s y (η 1 s x) - pair1 gx gy s y (η 1 s x') := by
  have h := C.ip_add' hm (x := vsub x x') (x' := x') (by simp [h1, h2]) h2 h3
  rw [vadd_vsub_cancel h1 h2] at h
  linarith

theorem exists_part {s : Bool} (hm : Matching gx gy s) {p : ℕ} {T : List ℝ → List ℝ} (hT : Lin p (𝔫 1 s) T) {a : List ℝ} (ha : a.length = 𝔫 1 s) :
    ∃ f : List ℝ, f.length = p ∧ ∀ f' : List ℝ, f'.length = p → pair1 gx gy s (T f') (η 1 s (vsub a (T f))) = 0 :=
  hT.exists_orthogonal (B := fun x y => pair1 gx gy s x (η 1 s y)) (fun x x' y h1 h2 h3 => C.ip_add hm h1 h2 h3) (fun c x y _ _ => pair1_smul c x _) (fun x y h1 h2 => C.symm s x y h1 h2)
    (fun x h1 h2 => C.pos s x h1 h2) a ha

/-- A 1-form orthogonal to all exact and all coexact 1-forms is harmonic. -/
theorem harmonic_of_orth {s : Bool} {h : List ℝ} (hl : h.length = 𝔫 1 s) (h1 : ∀ a : List ℝ, a.length = 𝔫 0 s → pair1 gx gy s (δ 0 s a) (η 1 s h) = 0)
    (h2 : ∀ b : List ℝ, b.length = 𝔫 0 (!s) → pair1 gx gy s (η 1 (!s) (δ 0 (!s) b)) (η 1 s h) = 0) (e0 : ∀ r, 𝔫 2 (!r) = 𝔫 0 r) :
    δ 1 s h = List.replicate (𝔫 2 s) 0 ∧ δ 1 (!s) (η 1 s h) = List.replicate (𝔫 2 (!s)) 0 := by
  constructor
  · have l := C.lD1 hl
    have e := e0 (!s)
    rw [Bool.not_not] at e
    have := h2 (δ 1 s h) (l.trans e)
    rw [C.orth_coexact (l.trans e) hl, neg_eq_zero] at this
    exact dot_self_zero l this
  · have l := C.lD1 (C.lH hl)
    have := h1 (δ 1 (!s) (η 1 s h)) (l.trans (e0 s))
    rw [C.orth_exact (l.trans (e0 s)) hl, neg_eq_zero] at this
    exact dot_self_zero l this

end Calc
omit C in
include hn hn' in
theorem count_swap (r : Bool) : 𝔫 2 (!r) = 𝔫 0 r := by
  obtain ⟨ex1, ex2⟩ := grid_swap hn xmin xmax r
  obtain ⟨ey1, ey2⟩ := grid_swap hn' ymin ymax r
  show (gy).N 1 (!r) * (gx).N 1 (!r) = (gy).N 0 r * (gx).N 0 r
  rw [ex1, ey1]

omit C
variable (k k' n n' xmin xmax ymin ymax)
include hn hn' hk hk' hx hy

/-- **C103** (existence): on products of periodic and regular grids every 1-form is the sum of the derivative of a 0-form, the star of the derivative of a 0-form on the other kind of cells,
and a harmonic 1-form. -/
theorem C103_decomposition (α : List ℝ) (hα : (𝔾).N 1 t = .ok α.length) :
    ∃ f g h df dg sg, (𝔾).N 0 t = .ok f.length ∧ (𝔾).N 0 (!t) = .ok g.length ∧ (𝔾).N 1 t = .ok h.length ∧
      (𝔾).D 0 t f = .ok df ∧ (𝔾).D 0 (!t) g = .ok dg ∧ (𝔾).H 1 (!t) dg = .ok sg ∧ Harmonic 𝔾 t h ∧ α = vadd (vadd df sg) h := by
  obtain ⟨δ, η, C⟩ := exists_calc k k' n n' hn hn' hk hk' xmin xmax ymin ymax hx hy
  have ci := count_iff k k' n n' hn hn' xmin xmax ymin ymax
  have hm := matching k k' n n' hn hn' xmin xmax ymin ymax t
  have e0 := count_swap (n := n) (n' := n') hn hn' (xmin := xmin) (xmax := xmax) (ymin := ymin) (ymax := ymax)
  have la := (ci 1 t α).1 hα
  obtain ⟨f, lf, hf⟩ := C.exists_part hm (C.o.linD 0 t (by decide)) la
  have ldf := C.lD0 lf
  have lr : (vsub α (δ 0 t f)).length = 𝔫 1 t := by simp [la, ldf]
  have hT : Lin (𝔫 0 (!t)) (𝔫 1 t) fun b => η 1 (!t) (δ 0 (!t) b) := by
    have := (C.o.linH 1 (!t)).comp (C.o.linD 0 (!t) (by decide))
    rwa [Bool.not_not] at this
  obtain ⟨g, lg, hg⟩ := C.exists_part hm hT lr
  have lsg : (η 1 (!t) (δ 0 (!t) g)).length = 𝔫 1 t := hT.len g lg
  have lh : (vsub (vsub α (δ 0 t f)) (η 1 (!t) (δ 0 (!t) g))).length = 𝔫 1 t := by simp [lr, lsg]
  refine ⟨f, g, _, _, _, _, (ci 0 t f).2 lf, (ci 0 (!t) g).2 lg, (ci 1 t _).2 lh, C.o.D 0 t (by decide) f lf, C.o.D 0 (!t) (by decide) g lg, C.o.H 1 (!t) _ (C.lD0 lg),
    (C.harmonic_iff lh).2 (C.harmonic_of_orth lh (fun a ha => ?_) hg e0), ?_⟩
  · rw [C.ip_sub' hm lr lsg (C.lD0 ha), hf a ha, C.orth_exact ha lsg]
    have hh := C.hh (!t) _ (C.lD0 lg)
    rw [Bool.not_not] at hh
    rw [hh]
    have e := (C.o.linD 1 (!t) (by decide)).smul (-1) _ (C.lD0 lg)
    rw [e, C.dd _ _ lg]
    have : (List.replicate (𝔫 2 (!t)) (0 : ℝ)).map ((-1 : ℝ) • ·) = List.replicate (𝔫 2 (!t)) 0 := by simp
    rw [this, dot_zero_right]; ring
  · rw [eq_tab' la 0, eq_tab' ldf 0, eq_tab' lsg 0]
    simp only [vsub_tab, vadd_tab]
    exact tab_congr fun i _ => by ring

/-- **C103** (orthogonality): the three parts are orthogonal for the inner product `∫ α∧*β`. -/
theorem C103_orthogonal (f g h : List ℝ) (hf : (𝔾).N 0 t = .ok f.length) (hg : (𝔾).N 0 (!t) = .ok g.length) (hl : (𝔾).N 1 t = .ok h.length) (hh : Harmonic 𝔾 t h) :
    ∃ df dg sg ssg sh, (𝔾).D 0 t f = .ok df ∧ (𝔾).D 0 (!t) g = .ok dg ∧ (𝔾).H 1 (!t) dg = .ok sg ∧ (𝔾).H 1 t sg = .ok ssg ∧ (𝔾).H 1 t h = .ok sh ∧
      pair1 gx gy t df ssg = 0 ∧ pair1 gx gy t df sh = 0 ∧ pair1 gx gy t sg sh = 0 := by
  obtain ⟨δ, η, C⟩ := exists_calc k k' n n' hn hn' hk hk' xmin xmax ymin ymax hx hy
  have ci := count_iff k k' n n' hn hn' xmin xmax ymin ymax
  have lf := (ci 0 t f).1 hf
  have lg := (ci 0 (!t) g).1 hg
  have lh := (ci 1 t h).1 hl
  have lsg := C.lH' (C.lD0 lg)
  obtain ⟨h1, h2⟩ := (C.harmonic_iff lh).1 hh
  refine ⟨_, _, _, _, _, C.o.D 0 t (by decide) f lf, C.o.D 0 (!t) (by decide) g lg, C.o.H 1 (!t) _ (C.lD0 lg), C.o.H 1 t _ lsg, C.o.H 1 t h lh, ?_, ?_, ?_⟩
  · rw [C.symm t _ _ (C.lD0 lf) lsg, C.orth_coexact lg (C.lD0 lf), C.dd t f lf, dot_zero_right, neg_zero]
  · rw [C.orth_exact lf lh, h2, dot_zero_right, neg_zero]
  · rw [C.orth_coexact lg lh, h1, dot_zero_right, neg_zero]

/-- **C103** (uniqueness): the three parts are determined by the 1-form. -/
theorem C103_unique (f g h f' g' h' df dg sg df' dg' sg' : List ℝ) (hf : (𝔾).N 0 t = .ok f.length) (hg : (𝔾).N 0 (!t) = .ok g.length) (hl : (𝔾).N 1 t = .ok h.length)
    (hf' : (𝔾).N 0 t = .ok f'.length) (hg' : (𝔾).N 0 (!t) = .ok g'.length) (hl' : (𝔾).N 1 t = .ok h'.length)
    (e1 : (𝔾).D 0 t f = .ok df) (e2 : (𝔾).D 0 (!t) g = .ok dg) (e3 : (𝔾).H 1 (!t) dg = .ok sg) (hh : Harmonic 𝔾 t h)
    (e1' : (𝔾).D 0 t f' = .ok df') (e2' : (𝔾).D 0 (!t) g' = .ok dg') (e3' : (𝔾).H 1 (!t) dg' = .ok sg') (hh' : Harmonic 𝔾 t h')
    (e : vadd (vadd df sg) h = vadd (vadd df' sg') h') : df = df' ∧ sg = sg' ∧ h = h' := by
  obtain ⟨δ, η, C⟩ := exists_calc k k' n n' hn hn' hk hk' xmin xmax ymin ymax hx hy
  have ci := count_iff k k' n n' hn hn' xmin xmax ymin ymax
  have hm := matching k k' n n' hn hn' xmin xmax ymin ymax t
  have lf := (ci 0 t f).1 hf
  have lg := (ci 0 (!t) g).1 hg
  have lh := (ci 1 t h).1 hl
  have lf' := (ci 0 t f').1 hf'
  have lg' := (ci 0 (!t) g').1 hg'
  have lh' := (ci 1 t h').1 hl'
  obtain rfl := Except.ok.inj ((C.o.D 0 t (by decide) f lf).symm.trans e1)
  obtain rfl := Except.ok.inj ((C.o.D 0 (!t) (by decide) g lg).symm.trans e2)
  obtain rfl := Except.ok.inj ((C.o.H 1 (!t) _ (C.lD0 lg)).symm.trans e3)
  obtain rfl := Except.ok.inj ((C.o.D 0 t (by decide) f' lf').symm.trans e1')
  obtain rfl := Except.ok.inj ((C.o.D 0 (!t) (by decide) g' lg').symm.trans e2')
  obtain rfl := Except.ok.inj ((C.o.H 1 (!t) _ (C.lD0 lg')).symm.trans e3')
  have hT : Lin (𝔫 0 (!t)) (𝔫 1 t) fun b => η 1 (!t) (δ 0 (!t) b) := by
    have := (C.o.linH 1 (!t)).comp (C.o.linD 0 (!t) (by decide))
    rwa [Bool.not_not] at this
  obtain ⟨h1, h2⟩ := (C.harmonic_iff lh).1 hh
  obtain ⟨h1', h2'⟩ := (C.harmonic_iff lh').1 hh'
  -- the differences
  have lF : (vsub f f').length = 𝔫 0 t := by simp [lf, lf']
  have lG : (vsub g g').length = 𝔫 0 (!t) := by simp [lg, lg']
  have lW : (vsub h h').length = 𝔫 1 t := by simp [lh, lh']
  have eF := lin_sub (C.o.linD 0 t (by decide)) lf lf'
  have eG := lin_sub hT lg lg'
  beta_reduce at eG
  have z1 : δ 1 t (vsub h h') = List.replicate (𝔫 2 t) 0 := by
    have h := lin_sub (C.o.linD 1 t (by decide)) lh lh'
    rw [h1, h1', (vsub_zero_iff List.length_replicate List.length_replicate).2 rfl] at h
    exact h
  have z2 : δ 1 (!t) (η 1 t (vsub h h')) = List.replicate (𝔫 2 (!t)) 0 := by
    have h := lin_sub ((C.o.linD 1 (!t) (by decide)).comp (C.o.linH 1 t)) lh lh'
    beta_reduce at h
    rw [h2, h2', (vsub_zero_iff List.length_replicate List.length_replicate).2 rfl] at h
    exact h
  have lU := C.lD0 lF
  have lV := hT.len _ lG
  beta_reduce at lV
  have sum0 : vadd (vadd (δ 0 t (vsub f f')) (η 1 (!t) (δ 0 (!t) (vsub g g')))) (vsub h h') = List.replicate (𝔫 1 t) 0 := by
    have a1 := C.lD0 lf
    have a2 := C.lD0 lf'
    have a3 := hT.len g lg
    have a4 := hT.len g' lg'
    beta_reduce at a3 a4
    rw [eF, eG]
    rw [eq_tab' a1 0, eq_tab' a2 0, eq_tab' a3 0, eq_tab' a4 0, eq_tab' lh 0, eq_tab' lh' 0] at e ⊢
    simp only [vadd_tab, vsub_tab] at e ⊢
    rw [tab_inj] at e
    rw [replicate_tab]
    exact tab_congr fun i hi => by have := e i hi; linarith
  have o12 : pair1 gx gy t (δ 0 t (vsub f f')) (η 1 t (η 1 (!t) (δ 0 (!t) (vsub g g')))) = 0 := by
    rw [C.symm t _ _ lU lV, C.orth_coexact lG lU, C.dd t _ lF, dot_zero_right, neg_zero]
  have o13 : pair1 gx gy t (δ 0 t (vsub f f')) (η 1 t (vsub h h')) = 0 := by rw [C.orth_exact lF lW, z2, dot_zero_right, neg_zero]
  have o23 : pair1 gx gy t (η 1 (!t) (δ 0 (!t) (vsub g g'))) (η 1 t (vsub h h')) = 0 := by rw [C.orth_coexact lG lW, z1, dot_zero_right, neg_zero]
  have zero : ∀ y : List ℝ, y.length = 𝔫 1 t → pair1 gx gy t y (η 1 t (List.replicate (𝔫 1 t) 0)) = 0 := fun y hy => by
    have := C.ip_sub' hm hy hy hy
    rwa [(vsub_zero_iff hy hy).2 rfl, sub_self] at this
  have nul : ∀ y : List ℝ, y.length = 𝔫 1 t → pair1 gx gy t y (η 1 t y) = 0 → y = List.replicate (𝔫 1 t) 0 := fun y hy h => by
    by_contra hne
    refine (C.pos t y hy ?_).ne' h
    by_contra h'
    push Not at h'
    exact hne ((mem_zero hy).1 h')
  have lUV : (vadd (δ 0 t (vsub f f')) (η 1 (!t) (δ 0 (!t) (vsub g g')))).length = 𝔫 1 t := by simp [lU, lV]
  have ip : ∀ y : List ℝ, y.length = 𝔫 1 t → pair1 gx gy t y (η 1 t (δ 0 t (vsub f f'))) + pair1 gx gy t y (η 1 t (η 1 (!t) (δ 0 (!t) (vsub g g')))) + pair1 gx gy t y (η 1 t (vsub h h')) = 0 := fun y hy => by
    rw [← C.ip_add' hm lU lV hy, ← C.ip_add' hm lUV lW hy, sum0, zero y hy]
  have u0 := nul _ lU (by have := ip _ lU; rw [o12, o13] at this; linarith)
  have v0 := nul _ lV (by have := ip _ lV; rw [← C.symm t _ _ lU lV, o12, o23] at this; linarith)
  have w0 := nul _ lW (by have := ip _ lW; rw [← C.symm t _ _ lU lW, ← C.symm t _ _ lV lW, o13, o23] at this; linarith)
  rw [eF] at u0
  rw [eG] at v0
  exact ⟨(vsub_zero_iff (C.lD0 lf) (C.lD0 lf')).1 u0, (vsub_zero_iff (hT.len g lg) (hT.len g' lg')).1 v0, (vsub_zero_iff lh lh').1 w0⟩

/-! ## The harmonic 1-forms -/

omit hn hn' hk hk' hx hy in
/-- The array of the constant 1-form `c₁ dx + c₂ dy`. -/
theorem P1_constant (hn : validSize k n) (hn' : validSize k' n') (c₁ c₂ : ℝ) : (𝔾).P 1 t [fun _ _ => c₁, fun _ _ => c₂] =
    .ok ((mtab ((gy).N 0 t) ((gx).N 1 t) fun _ i => c₁ * len gx t i).data ++ (mtab ((gy).N 1 t) ((gx).N 0 t) fun j _ => c₂ * len gy t j).data) := by
  rw [P1_mtab (grid_factor k n hn xmin xmax) (grid_factor k' n' hn' ymin ymax)]
  refine congrArg₂ (fun K K' => Except.ok ((mtab _ _ K).data ++ (mtab _ _ K').data)) (funext fun j => funext fun i => ?_) (funext fun j => funext fun i => ?_)
  · unfold Integrate.P1x len; rw [intervalIntegral.integral_const, smul_eq_mul]; ring
  · unfold Integrate.P1y len; rw [intervalIntegral.integral_const, smul_eq_mul]; ring

omit hk hk' hx hy in
theorem constant_closed (c₁ c₂ : ℝ) (h₁ : c₁ = 0 ∨ free k' t) (h₂ : c₂ = 0 ∨ free k t) :
    ∃ a w, (𝔾).P 1 t [fun _ _ => c₁, fun _ _ => c₂] = .ok a ∧ (𝔾).D 1 t a = .ok w ∧ ∀ z ∈ w, z = 0 := by
  have Fx := grid_factor k n hn xmin xmax
  have Fy := grid_factor k' n' hn' ymin ymax
  obtain ⟨A, cA⟩ := grid_coh k n hn xmin xmax t
  obtain ⟨B, cB⟩ := grid_coh k' n' hn' ymin ymax t
  refine ⟨_, _, P1_constant k k' n n' xmin xmax ymin ymax t hn hn' c₁ c₂, D1_mat Fx Fy cA cB _ _, data_all_zero.2 fun j hj i hi => ?_⟩
  have e1 : dy gy t B (fun _ i => c₁ * len gx t i) j i = 0 := by
    unfold dy
    rcases h₁ with rfl | h
    · simp
    · exact cB.const h (c₁ * len gx t i) j hj
  have e2 : dx gx t A (fun j _ => c₂ * len gy t j) j i = 0 := by
    unfold dx
    rcases h₂ with rfl | h
    · simp
    · exact cA.const h (c₂ * len gy t j) i hi
  rw [e1, e2]; simp

omit t in
theorem constant_star (t : Bool) : ∃ p q : ℝ, ∀ c₁ c₂ : ℝ, ∃ a b, (𝔾).P 1 t [fun _ _ => c₁, fun _ _ => c₂] = .ok a ∧ (𝔾).H 1 t a = .ok b ∧
    (𝔾).P 1 (!t) [fun _ _ => -(c₂ * p), fun _ _ => c₁ * q] = .ok b := by
  have Fx := grid_factor k n hn xmin xmax
  have Fy := grid_factor k' n' hn' ymin ymax
  obtain ⟨r, q, hr⟩ := star_lengths k n hn hk hx t
  obtain ⟨r', q', hr'⟩ := star_lengths k' n' hn' hk' hy t
  obtain ⟨ex1, ex2⟩ := grid_swap hn xmin xmax t
  obtain ⟨ey1, ey2⟩ := grid_swap hn' ymin ymax t
  refine ⟨r' * q, r * q', fun c₁ c₂ => ⟨_, (mtab ((gy).N 1 t) ((gx).N 0 t) fun j i => -(c₂ * r' * q * len gx (!t) i)).data ++ (mtab ((gy).N 0 t) ((gx).N 1 t) fun j i => c₁ * r * q' * len gy (!t) j).data,
    P1_constant k k' n n' xmin xmax ymin ymax t hn hn' c₁ c₂, ?_, ?_⟩⟩
  · exact H1_mtab Fx Fy t (Fy.pos 1 t) (Fx.pos 1 t) (fun i _ => (hr' c₂).1) (fun j _ => (hr (c₂ * r')).2) (fun j _ => (hr c₁).1) (fun i _ => (hr' (c₁ * r)).2)
  · rw [P1_constant k k' n n' xmin xmax ymin ymax (!t) hn hn', ex1, ex2, ey1, ey2]
    refine congrArg₂ (fun K K' => Except.ok ((mtab _ _ K).data ++ (mtab _ _ K').data)) (funext fun j => funext fun i => ?_) (funext fun j => funext fun i => ?_) <;> ring

theorem constant_harmonic (c₁ c₂ : ℝ) (h₁ : c₁ = 0 ∨ (free k' t ∧ free k (!t))) (h₂ : c₂ = 0 ∨ (free k t ∧ free k' (!t))) :
    ∃ a, (𝔾).P 1 t [fun _ _ => c₁, fun _ _ => c₂] = .ok a ∧ Harmonic 𝔾 t a := by
  obtain ⟨a, w, e1, e2, e3⟩ := constant_closed k k' n n' hn hn' xmin xmax ymin ymax t c₁ c₂ (h₁.imp_right And.left) (h₂.imp_right And.left)
  obtain ⟨p, q, h⟩ := constant_star k k' n n' hn hn' hk hk' xmin xmax ymin ymax hx hy t
  obtain ⟨a', b, e4, e5, e6⟩ := h c₁ c₂
  obtain rfl := Except.ok.inj (e1.symm.trans e4)
  obtain ⟨b', w', e7, e8, e9⟩ := constant_closed k k' n n' hn hn' xmin xmax ymin ymax (!t) (-(c₂ * p)) (c₁ * q) (h₂.imp (fun h => by rw [h]; ring) And.right)
    (h₁.imp (fun h => by rw [h]; ring) And.right)
  obtain rfl := Except.ok.inj (e6.symm.trans e7)
  exact ⟨a, e1, ⟨w, e2, e3⟩, b, w', e5, e8, e9⟩

omit hk hk' hy in
/-- The sums of a closed 1-form along the rows of x-edges: all equal, and zero if values are imposed in the other direction; the coefficient of `dx` is their common value divided by the length. -/
theorem row_coeff {X Y : ℕ → ℕ → ℝ} {A B : ℕ → ℕ → ℝ} (cA : Coh gx t (openEnds k t) (free k t) A) (cB : Coh gy t (openEnds k' t) (free k' t) B)
    (h : ∀ j < (gy).N 1 t, ∀ i < (gx).N 1 t, -dy gy t B X j i + dx gx t A Y j i = 0) :
    ∃ c : ℝ, (c = 0 ∨ (free k' t ∧ free k (!t))) ∧ (¬ openEnds k t → ∀ j < (gy).N 0 t, ∑ i ∈ range ((gx).N 1 t), (X j i - c * len gx t i) = 0) := by
  by_cases ho : openEnds k t
  · exact ⟨0, Or.inl rfl, fun h => absurd ho h⟩
  have hfree : free k (!t) := by
    unfold openEnds at ho
    unfold free
    cases t
    · right; rfl
    · left; by_contra h; exact ho ⟨h, rfl⟩
  have hS : ∀ j < (gy).N 1 t, ∑ l ∈ range ((gy).N 0 t), B j l * ∑ i ∈ range ((gx).N 1 t), X l i = 0 := fun j hj => by
    have h1 : ∑ i ∈ range ((gx).N 1 t), (-dy gy t B X j i + dx gx t A Y j i) = 0 := sum_eq_zero fun i hi => h j hj i (mem_range.1 hi)
    have h2 : ∑ i ∈ range ((gx).N 1 t), dx gx t A Y j i = 0 := cA.sum_cl ho (Y j)
    rw [sum_add_distrib, h2, add_zero, sum_neg_distrib, neg_eq_zero] at h1
    rw [← h1]
    unfold dy
    simp only [mul_sum]
    exact sum_comm
  by_cases hf : free k' t
  · have hL : 0 < ∑ i ∈ range ((gx).N 1 t), len gx t i :=
      sum_pos (fun i hi => len_pos k n hn hx t i (mem_range.1 hi)) ⟨0, mem_range.2 ((grid_factor k n hn xmin xmax).pos 1 t)⟩
    refine ⟨(∑ i ∈ range ((gx).N 1 t), X 0 i) / ∑ i ∈ range ((gx).N 1 t), len gx t i, Or.inr ⟨hf, hfree⟩, fun _ j hj => ?_⟩
    rw [sum_sub_distrib, ← mul_sum, div_mul_cancel₀ _ hL.ne', sub_eq_zero]
    exact cB.ker_fr hf (fun l => ∑ i ∈ range ((gx).N 1 t), X l i) hS j hj
  · refine ⟨0, Or.inl rfl, fun _ j hj => ?_⟩
    simp only [zero_mul, sub_zero]
    exact cB.ker_cl hf (fun l => ∑ i ∈ range ((gx).N 1 t), X l i) hS j hj

omit hk hk' hx in
theorem column_coeff {X Y : ℕ → ℕ → ℝ} {A B : ℕ → ℕ → ℝ} (cA : Coh gx t (openEnds k t) (free k t) A) (cB : Coh gy t (openEnds k' t) (free k' t) B)
    (h : ∀ j < (gy).N 1 t, ∀ i < (gx).N 1 t, -dy gy t B X j i + dx gx t A Y j i = 0) :
    ∃ c : ℝ, (c = 0 ∨ (free k t ∧ free k' (!t))) ∧ (¬ openEnds k' t → ∀ i < (gx).N 0 t, ∑ j ∈ range ((gy).N 1 t), (Y j i - c * len gy t j) = 0) := by
  obtain ⟨c, h1, h2⟩ := row_coeff k' k n' n hn' hn ymin ymax xmin xmax hy t (X := fun i j => Y j i) (Y := fun i j => X j i) cB cA fun i hi j hj => by
    have := h j hj i hi
    change -dx gx t A Y j i + dy gy t B X j i = 0
    linarith
  exact ⟨c, h1, fun ho i hi => h2 ho i hi⟩

/-- **C103** (harmonic 1-forms): they are the constant 1-forms `c₁ dx + c₂ dy` — both coefficients arbitrary on a torus, only the periodic direction (primal cells)
or the interval direction (dual cells) on a cylinder, only zero on a rectangle. -/
theorem C103_harmonic (h : List ℝ) (hl : (𝔾).N 1 t = .ok h.length) :
    Harmonic 𝔾 t h ↔ ∃ c₁ c₂ : ℝ, (𝔾).P 1 t [fun _ _ => c₁, fun _ _ => c₂] = .ok h ∧ (c₁ = 0 ∨ (free k' t ∧ free k (!t))) ∧ (c₂ = 0 ∨ (free k t ∧ free k' (!t))) := by
  constructor
  swap
  · rintro ⟨c₁, c₂, e, h₁, h₂⟩
    obtain ⟨a, e', h'⟩ := constant_harmonic k k' n n' hn hn' hk hk' xmin xmax ymin ymax hx hy t c₁ c₂ h₁ h₂
    obtain rfl := Except.ok.inj (e.symm.trans e')
    exact h'
  intro hh
  obtain ⟨δ, η, C⟩ := exists_calc k k' n n' hn hn' hk hk' xmin xmax ymin ymax hx hy
  have ci := count_iff k k' n n' hn hn' xmin xmax ymin ymax
  have Fx := grid_factor k n hn xmin xmax
  have Fy := grid_factor k' n' hn' ymin ymax
  obtain ⟨A, cA⟩ := grid_coh k n hn xmin xmax t
  obtain ⟨B, cB⟩ := grid_coh k' n' hn' ymin ymax t
  have lh := (ci 1 t h).1 hl
  obtain ⟨X, Y, rfl⟩ := flat1 (show h.length = (gy).N 0 t * (gx).N 1 t + (gy).N 1 t * (gx).N 0 t from lh)
  have cl : ∀ j < (gy).N 1 t, ∀ i < (gx).N 1 t, -dy gy t B X j i + dx gx t A Y j i = 0 := by
    obtain ⟨⟨w, e1, e2⟩, -⟩ := hh
    rw [D1_mat Fx Fy cA cB X Y] at e1
    rw [← Except.ok.inj e1] at e2
    exact data_all_zero.1 e2
  obtain ⟨c₁, h₁, hr⟩ := row_coeff k k' n n' hn hn' xmin xmax ymin ymax hx t cA cB cl
  obtain ⟨c₂, h₂, hc⟩ := column_coeff k k' n n' hn hn' xmin xmax ymin ymax hy t cA cB cl
  refine ⟨c₁, c₂, ?_, h₁, h₂⟩
  obtain ⟨p, e1, hp⟩ := constant_harmonic k k' n n' hn hn' hk hk' xmin xmax ymin ymax hx hy t c₁ c₂ h₁ h₂
  rw [e1]
  rw [P1_constant k k' n n' xmin xmax ymin ymax t hn hn'] at e1
  obtain rfl := Except.ok.inj e1
  have lp : ((mtab ((gy).N 0 t) ((gx).N 1 t) fun _ i => c₁ * len gx t i).data ++ (mtab ((gy).N 1 t) ((gx).N 0 t) fun j _ => c₂ * len gy t j).data).length = 𝔫 1 t := by
    rw [List.length_append, length_data, length_data]; rfl
  -- the difference is harmonic and exact
  have ed : vsub ((mtab ((gy).N 0 t) ((gx).N 1 t) X).data ++ (mtab ((gy).N 1 t) ((gx).N 0 t) Y).data)
      ((mtab ((gy).N 0 t) ((gx).N 1 t) fun _ i => c₁ * len gx t i).data ++ (mtab ((gy).N 1 t) ((gx).N 0 t) fun j _ => c₂ * len gy t j).data) =
      (mtab ((gy).N 0 t) ((gx).N 1 t) fun j i => X j i - c₁ * len gx t i).data ++ (mtab ((gy).N 1 t) ((gx).N 0 t) fun j i => Y j i - c₂ * len gy t j).data := by
    unfold vsub
    rw [List.zipWith_append (by rw [length_data, length_data])]
    exact congrArg₂ (· ++ ·) (vsub_mtab _ _ _ _).symm (vsub_mtab _ _ _ _).symm
  obtain ⟨z1, z2⟩ := (C.harmonic_iff lh).1 hh
  obtain ⟨z1', z2'⟩ := (C.harmonic_iff lp).1 hp
  have w1 := lin_sub (C.o.linD 1 t (by decide)) lh lp
  have w2 := lin_sub ((C.o.linD 1 (!t) (by decide)).comp (C.o.linH 1 t)) lh lp
  beta_reduce at w2
  rw [z1, z1', (vsub_zero_iff List.length_replicate List.length_replicate).2 rfl] at w1
  rw [z2, z2', (vsub_zero_iff List.length_replicate List.length_replicate).2 rfl] at w2
  rw [Except.ok.injEq, eq_comm, ← vsub_zero_iff lh lp]
  have ld : (vsub ((mtab ((gy).N 0 t) ((gx).N 1 t) X).data ++ (mtab ((gy).N 1 t) ((gx).N 0 t) Y).data)
      ((mtab ((gy).N 0 t) ((gx).N 1 t) fun _ i => c₁ * len gx t i).data ++ (mtab ((gy).N 1 t) ((gx).N 0 t) fun j _ => c₂ * len gy t j).data)).length = 𝔫 1 t := by
    rw [length_vsub, lh, lp, min_self]
  rw [ed] at w1 w2 ld ⊢
  have cl' : ∀ j < (gy).N 1 t, ∀ i < (gx).N 1 t, -dy gy t B (fun j i => X j i - c₁ * len gx t i) j i + dx gx t A (fun j i => Y j i - c₂ * len gy t j) j i = 0 := by
    have e := C.o.D 1 t (by decide) _ ld
    rw [w1, D1_mat Fx Fy cA cB] at e
    refine data_all_zero.1 ?_
    rw [Except.ok.inj e]
    intro z hz; exact (List.mem_replicate.1 hz).2
  obtain ⟨F, f1, f2⟩ := (exact_iff Fx Fy cA cB _ _).2 ⟨cl', hr, hc⟩
  have lF : (mtab ((gy).N 0 t) ((gx).N 0 t) F).data.length = 𝔫 0 t := by rw [length_data]; rfl
  have eF : δ 0 t (mtab ((gy).N 0 t) ((gx).N 0 t) F).data =
      (mtab ((gy).N 0 t) ((gx).N 1 t) fun j i => X j i - c₁ * len gx t i).data ++ (mtab ((gy).N 1 t) ((gx).N 0 t) fun j i => Y j i - c₂ * len gy t j).data := by
    have e := (C.o.D 0 t (by decide) _ lF).symm.trans (D0_mat Fx Fy cA cB F)
    rw [Except.ok.inj e]
    exact data_inj2.2 ⟨f1, f2⟩
  have o := C.orth_exact lF ld
  rw [w2, dot_zero_right, neg_zero, eF] at o
  by_contra hne
  refine (C.pos t _ ld ?_).ne' o
  by_contra h'
  push Not at h'
  exact hne ((mem_zero ld).1 h')

/-! ## Poisson problems without boundary values -/

/-- **C74** (Poisson problem without boundary values): if no values are imposed, `L0(a) = b` has a solution exactly when the integral of `b` is zero, and two solutions differ by a constant. -/
theorem C74_neumann (h : free k t ∧ free k' t) (b : List ℝ) (hb : (𝔾).N 0 t = .ok b.length) :
    ((∃ a, (𝔾).N 0 t = .ok a.length ∧ lap2 𝔾 t a = .ok b) ↔ ∃ s, (𝔾).H 0 t b = .ok s ∧ s.sum = 0) ∧
    ∀ a a', (𝔾).N 0 t = .ok a.length → (𝔾).N 0 t = .ok a'.length → lap2 𝔾 t a = .ok b → lap2 𝔾 t a' = .ok b → ∃ c : ℝ, a' = a.map (· + c) := by
  obtain ⟨δ, η, C⟩ := exists_calc k k' n n' hn hn' hk hk' xmin xmax ymin ymax hx hy
  have ci := count_iff k k' n n' hn hn' xmin xmax ymin ymax
  have Fx := grid_factor k n hn xmin xmax
  have Fy := grid_factor k' n' hn' ymin ymax
  obtain ⟨hL, eL⟩ := C.o.lap2 t
  have lb := (ci 0 t b).1 hb
  have e0 := count_swap (n := n) (n' := n') hn hn' (xmin := xmin) (xmax := xmax) (ymin := ymin) (ymax := ymax)
  have hpos : 0 < 𝔫 0 t := Nat.mul_pos (Fy.pos 0 t) (Fx.pos 0 t)
  have ker : ∀ a : List ℝ, a.length = 𝔫 0 t → (η 2 (!t) (δ 1 (!t) (η 1 t (δ 0 t a))) = List.replicate (𝔫 0 t) 0 ↔ ∃ c, a = List.replicate (𝔫 0 t) c) := fun a la => by
    have hk := C74_kernel k k' n n' hn hn' hk hk' xmin xmax ymin ymax hx hy t a ((ci 0 t a).2 la)
    constructor
    · intro h0
      obtain ⟨c, hc, -⟩ := hk.1 ⟨_, eL a la, by rw [h0]; intro z hz; exact (List.mem_replicate.1 hz).2⟩
      exact ⟨c, by rw [la] at hc; exact hc⟩
    · rintro ⟨c, rfl⟩
      obtain ⟨L, h1, h2⟩ := hk.2 ⟨c, by simp, Or.inr h⟩
      rw [eL _ la, Except.ok.injEq] at h1
      rw [h1]
      have lL := hL.len _ la
      beta_reduce at lL
      rw [h1] at lL
      exact (mem_zero lL).1 h2
  have one : δ 0 t (List.replicate (𝔫 0 t) 1) = List.replicate (𝔫 1 t) 0 := by
    obtain ⟨da, h1, h2⟩ := (C72_kernel k k' n n' hn hn' xmin xmax ymin ymax t (List.replicate (𝔫 0 t) 1) ((ci 0 t _).2 (by simp))).2 ⟨1, by simp, Or.inr h⟩
    rw [C.o.D 0 t (by decide) _ (by simp), Except.ok.injEq] at h1
    rw [h1]
    have l := C.lD0 (s := t) (a := List.replicate (𝔫 0 t) 1) (by simp)
    rw [h1] at l
    exact (mem_zero l).1 h2
  have dot1 : ∀ x : List ℝ, x.length = 𝔫 0 t → dot (List.replicate (𝔫 0 t) 1) x = x.sum := fun x hx => by
    rw [eq_tab' hx 0, replicate_tab, dot_tab, sum_tab]; simp
  have lS : ∀ x : List ℝ, x.length = 𝔫 0 t → (η 0 t x).length = 𝔫 0 t := fun x hx => ((C.o.linH 0 t).len x hx).trans (e0 t)
  -- the integral of a Laplacian is zero
  have h0 : ∀ a : List ℝ, a.length = 𝔫 0 t → (η 0 t (η 2 (!t) (δ 1 (!t) (η 1 t (δ 0 t a))))).sum = 0 := fun a la => by
    have l1 := C.lH (C.lD0 la)
    have l2 := C.lD1 l1
    obtain ⟨u, h1, h2, h3⟩ := C26_hodge_even k k' n n' hn hn' (fun h => absurd h hk) (fun h => absurd h hk') xmin xmax ymin ymax (!t) _ 2 (by decide) ((ci 2 (!t) _).2 l2)
    rw [C.o.H 2 (!t) _ l2, Except.ok.injEq] at h1
    rw [← h1, Bool.not_not] at h3
    have h3' : (𝔾).H 0 t (η 2 (!t) (δ 1 (!t) (η 1 t (δ 0 t a)))) = .ok (δ 1 (!t) (η 1 t (δ 0 t a))) := h3
    rw [C.o.H 0 t _ (hL.len a la), Except.ok.injEq] at h3'
    rw [h3', ← dot1 _ (l2.trans (e0 t)), ← neg_eq_zero, ← C.adj t _ _ (by simp) l1, one]
    unfold pair1
    have z : ∀ y : List ℝ, ∀ m, dot (List.replicate m 0) y = 0 := fun y m => by rw [dot_comm, dot_zero_right]
    rw [List.take_replicate, List.drop_replicate, z, z, sub_self]
  have hsum : ∀ x y : List ℝ, x.length = 𝔫 0 t → y.length = 𝔫 0 t → (vadd x y).sum = x.sum + y.sum := fun x y hx hy => by
    rw [eq_tab' hx 0, eq_tab' hy 0, vadd_tab, sum_tab, sum_tab, sum_tab, sum_add_distrib]
  have hne : (η 0 t (List.replicate (𝔫 0 t) 1)).sum ≠ 0 := by
    obtain ⟨u, v, h1, -, -, h2⟩ := C73_star_product k k' n n' hn hn' hk hk' xmin xmax ymin ymax t 0 (by decide) (List.replicate (𝔫 0 t) 1) (List.replicate (𝔫 0 t) 1) ((ci 0 t _).2 (by simp)) ((ci 0 t _).2 (by simp))
    obtain rfl := Except.ok.inj ((C.o.H 0 t _ (by simp)).symm.trans h1)
    have := h2 ⟨1, List.mem_replicate.2 ⟨hpos.ne', rfl⟩, one_ne_zero⟩
    rw [dot1 _ (lS _ (by simp))] at this
    exact this.ne'
  have range := Lin.range_of_const hpos hL ker (φ := fun x => (η 0 t x).sum)
    (fun x y hx hy => by beta_reduce; rw [(C.o.linH 0 t).add x y hx hy, hsum _ _ (lS x hx) (lS y hy)])
    (fun c x hx => by
      beta_reduce
      rw [(C.o.linH 0 t).smul c x hx, eq_tab' (lS x hx) 0, map_tab, sum_tab, sum_tab, mul_sum]
      rfl) h0 (e := List.replicate (𝔫 0 t) 1) (by simp) hne b lb
  refine ⟨⟨?_, ?_⟩, fun a a' ha ha' h1 h2 => ?_⟩
  · rintro ⟨a, ha, e⟩
    have la := (ci 0 t a).1 ha
    rw [eL a la, Except.ok.injEq] at e
    exact ⟨_, C.o.H 0 t b lb, range.2 ⟨a, la, e⟩⟩
  · rintro ⟨s, h1, h2⟩
    obtain rfl := Except.ok.inj ((C.o.H 0 t b lb).symm.trans h1)
    obtain ⟨a, la, e⟩ := range.1 h2
    exact ⟨a, (ci 0 t a).2 la, by rw [eL a la]; exact congrArg Except.ok e⟩
  · have la := (ci 0 t a).1 ha
    have la' := (ci 0 t a').1 ha'
    rw [eL a la, Except.ok.injEq] at h1
    rw [eL a' la', Except.ok.injEq] at h2
    have h3 := lin_sub hL la' la
    beta_reduce at h3
    rw [h1, h2, (vsub_zero_iff lb lb).2 rfl] at h3
    obtain ⟨c, hc⟩ := (ker _ (by simp [la, la'])).1 h3
    refine ⟨c, ?_⟩
    rw [eq_tab' la 0, eq_tab' la' 0, vsub_tab, replicate_tab, tab_inj] at hc
    rw [eq_tab' la 0, eq_tab' la' 0, map_tab]
    exact tab_congr fun i hi => by have := hc i hi; linarith
end

/-! ## The hypotheses are satisfiable -/

/-- A torus of 3 × 4 cells: the constant 1-form `2 dx - dy` is harmonic and not zero; on a cylinder only one direction is. -/
example : (∃ a, (product (grid .periodic 3 0 1) (grid .periodic 4 0 2)).P 1 true [fun _ _ => 2, fun _ _ => -1] = .ok a ∧ Harmonic (product (grid .periodic 3 0 1) (grid .periodic 4 0 2)) true a) ∧
    (∃ a, (product (grid .regular 3 0 1) (grid .periodic 4 0 2)).P 1 true [fun _ _ => 0, fun _ _ => -1] = .ok a ∧ Harmonic (product (grid .regular 3 0 1) (grid .periodic 4 0 2)) true a) ∧
    ¬ (free .periodic true ∧ free .regular (!true)) := by
  refine ⟨constant_harmonic .periodic .periodic 3 4 (show 1 ≤ 3 by norm_num) (show 1 ≤ 4 by norm_num) (by simp) (by simp) 0 1 0 2 (by norm_num) (by norm_num) true 2 (-1) (Or.inr ?_) (Or.inr ?_),
    constant_harmonic .regular .periodic 3 4 (show 2 ≤ 3 by norm_num) (show 1 ≤ 4 by norm_num) (by simp) (by simp) 0 1 0 2 (by norm_num) (by norm_num) true 0 (-1) (Or.inl rfl) (Or.inr ?_), ?_⟩ <;> simp [free]

/-- A 1-form on it with 24 entries, and a 0-form on a square without imposed values. -/
example : (product (grid .periodic 3 0 1) (grid .periodic 4 0 2)).N 1 true = .ok (List.range 24).length ∧ (free .regular true ∧ free .regular true) ∧
    (product (grid .regular 3 0 1) (grid .regular 3 0 1)).N 0 true = .ok (List.range 9).length := by
  refine ⟨?_, by simp [free], ?_⟩
  · rw [N_eq (grid_factor _ _ (by norm_num [validSize]) _ _) (grid_factor _ _ (by norm_num [validSize]) _ _)]; rfl
  · rw [N_eq (grid_factor _ _ (by norm_num [validSize]) _ _) (grid_factor _ _ (by norm_num [validSize]) _ _)]; rfl

end Dec.Props
