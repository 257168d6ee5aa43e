import Verif.Lib.Arr2

set_option linter.unusedSimpArgs false
set_option linter.unusedVariables false

/-! # The operators of a product grid on arrays in normal form -/

namespace Dec.G2

open Finset

/-- The operator `h` is given by the `m × n` matrix `A`. -/
def HasMat (n m : ℕ) (h : List ℝ → Except Err (List ℝ)) (A : ℕ → ℕ → ℝ) : Prop :=
  ∀ f : ℕ → ℝ, h (tab n f) = .ok (tab m fun k => ∑ j ∈ range n, A k j * f j)

theorem _root_.Dec.Lin.exists_mat {n m : ℕ} {L : List ℝ → List ℝ} (h : Lin n m L) :
    ∃ A : ℕ → ℕ → ℝ, ∀ f : ℕ → ℝ, L (tab n f) = tab m fun k => ∑ j ∈ range n, A k j * f j := by
  refine ⟨fun k j => (L (tab n fun i => if i = j then 1 else 0)).getD k 0, fun f => ?_⟩
  have h0 : L (tab n fun _ => 0) = tab m fun _ => 0 := by
    have e := h.smul 0 (tab n fun _ => 0) (length_tab _ _)
    have e2 : (tab n fun _ => (0 : ℝ)).map (fun x => (0 : ℝ) • x) = tab n fun _ => 0 := by simp [tab]
    rw [e2] at e
    rw [e, eq_tab' (h.len _ (length_tab _ _)) 0]
    simp [tab, Function.comp_def]
  have key : ∀ i, i ≤ n → L (tab n fun j => if j < i then f j else 0)
      = tab m fun k => ∑ j ∈ range i, (L (tab n fun i => if i = j then 1 else 0)).getD k 0 * f j := by
    intro i
    induction i with
    | zero => intro _; simpa using h0
    | succ i ih =>
      intro hi
      have e : (tab n fun j => if j < i + 1 then f j else 0)
          = vadd (tab n fun j => if j < i then f j else 0) ((tab n fun j => if j = i then (1 : ℝ) else 0).map (fun x => f i • x)) := by
        unfold vadd
        simp only [tab, List.map_map, List.zipWith_map, List.zipWith_self]
        refine List.map_congr_left fun j _ => ?_
        rcases Nat.lt_trichotomy j i with hj | hj | hj
        · simp [hj, Nat.lt_succ_of_lt hj, Nat.ne_of_lt hj]
        · subst hj; simp
        · rw [if_neg (by omega), if_neg (by omega)]; simp [Nat.ne_of_gt hj]
      rw [e, h.add _ _ (length_tab _ _) (by simp), h.smul _ _ (length_tab _ _), ih (by omega)]
      have e3 := eq_tab' (h.len (tab n fun j => if j = i then (1 : ℝ) else 0) (length_tab _ _)) 0
      conv_lhs => rw [e3]
      unfold vadd
      simp only [tab, List.map_map, List.zipWith_map, List.zipWith_self]
      refine List.map_congr_left fun k _ => ?_
      rw [Finset.sum_range_succ]
      simp only [Function.comp, smul_eq_mul, tab]
      ring
  have := key n le_rfl
  rw [← this]
  congr 1
  exact tab_congr fun j hj => by rw [if_pos hj]

theorem _root_.Dec.ELin.exists_mat {n m : ℕ} {h : List ℝ → Except Err (List ℝ)} (hh : ELin n m h) : ∃ A, HasMat n m h A := by
  obtain ⟨L, hL, e⟩ := hh
  obtain ⟨A, hA⟩ := hL.exists_mat
  exact ⟨A, fun f => by rw [e _ (length_tab _ _), hA f]⟩

/-- What is needed of a one-dimensional factor: positive sizes, cell arrays of those sizes, a linear derivative. -/
structure Factor (g : Grid1) : Prop where
  pos : ∀ d t, 0 < g.N d t
  v : ∀ t, (g.cells.v t).length = g.N 0 t
  e1 : ∀ t, (g.cells.e t).1.length = g.N 1 t
  e2 : ∀ t, (g.cells.e t).2.length = g.N 1 t
  d : ∀ t, ELin (g.N 0 t) (g.N 1 t) (g.d0 t)

variable {gx gy : Grid1}

/-- Coordinates. -/
def vx (g : Grid1) (t : Bool) (i : ℕ) : ℝ := (g.cells.v t).getD i 0
def lo (g : Grid1) (t : Bool) (i : ℕ) : ℝ := (g.cells.e t).1.getD i 0
def hi (g : Grid1) (t : Bool) (i : ℕ) : ℝ := (g.cells.e t).2.getD i 0

theorem Factor.v_tab {g : Grid1} (h : Factor g) (t : Bool) : g.cells.v t = tab (g.N 0 t) (vx g t) := eq_tab' (h.v t) 0
theorem Factor.e1_tab {g : Grid1} (h : Factor g) (t : Bool) : (g.cells.e t).1 = tab (g.N 1 t) (lo g t) := eq_tab' (h.e1 t) 0
theorem Factor.e2_tab {g : Grid1} (h : Factor g) (t : Bool) : (g.cells.e t).2 = tab (g.N 1 t) (hi g t) := eq_tab' (h.e2 t) 0

theorem bcells_v (hx : Factor gx) (hy : Factor gy) (t : Bool) : (product gx gy).bcells.v t
    = (mtab (gy.N 0 t) (gx.N 0 t) fun _ i => vx gx t i, mtab (gy.N 0 t) (gx.N 0 t) fun j _ => vx gy t j) := by
  simp only [Grid2.bcells, product, product_cells]
  rw [hx.v_tab t, hy.v_tab t, meshgrid_tab]

theorem bcells_e (hx : Factor gx) (hy : Factor gy) (t : Bool) : (product gx gy).bcells.e t
    = (((mtab (gy.N 0 t) (gx.N 1 t) fun _ i => lo gx t i, mtab (gy.N 0 t) (gx.N 1 t) fun _ i => hi gx t i), mtab (gy.N 0 t) (gx.N 1 t) fun j _ => vx gy t j),
      (mtab (gy.N 1 t) (gx.N 0 t) fun _ i => vx gx t i, (mtab (gy.N 1 t) (gx.N 0 t) fun j _ => lo gy t j, mtab (gy.N 1 t) (gx.N 0 t) fun j _ => hi gy t j))) := by
  simp only [Grid2.bcells, product, product_cells]
  rw [hx.v_tab t, hy.v_tab t, hx.e1_tab t, hx.e2_tab t, hy.e1_tab t, hy.e2_tab t]
  simp only [meshgrid_tab]

theorem bcells_f (hx : Factor gx) (hy : Factor gy) (t : Bool) : (product gx gy).bcells.f t
    = ((mtab (gy.N 1 t) (gx.N 1 t) fun _ i => lo gx t i, mtab (gy.N 1 t) (gx.N 1 t) fun j _ => lo gy t j),
      (mtab (gy.N 1 t) (gx.N 1 t) fun _ i => hi gx t i, mtab (gy.N 1 t) (gx.N 1 t) fun j _ => hi gy t j)) := by
  simp only [Grid2.bcells, product, product_cells]
  rw [hx.e1_tab t, hx.e2_tab t, hy.e1_tab t, hy.e2_tab t]
  simp only [meshgrid_tab]

theorem shape0 (hx : Factor gx) (hy : Factor gy) (t : Bool) : (product gx gy).shape 0 t = .arr (gy.N 0 t, gx.N 0 t) := by
  simp only [Grid2.shape, cellShape, bcells_v hx hy]; rfl
theorem shape1 (hx : Factor gx) (hy : Factor gy) (t : Bool) : (product gx gy).shape 1 t = .tup [(gy.N 0 t, gx.N 1 t), (gy.N 1 t, gx.N 0 t)] := by
  simp only [Grid2.shape, cellShape, bcells_e hx hy]; rfl
theorem shape2 (hx : Factor gx) (hy : Factor gy) (t : Bool) : (product gx gy).shape 2 t = .arr (gy.N 1 t, gx.N 1 t) := by
  simp only [Grid2.shape, cellShape, bcells_f hx hy]; rfl

/-- The advertised number of cells. -/
def count (gx gy : Grid1) (d : Fin 3) (t : Bool) : ℕ :=
  match d with
  | 0 => gy.N 0 t * gx.N 0 t
  | 1 => gy.N 0 t * gx.N 1 t + gy.N 1 t * gx.N 0 t
  | 2 => gy.N 1 t * gx.N 1 t

theorem N_eq (hx : Factor gx) (hy : Factor gy) (d : Fin 3) (t : Bool) : (product gx gy).N d t = .ok (count gx gy d t) := by
  obtain rfl | rfl | rfl : d = 0 ∨ d = 1 ∨ d = 2 := by omega
  · simp only [Grid2.N, shape0 hx hy, countshape, count]; rfl
  · simp only [Grid2.N, shape1 hx hy, countshape, count]; rfl
  · simp only [Grid2.N, shape2 hx hy, countshape, count]; rfl

/-! ## Flat arrays in normal form -/

theorem flat0 {f : List ℝ} {r c : ℕ} (h : f.length = r * c) : ∃ F : ℕ → ℕ → ℝ, f = (mtab r c F).data := by
  refine ⟨fun i j => f.getD (i * c + j) 0, ?_⟩
  have := Arr.Wf.eq_mtab (X := ⟨r, c, f⟩) h 0
  exact congrArg Arr.data this

theorem flat1 {f : List ℝ} {r c r' c' : ℕ} (h : f.length = r * c + r' * c') : ∃ F G : ℕ → ℕ → ℝ, f = (mtab r c F).data ++ (mtab r' c' G).data := by
  obtain ⟨F, hF⟩ := flat0 (f := f.take (r * c)) (r := r) (c := c) (by simp; omega)
  obtain ⟨G, hG⟩ := flat0 (f := f.drop (r * c)) (r := r') (c := c') (by simp; omega)
  exact ⟨F, G, by rw [← hF, ← hG, List.take_append_drop]⟩

theorem length_data (r c : ℕ) (F : ℕ → ℕ → ℝ) : (mtab r c F).data.length = r * c := wf_mtab r c F

theorem reshape_shape0 (hx : Factor gx) (hy : Factor gy) (t : Bool) (F : ℕ → ℕ → ℝ) :
    reshape (mtab (gy.N 0 t) (gx.N 0 t) F).data ((product gx gy).shape 0 t) = .ok (.arr (mtab (gy.N 0 t) (gx.N 0 t) F)) := by
  rw [shape0 hx hy]; exact reshape_arr_data (wf_mtab _ _ F)
theorem reshape_shape1 (hx : Factor gx) (hy : Factor gy) (t : Bool) (F G : ℕ → ℕ → ℝ) :
    reshape ((mtab (gy.N 0 t) (gx.N 1 t) F).data ++ (mtab (gy.N 1 t) (gx.N 0 t) G).data) ((product gx gy).shape 1 t)
      = .ok (.tup [mtab (gy.N 0 t) (gx.N 1 t) F, mtab (gy.N 1 t) (gx.N 0 t) G]) := by
  rw [shape1 hx hy]; exact reshape_pair_data (wf_mtab _ _ F) (wf_mtab _ _ G)
theorem reshape_shape2 (hx : Factor gx) (hy : Factor gy) (t : Bool) (F : ℕ → ℕ → ℝ) :
    reshape (mtab (gy.N 1 t) (gx.N 1 t) F).data ((product gx gy).shape 2 t) = .ok (.arr (mtab (gy.N 1 t) (gx.N 1 t) F)) := by
  rw [shape2 hx hy]; exact reshape_arr_data (wf_mtab _ _ F)

/-! ## Derivative -/

theorem D0_mtab (hx : Factor gx) (hy : Factor gy) (t : Bool) {F G K : ℕ → ℕ → ℝ}
    (h1 : ∀ j < gy.N 0 t, gx.d0 t (tab (gx.N 0 t) (F j)) = .ok (tab (gx.N 1 t) (G j)))
    (h2 : ∀ i < gx.N 0 t, gy.d0 t (tab (gy.N 0 t) fun j => F j i) = .ok (tab (gy.N 1 t) fun j => K j i)) :
    (product gx gy).D 0 t (mtab (gy.N 0 t) (gx.N 0 t) F).data = .ok ((mtab (gy.N 0 t) (gx.N 1 t) G).data ++ (mtab (gy.N 1 t) (gx.N 0 t) K).data) := by
  simp only [Grid2.D, Grid2.reshapeO]
  rw [reshape_shape0 hx hy]
  have e1 := apply1_mtab (hy.pos 0 t) h1
  have e2 := apply0_mtab (hx.pos 0 t) h2
  simp only [Bind.bind, Except.bind, bD, Val.get, product, e1, e2, unshape]
  simp

theorem D1_mtab (hx : Factor gx) (hy : Factor gy) (t : Bool) {F G F' G' : ℕ → ℕ → ℝ}
    (h1 : ∀ i < gx.N 1 t, gy.d0 t (tab (gy.N 0 t) fun j => F j i) = .ok (tab (gy.N 1 t) fun j => F' j i))
    (h2 : ∀ j < gy.N 1 t, gx.d0 t (tab (gx.N 0 t) (G j)) = .ok (tab (gx.N 1 t) (G' j))) :
    (product gx gy).D 1 t ((mtab (gy.N 0 t) (gx.N 1 t) F).data ++ (mtab (gy.N 1 t) (gx.N 0 t) G).data)
      = .ok (mtab (gy.N 1 t) (gx.N 1 t) fun j i => -F' j i + G' j i).data := by
  simp only [Grid2.D, Grid2.reshapeO]
  rw [reshape_shape1 hx hy]
  have e1 := apply0_mtab (hx.pos 1 t) h1
  have e2 := apply1_mtab (hy.pos 1 t) h2
  simp only [Bind.bind, Except.bind, bD, Val.fst, Val.snd, product, e1, e2, unshape, neg_mtab, bop2_mtab]

/-! ## Hodge star -/

theorem H0_mtab (hx : Factor gx) (hy : Factor gy) (t : Bool) {m m' : ℕ} {F G K : ℕ → ℕ → ℝ} (hm : 0 < m)
    (h1 : ∀ i < gx.N 0 t, gy.H 0 t (tab (gy.N 0 t) fun j => F j i) = .ok (tab m fun j => G j i))
    (h2 : ∀ j < m, gx.H 0 t (tab (gx.N 0 t) (G j)) = .ok (tab m' (K j))) :
    (product gx gy).H 0 t (mtab (gy.N 0 t) (gx.N 0 t) F).data = .ok (mtab m m' K).data := by
  simp only [Grid2.H, Grid2.reshapeO]
  rw [reshape_shape0 hx hy]
  have e1 := apply0_mtab (hx.pos 0 t) h1
  have e2 := apply1_mtab hm h2
  simp only [Bind.bind, Except.bind, bH, Val.get, product, e1, e2, unshape]

theorem H2_mtab (hx : Factor gx) (hy : Factor gy) (t : Bool) {m m' : ℕ} {F G K : ℕ → ℕ → ℝ} (hm : 0 < m)
    (h1 : ∀ i < gx.N 1 t, gy.H 1 t (tab (gy.N 1 t) fun j => F j i) = .ok (tab m fun j => G j i))
    (h2 : ∀ j < m, gx.H 1 t (tab (gx.N 1 t) (G j)) = .ok (tab m' (K j))) :
    (product gx gy).H 2 t (mtab (gy.N 1 t) (gx.N 1 t) F).data = .ok (mtab m m' K).data := by
  simp only [Grid2.H, Grid2.reshapeO]
  rw [reshape_shape2 hx hy]
  have e1 := apply0_mtab (hx.pos 1 t) h1
  have e2 := apply1_mtab hm h2
  simp only [Bind.bind, Except.bind, bH, Val.get, product, e1, e2, unshape]

theorem H1_mtab (hx : Factor gx) (hy : Factor gy) (t : Bool) {m m' p p' : ℕ} {F G F' F'' G' G'' : ℕ → ℕ → ℝ} (hm : 0 < m) (hp : 0 < p')
    (h1 : ∀ i < gx.N 0 t, gy.H 1 t (tab (gy.N 1 t) fun j => G j i) = .ok (tab m fun j => G' j i))
    (h2 : ∀ j < m, gx.H 0 t (tab (gx.N 0 t) (G' j)) = .ok (tab m' (G'' j)))
    (h3 : ∀ j < gy.N 0 t, gx.H 1 t (tab (gx.N 1 t) (F j)) = .ok (tab p' (F' j)))
    (h4 : ∀ i < p', gy.H 0 t (tab (gy.N 0 t) fun j => F' j i) = .ok (tab p fun j => F'' j i)) :
    (product gx gy).H 1 t ((mtab (gy.N 0 t) (gx.N 1 t) F).data ++ (mtab (gy.N 1 t) (gx.N 0 t) G).data)
      = .ok ((mtab m m' fun j i => -G'' j i).data ++ (mtab p p' F'').data) := by
  simp only [Grid2.H, Grid2.reshapeO]
  rw [reshape_shape1 hx hy]
  have e1 := apply0_mtab (hx.pos 0 t) h1
  have e2 := apply1_mtab hm h2
  have e3 := apply1_mtab (hy.pos 0 t) h3
  have e4 := apply0_mtab hp h4
  simp only [Bind.bind, Except.bind, bH, Val.fst, Val.snd, product, e1, e2, e3, e4, unshape, neg_mtab]
  simp

end Dec.G2
