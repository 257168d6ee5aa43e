import Verif.Lib.Factors
import Verif.Lib.Bil

set_option linter.unusedSimpArgs false
set_option linter.unusedVariables false

/-! # Refinement on product grids -/

namespace Dec.G2

open Finset Real

variable {gx gy : Grid1}

theorem T0_mtab (hx : Factor gx) (hy : Factor gy) (t : Bool) {m m' : ℕ} {F G K : ℕ → ℕ → ℝ} (hm : 0 < m')
    (h1 : ∀ j < gy.N 0 t, gx.T 0 t (tab (gx.N 0 t) (F j)) = .ok (tab m' (G j)))
    (h2 : ∀ i < m', gy.T 0 t (tab (gy.N 0 t) fun j => G j i) = .ok (tab m fun j => K j i)) :
    (product gx gy).T 0 t (mtab (gy.N 0 t) (gx.N 0 t) F).data = .ok [mtab m m' K] := by
  simp only [Grid2.T]
  rw [reshape_shape0 hx hy]
  have e1 := apply1_mtab (hy.pos 0 t) h1
  have e2 := apply0_mtab hm h2
  simp only [Bind.bind, Except.bind, bT, Val.get, product, e1, e2]

theorem T2_mtab (hx : Factor gx) (hy : Factor gy) (t : Bool) {m m' : ℕ} {F G K : ℕ → ℕ → ℝ} (hm : 0 < m')
    (h1 : ∀ j < gy.N 1 t, gx.T 1 t (tab (gx.N 1 t) (F j)) = .ok (tab m' (G j)))
    (h2 : ∀ i < m', gy.T 1 t (tab (gy.N 1 t) fun j => G j i) = .ok (tab m fun j => K j i)) :
    (product gx gy).T 2 t (mtab (gy.N 1 t) (gx.N 1 t) F).data = .ok [mtab m m' K] := by
  simp only [Grid2.T]
  rw [reshape_shape2 hx hy]
  have e1 := apply1_mtab (hy.pos 1 t) h1
  have e2 := apply0_mtab hm h2
  simp only [Bind.bind, Except.bind, bT, Val.get, product, e1, e2]

theorem T1_mtab (hx : Factor gx) (hy : Factor gy) (t : Bool) {m m' p p' : ℕ} {F F' F'' G G' G'' : ℕ → ℕ → ℝ} (hm : 0 < m') (hp : 0 < p')
    (h1 : ∀ j < gy.N 0 t, gx.T 1 t (tab (gx.N 1 t) (F j)) = .ok (tab m' (F' j)))
    (h2 : ∀ i < m', gy.T 0 t (tab (gy.N 0 t) fun j => F' j i) = .ok (tab m fun j => F'' j i))
    (h3 : ∀ j < gy.N 1 t, gx.T 0 t (tab (gx.N 0 t) (G j)) = .ok (tab p' (G' j)))
    (h4 : ∀ i < p', gy.T 1 t (tab (gy.N 1 t) fun j => G' j i) = .ok (tab p fun j => G'' j i)) :
    (product gx gy).T 1 t ((mtab (gy.N 0 t) (gx.N 1 t) F).data ++ (mtab (gy.N 1 t) (gx.N 0 t) G).data) = .ok [mtab m m' F'', mtab p p' G''] := by
  simp only [Grid2.T]
  rw [reshape_shape1 hx hy]
  have e1 := apply1_mtab (hy.pos 0 t) h1
  have e2 := apply0_mtab hm h2
  have e3 := apply1_mtab (hy.pos 1 t) h3
  have e4 := apply0_mtab hp h4
  simp only [Bind.bind, Except.bind, bT, Val.fst, Val.snd, product, e1, e2, e3, e4]

theorem U0_mtab (t : Bool) {n n' m m' : ℕ} {F G K : ℕ → ℕ → ℝ} (hn : 0 < n) (hm : 0 < m')
    (h1 : ∀ j < n, gx.U 0 t (tab n' (F j)) = .ok (tab m' (G j)))
    (h2 : ∀ i < m', gy.U 0 t (tab n fun j => G j i) = .ok (tab m fun j => K j i)) :
    (product gx gy).U 0 t [mtab n n' F] = .ok (mtab m m' K).data := by
  have e1 := apply1_mtab hn h1
  have e2 := apply0_mtab hm h2
  simp only [Grid2.U, Bind.bind, Except.bind, bU, Val.fst, product, e1, e2, unshape]

theorem U2_mtab (t : Bool) {n n' m m' : ℕ} {F G K : ℕ → ℕ → ℝ} (hn : 0 < n) (hm : 0 < m')
    (h1 : ∀ j < n, gx.U 1 t (tab n' (F j)) = .ok (tab m' (G j)))
    (h2 : ∀ i < m', gy.U 1 t (tab n fun j => G j i) = .ok (tab m fun j => K j i)) :
    (product gx gy).U 2 t [mtab n n' F] = .ok (mtab m m' K).data := by
  have e1 := apply1_mtab hn h1
  have e2 := apply0_mtab hm h2
  simp only [Grid2.U, Bind.bind, Except.bind, bU, Val.fst, product, e1, e2, unshape]

theorem U1_mtab (t : Bool) {n n' q q' m m' p p' : ℕ} {F F' F'' G G' G'' : ℕ → ℕ → ℝ} (hn : 0 < n) (hq : 0 < q) (hm : 0 < m') (hp : 0 < p')
    (h1 : ∀ j < n, gx.U 1 t (tab n' (F j)) = .ok (tab m' (F' j)))
    (h2 : ∀ i < m', gy.U 0 t (tab n fun j => F' j i) = .ok (tab m fun j => F'' j i))
    (h3 : ∀ j < q, gx.U 0 t (tab q' (G j)) = .ok (tab p' (G' j)))
    (h4 : ∀ i < p', gy.U 1 t (tab q fun j => G' j i) = .ok (tab p fun j => G'' j i)) :
    (product gx gy).U 1 t [mtab n n' F, mtab q q' G] = .ok ((mtab m m' F'').data ++ (mtab p p' G'').data) := by
  have e1 := apply1_mtab hn h1
  have e2 := apply0_mtab hm h2
  have e3 := apply1_mtab hq h3
  have e4 := apply0_mtab hp h4
  simp only [Grid2.U, Bind.bind, Except.bind, bU, Val.fst, Val.snd, product, e1, e2, e3, e4, unshape]
  simp

/-! ## Linear forms of the refinement -/

/-- A factor whose refinement tables are linear and go to `M` points. -/
structure Refined (g : Grid1) (M : ℕ) : Prop extends Refining g.N M g.T g.U where
  pos : 0 < M
  inv : ∀ d t (a : List ℝ), a.length = g.N d t → (g.T d t a >>= g.U d t) = .ok a

theorem getD_vadd {n : ℕ} {a b : List ℝ} (ha : a.length = n) (hb : b.length = n) (p : ℕ) : (vadd a b).getD p 0 = a.getD p 0 + b.getD p 0 := by
  rw [eq_tab' ha 0, eq_tab' hb 0, vadd_tab]
  by_cases h : p < n
  · rw [getD_tab h, getD_tab h, getD_tab h]
  · have hl : ∀ f : ℕ → ℝ, (tab n f).getD p 0 = 0 := fun f => by
      rw [List.getD_eq_getElem?_getD, List.getElem?_eq_none (by simp; omega)]; rfl
    rw [hl, hl, hl, add_zero]

theorem getD_map_smul (r : ℝ) (a : List ℝ) (p : ℕ) : (a.map (r • ·)).getD p 0 = r * a.getD p 0 := by
  rw [List.getD_eq_getElem?_getD, List.getD_eq_getElem?_getD, List.getElem?_map]
  cases a[p]? <;> simp

/-- Matrices applied to the two indices. -/
noncomputable def two (n n' : ℕ) (A B : ℕ → ℕ → ℝ) (F : ℕ → ℕ → ℝ) (j i : ℕ) : ℝ := ∑ q ∈ range n', B j q * ∑ p ∈ range n, A i p * F q p

theorem two_add (n n' : ℕ) (A B F G : ℕ → ℕ → ℝ) (j i : ℕ) : two n n' A B (fun j i => F j i + G j i) j i = two n n' A B F j i + two n n' A B G j i := by
  unfold two
  simp only [mul_add, Finset.sum_add_distrib]

theorem two_smul (n n' : ℕ) (A B F : ℕ → ℕ → ℝ) (r : ℝ) (j i : ℕ) : two n n' A B (fun j i => r * F j i) j i = r * two n n' A B F j i := by
  unfold two
  simp only [Finset.mul_sum]
  exact Finset.sum_congr rfl fun _ _ => Finset.sum_congr rfl fun _ _ => by ring

theorem two_add' (n n' : ℕ) (A B F G : ℕ → ℕ → ℝ) : two n n' A B (fun j i => F j i + G j i) = fun j i => two n n' A B F j i + two n n' A B G j i := by
  funext j i; exact two_add ..
theorem two_smul' (n n' : ℕ) (A B F : ℕ → ℕ → ℝ) (r : ℝ) : two n n' A B (fun j i => r * F j i) = fun j i => r * two n n' A B F j i := by
  funext j i; exact two_smul ..

theorem data_getD (r c : ℕ) (a : List ℝ) (h : a.length = r * c) : (mtab r c fun j i => a.getD (j * c + i) 0).data = a :=
  (congrArg Arr.data (Arr.Wf.eq_mtab (X := ⟨r, c, a⟩) h 0)).symm

theorem data_getD2 (r c r' c' : ℕ) (a : List ℝ) (h : a.length = r * c + r' * c') :
    (mtab r c fun j i => a.getD (j * c + i) 0).data ++ (mtab r' c' fun j i => a.getD (r * c + (j * c' + i)) 0).data = a := by
  conv_rhs => rw [← List.take_append_drop (r * c) a, ← data_getD r c (a.take (r * c)) (by simp; omega), ← data_getD r' c' (a.drop (r * c)) (by simp; omega)]
  refine congrArg₂ (· ++ ·) (congrArg Arr.data (mtab_congr fun j hj i hi => ?_)) (congrArg Arr.data (mtab_congr fun j hj i hi => ?_))
  · have : j * c + i < r * c := by nlinarith
    rw [List.getD_eq_getElem?_getD, List.getD_eq_getElem?_getD, List.getElem?_take_of_lt this]
  · rw [List.getD_eq_getElem?_getD, List.getD_eq_getElem?_getD, List.getElem?_drop]

theorem vadd_mtab (r c : ℕ) (F G : ℕ → ℕ → ℝ) : (mtab r c fun j i => F j i + G j i).data = vadd (mtab r c F).data (mtab r c G).data := by
  unfold mtab; rw [vadd_tab]

theorem smul_mtab (r c : ℕ) (s : ℝ) (F : ℕ → ℕ → ℝ) : (mtab r c fun j i => s * F j i).data = (mtab r c F).data.map (s • ·) := by
  unfold mtab; simp [tab]

section
variable {mx my : ℕ} (hx : Factor gx) (hy : Factor gy) (rx : Refined gx mx) (ry : Refined gy my)
include hx hy rx ry

/-- Refinement of flat arrays: every component is a linear function with values in `my × mx` arrays. -/
theorem T_form (d : Fin 3) (t : Bool) : ∃ τ : ℕ → List ℝ → ℕ → ℕ → ℝ,
    (∀ c (a a' : List ℝ) j i, a.length = count gx gy d t → a'.length = count gx gy d t → τ c (vadd a a') j i = τ c a j i + τ c a' j i) ∧
    (∀ c (r : ℝ) (a : List ℝ) j i, τ c (a.map (r • ·)) j i = r * τ c a j i) ∧
    ∀ a : List ℝ, a.length = count gx gy d t → (product gx gy).T d t a = .ok (tab (Grid2.ncomp d.val) fun c => mtab my mx (τ c a)) := by
  choose A hA using fun d t => (rx.T d t).exists_mat
  choose B hB using fun d t => (ry.T d t).exists_mat
  obtain rfl | rfl | rfl : d = 0 ∨ d = 1 ∨ d = 2 := by omega
  · refine ⟨fun _ a => two (gx.N 0 t) (gy.N 0 t) (A 0 t) (B 0 t) fun j i => a.getD (j * gx.N 0 t + i) 0, fun _ a a' j i ha ha' => ?_, fun _ r a j i => ?_, fun a ha => ?_⟩
    · simp only [getD_vadd ha ha', two_add]
    · simp only [getD_map_smul, two_smul]
    · conv_lhs => rw [← data_getD _ _ a ha]
      exact T0_mtab hx hy t rx.pos (fun j _ => hA 0 t _) (fun i _ => hB 0 t _)
  · refine ⟨fun c a => if c = 0 then two (gx.N 1 t) (gy.N 0 t) (A 1 t) (B 0 t) fun j i => a.getD (j * gx.N 1 t + i) 0 else
        two (gx.N 0 t) (gy.N 1 t) (A 0 t) (B 1 t) fun j i => a.getD (gy.N 0 t * gx.N 1 t + (j * gx.N 0 t + i)) 0, fun _ a a' j i ha ha' => ?_, fun _ r a j i => ?_, fun a ha => ?_⟩
    · beta_reduce
      split_ifs <;> simp only [getD_vadd ha ha', two_add]
    · beta_reduce
      split_ifs <;> simp only [getD_map_smul, two_smul]
    · conv_lhs => rw [← data_getD2 _ _ _ _ a ha]
      exact T1_mtab hx hy t rx.pos rx.pos (fun j _ => hA 1 t _) (fun i _ => hB 0 t _) (fun j _ => hA 0 t _) (fun i _ => hB 1 t _)
  · refine ⟨fun _ a => two (gx.N 1 t) (gy.N 1 t) (A 1 t) (B 1 t) fun j i => a.getD (j * gx.N 1 t + i) 0, fun _ a a' j i ha ha' => ?_, fun _ r a j i => ?_, fun a ha => ?_⟩
    · simp only [getD_vadd ha ha', two_add]
    · simp only [getD_map_smul, two_smul]
    · conv_lhs => rw [← data_getD _ _ a ha]
      exact T2_mtab hx hy t rx.pos (fun j _ => hA 1 t _) (fun i _ => hB 1 t _)

/-- Unrefinement to flat arrays is linear in the components. -/
theorem U_form (d : Fin 3) (t : Bool) : ∃ υ : (ℕ → ℕ → ℕ → ℝ) → List ℝ,
    (∀ X X', υ (fun c j i => X c j i + X' c j i) = vadd (υ X) (υ X')) ∧ (∀ (r : ℝ) X, υ (fun c j i => r * X c j i) = (υ X).map (r • ·)) ∧
    (∀ X, (υ X).length = count gx gy d t) ∧
    ∀ X : ℕ → ℕ → ℕ → ℝ, (product gx gy).U d t (tab (Grid2.ncomp d.val) fun c => mtab my mx (X c)) = .ok (υ X) := by
  choose A hA using fun d t => (rx.U d t).exists_mat
  choose B hB using fun d t => (ry.U d t).exists_mat
  obtain rfl | rfl | rfl : d = 0 ∨ d = 1 ∨ d = 2 := by omega
  · refine ⟨fun X => (mtab (gy.N 0 t) (gx.N 0 t) (two mx my (A 0 t) (B 0 t) (X 0))).data, fun X X' => ?_, fun r X => ?_, fun X => ?_, fun X => ?_⟩
    · rw [← vadd_mtab]; simp only [two_add']
    · rw [← smul_mtab]; simp only [two_smul']
    · exact length_data _ _ _
    · exact U0_mtab t ry.pos (hx.pos 0 t) (fun j _ => hA 0 t _) (fun i _ => hB 0 t _)
  · refine ⟨fun X => (mtab (gy.N 0 t) (gx.N 1 t) (two mx my (A 1 t) (B 0 t) (X 0))).data ++ (mtab (gy.N 1 t) (gx.N 0 t) (two mx my (A 0 t) (B 1 t) (X 1))).data,
      fun X X' => ?_, fun r X => ?_, fun X => ?_, fun X => ?_⟩
    · unfold vadd
      rw [List.zipWith_append (by rw [length_data, length_data])]
      refine congrArg₂ (· ++ ·) ?_ ?_
      · simp only [two_add']; exact vadd_mtab _ _ _ _
      · simp only [two_add']; exact vadd_mtab _ _ _ _
    · rw [List.map_append, ← smul_mtab, ← smul_mtab]; simp only [two_smul']
    · rw [List.length_append, length_data, length_data]; rfl
    · exact U1_mtab t ry.pos ry.pos (hx.pos 1 t) (hx.pos 0 t) (fun j _ => hA 1 t _) (fun i _ => hB 0 t _) (fun j _ => hA 0 t _) (fun i _ => hB 1 t _)
  · refine ⟨fun X => (mtab (gy.N 1 t) (gx.N 1 t) (two mx my (A 1 t) (B 1 t) (X 0))).data, fun X X' => ?_, fun r X => ?_, fun X => ?_, fun X => ?_⟩
    · rw [← vadd_mtab]; simp only [two_add']
    · rw [← smul_mtab]; simp only [two_smul']
    · exact length_data _ _ _
    · exact U2_mtab t ry.pos (hx.pos 1 t) (fun j _ => hA 1 t _) (fun i _ => hB 1 t _)
end

end Dec.G2
