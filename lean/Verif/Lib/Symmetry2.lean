import Verif.Lib.Wedge2
import Verif.Lib.Lin2
import Verif.Lib.Symmetry

set_option linter.unusedSimpArgs false
set_option linter.unusedVariables false

/-! # Symmetries of product grids: moved arrays in normal form -/

namespace Dec.G2

open Finset

/-- The matrix `A` commutes with permutations of its columns and rows, up to the factor `s`. -/
def Inter (n m : ℕ) (A : ℕ → ℕ → ℝ) (s : ℝ) (ι ι' : ℕ → ℕ) : Prop :=
  ∀ f : ℕ → ℝ, ∀ k < m, ∑ j ∈ range n, A k j * f (ι j) = s * ∑ j ∈ range n, A (ι' k) j * f j

theorem Inter.smul {n m : ℕ} {A : ℕ → ℕ → ℝ} {s : ℝ} {ι ι' : ℕ → ℕ} (h : Inter n m A s ι ι') (r : ℝ) (f : ℕ → ℝ) {k : ℕ} (hk : k < m) :
    ∑ j ∈ range n, A k j * (r * f (ι j)) = r * s * ∑ j ∈ range n, A (ι' k) j * f j := by
  rw [mul_assoc, ← h f k hk, mul_sum]
  exact sum_congr rfl fun _ _ => by ring

/-- Both indices. -/
theorem inter_two {n m n' m' : ℕ} {A B : ℕ → ℕ → ℝ} {s s' : ℝ} {ι ι' κ κ' : ℕ → ℕ} (hA : Inter n m A s ι ι') (hB : Inter n' m' B s' κ κ') (r : ℝ) (F : ℕ → ℕ → ℝ)
    {j i : ℕ} (hj : j < m') (hi : i < m) :
    ∑ p ∈ range n, A i p * ∑ q ∈ range n', B j q * (r * F (κ q) (ι p)) = r * (s * s') * ∑ p ∈ range n, A (ι' i) p * ∑ q ∈ range n', B (κ' j) q * F q p := by
  have e : ∀ p, ∑ q ∈ range n', B j q * (r * F (κ q) (ι p)) = r * s' * ∑ q ∈ range n', B (κ' j) q * F q (ι p) := fun p => hB.smul r (fun q => F q (ι p)) hj
  simp only [e]
  rw [hA.smul (r * s') (fun p => ∑ q ∈ range n', B (κ' j) q * F q p) hi]
  ring

/-- Both indices, the columns first. -/
theorem inter_two' {n m n' m' : ℕ} {A B : ℕ → ℕ → ℝ} {s s' : ℝ} {ι ι' κ κ' : ℕ → ℕ} (hA : Inter n m A s ι ι') (hB : Inter n' m' B s' κ κ') (r : ℝ) (F : ℕ → ℕ → ℝ)
    {j i : ℕ} (hj : j < m') (hi : i < m) :
    ∑ q ∈ range n', B j q * ∑ p ∈ range n, A i p * (r * F (κ q) (ι p)) = r * (s * s') * ∑ q ∈ range n', B (κ' j) q * ∑ p ∈ range n, A (ι' i) p * F q p := by
  have e : ∀ q, ∑ p ∈ range n, A i p * (r * F (κ q) (ι p)) = r * s * ∑ p ∈ range n, A (ι' i) p * F (κ q) p := fun q => hA.smul r (fun p => F (κ q) p) hi
  simp only [e]
  rw [hB.smul (r * s) (fun q => ∑ p ∈ range n, A (ι' i) p * F q p) hj]
  ring

/-- The two orders agree. -/
theorem two_comm (n n' : ℕ) (A B : ℕ → ℕ → ℝ) (F : ℕ → ℕ → ℝ) (j i : ℕ) :
    ∑ p ∈ range n, A i p * ∑ q ∈ range n', B j q * F q p = ∑ q ∈ range n', B j q * ∑ p ∈ range n, A i p * F q p := by
  simp only [mul_sum]
  rw [sum_comm]
  exact sum_congr rfl fun _ _ => sum_congr rfl fun _ _ => by ring

/-- A permutation of the cells of a one-dimensional grid (with orientation `σ`) that commutes with derivative and star. -/
structure Move1 (g : Grid1) (σ : ℝ) (ι : Fin 2 → Bool → ℕ → ℕ) : Prop where
  sign : σ * σ = 1
  lt : ∀ d t i, i < g.N d t → ι d t i < g.N d t
  D : ∀ t A, HasMat (g.N 0 t) (g.N 1 t) (g.d0 t) A → Inter (g.N 0 t) (g.N 1 t) A σ (ι 0 t) (ι 1 t)
  H : ∀ d t A, HasMat (g.N d t) (g.N (1 - d) (!t)) (g.H d t) A → Inter (g.N d t) (g.N (1 - d) (!t)) A 1 (ι d t) (ι (1 - d) (!t))

/-- ... and with the refinement. -/
structure MoveT (g : Grid1) (M : ℕ) (ι : Fin 2 → Bool → ℕ → ℕ) (κ : ℕ → ℕ) : Prop where
  lt : ∀ i < M, κ i < M
  T : ∀ d t A, HasMat (g.N d t) M (g.T d t) A → Inter (g.N d t) M A 1 (ι d t) κ
  U : ∀ d t A, HasMat M (g.N d t) (g.U d t) A → Inter M (g.N d t) A 1 κ (ι d t)

theorem HasMat.inter {n m : ℕ} {h : List ℝ → Except Err (List ℝ)} {A : ℕ → ℕ → ℝ} (hA : HasMat n m h A) {s r : ℝ} {ι ι' : ℕ → ℕ} (hs : s * s = 1)
    (hι : ∀ i < n, ι i < n) (hι' : ∀ i < m, ι' i < m)
    (hm : ∀ a : List ℝ, a.length = n → h (moveArr n s ι a) = (h a).map (moveArr m r ι')) : Inter n m A (s * r) ι ι' := by
  intro f k hk
  have h1 := hm (tab n f) (length_tab _ _)
  have e1 : moveArr n s ι (tab n f) = tab n fun i => s * f (ι i) := by
    unfold moveArr
    exact tab_congr fun i hi => by rw [getD_tab (hι i hi)]
  rw [e1, hA, hA] at h1
  have h2 := Except.ok.inj h1
  unfold moveArr at h2
  have h3 := congrArg (fun l => l.getD k 0) h2

  rw [getD_tab hk, getD_tab hk, getD_tab (hι' k hk)] at h3
  have h4 : ∑ j ∈ range n, A k j * (s * f (ι j)) = s * ∑ j ∈ range n, A k j * f (ι j) := by
    rw [mul_sum]; exact sum_congr rfl fun _ _ => by ring
  rw [h4] at h3
  calc _ = s * (s * ∑ j ∈ range n, A k j * f (ι j)) := by rw [← mul_assoc, hs, one_mul]
    _ = _ := by rw [h3, mul_assoc]

/-- One block of a moved form: the degrees in the two directions are `dx`, `dy`. -/
def mv (σx σy : ℝ) (ιx ιy : Fin 2 → Bool → ℕ → ℕ) (dx dy : Fin 2) (t : Bool) (F : ℕ → ℕ → ℝ) (j i : ℕ) : ℝ :=
  sgn σx dx * sgn σy dy * F (ιy dy t j) (ιx dx t i)

section
variable {gx gy : Grid1} {σx σy : ℝ} {ιx ιy : Fin 2 → Bool → ℕ → ℕ} (Fx : Factor gx) (Fy : Factor gy) (mx : Move1 gx σx ιx) (my : Move1 gy σy ιy)
include Fx Fy mx my

local notation "𝕞" => mv σx σy ιx ιy

theorem move_D0 (t : Bool) (F : ℕ → ℕ → ℝ) : ∃ X Y : ℕ → ℕ → ℝ,
    (product gx gy).D 0 t (mtab (gy.N 0 t) (gx.N 0 t) F).data = .ok ((mtab (gy.N 0 t) (gx.N 1 t) X).data ++ (mtab (gy.N 1 t) (gx.N 0 t) Y).data) ∧
    (product gx gy).D 0 t (mtab (gy.N 0 t) (gx.N 0 t) (𝕞 0 0 t F)).data
      = .ok ((mtab (gy.N 0 t) (gx.N 1 t) (𝕞 1 0 t X)).data ++ (mtab (gy.N 1 t) (gx.N 0 t) (𝕞 0 1 t Y)).data) := by
  obtain ⟨A, hA⟩ := (Fx.d t).exists_mat
  obtain ⟨B, hB⟩ := (Fy.d t).exists_mat
  refine ⟨_, _, D0_mtab Fx Fy t (fun j _ => hA _) (fun i _ => hB _), ?_⟩
  rw [D0_mtab Fx Fy t (fun j _ => hA _) (fun i _ => hB _)]
  refine congrArg Except.ok (congrArg₂ (· ++ ·) (congrArg Arr.data (mtab_congr fun j hj i hi => ?_)) (congrArg Arr.data (mtab_congr fun j hj i hi => ?_)))
  · have := (mx.D t A hA).smul 1 (fun p => F (ιy 0 t j) p) hi
    unfold mv
    simp only [sgn, if_true, one_ne_zero, if_false, one_mul, mul_one] at this ⊢
    exact this
  · have := (my.D t B hB).smul 1 (fun q => F q (ιx 0 t i)) hj
    unfold mv
    simp only [sgn, if_true, one_ne_zero, if_false, one_mul, mul_one] at this ⊢
    exact this

theorem move_D1 (t : Bool) (F G : ℕ → ℕ → ℝ) : ∃ X : ℕ → ℕ → ℝ,
    (product gx gy).D 1 t ((mtab (gy.N 0 t) (gx.N 1 t) F).data ++ (mtab (gy.N 1 t) (gx.N 0 t) G).data) = .ok (mtab (gy.N 1 t) (gx.N 1 t) X).data ∧
    (product gx gy).D 1 t ((mtab (gy.N 0 t) (gx.N 1 t) (𝕞 1 0 t F)).data ++ (mtab (gy.N 1 t) (gx.N 0 t) (𝕞 0 1 t G)).data)
      = .ok (mtab (gy.N 1 t) (gx.N 1 t) (𝕞 1 1 t X)).data := by
  obtain ⟨A, hA⟩ := (Fx.d t).exists_mat
  obtain ⟨B, hB⟩ := (Fy.d t).exists_mat
  refine ⟨_, D1_mtab Fx Fy t (fun i _ => hB _) (fun j _ => hA _), ?_⟩
  rw [D1_mtab Fx Fy t (fun i _ => hB _) (fun j _ => hA _)]
  refine congrArg Except.ok (congrArg Arr.data (mtab_congr fun j hj i hi => ?_))
  have h1 := (my.D t B hB).smul σx (fun q => F q (ιx 1 t i)) hj
  have h2 := (mx.D t A hA).smul σy (fun p => G (ιy 1 t j) p) hi
  unfold mv
  simp only [sgn, if_true, one_ne_zero, if_false, one_mul, mul_one] at h1 h2 ⊢
  rw [h1, h2]; ring

variable (sx : Stars gx) (sy : Stars gy)
include sx sy

theorem move_H0 (t : Bool) (F : ℕ → ℕ → ℝ) : ∃ X : ℕ → ℕ → ℝ,
    (product gx gy).H 0 t (mtab (gy.N 0 t) (gx.N 0 t) F).data = .ok (mtab (gy.N 1 (!t)) (gx.N 1 (!t)) X).data ∧
    (product gx gy).H 0 t (mtab (gy.N 0 t) (gx.N 0 t) (𝕞 0 0 t F)).data = .ok (mtab (gy.N 1 (!t)) (gx.N 1 (!t)) fun j i => σx * σy * 𝕞 1 1 (!t) X j i).data := by
  obtain ⟨A, hA⟩ := (sx.lin 0 t).exists_mat
  obtain ⟨B, hB⟩ := (sy.lin 0 t).exists_mat
  refine ⟨_, H0_mtab Fx Fy t (Fy.pos 1 (!t)) (fun i _ => hB _) (fun j _ => hA _), ?_⟩
  rw [H0_mtab Fx Fy t (Fy.pos 1 (!t)) (fun i _ => hB _) (fun j _ => hA _)]
  refine congrArg Except.ok (congrArg Arr.data (mtab_congr fun j hj i hi => ?_))
  have h1 := inter_two (mx.H 0 t A hA) (my.H 0 t B hB) 1 F hj hi
  have e := mx.sign
  have e' := my.sign
  unfold mv
  simp only [sgn, if_true, one_ne_zero, if_false, one_mul, mul_one] at h1 ⊢
  refine h1.trans ?_
  rw [← mul_assoc (σx * σy), show σx * σy * (σx * σy) = 1 by linear_combination (σy * σy) * e + e', one_mul]
  rfl

theorem move_H2 (t : Bool) (F : ℕ → ℕ → ℝ) : ∃ X : ℕ → ℕ → ℝ,
    (product gx gy).H 2 t (mtab (gy.N 1 t) (gx.N 1 t) F).data = .ok (mtab (gy.N 0 (!t)) (gx.N 0 (!t)) X).data ∧
    (product gx gy).H 2 t (mtab (gy.N 1 t) (gx.N 1 t) (𝕞 1 1 t F)).data = .ok (mtab (gy.N 0 (!t)) (gx.N 0 (!t)) fun j i => σx * σy * 𝕞 0 0 (!t) X j i).data := by
  obtain ⟨A, hA⟩ := (sx.lin 1 t).exists_mat
  obtain ⟨B, hB⟩ := (sy.lin 1 t).exists_mat
  refine ⟨_, H2_mtab Fx Fy t (Fy.pos 0 (!t)) (fun i _ => hB _) (fun j _ => hA _), ?_⟩
  rw [H2_mtab Fx Fy t (Fy.pos 0 (!t)) (fun i _ => hB _) (fun j _ => hA _)]
  refine congrArg Except.ok (congrArg Arr.data (mtab_congr fun j hj i hi => ?_))
  have h1 := inter_two (mx.H 1 t A hA) (my.H 1 t B hB) (σx * σy) F hj hi
  unfold mv
  simp only [sgn, if_true, one_ne_zero, if_false, one_mul, mul_one] at h1 ⊢
  exact h1

theorem move_H1 (t : Bool) (F G : ℕ → ℕ → ℝ) : ∃ X Y : ℕ → ℕ → ℝ,
    (product gx gy).H 1 t ((mtab (gy.N 0 t) (gx.N 1 t) F).data ++ (mtab (gy.N 1 t) (gx.N 0 t) G).data)
      = .ok ((mtab (gy.N 0 (!t)) (gx.N 1 (!t)) X).data ++ (mtab (gy.N 1 (!t)) (gx.N 0 (!t)) Y).data) ∧
    (product gx gy).H 1 t ((mtab (gy.N 0 t) (gx.N 1 t) (𝕞 1 0 t F)).data ++ (mtab (gy.N 1 t) (gx.N 0 t) (𝕞 0 1 t G)).data)
      = .ok ((mtab (gy.N 0 (!t)) (gx.N 1 (!t)) fun j i => σx * σy * 𝕞 1 0 (!t) X j i).data ++ (mtab (gy.N 1 (!t)) (gx.N 0 (!t)) fun j i => σx * σy * 𝕞 0 1 (!t) Y j i).data) := by
  obtain ⟨A0, hA0⟩ := (sx.lin 0 t).exists_mat
  obtain ⟨B0, hB0⟩ := (sy.lin 0 t).exists_mat
  obtain ⟨A1, hA1⟩ := (sx.lin 1 t).exists_mat
  obtain ⟨B1, hB1⟩ := (sy.lin 1 t).exists_mat
  refine ⟨_, _, H1_mtab Fx Fy t (Fy.pos 0 (!t)) (Fx.pos 0 (!t)) (fun i _ => hB1 _) (fun j _ => hA0 _) (fun j _ => hA1 _) (fun i _ => hB0 _), ?_⟩
  rw [H1_mtab Fx Fy t (Fy.pos 0 (!t)) (Fx.pos 0 (!t)) (fun i _ => hB1 _) (fun j _ => hA0 _) (fun j _ => hA1 _) (fun i _ => hB0 _)]
  have e := mx.sign
  have e' := my.sign
  refine congrArg Except.ok (congrArg₂ (· ++ ·) (congrArg Arr.data (mtab_congr fun j hj i hi => ?_)) (congrArg Arr.data (mtab_congr fun j hj i hi => ?_)))
  · have h1 := inter_two (mx.H 0 t A0 hA0) (my.H 1 t B1 hB1) σy G hj hi
    unfold mv
    simp only [sgn, if_true, one_ne_zero, if_false, one_mul, mul_one] at h1 ⊢
    rw [h1]
    rw [← mul_assoc (σx * σy), show σx * σy * σx = σy by linear_combination σy * e, mul_neg]
    rfl
  · have h1 := inter_two' (mx.H 1 t A1 hA1) (my.H 0 t B0 hB0) σx F hj hi
    unfold mv
    simp only [sgn, if_true, one_ne_zero, if_false, one_mul, mul_one] at h1 ⊢
    rw [h1]
    rw [← mul_assoc (σx * σy), show σx * σy * σy = σx by linear_combination σx * e']
    rfl

end

/-! ## Pointwise operations -/

/-- What a symmetry does to a product grid: `act` on flat arrays, on the refined points `π`, on the components at a point `S`. -/
structure Act2 (gx gy gx' gy' : Grid1) (mx my mx' my' : ℕ) (act : Fin 3 → Bool → List ℝ → List ℝ) (S : ℕ → (ℕ → ℝ) → ℕ → ℝ) (π : ℕ → ℕ → ℕ × ℕ) : Prop where
  len : ∀ d t (a : List ℝ), a.length = count gx gy d t → (act d t a).length = count gx' gy' d t
  mul : ∀ t (a b : List ℝ), a.length = count gx gy 0 t → b.length = count gx gy 0 t → act 0 t (vmul a b) = vmul (act 0 t a) (act 0 t b)
  om : ∀ d0 d1 k, d0 + d1 ≤ 2 → k < Grid2.ncomp (d0 + d1) → ∀ x y : ℕ → ℝ, G2.om d0 d1 k (S d0 x) (S d1 y) = S (d0 + d1) (fun k => G2.om d0 d1 k x y) k
  cn : ∀ d k, d = 1 ∨ d = 2 → k < Grid2.ncomp (d - 1) → ∀ x y : ℕ → ℝ, G2.cn d k (S 1 x) (S d y) = S (d - 1) (fun k => G2.cn d k x y) k
  T : ∀ (d : Fin 3) t (a : List ℝ), a.length = count gx gy d t → ∃ X : ℕ → ℕ → ℕ → ℝ, (product gx gy).T d t a = .ok (tab (Grid2.ncomp d.val) fun c => mtab my mx (X c)) ∧
    (product gx' gy').T d t (act d t a) = .ok (tab (Grid2.ncomp d.val) fun c => mtab my' mx' fun j i => S d (fun c => X c (π j i).1 (π j i).2) c)
  U : ∀ (d : Fin 3) t (X : ℕ → ℕ → ℕ → ℝ), ∃ b : List ℝ, b.length = count gx gy d t ∧ (product gx gy).U d t (tab (Grid2.ncomp d.val) fun c => mtab my mx (X c)) = .ok b ∧
    (product gx' gy').U d t (tab (Grid2.ncomp d.val) fun c => mtab my' mx' fun j i => S d (fun c => X c (π j i).1 (π j i).2) c) = .ok (act d t b)

section
variable {gx gy gx' gy' : Grid1} {mx my mx' my' : ℕ} {act : Fin 3 → Bool → List ℝ → List ℝ} {S : ℕ → (ℕ → ℝ) → ℕ → ℝ} {π : ℕ → ℕ → ℕ × ℕ}

theorem Act2.wedge (h : Act2 gx gy gx' gy' mx my mx' my' act S π) (d0 d1 : Fin 3) (hd : d0.val + d1.val ≤ 2) (s t u : Bool) (a b : List ℝ)
    (ha : a.length = count gx gy d0 s) (hb : b.length = count gx gy d1 t) :
    ∃ c : List ℝ, (product gx gy).wedge d0 s d1 t u a b = .ok c ∧ (product gx' gy').wedge d0 s d1 t u (act d0 s a) (act d1 t b) = .ok (act (deg2 d0 d1) u c) := by
  by_cases hc : s = t ∧ t = u ∧ d0 = 0 ∧ d1 = 0
  · obtain ⟨rfl, rfl, rfl, rfl⟩ := hc
    refine ⟨vmul a b, ?_, ?_⟩
    · unfold Grid2.wedge; rw [if_neg (by decide), if_pos (by simp)]
      exact bop_mul (fun _ _ => rfl) ha hb
    · unfold Grid2.wedge; rw [if_neg (by decide), if_pos (by simp), bop_mul (fun _ _ => rfl) (h.len 0 s a ha) (h.len 0 s b hb), ← h.mul s a b ha hb]
      rfl
  · obtain ⟨X, hX, hX'⟩ := h.T d0 s a ha
    obtain ⟨Y, hY, hY'⟩ := h.T d1 t b hb
    obtain ⟨w, hw1, hw2⟩ := wedge_2d_comp hd
    have hv := deg2_val hd
    obtain ⟨c, hcl, hU, hU'⟩ := h.U (deg2 d0 d1) u fun k j i => G2.om d0 d1 k (fun c => X c j i) (fun c => Y c j i)
    rw [hv] at hU hU'
    refine ⟨c, ?_, ?_⟩
    · unfold Grid2.wedge
      rw [if_neg (by omega), if_neg hc, hX, hY]
      simp only [bind, Except.bind, hw1]
      rw [entrywise_mtab (ncomp_pos _) w _ _ (fun k j i => G2.om d0 d1 k (fun c => X c j i) (fun c => Y c j i)) fun k hk j i => hw2 _ _ k hk]
      exact hU
    · unfold Grid2.wedge
      rw [if_neg (by omega), if_neg hc, hX', hY']
      simp only [bind, Except.bind, hw1]
      rw [entrywise_mtab (ncomp_pos _) w _ _
        (fun k j i => S (d0 + d1) (fun k => G2.om d0 d1 k (fun c => X c (π j i).1 (π j i).2) (fun c => Y c (π j i).1 (π j i).2)) k) fun k hk j i => ?_]
      · exact hU'
      · rw [hw2 _ _ k hk]
        exact h.om _ _ k hd hk _ _

theorem Act2.contraction (h : Act2 gx gy gx' gy' mx my mx' my' act S π) (d : Fin 3) (hd : d ≠ 0) (s t u : Bool) (a b : List ℝ)
    (ha : a.length = count gx gy 1 s) (hb : b.length = count gx gy d t) :
    ∃ c : List ℝ, (product gx gy).contraction s d t u a b = .ok c ∧ (product gx' gy').contraction s d t u (act 1 s a) (act d t b) = .ok (act (d - 1) u c) := by
  have hd' : d = 1 ∨ d = 2 := by omega
  have hv : (d - 1).val = d.val - 1 := by rcases hd' with rfl | rfl <;> rfl
  have hv' : (Fin.ofNat 3 (d.val - 1)) = d - 1 := by rcases hd' with rfl | rfl <;> rfl
  have hv2 : d.val = 1 ∨ d.val = 2 := by rcases hd' with rfl | rfl <;> simp
  obtain ⟨X, hX, hX'⟩ := h.T 1 s a ha
  obtain ⟨Y, hY, hY'⟩ := h.T d t b hb
  obtain ⟨c, hcl, hU, hU'⟩ := h.U (d - 1) u fun k j i => G2.cn d k (fun c => X c j i) (fun c => Y c j i)
  rw [hv] at hU hU'
  refine ⟨c, ?_, ?_⟩
  · unfold Grid2.contraction
    rw [if_neg hd, hX, hY]
    simp only [bind, Except.bind]
    rw [entrywise_mtab (ncomp_pos _) _ _ _ (fun k j i => G2.cn d k (fun c => X c j i) (fun c => Y c j i)) fun k hk j i => cn_comp hv2 hk _ _, hv']
    exact hU
  · unfold Grid2.contraction
    rw [if_neg hd, hX', hY']
    simp only [bind, Except.bind]
    rw [entrywise_mtab (ncomp_pos _) _ _ _
      (fun k j i => S (d - 1 : ℕ) (fun k => G2.cn d k (fun c => X c (π j i).1 (π j i).2) (fun c => Y c (π j i).1 (π j i).2)) k) fun k hk j i => ?_, hv']
    · exact hU'
    · refine (cn_comp hv2 hk _ _).trans ?_
      exact h.cn _ k hv2 hk _ _
end

end Dec.G2
