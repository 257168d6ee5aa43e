import Verif.Lib.Symmetry2

set_option linter.unusedSimpArgs false
set_option linter.unusedVariables false

/-! # The two kinds of symmetries of product grids: moves along the axes, exchange of the axes -/

namespace Dec.G2

open Finset

/-- The components of a moved form at a point. -/
noncomputable def Smove (σx σy : ℝ) (d : ℕ) (x : ℕ → ℝ) (c : ℕ) : ℝ := (if d = 0 then 1 else if d = 1 then (if c = 0 then σx else σy) else σx * σy) * x c

/-- The components of a form on the grid with exchanged axes. -/
noncomputable def Sswap (d : ℕ) (x : ℕ → ℝ) (c : ℕ) : ℝ := if d = 0 then x c else if d = 1 then x (1 - c) else -x c

theorem deg_cases {d0 d1 : ℕ} (h : d0 + d1 ≤ 2) : (d0 = 0 ∧ d1 = 0) ∨ (d0 = 0 ∧ d1 = 1) ∨ (d0 = 0 ∧ d1 = 2) ∨ (d0 = 1 ∧ d1 = 0) ∨ (d0 = 1 ∧ d1 = 1) ∨ (d0 = 2 ∧ d1 = 0) := by omega

theorem Smove_om (σx σy : ℝ) {d0 d1 k : ℕ} (h : d0 + d1 ≤ 2) (hk : k < Grid2.ncomp (d0 + d1)) (x y : ℕ → ℝ) :
    om d0 d1 k (Smove σx σy d0 x) (Smove σx σy d1 y) = Smove σx σy (d0 + d1) (fun k => om d0 d1 k x y) k := by
  unfold om Smove
  rcases deg_cases h with ⟨rfl, rfl⟩ | ⟨rfl, rfl⟩ | ⟨rfl, rfl⟩ | ⟨rfl, rfl⟩ | ⟨rfl, rfl⟩ | ⟨rfl, rfl⟩ <;> simp <;> ring_nf

theorem Smove_cn {σx σy : ℝ} (hx : σx * σx = 1) (hy : σy * σy = 1) {d k : ℕ} (h : d = 1 ∨ d = 2) (hk : k < Grid2.ncomp (d - 1)) (x y : ℕ → ℝ) :
    cn d k (Smove σx σy 1 x) (Smove σx σy d y) = Smove σx σy (d - 1) (fun k => cn d k x y) k := by
  have hk2 : k = 0 ∨ k = 1 := by unfold Grid2.ncomp at hk; split at hk <;> omega
  unfold cn Smove
  rcases h with rfl | rfl
  · simp only [if_true, one_ne_zero, if_false]
    norm_num
    linear_combination (x 0 * y 0) * hx + (x 1 * y 1) * hy
  · rcases hk2 with rfl | rfl
    · norm_num
      linear_combination (σx * x 1 * y 0) * hy
    · norm_num
      linear_combination (σy * x 0 * y 0) * hx

theorem Sswap_om {d0 d1 k : ℕ} (h : d0 + d1 ≤ 2) (hk : k < Grid2.ncomp (d0 + d1)) (x y : ℕ → ℝ) :
    om d0 d1 k (Sswap d0 x) (Sswap d1 y) = Sswap (d0 + d1) (fun k => om d0 d1 k x y) k := by
  unfold om Sswap
  rcases deg_cases h with ⟨rfl, rfl⟩ | ⟨rfl, rfl⟩ | ⟨rfl, rfl⟩ | ⟨rfl, rfl⟩ | ⟨rfl, rfl⟩ | ⟨rfl, rfl⟩ <;> simp

theorem Sswap_cn {d k : ℕ} (h : d = 1 ∨ d = 2) (hk : k < Grid2.ncomp (d - 1)) (x y : ℕ → ℝ) :
    cn d k (Sswap 1 x) (Sswap d y) = Sswap (d - 1) (fun k => cn d k x y) k := by
  have hk2 : k = 0 ∨ k = 1 := by unfold Grid2.ncomp at hk; split at hk <;> omega
  unfold cn Sswap
  rcases h with rfl | rfl
  · norm_num; ring
  · rcases hk2 with rfl | rfl <;> norm_num

theorem tab_one {α : Type*} (f : ℕ → α) : tab 1 f = [f 0] := rfl
theorem tab_two {α : Type*} (f : ℕ → α) : tab 2 f = [f 0, f 1] := rfl

theorem form0 {gx gy : Grid1} {t : Bool} {a : List ℝ} (h : a.length = count gx gy 0 t) : ∃ F, a = (mtab (gy.N 0 t) (gx.N 0 t) F).data := flat0 h
theorem form2 {gx gy : Grid1} {t : Bool} {a : List ℝ} (h : a.length = count gx gy 2 t) : ∃ F, a = (mtab (gy.N 1 t) (gx.N 1 t) F).data := flat0 h
theorem form1 {gx gy : Grid1} {t : Bool} {a : List ℝ} (h : a.length = count gx gy 1 t) :
    ∃ F G, a = (mtab (gy.N 0 t) (gx.N 1 t) F).data ++ (mtab (gy.N 1 t) (gx.N 0 t) G).data := flat1 h

theorem vmul_mtab (r c : ℕ) (F G : ℕ → ℕ → ℝ) : vmul (mtab r c F).data (mtab r c G).data = (mtab r c fun j i => F j i * G j i).data := by
  unfold vmul mtab; rw [zipWith_tab]

theorem ncomp_eq : Grid2.ncomp (0 : Fin 3).val = 1 ∧ Grid2.ncomp (1 : Fin 3).val = 2 ∧ Grid2.ncomp (2 : Fin 3).val = 1 := ⟨rfl, rfl, rfl⟩

section
variable {gx gy : Grid1} {σx σy : ℝ} {ιx ιy : Fin 2 → Bool → ℕ → ℕ} {Mx My : ℕ} {κx κy : ℕ → ℕ} {act : Fin 3 → Bool → List ℝ → List ℝ}

/-- How the moves act on flat arrays. -/
structure MoveAct (gx gy : Grid1) (σx σy : ℝ) (ιx ιy : Fin 2 → Bool → ℕ → ℕ) (act : Fin 3 → Bool → List ℝ → List ℝ) : Prop where
  f0 : ∀ t F, act 0 t (mtab (gy.N 0 t) (gx.N 0 t) F).data = (mtab (gy.N 0 t) (gx.N 0 t) (mv σx σy ιx ιy 0 0 t F)).data
  f1 : ∀ t F G, act 1 t ((mtab (gy.N 0 t) (gx.N 1 t) F).data ++ (mtab (gy.N 1 t) (gx.N 0 t) G).data)
    = (mtab (gy.N 0 t) (gx.N 1 t) (mv σx σy ιx ιy 1 0 t F)).data ++ (mtab (gy.N 1 t) (gx.N 0 t) (mv σx σy ιx ιy 0 1 t G)).data
  f2 : ∀ t F, act 2 t (mtab (gy.N 1 t) (gx.N 1 t) F).data = (mtab (gy.N 1 t) (gx.N 1 t) (mv σx σy ιx ιy 1 1 t F)).data

theorem MoveAct.len (h : MoveAct gx gy σx σy ιx ιy act) (d : Fin 3) (t : Bool) (a : List ℝ) (ha : a.length = count gx gy d t) : (act d t a).length = count gx gy d t := by
  obtain rfl | rfl | rfl : d = 0 ∨ d = 1 ∨ d = 2 := by omega
  · obtain ⟨F, rfl⟩ := form0 ha
    rw [h.f0, length_data]; rfl
  · obtain ⟨F, G, rfl⟩ := form1 ha
    rw [h.f1, List.length_append, length_data, length_data]; rfl
  · obtain ⟨F, rfl⟩ := form2 ha
    rw [h.f2, length_data]; rfl

theorem act2_move (Fx : Factor gx) (Fy : Factor gy) (rx : Refined gx Mx) (ry : Refined gy My) (hx : σx * σx = 1) (hy : σy * σy = 1)
    (mx : MoveT gx Mx ιx κx) (my : MoveT gy My ιy κy) (h : MoveAct gx gy σx σy ιx ιy act) :
    Act2 gx gy gx gy Mx My Mx My act (Smove σx σy) (fun j i => (κy j, κx i)) where
  len := h.len
  mul t a b ha hb := by
    obtain ⟨F, rfl⟩ := form0 ha
    obtain ⟨G, rfl⟩ := form0 hb
    rw [vmul_mtab, h.f0, h.f0, h.f0, vmul_mtab]
    refine congrArg Arr.data (mtab_congr fun j _ i _ => ?_)
    unfold mv sgn; simp
  om d0 d1 k hd hk x y := Smove_om σx σy hd hk x y
  cn d k hd hk x y := Smove_cn hx hy hd hk x y
  T d t a ha := by
    choose A hA using fun d t => (rx.T d t).exists_mat
    choose B hB using fun d t => (ry.T d t).exists_mat
    obtain rfl | rfl | rfl : d = 0 ∨ d = 1 ∨ d = 2 := by omega
    · obtain ⟨F, rfl⟩ := form0 ha
      rw [h.f0, ncomp_eq.1]
      refine ⟨fun _ => two (gx.N 0 t) (gy.N 0 t) (A 0 t) (B 0 t) F, T0_mtab Fx Fy t rx.pos (fun j _ => hA 0 t _) (fun i _ => hB 0 t _), ?_⟩
      rw [T0_mtab Fx Fy t rx.pos (fun j _ => hA 0 t _) (fun i _ => hB 0 t _), tab_one]
      refine congrArg Except.ok (congrArg (fun x => [x]) (mtab_congr fun j hj i hi => ?_))
      have h1 := inter_two' (mx.T 0 t _ (hA 0 t)) (my.T 0 t _ (hB 0 t)) 1 F hj hi
      unfold mv
      unfold Smove two
      simp only [sgn, if_true, one_mul, mul_one, Fin.isValue, Fin.coe_ofNat_eq_mod, Nat.zero_mod] at h1 ⊢
      exact h1
    · obtain ⟨F, G, rfl⟩ := form1 ha
      rw [h.f1, ncomp_eq.2.1]
      refine ⟨fun c => if c = 0 then two (gx.N 1 t) (gy.N 0 t) (A 1 t) (B 0 t) F else two (gx.N 0 t) (gy.N 1 t) (A 0 t) (B 1 t) G,
        T1_mtab Fx Fy t rx.pos rx.pos (fun j _ => hA 1 t _) (fun i _ => hB 0 t _) (fun j _ => hA 0 t _) (fun i _ => hB 1 t _), ?_⟩
      rw [T1_mtab Fx Fy t rx.pos rx.pos (fun j _ => hA 1 t _) (fun i _ => hB 0 t _) (fun j _ => hA 0 t _) (fun i _ => hB 1 t _), tab_two]
      refine congrArg Except.ok (congrArg₂ (fun x y => [x, y]) (mtab_congr fun j hj i hi => ?_) (mtab_congr fun j hj i hi => ?_))
      · have h1 := inter_two' (mx.T 1 t _ (hA 1 t)) (my.T 0 t _ (hB 0 t)) σx F hj hi
        unfold mv
        unfold Smove two
        simp only [sgn, if_true, one_mul, mul_one, one_ne_zero, if_false] at h1 ⊢
        exact h1
      · have h1 := inter_two' (mx.T 0 t _ (hA 0 t)) (my.T 1 t _ (hB 1 t)) σy G hj hi
        unfold mv
        unfold Smove two
        simp only [sgn, if_true, one_mul, mul_one, one_ne_zero, if_false] at h1 ⊢
        exact h1
    · obtain ⟨F, rfl⟩ := form2 ha
      rw [h.f2, ncomp_eq.2.2]
      refine ⟨fun _ => two (gx.N 1 t) (gy.N 1 t) (A 1 t) (B 1 t) F, T2_mtab Fx Fy t rx.pos (fun j _ => hA 1 t _) (fun i _ => hB 1 t _), ?_⟩
      rw [T2_mtab Fx Fy t rx.pos (fun j _ => hA 1 t _) (fun i _ => hB 1 t _), tab_one]
      refine congrArg Except.ok (congrArg (fun x => [x]) (mtab_congr fun j hj i hi => ?_))
      have h1 := inter_two' (mx.T 1 t _ (hA 1 t)) (my.T 1 t _ (hB 1 t)) (σx * σy) F hj hi
      unfold mv
      unfold Smove two
      simp only [sgn, if_true, one_mul, mul_one, one_ne_zero, if_false] at h1 ⊢
      exact h1
  U d t X := by
    choose A hA using fun d t => (rx.U d t).exists_mat
    choose B hB using fun d t => (ry.U d t).exists_mat
    obtain rfl | rfl | rfl : d = 0 ∨ d = 1 ∨ d = 2 := by omega
    · rw [ncomp_eq.1, tab_one, tab_one]
      refine ⟨(mtab (gy.N 0 t) (gx.N 0 t) (two Mx My (A 0 t) (B 0 t) (X 0))).data, length_data _ _ _,
        U0_mtab t ry.pos (Fx.pos 0 t) (fun j _ => hA 0 t _) (fun i _ => hB 0 t _), ?_⟩
      rw [U0_mtab t ry.pos (Fx.pos 0 t) (fun j _ => hA 0 t _) (fun i _ => hB 0 t _), h.f0]
      refine congrArg Except.ok (congrArg Arr.data (mtab_congr fun j hj i hi => ?_))
      have h1 := inter_two' (mx.U 0 t _ (hA 0 t)) (my.U 0 t _ (hB 0 t)) 1 (X 0) hj hi
      unfold mv
      unfold Smove two
      simp only [sgn, if_true, one_mul, mul_one, Fin.isValue, Fin.coe_ofNat_eq_mod, Nat.zero_mod] at h1 ⊢
      exact h1
    · rw [ncomp_eq.2.1, tab_two, tab_two]
      refine ⟨(mtab (gy.N 0 t) (gx.N 1 t) (two Mx My (A 1 t) (B 0 t) (X 0))).data ++ (mtab (gy.N 1 t) (gx.N 0 t) (two Mx My (A 0 t) (B 1 t) (X 1))).data, ?_,
        U1_mtab t ry.pos ry.pos (Fx.pos 1 t) (Fx.pos 0 t) (fun j _ => hA 1 t _) (fun i _ => hB 0 t _) (fun j _ => hA 0 t _) (fun i _ => hB 1 t _), ?_⟩
      · rw [List.length_append, length_data, length_data]; rfl
      · rw [U1_mtab t ry.pos ry.pos (Fx.pos 1 t) (Fx.pos 0 t) (fun j _ => hA 1 t _) (fun i _ => hB 0 t _) (fun j _ => hA 0 t _) (fun i _ => hB 1 t _), h.f1]
        refine congrArg Except.ok (congrArg₂ (· ++ ·) (congrArg Arr.data (mtab_congr fun j hj i hi => ?_)) (congrArg Arr.data (mtab_congr fun j hj i hi => ?_)))
        · have h1 := inter_two' (mx.U 1 t _ (hA 1 t)) (my.U 0 t _ (hB 0 t)) σx (X 0) hj hi
          unfold mv
          unfold Smove two
          simp only [sgn, if_true, one_mul, mul_one, one_ne_zero, if_false] at h1 ⊢
          exact h1
        · have h1 := inter_two' (mx.U 0 t _ (hA 0 t)) (my.U 1 t _ (hB 1 t)) σy (X 1) hj hi
          unfold mv
          unfold Smove two
          simp only [sgn, if_true, one_mul, mul_one, one_ne_zero, if_false] at h1 ⊢
          exact h1
    · rw [ncomp_eq.2.2, tab_one, tab_one]
      refine ⟨(mtab (gy.N 1 t) (gx.N 1 t) (two Mx My (A 1 t) (B 1 t) (X 0))).data, length_data _ _ _,
        U2_mtab t ry.pos (Fx.pos 1 t) (fun j _ => hA 1 t _) (fun i _ => hB 1 t _), ?_⟩
      rw [U2_mtab t ry.pos (Fx.pos 1 t) (fun j _ => hA 1 t _) (fun i _ => hB 1 t _), h.f2]
      refine congrArg Except.ok (congrArg Arr.data (mtab_congr fun j hj i hi => ?_))
      have h1 := inter_two' (mx.U 1 t _ (hA 1 t)) (my.U 1 t _ (hB 1 t)) (σx * σy) (X 0) hj hi
      unfold mv
      unfold Smove two
      simp only [sgn, if_true, one_mul, mul_one, one_ne_zero, if_false] at h1 ⊢
      exact h1

/-- The derivative. -/
theorem MoveAct.D (Fx : Factor gx) (Fy : Factor gy) (mx : Move1 gx σx ιx) (my : Move1 gy σy ιy) (h : MoveAct gx gy σx σy ιx ιy act) (d : Fin 3) (hd : d ≠ 2) (t : Bool)
    (a : List ℝ) (ha : a.length = count gx gy d t) : ∃ b : List ℝ, b.length = count gx gy (d + 1) t ∧ (product gx gy).D d t a = .ok b ∧ (product gx gy).D d t (act d t a) = .ok (act (d + 1) t b) := by
  obtain rfl | rfl : d = 0 ∨ d = 1 := by omega
  · obtain ⟨F, rfl⟩ := form0 ha
    obtain ⟨X, Y, h1, h2⟩ := move_D0 Fx Fy mx my t F
    refine ⟨_, ?_, h1, ?_⟩
    · rw [List.length_append, length_data, length_data]; rfl
    · rw [h.f0, h2]; exact congrArg Except.ok (h.f1 t X Y).symm
  · obtain ⟨F, G, rfl⟩ := form1 ha
    obtain ⟨X, h1, h2⟩ := move_D1 Fx Fy mx my t F G
    refine ⟨_, length_data _ _ _, h1, ?_⟩
    rw [h.f1, h2]; exact congrArg Except.ok (h.f2 t X).symm

/-- The star. -/
theorem MoveAct.H (Fx : Factor gx) (Fy : Factor gy) (sx : Stars gx) (sy : Stars gy) (mx : Move1 gx σx ιx) (my : Move1 gy σy ιy) (h : MoveAct gx gy σx σy ιx ιy act) (d : Fin 3) (t : Bool)
    (a : List ℝ) (ha : a.length = count gx gy d t) : ∃ b : List ℝ, b.length = count gx gy (2 - d) (!t) ∧ (product gx gy).H d t a = .ok b ∧
      (product gx gy).H d t (act d t a) = .ok ((act (2 - d) (!t) b).map (σx * σy * ·)) := by
  have key : ∀ (r c : ℕ) (F : ℕ → ℕ → ℝ), (mtab r c fun j i => σx * σy * F j i).data = (mtab r c F).data.map (σx * σy * ·) := fun r c F => smul_mtab r c _ F
  obtain rfl | rfl | rfl : d = 0 ∨ d = 1 ∨ d = 2 := by omega
  · obtain ⟨F, rfl⟩ := form0 ha
    obtain ⟨X, h1, h2⟩ := move_H0 Fx Fy mx my sx sy t F
    refine ⟨_, length_data _ _ _, h1, ?_⟩
    rw [h.f0, h2, key]; exact congrArg Except.ok (congrArg (List.map _) (h.f2 (!t) X).symm)
  · obtain ⟨F, G, rfl⟩ := form1 ha
    obtain ⟨X, Y, h1, h2⟩ := move_H1 Fx Fy mx my sx sy t F G
    refine ⟨_, ?_, h1, ?_⟩
    · rw [List.length_append, length_data, length_data]; rfl
    · rw [h.f1, h2, key, key, ← List.map_append]; exact congrArg Except.ok (congrArg (List.map _) (h.f1 (!t) X Y).symm)
  · obtain ⟨F, rfl⟩ := form2 ha
    obtain ⟨X, h1, h2⟩ := move_H2 Fx Fy mx my sx sy t F
    refine ⟨_, length_data _ _ _, h1, ?_⟩
    rw [h.f2, h2, key]; exact congrArg Except.ok (congrArg (List.map _) (h.f0 (!t) X).symm)

end

/-! ## Exchange of the axes -/

section
variable {gx gy : Grid1} {Mx My : ℕ} {act : Fin 3 → Bool → List ℝ → List ℝ}

/-- How the exchange acts on flat arrays. -/
structure SwapAct (gx gy : Grid1) (act : Fin 3 → Bool → List ℝ → List ℝ) : Prop where
  f0 : ∀ t F, act 0 t (mtab (gy.N 0 t) (gx.N 0 t) F).data = (mtab (gx.N 0 t) (gy.N 0 t) fun j i => F i j).data
  f1 : ∀ t F G, act 1 t ((mtab (gy.N 0 t) (gx.N 1 t) F).data ++ (mtab (gy.N 1 t) (gx.N 0 t) G).data)
    = (mtab (gx.N 0 t) (gy.N 1 t) fun j i => G i j).data ++ (mtab (gx.N 1 t) (gy.N 0 t) fun j i => F i j).data
  f2 : ∀ t F, act 2 t (mtab (gy.N 1 t) (gx.N 1 t) F).data = (mtab (gx.N 1 t) (gy.N 1 t) fun j i => -F i j).data

theorem SwapAct.len (h : SwapAct gx gy act) (d : Fin 3) (t : Bool) (a : List ℝ) (ha : a.length = count gx gy d t) : (act d t a).length = count gy gx d t := by
  obtain rfl | rfl | rfl : d = 0 ∨ d = 1 ∨ d = 2 := by omega
  · obtain ⟨F, rfl⟩ := form0 ha
    rw [h.f0, length_data]; rfl
  · obtain ⟨F, G, rfl⟩ := form1 ha
    rw [h.f1, List.length_append, length_data, length_data]; rfl
  · obtain ⟨F, rfl⟩ := form2 ha
    rw [h.f2, length_data]; rfl

theorem act2_swap (Fx : Factor gx) (Fy : Factor gy) (rx : Refined gx Mx) (ry : Refined gy My) (h : SwapAct gx gy act) :
    Act2 gx gy gy gx Mx My My Mx act Sswap (fun j i => (i, j)) where
  len := h.len
  mul t a b ha hb := by
    obtain ⟨F, rfl⟩ := form0 ha
    obtain ⟨G, rfl⟩ := form0 hb
    rw [vmul_mtab, h.f0, h.f0, h.f0, vmul_mtab]
  om d0 d1 k hd hk x y := Sswap_om hd hk x y
  cn d k hd hk x y := Sswap_cn hd hk x y
  T d t a ha := by
    choose A hA using fun d t => (rx.T d t).exists_mat
    choose B hB using fun d t => (ry.T d t).exists_mat
    obtain rfl | rfl | rfl : d = 0 ∨ d = 1 ∨ d = 2 := by omega
    · obtain ⟨F, rfl⟩ := form0 ha
      rw [h.f0, ncomp_eq.1]
      refine ⟨fun _ => two (gx.N 0 t) (gy.N 0 t) (A 0 t) (B 0 t) F, T0_mtab Fx Fy t rx.pos (fun j _ => hA 0 t _) (fun i _ => hB 0 t _), ?_⟩
      rw [T0_mtab Fy Fx t ry.pos (fun j _ => hB 0 t _) (fun i _ => hA 0 t _), tab_one]
      refine congrArg Except.ok (congrArg (fun x => [x]) (mtab_congr fun j hj i hi => ?_))
      exact two_comm (gx.N 0 t) (gy.N 0 t) (A 0 t) (B 0 t) F i j
    · obtain ⟨F, G, rfl⟩ := form1 ha
      rw [h.f1, ncomp_eq.2.1]
      refine ⟨fun c => if c = 0 then two (gx.N 1 t) (gy.N 0 t) (A 1 t) (B 0 t) F else two (gx.N 0 t) (gy.N 1 t) (A 0 t) (B 1 t) G,
        T1_mtab Fx Fy t rx.pos rx.pos (fun j _ => hA 1 t _) (fun i _ => hB 0 t _) (fun j _ => hA 0 t _) (fun i _ => hB 1 t _), ?_⟩
      rw [T1_mtab Fy Fx t ry.pos ry.pos (fun j _ => hB 1 t _) (fun i _ => hA 0 t _) (fun j _ => hB 0 t _) (fun i _ => hA 1 t _), tab_two]
      refine congrArg Except.ok (congrArg₂ (fun x y => [x, y]) (mtab_congr fun j hj i hi => ?_) (mtab_congr fun j hj i hi => ?_))
      · exact two_comm (gx.N 0 t) (gy.N 1 t) (A 0 t) (B 1 t) G i j
      · exact two_comm (gx.N 1 t) (gy.N 0 t) (A 1 t) (B 0 t) F i j
    · obtain ⟨F, rfl⟩ := form2 ha
      rw [h.f2, ncomp_eq.2.2]
      refine ⟨fun _ => two (gx.N 1 t) (gy.N 1 t) (A 1 t) (B 1 t) F, T2_mtab Fx Fy t rx.pos (fun j _ => hA 1 t _) (fun i _ => hB 1 t _), ?_⟩
      rw [T2_mtab Fy Fx t ry.pos (fun j _ => hB 1 t _) (fun i _ => hA 1 t _), tab_one]
      refine congrArg Except.ok (congrArg (fun x => [x]) (mtab_congr fun j hj i hi => ?_))
      show _ = -two (gx.N 1 t) (gy.N 1 t) (A 1 t) (B 1 t) F i j
      have := two_comm (gx.N 1 t) (gy.N 1 t) (A 1 t) (B 1 t) (fun j i => -F j i) i j
      refine this.trans ?_
      unfold two
      simp only [mul_neg, sum_neg_distrib]
  U d t X := by
    choose A hA using fun d t => (rx.U d t).exists_mat
    choose B hB using fun d t => (ry.U d t).exists_mat
    obtain rfl | rfl | rfl : d = 0 ∨ d = 1 ∨ d = 2 := by omega
    · rw [ncomp_eq.1, tab_one, tab_one]
      refine ⟨(mtab (gy.N 0 t) (gx.N 0 t) (two Mx My (A 0 t) (B 0 t) (X 0))).data, length_data _ _ _,
        U0_mtab t ry.pos (Fx.pos 0 t) (fun j _ => hA 0 t _) (fun i _ => hB 0 t _), ?_⟩
      rw [U0_mtab t rx.pos (Fy.pos 0 t) (fun j _ => hB 0 t _) (fun i _ => hA 0 t _), h.f0]
      refine congrArg Except.ok (congrArg Arr.data (mtab_congr fun j hj i hi => ?_))
      exact two_comm Mx My (A 0 t) (B 0 t) (X 0) i j
    · rw [ncomp_eq.2.1, tab_two, tab_two]
      refine ⟨(mtab (gy.N 0 t) (gx.N 1 t) (two Mx My (A 1 t) (B 0 t) (X 0))).data ++ (mtab (gy.N 1 t) (gx.N 0 t) (two Mx My (A 0 t) (B 1 t) (X 1))).data, ?_,
        U1_mtab t ry.pos ry.pos (Fx.pos 1 t) (Fx.pos 0 t) (fun j _ => hA 1 t _) (fun i _ => hB 0 t _) (fun j _ => hA 0 t _) (fun i _ => hB 1 t _), ?_⟩
      · rw [List.length_append, length_data, length_data]; rfl
      · rw [U1_mtab t rx.pos rx.pos (Fy.pos 1 t) (Fy.pos 0 t) (fun j _ => hB 1 t _) (fun i _ => hA 0 t _) (fun j _ => hB 0 t _) (fun i _ => hA 1 t _), h.f1]
        refine congrArg Except.ok (congrArg₂ (· ++ ·) (congrArg Arr.data (mtab_congr fun j hj i hi => ?_)) (congrArg Arr.data (mtab_congr fun j hj i hi => ?_)))
        · exact two_comm Mx My (A 0 t) (B 1 t) (X 1) i j
        · exact two_comm Mx My (A 1 t) (B 0 t) (X 0) i j
    · rw [ncomp_eq.2.2, tab_one, tab_one]
      refine ⟨(mtab (gy.N 1 t) (gx.N 1 t) (two Mx My (A 1 t) (B 1 t) (X 0))).data, length_data _ _ _,
        U2_mtab t ry.pos (Fx.pos 1 t) (fun j _ => hA 1 t _) (fun i _ => hB 1 t _), ?_⟩
      rw [U2_mtab t rx.pos (Fy.pos 1 t) (fun j _ => hB 1 t _) (fun i _ => hA 1 t _), h.f2]
      refine congrArg Except.ok (congrArg Arr.data (mtab_congr fun j hj i hi => ?_))
      show _ = -two Mx My (A 1 t) (B 1 t) (X 0) i j
      have := two_comm Mx My (A 1 t) (B 1 t) (fun j i => -X 0 j i) i j
      refine this.trans ?_
      unfold two
      simp only [mul_neg, sum_neg_distrib]

theorem SwapAct.D (Fx : Factor gx) (Fy : Factor gy) (h : SwapAct gx gy act) (d : Fin 3) (hd : d ≠ 2) (t : Bool) (a : List ℝ) (ha : a.length = count gx gy d t) :
    ∃ b : List ℝ, b.length = count gx gy (d + 1) t ∧ (product gx gy).D d t a = .ok b ∧ (product gy gx).D d t (act d t a) = .ok (act (d + 1) t b) := by
  obtain ⟨A, hA⟩ := (Fx.d t).exists_mat
  obtain ⟨B, hB⟩ := (Fy.d t).exists_mat
  obtain rfl | rfl : d = 0 ∨ d = 1 := by omega
  · obtain ⟨F, rfl⟩ := form0 ha
    refine ⟨_, ?_, D0_mtab Fx Fy t (fun j _ => hA _) (fun i _ => hB _), ?_⟩
    · rw [List.length_append, length_data, length_data]; rfl
    · rw [h.f0, D0_mtab Fy Fx t (fun j _ => hB _) (fun i _ => hA _)]
      exact congrArg Except.ok (h.f1 t _ _).symm
  · obtain ⟨F, G, rfl⟩ := form1 ha
    refine ⟨_, length_data _ _ _, D1_mtab Fx Fy t (fun i _ => hB _) (fun j _ => hA _), ?_⟩
    rw [h.f1, D1_mtab Fy Fx t (fun i _ => hA _) (fun j _ => hB _)]
    refine congrArg Except.ok (Eq.trans ?_ (h.f2 t _).symm)
    refine congrArg Arr.data (mtab_congr fun j hj i hi => ?_)
    ring

theorem SwapAct.H (Fx : Factor gx) (Fy : Factor gy) (sx : Stars gx) (sy : Stars gy) (h : SwapAct gx gy act) (d : Fin 3) (t : Bool) (a : List ℝ) (ha : a.length = count gx gy d t) :
    ∃ b : List ℝ, b.length = count gx gy (2 - d) (!t) ∧ (product gx gy).H d t a = .ok b ∧ (product gy gx).H d t (act d t a) = .ok ((act (2 - d) (!t) b).map (-1 * ·)) := by
  have key : ∀ (r c : ℕ) (F : ℕ → ℕ → ℝ), (mtab r c fun j i => -1 * F j i).data = (mtab r c F).data.map (-1 * ·) := fun r c F => smul_mtab r c _ F
  choose A hA using fun d t => (sx.lin d t).exists_mat
  choose B hB using fun d t => (sy.lin d t).exists_mat
  obtain rfl | rfl | rfl : d = 0 ∨ d = 1 ∨ d = 2 := by omega
  · obtain ⟨F, rfl⟩ := form0 ha
    refine ⟨_, length_data _ _ _, H0_mtab Fx Fy t (Fy.pos 1 (!t)) (fun i _ => hB 0 t _) (fun j _ => hA 0 t _), ?_⟩
    rw [h.f0, H0_mtab Fy Fx t (Fx.pos 1 (!t)) (fun i _ => hA 0 t _) (fun j _ => hB 0 t _)]
    refine congrArg Except.ok (Eq.trans ?_ (congrArg (List.map _) (h.f2 (!t) _).symm))
    rw [← key]
    refine congrArg Arr.data (mtab_congr fun j hj i hi => ?_)
    rw [neg_one_mul, neg_neg]
    exact (two_comm (gx.N 0 t) (gy.N 0 t) (A 0 t) (B 0 t) F i j).symm
  · obtain ⟨F, G, rfl⟩ := form1 ha
    refine ⟨_, ?_, H1_mtab Fx Fy t (Fy.pos 0 (!t)) (Fx.pos 0 (!t)) (fun i _ => hB 1 t _) (fun j _ => hA 0 t _) (fun j _ => hA 1 t _) (fun i _ => hB 0 t _), ?_⟩
    · rw [List.length_append, length_data, length_data]; rfl
    · rw [h.f1, H1_mtab Fy Fx t (Fx.pos 0 (!t)) (Fy.pos 0 (!t)) (fun i _ => hA 1 t _) (fun j _ => hB 0 t _) (fun j _ => hB 1 t _) (fun i _ => hA 0 t _)]
      refine congrArg Except.ok (Eq.trans ?_ (congrArg (List.map _) (h.f1 (!t) _ _).symm))
      rw [List.map_append, ← key, ← key]
      refine congrArg₂ (· ++ ·) (congrArg Arr.data (mtab_congr fun j hj i hi => ?_)) (congrArg Arr.data (mtab_congr fun j hj i hi => ?_))
      · rw [neg_one_mul]
      · rw [neg_one_mul, neg_neg]
  · obtain ⟨F, rfl⟩ := form2 ha
    refine ⟨_, length_data _ _ _, H2_mtab Fx Fy t (Fy.pos 0 (!t)) (fun i _ => hB 1 t _) (fun j _ => hA 1 t _), ?_⟩
    rw [h.f2, H2_mtab Fy Fx t (Fx.pos 0 (!t)) (fun i _ => hA 1 t _) (fun j _ => hB 1 t _)]
    refine congrArg Except.ok (Eq.trans ?_ (congrArg (List.map _) (h.f0 (!t) _).symm))
    rw [← key]
    refine congrArg Arr.data (mtab_congr fun j hj i hi => ?_)
    rw [neg_one_mul]
    have := two_comm (gx.N 1 t) (gy.N 1 t) (A 1 t) (B 1 t) F i j
    simp only [mul_neg, sum_neg_distrib]
    exact congrArg Neg.neg this.symm

end

end Dec.G2
