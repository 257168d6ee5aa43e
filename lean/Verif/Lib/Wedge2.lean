import Verif.Lib.Refine2

set_option linter.unusedSimpArgs false
set_option linter.unusedVariables false

/-! # Wedge product and contraction on product grids -/

namespace Dec.G2

open Finset Real

/-- The components of a wedge product at one point. -/
def om (d0 d1 : ℕ) (k : ℕ) (x y : ℕ → ℝ) : ℝ := if d0 = 0 then x 0 * y k else if d1 = 0 then x k * y 0 else x 0 * y 1 - x 1 * y 0

theorem om_add_left (d0 d1 k : ℕ) (x x' y : ℕ → ℝ) : om d0 d1 k (fun c => x c + x' c) y = om d0 d1 k x y + om d0 d1 k x' y := by
  unfold om; split_ifs <;> ring
theorem om_smul_left (d0 d1 k : ℕ) (r : ℝ) (x y : ℕ → ℝ) : om d0 d1 k (fun c => r * x c) y = r * om d0 d1 k x y := by
  unfold om; split_ifs <;> ring
theorem om_add_right (d0 d1 k : ℕ) (x y y' : ℕ → ℝ) : om d0 d1 k x (fun c => y c + y' c) = om d0 d1 k x y + om d0 d1 k x y' := by
  unfold om; split_ifs <;> ring
theorem om_smul_right (d0 d1 k : ℕ) (r : ℝ) (x y : ℕ → ℝ) : om d0 d1 k x (fun c => r * y c) = r * om d0 d1 k x y := by
  unfold om; split_ifs <;> ring

theorem om_swap {d0 d1 : ℕ} (h : d0 + d1 ≤ 2) {k : ℕ} (hk : k < Grid2.ncomp (d0 + d1)) (x y : ℕ → ℝ) : om d0 d1 k x y = (-1) ^ (d0 * d1) * om d1 d0 k y x := by
  have h0 : d0 = 0 ∨ d0 = 1 ∨ d0 = 2 := by omega
  have h1 : d1 = 0 ∨ d1 = 1 ∨ d1 = 2 := by omega
  rcases h0 with rfl | rfl | rfl <;> rcases h1 with rfl | rfl | rfl <;> simp [om, Grid2.ncomp] at hk h ⊢ <;> subst_vars <;> ring

theorem wedge_2d_comp {d0 d1 : ℕ} (h : d0 + d1 ≤ 2) :
    ∃ w, Sym.wedge_2d (R := ℝ) d0 d1 = some w ∧ ∀ x y : ℕ → ℝ, ∀ k < Grid2.ncomp (d0 + d1),
      (w (tab (Grid2.ncomp d0) x) (tab (Grid2.ncomp d1) y)).getD k 0 = om d0 d1 k x y := by
  have h0 : d0 = 0 ∨ d0 = 1 ∨ d0 = 2 := by omega
  have h1 : d1 = 0 ∨ d1 = 1 ∨ d1 = 2 := by omega
  have hr : List.range 2 = [0, 1] := rfl
  rcases h0 with rfl | rfl | rfl <;> rcases h1 with rfl | rfl | rfl <;>
    first
    | (exfalso; omega)
    | (refine ⟨_, rfl, fun x y k hk => ?_⟩
       have hk2 : k = 0 ∨ k = 1 := by simp [Grid2.ncomp] at hk; omega
       rcases hk2 with rfl | rfl <;> simp [om, Grid2.ncomp, tab, hr] at hk ⊢ <;> ring)

theorem sameShape_mtab {r c n m : ℕ} (hn : 0 < n) (F G : ℕ → ℕ → ℕ → ℝ) : Grid2.sameShape (tab n fun k => mtab r c (F k)) (tab m fun k => mtab r c (G k)) = true := by
  obtain ⟨n, rfl⟩ := Nat.exists_eq_succ_of_ne_zero hn.ne'
  unfold Grid2.sameShape
  rw [List.all_eq_true]
  intro a ha
  have hh : (tab (n + 1) fun k => mtab r c (F k)).headD ⟨0, 0, []⟩ = mtab r c (F 0) := by simp [tab, List.range_succ_eq_map]
  rw [hh]
  simp only [List.mem_append, tab, List.mem_map] at ha
  rcases ha with ⟨_, _, rfl⟩ | ⟨_, _, rfl⟩ <;> simp [mtab]

theorem entry_mtab {r c n : ℕ} (F : ℕ → ℕ → ℕ → ℝ) {p : ℕ} (hp : p < r * c) : Grid2.entry (tab n fun k => mtab r c (F k)) p = tab n fun k => F k (p / c) (p % c) := by
  unfold Grid2.entry
  simp only [tab, List.map_map]
  refine List.map_congr_left fun k _ => ?_
  show (tab (r * c) fun q => F k (q / c) (q % c)).getD p 0 = _
  rw [getD_tab hp]

theorem entrywise_mtab {r c n m l : ℕ} (hn : 0 < n) (w : List ℝ → List ℝ → List ℝ) (F G : ℕ → ℕ → ℕ → ℝ) (K : ℕ → ℕ → ℕ → ℝ)
    (h : ∀ k < l, ∀ j i, (w (tab n fun q => F q j i) (tab m fun q => G q j i)).getD k 0 = K k j i) :
    Grid2.entrywise w l (tab n fun k => mtab r c (F k)) (tab m fun k => mtab r c (G k)) = .ok (tab l fun k => mtab r c (K k)) := by
  unfold Grid2.entrywise
  rw [if_pos (sameShape_mtab hn F G)]
  have hh : (tab n fun k => mtab r c (F k)).headD ⟨0, 0, []⟩ = mtab r c (F 0) := by
    obtain ⟨n, rfl⟩ := Nat.exists_eq_succ_of_ne_zero hn.ne'
    simp [tab, List.range_succ_eq_map]
  rw [hh]
  refine congrArg _ (tab_congr fun k hk => ?_)
  simp only [mtab]
  refine congrArg _ (tab_congr fun p hp => ?_)
  have e1 := entry_mtab (n := n) F hp
  have e2 := entry_mtab (n := m) G hp
  simp only [mtab] at e1 e2
  rw [e1, e2, h k hk]

theorem ncomp_pos (d : ℕ) : 0 < Grid2.ncomp d := by unfold Grid2.ncomp; split <;> omega

variable {gx gy : Grid1} {mx my : ℕ}

/-- The degree of a product. -/
def deg2 (d0 d1 : Fin 3) : Fin 3 := Fin.ofNat 3 (d0.val + d1.val)

theorem deg2_val {d0 d1 : Fin 3} (h : d0.val + d1.val ≤ 2) : (deg2 d0 d1).val = d0.val + d1.val := by
  show (d0.val + d1.val) % 3 = _; omega

/-- The wedge product is bilinear in flat arrays, and graded commutative. -/
theorem wedge_form (hx : Factor gx) (hy : Factor gy) (rx : Refined gx mx) (ry : Refined gy my) (d0 d1 : Fin 3) (hd : d0.val + d1.val ≤ 2) (s t u : Bool) :
    ∃ B : List ℝ → List ℝ → List ℝ, Bil (count gx gy d0 s) (count gx gy d1 t) (count gx gy (deg2 d0 d1) u) B ∧
      (∀ a b : List ℝ, a.length = count gx gy d0 s → b.length = count gx gy d1 t → (product gx gy).wedge d0 s d1 t u a b = .ok (B a b)) ∧
      (∀ a b : List ℝ, a.length = count gx gy d0 s → b.length = count gx gy d1 t →
        (product gx gy).wedge d1 t d0 s u b a = .ok ((B a b).map ((-1 : ℝ) ^ (d0.val * d1.val) • ·))) := by
  by_cases hc : s = t ∧ t = u ∧ d0 = 0 ∧ d1 = 0
  · obtain ⟨rfl, rfl, rfl, rfl⟩ := hc
    refine ⟨vmul, bil_vmul _, fun a b ha hb => ?_, fun a b ha hb => ?_⟩
    · unfold Grid2.wedge; rw [if_neg (by decide), if_pos (by simp)]
      exact bop_mul (fun _ _ => rfl) ha hb
    · unfold Grid2.wedge; rw [if_neg (by decide), if_pos (by simp), vmul_comm' a b]
      rw [bop_mul (fun _ _ => rfl) hb ha]; simp
  · obtain ⟨τ, ha1, hs1, hT1⟩ := T_form hx hy rx ry d0 s
    obtain ⟨τ', ha2, hs2, hT2⟩ := T_form hx hy rx ry d1 t
    obtain ⟨υ, ha3, hs3, hl3, hU⟩ := U_form hx hy rx ry (deg2 d0 d1) u
    have hv := deg2_val hd
    rw [hv] at hU
    have hm : ∀ r : ℝ, ∀ a : List ℝ, ∀ n, a.length = n → (a.map (r • ·)).length = n := fun r a n h => by simp [h]
    refine ⟨fun a b => υ fun k j i => om d0 d1 k (fun c => τ c a j i) (fun c => τ' c b j i), ⟨fun b hb => ⟨fun a _ => hl3 _, fun a a' h h' => ?_, fun r a h => ?_⟩,
      fun a ha => ⟨fun b _ => hl3 _, fun b b' h h' => ?_, fun r b h => ?_⟩⟩, fun a b ha hb => ?_, fun a b ha hb => ?_⟩
    · rw [← ha3]; congr 1; funext k j i; rw [← om_add_left]; congr 1; funext c; exact ha1 c a a' j i h h'
    · rw [← hs3]; congr 1; funext k j i; rw [← om_smul_left]; congr 1; funext c; exact hs1 c r a j i
    · rw [← ha3]; congr 1; funext k j i; rw [← om_add_right]; congr 1; funext c; exact ha2 c b b' j i h h'
    · rw [← hs3]; congr 1; funext k j i; rw [← om_smul_right]; congr 1; funext c; exact hs2 c r b j i
    · obtain ⟨w, hw1, hw2⟩ := wedge_2d_comp hd
      unfold Grid2.wedge
      rw [if_neg (by omega), if_neg hc, hT1 a ha, hT2 b hb]
      simp only [bind, Except.bind, hw1]
      rw [entrywise_mtab (ncomp_pos _) w _ _ (fun k j i => om d0 d1 k (fun c => τ c a j i) (fun c => τ' c b j i)) fun k hk j i => hw2 _ _ k hk]
      exact hU _
    · obtain ⟨w, hw1, hw2⟩ := wedge_2d_comp (d0 := d1.val) (d1 := d0.val) (by omega)
      have hc' : ¬ (t = s ∧ s = u ∧ d1 = 0 ∧ d0 = 0) := by
        rintro ⟨rfl, rfl, rfl, rfl⟩; exact hc ⟨rfl, rfl, rfl, rfl⟩
      unfold Grid2.wedge
      rw [if_neg (by omega), if_neg hc', hT1 a ha, hT2 b hb]
      simp only [bind, Except.bind, hw1]
      rw [entrywise_mtab (ncomp_pos _) w _ _ (fun k j i => (-1 : ℝ) ^ (d0.val * d1.val) * om d0 d1 k (fun c => τ c a j i) (fun c => τ' c b j i)) fun k hk j i => ?_]
      · rw [Nat.add_comm d1.val d0.val, ← hs3]
        exact hU _
      · rw [hw2 _ _ k hk, om_swap (by omega) hk, Nat.mul_comm]

/-- The components of a contraction at one point. -/
def cn (d : ℕ) (k : ℕ) (x y : ℕ → ℝ) : ℝ := if d = 1 then x 0 * y 0 + x 1 * y 1 else if k = 0 then -x 1 * y 0 else x 0 * y 0

theorem cn_comp {d : ℕ} (h : d = 1 ∨ d = 2) {k : ℕ} (hk : k < Grid2.ncomp (d - 1)) (x y : ℕ → ℝ) :
    ((Sym.contraction_2d d (tab 2 x) (tab (Grid2.ncomp d) y)).getD []).getD k 0 = cn d k x y := by
  have hr : List.range 2 = [0, 1] := rfl
  have hk2 : k = 0 ∨ k = 1 := by unfold Grid2.ncomp at hk; split at hk <;> omega
  rcases h with rfl | rfl <;> rcases hk2 with rfl | rfl <;> simp [Sym.contraction_2d, Grid2.ncomp, tab, hr, cn] at hk ⊢

theorem contraction_form (hx : Factor gx) (hy : Factor gy) (rx : Refined gx mx) (ry : Refined gy my) (d : Fin 3) (hd : d ≠ 0) (s t u : Bool) :
    EBil (count gx gy 1 s) (count gx gy d t) (count gx gy (d - 1) u) ((product gx gy).contraction s d t u) := by
  obtain ⟨τ, ha1, hs1, hT1⟩ := T_form hx hy rx ry 1 s
  obtain ⟨τ', ha2, hs2, hT2⟩ := T_form hx hy rx ry d t
  obtain ⟨υ, ha3, hs3, hl3, hU⟩ := U_form hx hy rx ry (d - 1) u
  have hd' : d = 1 ∨ d = 2 := by omega
  have hv : (d - 1).val = d.val - 1 := by rcases hd' with rfl | rfl <;> rfl
  have hv' : (Fin.ofNat 3 (d.val - 1)) = d - 1 := by rcases hd' with rfl | rfl <;> rfl
  have hv2 : d.val = 1 ∨ d.val = 2 := by rcases hd' with rfl | rfl <;> simp
  rw [hv] at hU
  refine ⟨fun a b => υ fun k j i => cn d k (fun c => τ c a j i) (fun c => τ' c b j i), ⟨fun b hb => ⟨fun a _ => hl3 _, fun a a' h h' => ?_, fun r a h => ?_⟩,
      fun a ha => ⟨fun b _ => hl3 _, fun b b' h h' => ?_, fun r b h => ?_⟩⟩, fun a b ha hb => ?_⟩
  · rw [← ha3]; congr 1; funext k j i; simp only [ha1 _ a a' j i h h', cn]; split_ifs <;> ring
  · rw [← hs3]; congr 1; funext k j i; simp only [hs1, cn]; split_ifs <;> ring
  · rw [← ha3]; congr 1; funext k j i; simp only [ha2 _ b b' j i h h', cn]; split_ifs <;> ring
  · rw [← hs3]; congr 1; funext k j i; simp only [hs2, cn]; split_ifs <;> ring
  · unfold Grid2.contraction
    rw [if_neg hd, hT1 a ha, hT2 b hb]
    simp only [bind, Except.bind]
    rw [entrywise_mtab (ncomp_pos _) _ _ _ (fun k j i => cn d k (fun c => τ c a j i) (fun c => τ' c b j i)) fun k hk j i => cn_comp hv2 hk _ _, hv']
    exact hU _

end Dec.G2
