import Verif.Lib.ChebyshevForms

set_option linter.unusedSimpArgs false
set_option linter.unusedVariables false

/-! Linear operators that may raise: on every array of the right length they return, and the value is linear in the array. -/

namespace Dec

open Finset Real Dec.Sp

/-- `F` returns on all arrays of length `n`, with a linear result of length `m`. -/
def ELin (n m : ℕ) (F : List ℝ → Except Err (List ℝ)) : Prop :=
  ∃ L : List ℝ → List ℝ, Lin n m L ∧ ∀ x : List ℝ, x.length = n → F x = .ok (L x)

namespace ELin

theorem ok {n m : ℕ} {L : List ℝ → List ℝ} (h : Lin n m L) : ELin n m (fun x => .ok (L x)) := ⟨L, h, fun _ _ => rfl⟩

theorem congr {n m : ℕ} {F G : List ℝ → Except Err (List ℝ)} (h : ELin n m F) (e : ∀ x : List ℝ, x.length = n → G x = F x) : ELin n m G := by
  obtain ⟨L, hL, hF⟩ := h
  exact ⟨L, hL, fun x hx => by rw [e x hx, hF x hx]⟩

theorem bind {n m k : ℕ} {F G : List ℝ → Except Err (List ℝ)} (hG : ELin m k G) (hF : ELin n m F) : ELin n k (fun x => F x >>= G) := by
  obtain ⟨L, hL, hF⟩ := hF
  obtain ⟨L', hL', hG⟩ := hG
  refine ⟨fun x => L' (L x), hL'.comp hL, fun x hx => ?_⟩
  beta_reduce
  rw [hF x hx]
  exact hG _ (hL.len x hx)

theorem comp {n m k : ℕ} {L : List ℝ → List ℝ} {G : List ℝ → Except Err (List ℝ)} (hG : ELin m k G) (hL : Lin n m L) : ELin n k (fun x => G (L x)) := by
  obtain ⟨L', hL', hG⟩ := hG
  exact ⟨fun x => L' (L x), hL'.comp hL, fun x hx => hG _ (hL.len x hx)⟩

/-- The inverse of a linear operator is linear. -/
theorem of_inverse {n : ℕ} {A : List ℝ → List ℝ} {F : List ℝ → Except Err (List ℝ)} (hA : Lin n n A)
    (h1 : ∀ x, x.length = n → F (A x) = .ok x) (h2 : ∀ y, y.length = n → ∃ x, F y = .ok x ∧ x.length = n ∧ A x = y) : ELin n n F := by
  classical
  refine ⟨fun y => (F y).toOption.getD [], ⟨fun y hy => ?_, fun y z hy hz => ?_, fun c y hy => ?_⟩, fun y hy => ?_⟩
  · obtain ⟨x, hx, hl, _⟩ := h2 y hy
    beta_reduce; rw [hx]; exact hl
  · obtain ⟨x, hx, hl, hA1⟩ := h2 y hy
    obtain ⟨x', hx', hl', hA2⟩ := h2 z hz
    have e : F (vadd y z) = .ok (vadd x x') := by
      rw [← hA1, ← hA2, ← hA.add x x' hl hl', h1 _ (by simp [hl, hl'])]
    beta_reduce; rw [e, hx, hx']; rfl
  · obtain ⟨x, hx, hl, hA1⟩ := h2 y hy
    have e : F (y.map (c • ·)) = .ok (x.map (c • ·)) := by
      rw [← hA1, ← hA.smul c x hl, h1 _ (by simp [hl])]
    beta_reduce; rw [e, hx]; rfl
  · obtain ⟨x, hx, hl, hA1⟩ := h2 y hy
    beta_reduce; rw [hx]; rfl

end ELin

theorem lin_stride2 (n : ℕ) : Lin n ((n + 1) / 2) (fun x : List ℝ => stride2 x) :=
  Lin.of_tab _ (fun x => stride2_tab n x) (fun _ _ _ _ => rfl) (fun _ _ _ _ => rfl)

theorem lin_stride2' (n : ℕ) : Lin n (n / 2) (fun x : List ℝ => stride2' x) :=
  Lin.of_tab _ (fun x => stride2'_tab n x) (fun _ _ _ _ => rfl) (fun _ _ _ _ => rfl)

theorem weave_eq_tab {M : ℕ} {a b : List ℝ} (ha : a.length = (M + 1) / 2) (hb : b.length = M / 2) :
    weave a b = tab M fun i => if i % 2 = 0 then a.getD (i / 2) 0 else b.getD (i / 2) 0 := by
  rw [eq_tab' ha 0, eq_tab' hb 0, weave_tab_any]
  refine tab_congr fun i hi => ?_
  split_ifs with h
  · rw [getD_tab (by omega)]
  · rw [getD_tab (by omega)]

theorem getD_vadd {n i : ℕ} {x y : List ℝ} (hx : x.length = n) (hy : y.length = n) (hi : i < n) : (vadd x y).getD i 0 = x.getD i 0 + y.getD i 0 := by
  rw [eq_tab' hx 0, eq_tab' hy 0, vadd_tab, getD_tab hi, getD_tab hi, getD_tab hi]

theorem getD_smul {n i : ℕ} {x : List ℝ} (c : ℝ) (hx : x.length = n) (hi : i < n) : (x.map (c • ·)).getD i 0 = c * x.getD i 0 := by
  rw [eq_tab' hx 0, map_tab, getD_tab hi, getD_tab hi]; rfl

theorem elin_interweave {n M : ℕ} {A B : List ℝ → List ℝ} (hA : Lin n ((M + 1) / 2) A) (hB : Lin n (M / 2) B) :
    ELin n M (fun x => interweave (A x) (B x)) := by
  refine ⟨fun x => weave (A x) (B x), ⟨fun x hx => ?_, fun x y hx hy => ?_, fun c x hx => ?_⟩, fun x hx => ?_⟩
  · beta_reduce; rw [weave_eq_tab (hA.len x hx) (hB.len x hx), length_tab]
  · beta_reduce
    have hl : (vadd x y).length = n := by simp [hx, hy]
    rw [weave_eq_tab (hA.len _ hl) (hB.len _ hl), weave_eq_tab (hA.len x hx) (hB.len x hx), weave_eq_tab (hA.len y hy) (hB.len y hy), vadd_tab]
    refine tab_congr fun i hi => ?_
    rw [hA.add x y hx hy, hB.add x y hx hy]
    split_ifs
    · exact getD_vadd (hA.len x hx) (hA.len y hy) (by omega)
    · exact getD_vadd (hB.len x hx) (hB.len y hy) (by omega)
  · beta_reduce
    have hl : (x.map (c • ·)).length = n := by simp [hx]
    rw [weave_eq_tab (hA.len _ hl) (hB.len _ hl), weave_eq_tab (hA.len x hx) (hB.len x hx), map_tab]
    refine tab_congr fun i hi => ?_
    rw [hA.smul c x hx, hB.smul c x hx]
    split_ifs
    · exact getD_smul c (hA.len x hx) (by omega)
    · exact getD_smul c (hB.len x hx) (by omega)
  · beta_reduce
    unfold interweave
    rw [if_pos (by rw [hA.len x hx, hB.len x hx]; omega)]

theorem elin_add {n m : ℕ} {A B : List ℝ → List ℝ} (hA : Lin n m A) (hB : Lin n m B) : ELin n m (fun x => bop (· + ·) (A x) (B x)) := by
  refine ⟨fun x => vadd (A x) (B x), hA.add_map hB, fun x hx => ?_⟩
  unfold bop
  beta_reduce
  rw [if_pos (by rw [hA.len x hx, hB.len x hx])]
  rfl

/-! ## Periodic grid -/

namespace Periodic

theorem elin_T0 (n : ℕ) : ELin n (2 * n) T0 := by
  have e1 : (2 * n + 1) / 2 = n := by omega
  have e2 : 2 * n / 2 = n := by omega
  exact elin_interweave (M := 2 * n) (A := fun x => x) (by rw [e1]; exact Lin.id n) (by rw [e2]; exact lin_S n)

theorem elin_T0d (n : ℕ) : ELin n (2 * n) T0d := by
  have e1 : (2 * n + 1) / 2 = n := by omega
  have e2 : 2 * n / 2 = n := by omega
  exact elin_interweave (M := 2 * n) (B := fun x => x) (by rw [e1]; exact lin_Sinv n) (by rw [e2]; exact Lin.id n)

theorem elin_T (n : ℕ) (d : Fin 2) (t : Bool) : ELin n (2 * n) (T d t) := by
  obtain rfl | rfl : d = 0 ∨ d = 1 := by omega
  all_goals cases t
  all_goals simp only [T, wrapTable]
  · exact elin_T0d n
  · exact elin_T0 n
  · exact (elin_T0 n).comp (lin_Hinv n)
  · exact (elin_T0d n).comp (lin_Hinv n)

theorem elin_U (n : ℕ) (d : Fin 2) (t : Bool) : ELin (2 * n) n (U d t) := by
  have e1 : (2 * n + 1) / 2 = n := by omega
  have e2 : 2 * n / 2 = n := by omega
  have h1 := lin_stride2 (2 * n)
  have h2 := lin_stride2' (2 * n)
  rw [e1] at h1
  rw [e2] at h2
  obtain rfl | rfl : d = 0 ∨ d = 1 := by omega
  all_goals cases t
  all_goals simp only [U, wrapTable]
  · exact ELin.ok h2
  · exact ELin.ok h1
  · have h := (elin_add h1 h2).comp ((lin_Hs (2 * n)).comp (lin_Sinv (2 * n)))
    exact h.congr fun x _ => by unfold U1d; rfl
  · have h := (elin_add h1 h2).comp ((lin_Hs (2 * n)).comp (lin_S (2 * n)))
    exact h.congr fun x _ => by unfold U1; rfl

end Periodic

/-! ## Chebyshev grid -/

namespace Chebyshev

theorem lin_S_cheb {n : ℕ} (hn : 2 ≤ n) : Lin n (n - 1) S_cheb := by
  have h := (lin_unmirror1 (V := ℝ) (n - 1)).comp ((show 2 * n - 2 = 2 * (n - 1) by omega) ▸ ((lin_S (2 * n - 2)).comp (lin_mirror0 hn 1)))
  exact h.congr fun x _ => S_cheb_eq x

theorem lin_S_cheb_pinv {n : ℕ} (hn : 2 ≤ n) : Lin (n - 1) n S_cheb_pinv := by
  have h1 : Lin (n - 1) (2 * n - 2) (fun x => Sinv (mirror1 x 1)) := by
    rw [show 2 * n - 2 = 2 * (n - 1) by omega]
    exact (lin_Sinv _).comp (lin_mirror1 (n - 1) 1)
  exact ((lin_unmirror0 (V := ℝ) hn).comp h1).congr fun x _ => S_cheb_pinv_eq x

theorem elin_H1 {n : ℕ} (hn : 2 ≤ n) (h : n ≤ 927) : ELin (n - 1) (n - 1) H1 := by
  have hm : 0 < n - 1 := by omega
  exact ELin.of_inverse (lin_H0d hm) (H1_H0d hm (weightsOk hm) (accepts hm (by omega))) (H0d_H1 hm (weightsOk hm) (accepts hm (by omega)))

theorem elin_H1d {n : ℕ} (hn : 2 ≤ n) : ELin n n (fun x => .ok (H1d x)) :=
  ELin.of_inverse (lin_H0 hn) (fun x hx => by rw [H1d_H0 hn x hx]) (fun y hy => ⟨_, rfl, length_H1d hn y hy, H0_H1d hn y hy⟩)

theorem lin_H1d {n : ℕ} (hn : 2 ≤ n) : Lin n n H1d := by
  obtain ⟨L, hL, h⟩ := elin_H1d hn
  exact hL.congr fun x hx => by have := h x hx; injection this

theorem elin_T0 {n : ℕ} (hn : 2 ≤ n) : ELin n (2 * n - 1) T0 := by
  have e1 : (2 * n - 1 + 1) / 2 = n := by omega
  have e2 : (2 * n - 1) / 2 = n - 1 := by omega
  exact elin_interweave (M := 2 * n - 1) (A := fun x => x) (by rw [e1]; exact Lin.id n) (by rw [e2]; exact lin_S_cheb hn)

theorem elin_T0d {n : ℕ} (hn : 2 ≤ n) : ELin (n - 1) (2 * n - 1) T0d := by
  have e1 : (2 * n - 1 + 1) / 2 = n := by omega
  have e2 : (2 * n - 1) / 2 = n - 1 := by omega
  exact elin_interweave (M := 2 * n - 1) (B := fun x => x) (by rw [e1]; exact lin_S_cheb_pinv hn) (by rw [e2]; exact Lin.id _)

theorem elin_T {n : ℕ} (hn : 2 ≤ n) (d : Fin 2) (t : Bool) (h927 : d = 1 → t = true → n ≤ 927) : ELin ((make n).N d t) (2 * n - 1) (T d t) := by
  obtain rfl | rfl : d = 0 ∨ d = 1 := by omega
  all_goals cases t
  all_goals simp only [T, wrapTable]
  · exact elin_T0d hn
  · exact elin_T0 hn
  · exact (elin_T0 hn).comp (lin_H1d hn)
  · exact (elin_T0d hn).bind (elin_H1 hn (h927 rfl rfl))

theorem lin_fine {n : ℕ} (hn : 2 ≤ n) : Lin (2 * n - 1) (2 * n - 2) (fun f => H0d (S_cheb f)) :=
  (lin_H0d (m := 2 * n - 2) (by omega)).comp (lin_S_cheb (n := 2 * n - 1) (by omega))

theorem elin_U1d {n : ℕ} (hn : 2 ≤ n) : ELin (2 * n - 2) n (fun f => do
    let m := f.tail.dropLast
    let s ← bop (· + ·) (stride2 m) (stride2' m)
    return [f.getD 0 0] ++ s ++ [f.getD (f.length - 1) 0]) := by
  have key : ∀ x : ℕ → ℝ, (do
      let m := (tab (2 * n - 2) x).tail.dropLast
      let s ← bop (· + ·) (stride2 m) (stride2' m)
      return [(tab (2 * n - 2) x).getD 0 0] ++ s ++ [(tab (2 * n - 2) x).getD ((tab (2 * n - 2) x).length - 1) 0] : Except Err (List ℝ))
      = .ok (tab n fun j => if j < n - 1 then (if j = 0 then x 0 else x (2 * (j - 1) + 1) + x (2 * (j - 1) + 1 + 1)) else x (2 * n - 2 - 1)) := by
    intro x
    simp only []
    rw [tail_tab, dropLast_tab, length_tab, stride2_tab, stride2'_tab, getD_tab (by omega), getD_tab (by omega)]
    unfold bop
    rw [if_pos (by simp only [length_tab]; omega), zipWith_tab']
    simp only [Bind.bind, Except.bind, pure, Except.pure]
    rw [List.singleton_append, cons_tab, append_singleton_tab]
    refine congrArg _ (tab_congr' (by omega) fun j hj => ?_)
    have hmin : min ((2 * n - 2 - 1 - 1 + 1) / 2) ((2 * n - 2 - 1 - 1) / 2) + 1 = n - 1 := by omega
    rw [hmin]
  refine ⟨fun f => tab n fun j => if j < n - 1 then (if j = 0 then f.getD 0 0 else f.getD (2 * (j - 1) + 1) 0 + f.getD (2 * (j - 1) + 1 + 1) 0) else f.getD (2 * n - 2 - 1) 0, ?_, ?_⟩
  · refine ⟨fun x hx => length_tab _ _, fun x y hx hy => ?_, fun c x hx => ?_⟩
    · rw [vadd_tab]
      refine tab_congr fun j hj => ?_
      split_ifs
      · exact getD_vadd hx hy (by omega)
      · rw [getD_vadd hx hy (by omega), getD_vadd hx hy (by omega)]; ring
      · exact getD_vadd hx hy (by omega)
    · rw [map_tab]
      refine tab_congr fun j hj => ?_
      split_ifs
      · exact getD_smul c hx (by omega)
      · rw [getD_smul c hx (by omega), getD_smul c hx (by omega), smul_eq_mul]; ring
      · exact getD_smul c hx (by omega)
  · intro f hf
    beta_reduce
    rw [eq_tab' hf 0, key]
    refine congrArg _ (tab_congr fun j hj => ?_)
    rw [getD_tab (i := 0) (by omega), getD_tab (i := 2 * n - 2 - 1) (by omega)]
    split_ifs with h1 h2
    · rfl
    · rw [getD_tab (by omega), getD_tab (by omega)]
    · rfl

theorem elin_U {n : ℕ} (hn : 2 ≤ n) (d : Fin 2) (t : Bool) : ELin (2 * n - 1) ((make n).N d t) (U d t) := by
  have e1 : (2 * n - 1 + 1) / 2 = n := by omega
  have e2 : (2 * n - 1) / 2 = n - 1 := by omega
  have e3 : (2 * n - 2 + 1) / 2 = n - 1 := by omega
  have e4 : (2 * n - 2) / 2 = n - 1 := by omega
  have h1 := lin_stride2 (2 * n - 1)
  have h2 := lin_stride2' (2 * n - 1)
  have h3 := lin_stride2 (2 * n - 2)
  have h4 := lin_stride2' (2 * n - 2)
  rw [e1] at h1
  rw [e2] at h2
  rw [e3] at h3
  rw [e4] at h4
  obtain rfl | rfl : d = 0 ∨ d = 1 := by omega
  all_goals cases t
  all_goals simp only [U, wrapTable]
  · exact ELin.ok h2
  · exact ELin.ok h1
  · exact (elin_U1d hn).comp (lin_fine hn)
  · exact (elin_add h3 h4).comp (lin_fine hn)

end Chebyshev

end Dec
