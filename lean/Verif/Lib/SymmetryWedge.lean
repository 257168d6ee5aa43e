import Verif.Lib.SymmetryOps

set_option linter.unusedSimpArgs false
set_option linter.unusedVariables false

/-! Wedge product and contraction of moved arrays. -/

namespace Dec

open Finset Real G2 Sp Props

/-- Refinement of the form `(d, t)` commutes with moving. -/
def MovesT (T : Table) (N : Fin 2 → Bool → ℕ) (σ : ℝ) (ι : Fin 2 → Bool → ℕ → ℕ) (M : ℕ) (κ : ℕ → ℕ) (d : Fin 2) (t : Bool) : Prop :=
  ∀ a : List ℝ, a.length = N d t → ∃ b : List ℝ, b.length = M ∧ T d t a = .ok b ∧ T d t (moveArr (N d t) (sgn σ d) (ι d t) a) = .ok (moveArr M (sgn σ d) κ b)

/-- Unrefinement commutes with moving. -/
def MovesU (U : Table) (N : Fin 2 → Bool → ℕ) (σ : ℝ) (ι : Fin 2 → Bool → ℕ → ℕ) (M : ℕ) (κ : ℕ → ℕ) (d : Fin 2) (t : Bool) : Prop :=
  ∀ b : List ℝ, b.length = M → ∃ c : List ℝ, c.length = N d t ∧ U d t b = .ok c ∧ U d t (moveArr M (sgn σ d) κ b) = .ok (moveArr (N d t) (sgn σ d) (ι d t) c)

theorem sgn_add (σ : ℝ) (k l : Fin 2) (h : k.val + l.val ≤ 1) : sgn σ k * sgn σ l = sgn σ (Fin.ofNat 2 (k.val + l.val)) := by
  obtain rfl | rfl : k = 0 ∨ k = 1 := by omega
  all_goals obtain rfl | rfl : l = 0 ∨ l = 1 := by omega
  · rw [show Fin.ofNat 2 ((0 : Fin 2).val + (0 : Fin 2).val) = 0 from rfl]; simp [sgn]
  · rw [show Fin.ofNat 2 ((0 : Fin 2).val + (1 : Fin 2).val) = 1 from rfl]; simp [sgn]
  · rw [show Fin.ofNat 2 ((1 : Fin 2).val + (0 : Fin 2).val) = 1 from rfl]; simp [sgn]
  · simp at h

theorem wedge_move {T U : Table} {N : Fin 2 → Bool → ℕ} {σ : ℝ} {ι : Fin 2 → Bool → ℕ → ℕ} {M : ℕ} {κ : ℕ → ℕ} (hι : ∀ d t, ∀ i < N d t, ι d t i < N d t) (hκ : ∀ i < M, κ i < M)
    (k l : Fin 2) (s t u : Bool) (hkl : k.val + l.val ≤ 1) (hk : MovesT T N σ ι M κ k s) (hl : MovesT T N σ ι M κ l t) (hu : MovesU U N σ ι M κ (Fin.ofNat 2 (k.val + l.val)) u)
    (a b : List ℝ) (ha : a.length = N k s) (hb : b.length = N l t) :
    ∃ c : List ℝ, c.length = N (Fin.ofNat 2 (k.val + l.val)) u ∧ wedge1 T U k s l t u a b = .ok c ∧
      wedge1 T U k s l t u (moveArr (N k s) (sgn σ k) (ι k s) a) (moveArr (N l t) (sgn σ l) (ι l t) b) = .ok (moveArr (N (Fin.ofNat 2 (k.val + l.val)) u) (sgn σ (Fin.ofNat 2 (k.val + l.val))) (ι (Fin.ofNat 2 (k.val + l.val)) u) c) := by
  by_cases h : s = t ∧ t = u ∧ k = 0 ∧ l = 0
  · obtain ⟨rfl, rfl, rfl, rfl⟩ := h
    obtain ⟨c, h1, h2, h3⟩ := bop_mul_move (hι 0 s) (sgn σ 0) (sgn σ 0) a b ha hb
    refine ⟨c, h1, ?_, ?_⟩
    · unfold wedge1
      rw [if_neg (by decide), if_pos ⟨rfl, rfl, rfl, rfl⟩]; exact h2
    · unfold wedge1
      rw [if_neg (by decide), if_pos ⟨rfl, rfl, rfl, rfl⟩, h3, sgn_add σ 0 0 (by decide)]; rfl
  · have hw : ∃ w : List ℝ → List ℝ → List ℝ, Sym.wedge_1d k.val l.val = some w ∧ ∀ x y : ℝ, (w [x] [y]).getD 0 0 = x * y := by
      obtain rfl | rfl : k = 0 ∨ k = 1 := by omega
      all_goals obtain rfl | rfl : l = 0 ∨ l = 1 := by omega
      all_goals simp [Sym.wedge_1d, Sym.antisymmetrize, Sym.wedge_1d_base] at hkl ⊢
      intro x y; ring
    obtain ⟨w, hw1, hw2⟩ := hw
    obtain ⟨a', h1, h2, h3⟩ := hk a ha
    obtain ⟨b', h4, h5, h6⟩ := hl b hb
    obtain ⟨c, h7, h8, h9⟩ := bop_mul_move hκ (sgn σ k) (sgn σ l) a' b' h1 h4
    obtain ⟨e, h10, h11, h12⟩ := hu c h7
    refine ⟨e, h10, ?_, ?_⟩
    · unfold wedge1
      rw [if_neg (by omega), if_neg h, h2, h5]
      simp only [bind, Except.bind, hw1, hw2]
      rw [h8]; exact h11
    · unfold wedge1
      rw [if_neg (by omega), if_neg h, h3, h6]
      simp only [bind, Except.bind, hw1, hw2]
      rw [h9, sgn_add σ k l hkl]; exact h12

theorem contraction_move {T U : Table} {N : Fin 2 → Bool → ℕ} {σ : ℝ} (hσ : σ = 1 ∨ σ = -1) {ι : Fin 2 → Bool → ℕ → ℕ} {M : ℕ} {κ : ℕ → ℕ} (hκ : ∀ i < M, κ i < M)
    (s t u : Bool) (hk : MovesT T N σ ι M κ 1 s) (hl : MovesT T N σ ι M κ 1 t) (hu : MovesU U N σ ι M κ 0 u)
    (a b : List ℝ) (ha : a.length = N 1 s) (hb : b.length = N 1 t) :
    ∃ c : List ℝ, c.length = N 0 u ∧ contraction1 T U s 1 t u a b = .ok c ∧
      contraction1 T U s 1 t u (moveArr (N 1 s) (sgn σ 1) (ι 1 s) a) (moveArr (N 1 t) (sgn σ 1) (ι 1 t) b) = .ok (moveArr (N 0 u) (sgn σ 0) (ι 0 u) c) := by
  obtain ⟨a', h1, h2, h3⟩ := hk a ha
  obtain ⟨b', h4, h5, h6⟩ := hl b hb
  obtain ⟨c, h7, h8, h9⟩ := bop_mul_move hκ (sgn σ 1) (sgn σ 1) a' b' h1 h4
  obtain ⟨e, h10, h11, h12⟩ := hu c h7
  have hs : sgn σ 1 * sgn σ 1 = sgn σ 0 := by rcases hσ with rfl | rfl <;> simp [sgn]
  refine ⟨e, h10, ?_, ?_⟩
  · unfold contraction1
    rw [if_neg (by decide), h2, h5]
    simp only [bind, Except.bind, Sym.contraction_1d]
    simp only [Option.getD_some, List.getD_cons_zero]
    rw [h8]; exact h11
  · unfold contraction1
    rw [if_neg (by decide), h3, h6]
    simp only [bind, Except.bind, Sym.contraction_1d]
    simp only [Option.getD_some, List.getD_cons_zero]
    rw [h9, hs]; exact h12

/-! ### The circle -/

theorem periodic_points_shift {n : ℕ} (hn : 0 < n) (j : ℕ) {f : ℝ → ℝ} (hf : Function.Periodic f (2 * π - 0)) {i : ℕ} (hi : i < 2 * n) :
    f (j * ((2 * π - 0) / n) + 1 * (i * hh (2 * n))) = f (((i + 2 * j) % (2 * n) : ℕ) * hh (2 * n)) := by
  have h := Periodic.shift_index (n := 2 * n) (by omega) (a := 0) (b := 2 * π) (2 * j) i 0
  have e1 : ((2 * j : ℕ) : ℝ) * ((2 * π - 0) / (2 * n : ℕ)) = j * ((2 * π - 0) / n) := by
    have : (n : ℝ) ≠ 0 := by positivity
    push_cast; field_simp
  rw [e1] at h
  have e2 : (2 * π - 0) / ((2 * n : ℕ) : ℝ) = hh (2 * n) := by unfold hh; rw [sub_zero]
  rw [e2, zero_add, zero_add, add_zero, add_zero] at h
  rw [h, per_shift hf]

theorem periodic_points_flip {n : ℕ} {f : ℝ → ℝ} (hf : Function.Periodic f (2 * π - 0)) {i : ℕ} (hi : i < 2 * n) :
    f (0 + 2 * π + -1 * (i * hh (2 * n))) = f (((2 * n - i) % (2 * n) : ℕ) * hh (2 * n)) := by
  obtain ⟨m, h⟩ := Periodic.flip_index0 (n := 2 * n) (a := 0) (b := 2 * π) hi 0
  have e2 : (2 * π - 0) / ((2 * n : ℕ) : ℝ) = hh (2 * n) := by unfold hh; rw [sub_zero]
  rw [e2, zero_add, zero_add, add_zero, neg_zero, add_zero] at h
  rw [zero_add, h, per_shift hf, zero_add]

theorem periodic_T_det {n : ℕ} (hn : 1 ≤ n) (d : Fin 2) (t : Bool) (f : ℝ → ℝ) (hf : Determined .periodic n d t f) :
    (grid₀ .periodic n).T d t ((grid₀ .periodic n).P d t f) = .ok (tab (2 * n) fun i => f (i * hh (2 * n))) := by
  have hr := IsTrigAt.res hn ((determined_iff .periodic n hn d t f).1 hf)
  have h := Periodic.T_exact d t hr
  unfold samp at h
  simp only [zero_add] at h
  exact h

theorem periodic_P_len (n : ℕ) (hn : 1 ≤ n) (d : Fin 2) (t : Bool) (f : ℝ → ℝ) : ((Periodic.make n).P d t f).length = n := by
  have hF : Factor (Periodic.make n) := G2.grid_factor .periodic n hn 0 (2 * π)
  obtain rfl | rfl : d = 0 ∨ d = 1 := by omega
  · rw [P0_tab hF, length_tab]; rfl
  · rw [P1_tab hF, length_tab]; rfl

theorem periodic_movesU {n : ℕ} (hn : 1 ≤ n) {V : Fin 2 → Bool → (ℝ → ℝ) → Prop} {σ c : ℝ} {ι : Fin 2 → Bool → ℕ → ℕ} {κ : ℕ → ℕ}
    (h : Isometry (Periodic.make n) V (fun f => Function.Periodic f (2 * π - 0)) σ c ι) (hκ : ∀ i < 2 * n, κ i < 2 * n)
    (hp : ∀ f : ℝ → ℝ, Function.Periodic f (2 * π - 0) → ∀ i < 2 * n, f (c + σ * (i * hh (2 * n))) = f (κ i * hh (2 * n))) (d : Fin 2) (t : Bool) :
    MovesU Periodic.U (fun _ _ => n) σ ι (2 * n) κ d t := by
  intro b hb
  have hU := periodic_U h (G2.grid_factor .periodic n hn 0 (2 * π)) hκ hp d t b hb
  obtain ⟨L, hL, e⟩ := Periodic.elin_U n d t
  rw [e b hb] at hU
  exact ⟨L b, hL.len b hb, e b hb, hU⟩

/-! ### The Chebyshev grid -/

theorem cheb_T_det {n : ℕ} (hn : 2 ≤ n) (d : Fin 2) (t : Bool) (h927 : d = 1 → t = true → n ≤ 927) (f : ℝ → ℝ) (hf : Determined .chebyshev n d t f) :
    (grid₀ .chebyshev n).T d t ((grid₀ .chebyshev n).P d t f) = .ok (tab (2 * n - 1) fun i => f (-cos (i * (hh (2 * n - 2) / 2)))) := by
  have hf' : IsPoly ((Chebyshev.make n).N d t) f := (determined_iff .chebyshev n hn d t f).1 hf
  have hp := isCos_of_chebOrder hn (d := d) (t := t) le_rfl hf'
  have h := Chebyshev.T_exact hn d t h927 hp
  rw [← Chebyshev.P_eq hn d t hf'.continuous] at h
  exact h

theorem cheb_movesU {n : ℕ} (hn : 2 ≤ n) (d : Fin 2) (t : Bool) : MovesU Chebyshev.U (Chebyshev.make n).N (-1) (mirrorIdx .chebyshev n) (2 * n - 1) (fun i => 2 * n - 1 - 1 - i) d t := by
  intro b hb
  have hU := cheb_U hn d t b hb
  obtain ⟨L, hL, e⟩ := Chebyshev.elin_U hn d t
  rw [e b hb] at hU
  refine ⟨L b, hL.len b hb, e b hb, ?_⟩
  have hLl : (L b).length = (grid₀ .chebyshev n).N d t := hL.len b hb
  have e1 : moveArr ((Chebyshev.make n).N d t) 1 (mirrorIdx .chebyshev n d t) (L b) = (L b).reverse := moveArr_reverse (L b) hLl
  obtain rfl | rfl : d = 0 ∨ d = 1 := by omega
  · rw [show sgn (-1) 0 = 1 by simp [sgn], moveArr_reverse b hb, hU, e1]; rfl
  · rw [show sgn (-1) 1 = -1 by simp [sgn], moveArr_reverse_neg b hb]
    have e2 : moveArr ((Chebyshev.make n).N 1 t) (-1) (mirrorIdx .chebyshev n 1 t) (L b) = (L b).reverse.map (-·) := moveArr_reverse_neg (L b) hLl
    rw [e2, e _ (by simp [hb])]
    have hU' := (e b.reverse (by simp [hb])).symm.trans hU
    have hU2 : L b.reverse = (L b).reverse := Except.ok.inj hU'
    have hs := hL.smul (-1) b.reverse (by simp [hb])
    simp only [smul_eq_mul, neg_one_mul] at hs
    rw [hs, hU2]

end Dec
