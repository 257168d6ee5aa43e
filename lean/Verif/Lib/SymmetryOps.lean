import Verif.Lib.SymmetryDet

set_option linter.unusedSimpArgs false
set_option linter.unusedVariables false

/-! Derivative and unrefinement of moved arrays. -/

namespace Dec

open Finset Real G2 Sp Props

theorem moveArr_tab {N : ℕ} {s : ℝ} {ι : ℕ → ℕ} (h : ∀ i < N, ι i < N) (x : ℕ → ℝ) : moveArr N s ι (tab N x) = tab N fun i => s * x (ι i) := by
  unfold moveArr
  exact tab_congr fun i hi => by rw [getD_tab (h i hi)]

/-! ### Derivative -/

theorem periodic_D0_tab (n : ℕ) (x : ℕ → ℝ) : Periodic.D0 (tab n x) = tab n fun i => x ((i + 1) % n) - x i := by
  unfold Periodic.D0
  rw [roll_neg_one_tab, vsub_tab]

theorem periodic_D0d_tab (n : ℕ) (x : ℕ → ℝ) : Periodic.D0d (tab n x) = tab n fun i => x i - x ((i + n - 1) % n) := by
  unfold Periodic.D0d
  rw [periodic_D0_tab, roll_one_tab]
  refine tab_congr fun i hi => ?_
  have : ((i + n - 1) % n + 1) % n = i := by
    rw [Nat.mod_add_mod, show i + n - 1 + 1 = i + n by omega, Nat.add_mod_right, Nat.mod_eq_of_lt hi]
  rw [this]

theorem shift_D {n : ℕ} (hn : 0 < n) (j : ℕ) (t : Bool) (a : List ℝ) (ha : a.length = n) :
    (Periodic.make n).D 0 t (moveArr n 1 (fun i => (i + j) % n) a) = ((Periodic.make n).D 0 t a).map (moveArr n 1 fun i => (i + j) % n) := by
  have hl : ∀ i < n, (i + j) % n < n := fun i _ => Nat.mod_lt _ hn
  rw [eq_tab' ha 0, moveArr_tab hl]
  cases t
  · show some (Periodic.D0d _) = some (moveArr _ _ _ (Periodic.D0d _))
    rw [periodic_D0d_tab, periodic_D0d_tab, moveArr_tab hl]
    congr 1
    refine tab_congr fun i hi => ?_
    rw [show ((i + n - 1) % n + j) % n = ((i + j) % n + n - 1) % n by
      rw [Nat.mod_add_mod, show (i + j) % n + n - 1 = (i + j) % n + (n - 1) by omega, Nat.mod_add_mod]; congr 1; omega]
    ring
  · show some (Periodic.D0 _) = some (moveArr _ _ _ (Periodic.D0 _))
    rw [periodic_D0_tab, periodic_D0_tab, moveArr_tab hl]
    congr 1
    refine tab_congr fun i hi => ?_
    rw [show ((i + 1) % n + j) % n = ((i + j) % n + 1) % n by
      rw [Nat.mod_add_mod, Nat.mod_add_mod]; congr 1; omega]
    ring

theorem neg_mod_cases {n i : ℕ} (h : i < n) : (n - i) % n = if i = 0 then 0 else n - i := by
  split_ifs with h0
  · subst h0; simp
  · exact Nat.mod_eq_of_lt (by omega)

theorem succ_mod_cases {n i : ℕ} (h : i < n) : (i + 1) % n = if i + 1 = n then 0 else i + 1 := by
  split_ifs with h0
  · rw [h0, Nat.mod_self]
  · exact Nat.mod_eq_of_lt (by omega)

theorem pred_mod_cases {n i : ℕ} (h : i < n) : (i + n - 1) % n = if i = 0 then n - 1 else i - 1 := by
  split_ifs with h0
  · subst h0; rw [zero_add]; exact Nat.mod_eq_of_lt (by omega)
  · rw [show i + n - 1 = i - 1 + n by omega, Nat.add_mod_right]; exact Nat.mod_eq_of_lt (by omega)

theorem flip_D {n : ℕ} (hn : 0 < n) (t : Bool) (a : List ℝ) (ha : a.length = n) :
    (Periodic.make n).D 0 t (moveArr n 1 (Periodic.flip n 0 t) a) = ((Periodic.make n).D 0 t a).map (moveArr n (-1) (Periodic.flip n 1 t)) := by
  have hl : ∀ d, ∀ i < n, Periodic.flip n d t i < n := fun d i h => Periodic.flip_lt d t h
  rw [eq_tab' ha 0, moveArr_tab (hl 0)]
  cases t
  · show some (Periodic.D0d _) = some (moveArr _ _ _ (Periodic.D0d _))
    rw [periodic_D0d_tab, periodic_D0d_tab, moveArr_tab (hl 1)]
    congr 1
    refine tab_congr fun i hi => ?_
    have e0 : ∀ i, Periodic.flip n 0 false i = n - 1 - i := fun i => by simp [Periodic.flip]
    have e1 : Periodic.flip n 1 false i = (n - i) % n := by simp [Periodic.flip]
    rw [e0, e0, e1, pred_mod_cases hi, neg_mod_cases hi, pred_mod_cases (by split_ifs <;> omega)]
    by_cases h0 : i = 0
    · subst h0
      simp
    · simp only [if_neg h0, if_neg (show n - i ≠ 0 by omega)]
      rw [show n - 1 - (i - 1) = n - i by omega, show n - i - 1 = n - 1 - i by omega]; ring
  · show some (Periodic.D0 _) = some (moveArr _ _ _ (Periodic.D0 _))
    rw [periodic_D0_tab, periodic_D0_tab, moveArr_tab (hl 1)]
    congr 1
    refine tab_congr fun i hi => ?_
    have e0 : ∀ i, Periodic.flip n 0 true i = (n - i) % n := fun i => by simp [Periodic.flip]
    have e1 : Periodic.flip n 1 true i = n - 1 - i := by simp [Periodic.flip]
    rw [e0, e0, e1, neg_mod_cases hi, succ_mod_cases hi, succ_mod_cases (show n - 1 - i < n by omega)]
    by_cases h1 : i + 1 = n
    · rw [if_pos h1]
      by_cases h0 : i = 0
      · subst h0
        rw [neg_mod_cases (by omega)]
        simp [show n = 1 by omega]
      · rw [neg_mod_cases (by omega), if_pos rfl, if_neg h0, if_neg (by omega), show n - i = n - 1 - i + 1 by omega, show n - 1 - i = 0 by omega]; ring
    · rw [if_neg h1, neg_mod_cases (by omega), if_neg (by omega)]
      by_cases h0 : i = 0
      · subst h0
        rw [if_pos rfl, if_pos (by omega)]
        simp
      · rw [if_neg h0, if_neg (by omega), show n - (i + 1) = n - 1 - i by omega, show n - 1 - i + 1 = n - i by omega]; ring

theorem interval_D {g : Grid1} {v w : ℕ → ℝ} (hg : IsInterval g v w) (t : Bool) (a : List ℝ) (ha : a.length = g.N 0 t) :
    g.D 0 t (moveArr (g.N 0 t) 1 (fun i => g.N 0 t - 1 - i) a) = (g.D 0 t a).map (moveArr (g.N 1 t) (-1) fun i => g.N 1 t - 1 - i) := by
  have hl : ∀ m : ℕ, ∀ i < m, m - 1 - i < m := fun m i _ => by omega
  have hn := hg.two_le
  rw [eq_tab' ha 0, moveArr_tab (hl _)]
  cases t
  · rw [hg.D0d, hg.D0d, hg.N00, hg.N10]
    show some _ = some _
    congr 1
    rw [List.singleton_append, List.singleton_append, cons_tab, cons_tab, append_singleton_tab, append_singleton_tab, diff_tab, diff_tab]
    rw [show g.n - 1 + 1 + 1 - 1 = g.n by omega, show g.n - 1 + 1 = g.n by omega, moveArr_tab (hl _)]
    refine tab_congr fun i hi => ?_
    by_cases h0 : i = 0
    · subst h0
      by_cases h1 : g.n = 1
      · omega
      · simp [show g.n - 1 < g.n by omega, show ¬ (g.n - 1 + 1 < g.n) by omega, show 0 < g.n by omega, show 1 < g.n by omega, show g.n - 1 ≠ 0 by omega]
    · by_cases h1 : i = g.n - 1
      · subst h1
        simp [show ¬ (g.n - 1 + 1 < g.n) by omega, show g.n - 1 < g.n by omega, show 0 < g.n by omega, show 1 < g.n by omega, show g.n - 1 ≠ 0 by omega]
      · rw [if_pos (show i + 1 < g.n by omega), if_neg (show i + 1 ≠ 0 by omega), if_pos (show i < g.n by omega), if_neg h0, if_pos (show g.n - 1 - i + 1 < g.n by omega),
          if_neg (show g.n - 1 - i + 1 ≠ 0 by omega), if_pos (show g.n - 1 - i < g.n by omega), if_neg (show g.n - 1 - i ≠ 0 by omega),
          show g.n - 1 - 1 - (i + 1 - 1) = g.n - 1 - i - 1 by omega, show g.n - 1 - 1 - (i - 1) = g.n - 1 - i + 1 - 1 by omega]
        ring
  · rw [hg.D0, hg.D0, hg.N01, hg.N11]
    show some _ = some _
    congr 1
    rw [diff_tab, diff_tab, moveArr_tab (hl _)]
    refine tab_congr fun i hi => ?_
    rw [show g.n - 1 - 1 - i + 1 = g.n - 1 - i by omega, show g.n - 1 - 1 - i = g.n - 1 - (i + 1) by omega]; ring

/-! ### Unrefinement -/

/-- Unrefinement on the circle commutes with any isometry that maps the refined points to each other. -/
theorem periodic_U {n : ℕ} {V : Fin 2 → Bool → (ℝ → ℝ) → Prop} {σ c : ℝ} {ι : Fin 2 → Bool → ℕ → ℕ} {κ : ℕ → ℕ}
    (h : Isometry (Periodic.make n) V (fun f => Function.Periodic f (2 * π - 0)) σ c ι) (hF : Factor (Periodic.make n)) (hκ : ∀ i < 2 * n, κ i < 2 * n)
    (hp : ∀ f : ℝ → ℝ, Function.Periodic f (2 * π - 0) → ∀ i < 2 * n, f (c + σ * (i * hh (2 * n))) = f (κ i * hh (2 * n)))
    (d : Fin 2) (t : Bool) (b : List ℝ) (hb : b.length = 2 * n) :
    Periodic.U d t (moveArr (2 * n) (sgn σ d) κ b) = (Periodic.U d t b).map (moveArr n (sgn σ d) (ι d t)) := by
  obtain ⟨p, h1, h2, rfl⟩ := exists_isTrig (2 * n) 0 b hb
  rw [show 2 * n / 2 = n by omega] at h1
  have hper : Function.Periodic p (2 * π - 0) := by rw [sub_zero]; exact h1.periodic
  have e : moveArr (2 * n) (sgn σ d) κ (samp (2 * n) 0 p) = samp (2 * n) 0 (pullBack σ c d p) := by
    unfold samp pullBack
    rw [moveArr_tab hκ]
    refine tab_congr fun i hi => ?_
    rw [zero_add, zero_add, hp p hper i hi]
  have h3 : IsTrig n (pullBack σ c d p) := by
    have : IsTrig n fun x => p (c + σ * x) := by
      rcases h.sign with rfl | rfl
      · exact (h1.comp_add c).congr fun x => by ring_nf
      · exact ((h1.comp_add c).comp_neg).congr fun x => by ring_nf
    exact this.const_mul _
  rw [e, Periodic.U_exact h3, Periodic.U_exact h1]
  show Except.ok _ = Except.ok _
  congr 1
  exact h.P hF d t p hper

/-! The Chebyshev operators -/

theorem cheb_S_flip {m : ℕ} (hm : 2 ≤ m) (b : List ℝ) (hb : b.length = m) : Chebyshev.S_cheb b.reverse = (Chebyshev.S_cheb b).reverse := by
  obtain ⟨p, hp, rfl⟩ := Chebyshev.exists_rep hm 0 true (fun h => absurd h (by decide)) (a := b) (by rw [hb]; rfl)
  have hp' : IsCos (m - 1) p := hp
  have hh1 : ((m - 1 : ℕ) : ℝ) * hh (2 * m - 2) = π := mul_hh_double hm
  have e : (Chebyshev.cP m 0 true p).reverse = tab m fun j => (fun θ => p (π - θ)) (j * hh (2 * m - 2)) := by
    show (tab m fun j => p (j * hh (2 * m - 2))).reverse = _
    rw [reverse_tab]
    refine tab_congr fun j hj => ?_
    rw [Nat.cast_sub (by omega)]
    congr 1; linear_combination hh1
  rw [e, Chebyshev.S_cheb_exact hm hp'.comp_flip]
  show _ = (Chebyshev.S_cheb (tab m fun j => p (j * hh (2 * m - 2)))).reverse
  rw [Chebyshev.S_cheb_exact hm hp', reverse_tab]
  refine tab_congr fun j hj => ?_
  beta_reduce
  have e2 : ((m - 1 : ℕ) : ℝ) = ((m - 1 - 1 - j : ℕ) : ℝ) + 1 + j := by exact_mod_cast (by omega : m - 1 = m - 1 - 1 - j + 1 + j)
  rw [e2] at hh1
  congr 1; linear_combination -hh1

theorem moveArr_reverse (a : List ℝ) {N : ℕ} (h : a.length = N) : moveArr N 1 (fun i => N - 1 - i) a = a.reverse := by
  conv_rhs => rw [eq_tab' h 0]
  rw [reverse_tab]
  unfold moveArr
  exact tab_congr fun i _ => one_mul _

theorem moveArr_reverse_neg (a : List ℝ) {N : ℕ} (h : a.length = N) : moveArr N (-1) (fun i => N - 1 - i) a = a.reverse.map (-·) := by
  conv_rhs => rw [eq_tab' h 0]
  rw [reverse_tab, map_tab]
  unfold moveArr
  exact tab_congr fun i _ => neg_one_mul _

theorem cheb_H0d_length {m : ℕ} (hm : 1 ≤ m) (b : List ℝ) (hb : b.length = m) : (Chebyshev.H0d b).length = m :=
  (Chebyshev.lin_H0d hm).len b hb

theorem cheb_H0d_flip {m : ℕ} (hm : 1 ≤ m) (b : List ℝ) (hb : b.length = m) : Chebyshev.H0d b.reverse = (Chebyshev.H0d b).reverse := by
  have hs := spans' .chebyshev (m + 1) (show 2 ≤ m + 1 by omega)
  have h := (mirror_isometry .chebyshev (n := m + 1) (show 2 ≤ m + 1 by omega)).H hs 0 false
    (fun f hf => determined_star .chebyshev (m + 1) (show 2 ≤ m + 1 by omega) 0 false (fun _ h => absurd h (by decide)) f hf) b hb
  have e1 : moveArr ((grid₀ .chebyshev (m + 1)).N 0 false) (sgn (-1) 0) (mirrorIdx .chebyshev (m + 1) 0 false) b = b.reverse := moveArr_reverse b hb
  rw [e1] at h
  have h' : Chebyshev.H0d b.reverse = moveArr m (-1 * sgn (-1) 1) (fun i => m - 1 - i) (Chebyshev.H0d b) := Except.ok.inj h
  rw [h', show -1 * sgn (-1) 1 = 1 by simp [sgn]]
  exact moveArr_reverse _ (cheb_H0d_length hm b hb)

theorem cheb_U {n : ℕ} (hn : 2 ≤ n) (d : Fin 2) (t : Bool) (b : List ℝ) (hb : b.length = 2 * n - 1) :
    Chebyshev.U d t b.reverse = (Chebyshev.U d t b).map List.reverse := by
  obtain rfl | rfl : d = 0 ∨ d = 1 := by omega
  · cases t
    · show Except.ok (stride2' b.reverse) = Except.ok (stride2' b).reverse
      rw [eq_tab' hb 0, reverse_tab, stride2'_tab, stride2'_tab, reverse_tab]
      congr 1
      exact tab_congr fun i hi => by congr 1; omega
    · show Except.ok (stride2 b.reverse) = Except.ok (stride2 b).reverse
      rw [eq_tab' hb 0, reverse_tab, stride2_tab, stride2_tab, reverse_tab]
      congr 1
      exact tab_congr fun i hi => by congr 1; omega
  · have hS : (Chebyshev.S_cheb b).length = 2 * n - 1 - 1 := by
      obtain ⟨p, hp, rfl⟩ := Chebyshev.exists_rep (n := 2 * n - 1) (by omega) 0 true (fun h => absurd h (by decide)) (a := b) (by rw [hb]; rfl)
      show (Chebyshev.S_cheb (tab (2 * n - 1) fun j => p (j * hh (2 * (2 * n - 1) - 2)))).length = _
      rw [Chebyshev.S_cheb_exact (by omega) hp, length_tab]
    have e : Chebyshev.H0d (Chebyshev.S_cheb b.reverse) = (Chebyshev.H0d (Chebyshev.S_cheb b)).reverse := by
      rw [cheb_S_flip (by omega) b hb, cheb_H0d_flip (m := 2 * n - 1 - 1) (by omega) _ hS]
    have hH : (Chebyshev.H0d (Chebyshev.S_cheb b)).length = 2 * n - 2 := by
      rw [cheb_H0d_length (by omega) _ hS]; omega
    cases t
    · show Chebyshev.U1d b.reverse = (Chebyshev.U1d b).map _
      unfold Chebyshev.U1d
      rw [e]
      generalize Chebyshev.H0d (Chebyshev.S_cheb b) = f at hH
      have hfl : f = tab (2 * n - 2) fun i => f.getD i 0 := eq_tab' hH 0
      generalize (fun i => f.getD i 0) = x at hfl
      subst hfl
      simp only [reverse_tab, tail_tab, dropLast_tab, stride2_tab, stride2'_tab, length_tab]
      unfold bop
      simp only [length_tab, show (2 * n - 2 - 1 - 1 + 1) / 2 = n - 2 by omega, show (2 * n - 2 - 1 - 1) / 2 = n - 2 by omega, if_true, bind, Except.bind, pure, Except.pure, Except.map, zipWith_tab]
      rw [getD_tab (by omega), getD_tab (by omega), getD_tab (by omega), getD_tab (by omega)]
      simp only [List.reverse_append, List.reverse_cons, List.reverse_nil, List.nil_append, reverse_tab, List.append_assoc, List.singleton_append]
      have e1 : (tab (n - 2) fun i => x (2 * n - 2 - 1 - (2 * i + 1)) + x (2 * n - 2 - 1 - (2 * i + 1 + 1)))
          = tab (n - 2) fun i => x (2 * (n - 2 - 1 - i) + 1) + x (2 * (n - 2 - 1 - i) + 1 + 1) := by
        refine tab_congr fun i hi => ?_
        rw [add_comm, show 2 * n - 2 - 1 - (2 * i + 1 + 1) = 2 * (n - 2 - 1 - i) + 1 by omega, show 2 * n - 2 - 1 - (2 * i + 1) = 2 * (n - 2 - 1 - i) + 1 + 1 by omega]
      rw [e1, Nat.sub_zero, Nat.sub_self]
      rfl
    · show Chebyshev.U1 b.reverse = (Chebyshev.U1 b).map _
      unfold Chebyshev.U1
      rw [e]
      generalize Chebyshev.H0d (Chebyshev.S_cheb b) = f at hH
      rw [eq_tab' hH 0]
      simp only [reverse_tab, stride2_tab, stride2'_tab]
      unfold bop
      simp only [length_tab, show (2 * n - 2 + 1) / 2 = n - 1 by omega, show (2 * n - 2) / 2 = n - 1 by omega, if_true, Except.map, zipWith_tab, reverse_tab]
      congr 1
      refine tab_congr fun i hi => ?_
      rw [add_comm]
      congr 2 <;> omega

end Dec
