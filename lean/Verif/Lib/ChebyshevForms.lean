import Verif.Lib.ChebyshevGrid
import Verif.Lib.PeriodicForms

set_option linter.unusedSimpArgs false
set_option linter.unusedVariables false

/-! Refinement, unrefinement, wedge product and contraction on the Chebyshev grid. -/

namespace Dec.Chebyshev

open Finset Real Dec.Sp Dec.Regular

theorem re_unmirror1 (x : List ℂ) : re (unmirror1 x) = unmirror1 (re x) := by
  unfold re unmirror1; rw [List.map_take, List.length_map]

theorem re_unmirror0 (x : List ℂ) : re (unmirror0 x) = unmirror0 (re x) := by
  unfold re unmirror0; rw [List.map_take, List.length_map]

theorem S_cheb_eq (f : List ℝ) : S_cheb f = unmirror1 (Sp.S (mirror0 f 1)) := re_unmirror1 _
theorem S_cheb_pinv_eq (f : List ℝ) : S_cheb_pinv f = unmirror0 (Sp.Sinv (mirror1 f 1)) := re_unmirror0 _

theorem S_cheb_exact {n : ℕ} (hn : 2 ≤ n) {p : ℝ → ℝ} (hp : IsCos (n - 1) p) :
    S_cheb (tab n fun j => p (j * hh (2 * n - 2))) = tab (n - 1) fun j => p (hh (2 * n - 2) / 2 + j * hh (2 * n - 2)) := by
  rw [S_cheb_eq, mirror0_samp hn hp.isTrig.periodic hp.even, (res_of_cos0 hn hp).S]
  unfold samp
  rw [show 2 * n - 2 = 2 * (n - 1) by omega, unmirror1_tab]
  exact tab_congr fun j _ => by rw [zero_add]

theorem res_mid {m : ℕ} (hm : 0 < m) {p : ℝ → ℝ} (hp : IsCos (m - 1) p) : Res (2 * m) (hh (2 * m) / 2) p :=
  Res_of_isTrig (by omega) hp.isTrig _

theorem S_cheb_pinv_exact {n : ℕ} (hn : 2 ≤ n) {p : ℝ → ℝ} (hp : IsCos (n - 2) p) :
    S_cheb_pinv (tab (n - 1) fun j => p (hh (2 * n - 2) / 2 + j * hh (2 * n - 2))) = tab n fun j => p (j * hh (2 * n - 2)) := by
  have e : 2 * n - 2 = 2 * (n - 1) := by omega
  have hp' : IsCos (n - 1 - 1) p := hp
  have h1 : mirror1 (tab (n - 1) fun j => p (hh (2 * n - 2) / 2 + j * hh (2 * n - 2))) 1 = samp (2 * n - 2) (hh (2 * n - 2) / 2) p := by
    rw [e]; exact mirror1_samp (by omega) hp.isTrig.periodic hp.even
  have h2 : Res (2 * n - 2) (hh (2 * n - 2) / 2) p := by
    rw [e]; exact res_mid (by omega) hp'
  rw [S_cheb_pinv_eq, h1, h2.Sinv, sub_self]
  unfold samp
  rw [unmirror0_tab hn]
  exact tab_congr fun j _ => by rw [zero_add]

/-- The projections in the angle variable. -/
noncomputable def cP (n : ℕ) (d : Fin 2) (t : Bool) (p : ℝ → ℝ) : List ℝ :=
  match d, t with
  | 0, true => tab n fun j => p (j * hh (2 * n - 2))
  | 0, false => tab (n - 1) fun j => p (hh (2 * n - 2) / 2 + j * hh (2 * n - 2))
  | 1, true => tab (n - 1) fun j => ∫ ξ in ((j : ℝ) * hh (2 * n - 2))..((j + 1) * hh (2 * n - 2)), p ξ * sin ξ
  | 1, false => tab n fun j => ∫ ξ in (lo (hh (2 * n - 2)) j)..(hi n (hh (2 * n - 2)) j), p ξ * sin ξ

theorem P_eq {n : ℕ} (hn : 2 ≤ n) (d : Fin 2) (t : Bool) {f : ℝ → ℝ} (hf : Continuous f) :
    (make n).P d t f = cP n d t (fun θ => f (-cos θ)) := by
  obtain rfl | rfl : d = 0 ∨ d = 1 := by omega
  all_goals cases t
  · exact P0d hn f
  · exact P0 hn f
  · exact P1d hn hf
  · exact P1 hn hf

/-- Samples at the refined points. -/
noncomputable def csamp (n : ℕ) (p : ℝ → ℝ) : List ℝ := tab (2 * n - 1) fun j => p (j * (hh (2 * n - 2) / 2))

@[simp] theorem length_csamp (n : ℕ) (p : ℝ → ℝ) : (csamp n p).length = 2 * n - 1 := by simp [csamp]

theorem interweave_csamp {n : ℕ} (hn : 2 ≤ n) (p : ℝ → ℝ) : interweave (cP n 0 true p) (cP n 0 false p) = .ok (csamp n p) := by
  unfold interweave
  show (if (tab n _).length = (tab (n - 1) _).length ∨ (tab n _).length = (tab (n - 1) _).length + 1 then _ else _) = _
  rw [if_pos (by simp only [length_tab]; omega)]
  congr 1
  unfold csamp
  have h := weave_tab_any (2 * n - 1) (fun j => p (j * hh (2 * n - 2))) (fun j => p (hh (2 * n - 2) / 2 + j * hh (2 * n - 2)))
  rw [show (2 * n - 1 + 1) / 2 = n by omega, show (2 * n - 1) / 2 = n - 1 by omega] at h
  refine Eq.trans h (tab_congr fun i hi => ?_)
  rcases Nat.mod_two_eq_zero_or_one i with h | h
  · rw [if_pos h]
    have : (i : ℝ) = 2 * (i / 2 : ℕ) := by exact_mod_cast (by omega : i = 2 * (i / 2))
    congr 1; linear_combination (-(hh (2 * n - 2) / 2)) * this
  · rw [if_neg (by omega)]
    have : (i : ℝ) = 2 * (i / 2 : ℕ) + 1 := by exact_mod_cast (by omega : i = 2 * (i / 2) + 1)
    congr 1; linear_combination (-(hh (2 * n - 2) / 2)) * this

theorem points_csamp {n : ℕ} (hn : 2 ≤ n) : (make n).points = .ok (csamp n fun θ => -cos θ) := by
  have h := interweave_csamp hn (fun θ => -cos θ)
  rw [← h]
  unfold Grid1.points
  have e0 := P0 hn (fun x => x)
  have e1 := P0d hn (fun x => x)
  have a0 : (make n).P 0 true (fun x => x) = (make n).cells.v true := List.map_id _
  have a1 : (make n).P 0 false (fun x => x) = (make n).cells.v false := List.map_id _
  rw [← a0, ← a1, e0, e1]; rfl

/-- The highest degree a form of the given kind resolves. -/
def cdeg (n : ℕ) (d : Fin 2) (t : Bool) : ℕ :=
  match d, t with
  | 0, true => n - 1
  | 0, false => n - 2
  | 1, true => n - 2
  | 1, false => n - 1

theorem T_0d (a : List ℝ) : T 0 false a = T0d a := by simp only [T, wrapTable]
theorem T_0 (a : List ℝ) : T 0 true a = T0 a := by simp only [T, wrapTable]
theorem T_1d (a : List ℝ) : T 1 false a = T1d a := by simp only [T, wrapTable]
theorem T_1 (a : List ℝ) : T 1 true a = T1 a := by simp only [T, wrapTable]

theorem T0d_exact {n : ℕ} (hn : 2 ≤ n) {p : ℝ → ℝ} (hp : IsCos (n - 2) p) : T0d (cP n 0 false p) = .ok (csamp n p) := by
  have e : S_cheb_pinv (cP n 0 false p) = cP n 0 true p := S_cheb_pinv_exact hn hp
  unfold T0d
  rw [e]
  exact interweave_csamp hn p

theorem T0_exact {n : ℕ} (hn : 2 ≤ n) {p : ℝ → ℝ} (hp : IsCos (n - 1) p) : T0 (cP n 0 true p) = .ok (csamp n p) := by
  have e : S_cheb (cP n 0 true p) = cP n 0 false p := S_cheb_exact hn hp
  unfold T0
  rw [e]
  exact interweave_csamp hn p

theorem T1d_exact {n : ℕ} (hn : 2 ≤ n) {p : ℝ → ℝ} (hp : IsCos (n - 1) p) : T1d (cP n 1 false p) = .ok (csamp n p) := by
  have e : H1d (cP n 1 false p) = cP n 0 true p := H1d_exact hn hp
  unfold T1d
  rw [e]; exact T0_exact hn hp

theorem T1_exact {n : ℕ} (hn : 2 ≤ n) (h927 : n ≤ 927) {p : ℝ → ℝ} (hp : IsCos (n - 2) p) : T1 (cP n 1 true p) = .ok (csamp n p) := by
  have e : H1 (cP n 1 true p) = .ok (cP n 0 false p) := by
    have hm : 0 < n - 1 := by omega
    have h := H1_exact hm (weightsOk hm) (accepts hm (by omega)) (p := p) hp
    rw [show 2 * (n - 1) = 2 * n - 2 by omega] at h
    exact h
  unfold T1
  rw [e]
  simp only [bind, Except.bind]
  exact T0d_exact hn hp

theorem T_exact {n : ℕ} (hn : 2 ≤ n) (d : Fin 2) (t : Bool) (h927 : d = 1 → t = true → n ≤ 927) {p : ℝ → ℝ} (hp : IsCos (cdeg n d t) p) :
    T d t (cP n d t p) = .ok (csamp n p) := by
  obtain rfl | rfl : d = 0 ∨ d = 1 := by omega
  all_goals cases t
  · rw [T_0d]; exact T0d_exact hn hp
  · rw [T_0]; exact T0_exact hn hp
  · rw [T_1d]; exact T1d_exact hn hp
  · rw [T_1]; exact T1_exact hn (h927 rfl rfl) hp

theorem hh_half {n : ℕ} (hn : 2 ≤ n) : hh (2 * (2 * n - 1) - 2) = hh (2 * n - 2) / 2 := by
  rw [show 2 * (2 * n - 1) - 2 = 2 * (2 * n - 2) by omega, Periodic.hh_two_mul]

theorem fine_integrals {n : ℕ} (hn : 2 ≤ n) {p : ℝ → ℝ} (hp : IsCos (2 * n - 3) p) :
    H0d (S_cheb (csamp n p)) = tab (2 * n - 2) fun j => ∫ ξ in ((j : ℝ) * (hh (2 * n - 2) / 2))..((j + 1) * (hh (2 * n - 2) / 2)), p ξ * sin ξ := by
  have hp' : IsCos ((2 * n - 1) - 1) p := hp.mono (by omega)
  have h1 := S_cheb_exact (n := 2 * n - 1) (by omega) hp'
  have h2 := H0d_exact (m := 2 * n - 2) (by omega) (p := p) hp
  rw [hh_half hn] at h1
  rw [show 2 * (2 * n - 2) = 2 * (2 * n - 1) - 2 by omega, hh_half hn] at h2
  unfold csamp
  rw [h1, ← h2]
  rfl

theorem U_exact {n : ℕ} (hn : 2 ≤ n) (d : Fin 2) (t : Bool) {p : ℝ → ℝ} (hp : d = 1 → IsCos (2 * n - 3) p) :
    U d t (csamp n p) = .ok (cP n d t p) := by
  obtain rfl | rfl : d = 0 ∨ d = 1 := by omega
  all_goals cases t
  · show U0d (csamp n p) = .ok (tab (n - 1) fun j => p (hh (2 * n - 2) / 2 + j * hh (2 * n - 2)))
    unfold U0d csamp
    rw [stride2'_tab]
    exact congrArg _ (tab_congr' (by omega) fun j _ => by congr 1; push_cast; ring)
  · show U0 (csamp n p) = .ok (tab n fun j => p (j * hh (2 * n - 2)))
    unfold U0 csamp
    rw [stride2_tab]
    exact congrArg _ (tab_congr' (by omega) fun j _ => by congr 1; push_cast; ring)
  · have hp := hp rfl
    have hc := (IsCos.mul_sin hp).isTrig.continuous
    have hint : ∀ a b : ℝ, IntervalIntegrable (fun ξ => p ξ * sin ξ) MeasureTheory.volume a b := fun a b => hc.intervalIntegrable _ _
    show U1d (csamp n p) = .ok (tab n fun j => ∫ ξ in (lo (hh (2 * n - 2)) j)..(hi n (hh (2 * n - 2)) j), p ξ * sin ξ)
    unfold U1d
    simp only []
    rw [fine_integrals hn hp, tail_tab, dropLast_tab, length_tab, stride2_tab, stride2'_tab, getD_tab (by omega), getD_tab (by omega)]
    unfold bop
    rw [if_pos (by simp only [length_tab]; omega), zipWith_tab']
    simp only [bind, Except.bind, pure, Except.pure]
    rw [List.singleton_append, cons_tab, append_singleton_tab]
    refine congrArg _ (tab_congr' (by omega) fun j hj => ?_)
    have hmin : min ((2 * n - 2 - 1 - 1 + 1) / 2) ((2 * n - 2 - 1 - 1) / 2) + 1 = n - 1 := by omega
    rw [hmin]
    by_cases h1 : j < n - 1
    · rw [if_pos h1, hi_eq _ h1]
      by_cases h0 : j = 0
      · subst h0; simp [lo]
      · rw [if_neg h0, lo_eq (n := n) _ h0]
        rw [intervalIntegral.integral_congr_ae (g := fun ξ => p ξ * sin ξ) (by simp),
          show (((2 * (j - 1) + 1 + 1 : ℕ) : ℝ)) = ((2 * (j - 1) + 1 : ℕ) : ℝ) + 1 by push_cast; ring,
          intervalIntegral.integral_add_adjacent_intervals (hint _ _) (hint _ _)]
        have e : ((2 * (j - 1) + 1 : ℕ) : ℝ) = 2 * j - 1 := by
          have : ((j - 1 : ℕ) : ℝ) = j - 1 := by rw [Nat.cast_sub (by omega)]; simp
          push_cast; rw [this]; ring
        rw [e]
        congr 1 <;> ring
    · have hj' : j = n - 1 := by omega
      rw [if_neg h1, hi, if_neg h1, lo_eq (n := n) _ (by omega), hj']
      have e : ((2 * n - 2 - 1 : ℕ) : ℝ) = 2 * (n - 1 : ℕ) - 1 := by
        rw [Nat.cast_sub (by omega), show 2 * n - 2 = 2 * (n - 1) by omega]; push_cast; ring
      have hpi := mul_hh_double hn
      rw [e]
      congr 1
      · ring
      · linear_combination hpi
  · have hp := hp rfl
    have hc := (IsCos.mul_sin hp).isTrig.continuous
    have hint : ∀ a b : ℝ, IntervalIntegrable (fun ξ => p ξ * sin ξ) MeasureTheory.volume a b := fun a b => hc.intervalIntegrable _ _
    show U1 (csamp n p) = .ok (tab (n - 1) fun j => ∫ ξ in ((j : ℝ) * hh (2 * n - 2))..((j + 1) * hh (2 * n - 2)), p ξ * sin ξ)
    unfold U1
    simp only []
    rw [fine_integrals hn hp, stride2_tab, stride2'_tab]
    unfold bop
    rw [if_pos (by simp only [length_tab]; omega), zipWith_tab']
    refine congrArg _ (tab_congr' (by omega) fun j hj => ?_)
    rw [show (((2 * j + 1 : ℕ) : ℝ)) = ((2 * j : ℕ) : ℝ) + 1 by push_cast; ring,
      intervalIntegral.integral_add_adjacent_intervals (hint _ _) (hint _ _)]
    congr 1 <;> (push_cast; ring)

/-- Every form is the projection of a resolved cosine polynomial. -/
theorem exists_rep {n : ℕ} (hn : 2 ≤ n) (d : Fin 2) (t : Bool) (h927 : d = 1 → t = true → n ≤ 927) {a : List ℝ} (ha : a.length = (make n).N d t) :
    ∃ p, IsCos (cdeg n d t) p ∧ a = cP n d t p := by
  have e2 : 2 * (n - 1) = 2 * n - 2 := by omega
  obtain rfl | rfl : d = 0 ∨ d = 1 := by omega
  all_goals cases t
  · have ha' : a.length = n - 1 := ha
    obtain ⟨p, hp, hv⟩ := exists_cos1 (m := n - 1) (by omega) (fun i => a.getD i 0)
    rw [e2] at hv
    exact ⟨p, hp, by rw [eq_tab' ha' 0]; exact tab_congr fun j hj => (hv j hj).symm⟩
  · have ha' : a.length = n := ha
    obtain ⟨p, hp, hv⟩ := exists_cos0 hn (fun i => a.getD i 0)
    exact ⟨p, hp, by rw [eq_tab' ha' 0]; exact tab_congr fun j hj => (hv j hj).symm⟩
  · have ha' : a.length = n := ha
    rw [eq_tab' ha' 0]
    obtain ⟨p, hp, _, hv⟩ := H1d_spec hn (fun i => a.getD i 0)
    exact ⟨p, hp, tab_congr fun j hj => (hv j hj).symm⟩
  · have ha' : a.length = n - 1 := ha
    have hm : 0 < n - 1 := by omega
    obtain ⟨x, _, hx, hH⟩ := H0d_H1 hm (weightsOk hm) (accepts hm (by have := h927 rfl rfl; omega)) a ha'
    obtain ⟨p, hp, hv⟩ := exists_cos1 (m := n - 1) (by omega) (fun i => x.getD i 0)
    refine ⟨p, hp, ?_⟩
    have h1 := H0d_exact hm hp
    have h2 : x = tab (n - 1) fun j => p (hh (2 * (n - 1)) / 2 + j * hh (2 * (n - 1))) := by
      rw [eq_tab' hx 0]; exact tab_congr fun j hj => (hv j hj).symm
    rw [← h2, hH, e2] at h1
    exact h1

theorem bop_csamp (op : ℝ → ℝ → ℝ) (n : ℕ) (p q : ℝ → ℝ) :
    bop op (csamp n p) (csamp n q) = .ok (csamp n fun θ => op (p θ) (q θ)) := by
  unfold bop csamp; rw [if_pos (by simp), zipWith_tab]

theorem bop_cP0 (op : ℝ → ℝ → ℝ) (n : ℕ) (t : Bool) (p q : ℝ → ℝ) :
    bop op (cP n 0 t p) (cP n 0 t q) = .ok (cP n 0 t fun θ => op (p θ) (q θ)) := by
  cases t
  · show bop op (tab (n - 1) _) (tab (n - 1) _) = .ok (tab (n - 1) _)
    unfold bop; rw [if_pos (by simp), zipWith_tab]
  · show bop op (tab n _) (tab n _) = .ok (tab n _)
    unfold bop; rw [if_pos (by simp), zipWith_tab]

theorem wedge_rep {n : ℕ} (hn : 2 ≤ n) {p q : ℝ → ℝ} (k l : Fin 2) (s t u : Bool) (hkl : k.val + l.val ≤ 1)
    (h1 : k = 1 → s = true → n ≤ 927) (h2 : l = 1 → t = true → n ≤ 927)
    (hp : IsCos (cdeg n k s) p) (hq : IsCos (cdeg n l t) q) (hpq : k.val + l.val = 1 → IsCos (2 * n - 3) (fun θ => p θ * q θ)) :
    wedge1 T U k s l t u (cP n k s p) (cP n l t q) = .ok (cP n (Fin.ofNat 2 (k.val + l.val)) u fun x => p x * q x) := by
  have hT1 := T_exact hn k s h1 hp
  have hT2 := T_exact hn l t h2 hq
  have hU := U_exact hn (Fin.ofNat 2 (k.val + l.val)) u (p := fun θ => p θ * q θ) (fun h => hpq (by
    obtain rfl | rfl : k = 0 ∨ k = 1 := by omega
    all_goals obtain rfl | rfl : l = 0 ∨ l = 1 := by omega
    all_goals first | rfl | (exact absurd h (by decide)) | (simp at hkl)))
  unfold wedge1
  rw [if_neg (by omega)]
  split_ifs with h
  · obtain ⟨rfl, rfl, rfl, rfl⟩ := h
    exact bop_cP0 _ n s p q
  · have hw : ∃ w : List ℝ → List ℝ → List ℝ, Sym.wedge_1d k.val l.val = some w ∧ ∀ x y : ℝ, (w [x] [y]).getD 0 0 = x * y := by
      obtain rfl | rfl : k = 0 ∨ k = 1 := by omega
      all_goals obtain rfl | rfl : l = 0 ∨ l = 1 := by omega
      all_goals simp [Sym.wedge_1d, Sym.antisymmetrize, Sym.wedge_1d_base] at hkl ⊢
      intro x y; ring
    obtain ⟨w, hw1, hw2⟩ := hw
    rw [hT1, hT2]
    simp only [bind, Except.bind, hw1, hw2]
    rw [bop_csamp]
    exact hU

theorem contraction_rep {n : ℕ} (hn : 2 ≤ n) {p q : ℝ → ℝ} (s t u : Bool)
    (h1 : s = true → n ≤ 927) (h2 : t = true → n ≤ 927)
    (hp : IsCos (cdeg n 1 s) p) (hq : IsCos (cdeg n 1 t) q) :
    contraction1 T U s 1 t u (cP n 1 s p) (cP n 1 t q) = .ok (cP n 0 u fun x => p x * q x) := by
  have hT1 := T_exact hn 1 s (fun _ => h1) hp
  have hT2 := T_exact hn 1 t (fun _ => h2) hq
  have hU := U_exact hn 0 u (p := fun θ => p θ * q θ) (fun h => absurd h (by decide))
  unfold contraction1
  rw [if_neg (by decide), hT1, hT2]
  simp only [bind, Except.bind, Sym.contraction_1d]
  simp only [Option.getD_some, List.getD_cons_zero]
  rw [bop_csamp]
  exact hU

end Dec.Chebyshev
