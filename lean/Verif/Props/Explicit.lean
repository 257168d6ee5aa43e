import Verif.Props.PeriodicCalculus
import Verif.Lib.Bil
import Verif.Lib.DualityGrids
import Verif.Props.Arrays

set_option linter.unusedSimpArgs false
set_option linter.unusedVariables false

/-! # The explicit wedge products of `periodic.py` and associativity: C63, C64, and the mixed Leibniz rule of C22 -/

namespace Dec.Props

open Finset Real Sp Periodic

/-! ## C22, mixed sides -/

/-- C22: the Leibniz rule on the default periodic grid for two 0-forms on any sides, with the result on any side. -/
theorem C22_periodic_leibniz_mixed (n : ℕ) (s t u : Bool) (a b : List ℝ) (ha : a.length = n) (hb : b.length = n) :
    ∃ da db ab dab aDb Dab,
      (Periodic.make n).D 0 s a = some da ∧ (Periodic.make n).D 0 t b = some db ∧
      (Periodic.make n).wedge 0 s 0 t u a b = .ok ab ∧ (Periodic.make n).D 0 u ab = some dab ∧
      (Periodic.make n).wedge 0 s 1 t u a db = .ok aDb ∧ (Periodic.make n).wedge 1 s 0 t u da b = .ok Dab ∧
      dab = vadd Dab aDb := by
  obtain ⟨p, p1, p2, p3⟩ := exists_rep 0 s ha
  obtain ⟨q, q1, q2, q3⟩ := exists_rep 0 t hb
  obtain ⟨p', p4, p5⟩ := res_deriv s p2
  obtain ⟨q', q4, q5⟩ := res_deriv t q2
  have hle : n / 2 + n / 2 ≤ n := by omega
  have hpq : IsTrig n fun θ => p θ * q θ := (p1.mul q1).mono hle
  refine ⟨(Periodic.make n).P 1 s p', (Periodic.make n).P 1 t q', (Periodic.make n).P 0 u (fun θ => p θ * q θ),
    (Periodic.make n).P 1 u (fun θ => p' θ * q θ + p θ * q' θ), (Periodic.make n).P 1 u (fun θ => p θ * q' θ),
    (Periodic.make n).P 1 u (fun θ => p' θ * q θ), ?_, ?_, ?_, ?_, ?_, ?_, ?_⟩
  · rw [p3]; exact D_rep p1 p5 p4.continuous s
  · rw [q3]; exact D_rep q1 q5 q4.continuous t
  · rw [p3, q3]; exact wedge_rep p1 q1 hle 0 0 s t u (by decide) p2 q2
  · exact D_rep (p' := fun θ => p' θ * q θ + p θ * q' θ) hpq (fun θ => (p5 θ).mul (q5 θ))
      ((p4.continuous.mul q1.continuous).add (p1.continuous.mul q4.continuous)) u
  · rw [p3]; exact wedge_rep p1 (isTrig_of_res q4) hle 0 1 s t u (by decide) p2 q4
  · rw [q3]; exact wedge_rep (isTrig_of_res p4) q1 hle 1 0 s t u (by decide) p4 q2
  · have hadd : ∀ (f g : ℝ → ℝ), Continuous f → Continuous g →
        (Periodic.make n).P 1 u (fun θ => f θ + g θ) = vadd ((Periodic.make n).P 1 u f) ((Periodic.make n).P 1 u g) := by
      intro f g hf hg
      cases u
      · rw [P1d_hh, P1d_hh, P1d_hh, vadd_tab]
        apply tab_congr; intro i _
        rw [intervalIntegral.integral_add (hf.intervalIntegrable _ _) (hg.intervalIntegrable _ _)]
      · rw [P1_hh, P1_hh, P1_hh, vadd_tab]
        apply tab_congr; intro i _
        rw [intervalIntegral.integral_add (hf.intervalIntegrable _ _) (hg.intervalIntegrable _ _)]
    exact hadd (fun θ => p' θ * q θ) (fun θ => p θ * q' θ) (p4.continuous.mul q1.continuous) (p1.continuous.mul q4.continuous)

/-! ## C63 -/

theorem length_Sinv' (a : List ℝ) : (Sinv a).length = a.length := by
  conv_lhs => rw [eq_tab a 0, Sinv_tab]
  simp
theorem length_Hinv' (a : List ℝ) : (Hinv a).length = a.length := by
  conv_lhs => rw [eq_tab a 0, Hinv_tab]
  simp

/-- C63: the explicit product of two primal 0-forms is the wedge product of the grid. -/
theorem C63_w00 (n : ℕ) (a b : List ℝ) (ha : a.length = n) (hb : b.length = n) :
    (Periodic.make n).wedge 0 true 0 true true a b = .ok (w00 a b) := by
  show wedge1 T U 0 true 0 true true a b = _
  unfold wedge1
  rw [if_neg (by decide), if_pos (by decide)]
  exact bop_mul (fun _ _ => rfl) ha hb

theorem wedge01_eq (n : ℕ) (a b : List ℝ) (ha : a.length = n) (hb : b.length = n) :
    ∃ wa wb, interweave a (S a) = .ok wa ∧ interweave (Sinv (Hinv b)) (Hinv b) = .ok wb ∧ wa.length = n + n ∧ wb.length = n + n ∧
      (Periodic.make n).wedge 0 true 1 true true a b = U1 (vmul wa wb) := by
  have ha' : (S a).length = n := by simp [ha]
  have hb1 : (Hinv b).length = n := by rw [length_Hinv', hb]
  have hb2 : (Sinv (Hinv b)).length = n := by rw [length_Sinv', hb1]
  obtain ⟨wa, a1, a2, -⟩ := C52_interweave a (S a) (Or.inl (by rw [ha, ha']))
  obtain ⟨wb, b1, b2, -⟩ := C52_interweave (Sinv (Hinv b)) (Hinv b) (Or.inl (by rw [hb1, hb2]))
  rw [ha, ha'] at a2
  rw [hb1, hb2] at b2
  refine ⟨wa, wb, a1, b1, a2, b2, ?_⟩
  show wedge1 T U 0 true 1 true true a b = _
  unfold wedge1
  rw [if_neg (by decide), if_neg (by decide)]
  obtain ⟨w, hw1, hw2⟩ := sym_wedge (k := 0) (l := 1) (by decide)
  have hT1 : T 0 true a = .ok wa := by simp only [T, wrapTable, T0]; exact a1
  have hT2 : T 1 true b = .ok wb := by simp only [T, wrapTable, T1, T0d]; exact b1
  have hU : ∀ c, U (Fin.ofNat 2 ((0 : Fin 2).val + (1 : Fin 2).val)) true c = U1 c := fun c => by
    rw [show Fin.ofNat 2 ((0 : Fin 2).val + (1 : Fin 2).val) = 1 from rfl]
    simp only [U, wrapTable]
  simp only [hT1, hT2, bind, Except.bind, hw1, bop_mul hw2 a2 b2, hU]

/-- C63: for odd `n` the explicit product of a primal 0-form and a primal 1-form is the wedge product of the grid. -/
theorem C63_w01_odd (n : ℕ) (hn : n % 2 = 1) (a b : List ℝ) (ha : a.length = n) (hb : b.length = n) :
    ∃ c, w01 a b = .ok c ∧ (Periodic.make n).wedge 0 true 1 true true a b = .ok c := by
  have hHb : (Hinv b).length % 2 = 1 := by rw [length_Hinv', hb]; exact hn
  have e1 : Hinv (Sinv b) = Sinv (Hinv b) := (C46_shift_commutes_with_hodge b).2.2.2.symm
  have e2 : S (Hinv (Sinv b)) = Hinv b := by rw [e1]; exact (C46_shift_inverse_odd _ hHb).2
  obtain ⟨wa, wb, a1, b1, a2, b2, h⟩ := wedge01_eq n a b ha hb
  have h2 : w01 a b = U1 (vmul wa wb) := by
    unfold w01 Sp.refine U1
    rw [e1] at e2 ⊢
    rw [a1, e2, b1]
    simp only [bind, Except.bind, (C46_shift_commutes_with_hodge _).1]
  have hEU := elin_U n 1 true
  simp only [U, wrapTable] at hEU
  obtain ⟨F, hF, eF⟩ := hEU
  have h3 := eF (vmul wa wb) (by simp [vmul, a2, b2]; omega)
  exact ⟨_, h2.trans h3, h.trans h3⟩

theorem lin_zero {n m : ℕ} {F : List ℝ → List ℝ} (hF : Lin n m F) : F (List.replicate n 0) = List.replicate m 0 := by
  have h := hF.smul 0 (List.replicate n 0) (by simp)
  have e : ∀ x : List ℝ, x.map ((0 : ℝ) • ·) = List.replicate x.length 0 := fun x => by simp
  rw [e, e, hF.len _ (by simp)] at h
  simpa using h

theorem U1_zero (n : ℕ) : U1 (List.replicate (2 * n) 0) = .ok (List.replicate n 0) := by
  have hEU := elin_U n 1 true
  simp only [U, wrapTable] at hEU
  obtain ⟨F, hF, eF⟩ := hEU
  rw [eF _ (by simp), lin_zero hF]

theorem weave_zero (n : ℕ) : weave (List.replicate n (0 : ℝ)) (List.replicate n 0) = List.replicate (2 * n) 0 := by
  induction n with
  | zero => rfl
  | succ n ih => rw [List.replicate_succ, show 2 * (n + 1) = 2 * n + 1 + 1 by ring, List.replicate_succ, List.replicate_succ, weave, ih]

/-- C63: for even `n` they differ: the explicit product loses the alternating 1-form. -/
theorem C63_w01_even (m : ℕ) (hm : 0 < m) :
    let n := 2 * m
    let one : List ℝ := List.replicate n 1
    let alt : List ℝ := tab n fun j => (-1) ^ j
    w01 one alt = .ok (List.replicate n 0) ∧ (Periodic.make n).wedge 0 true 1 true true one alt = .ok alt := by
  intro n one alt
  have hz : samp n 0 (fun _ => (0 : ℝ)) = List.replicate n 0 := by rw [replicate_tab]; rfl
  have hz' : ∀ φ, samp n φ (fun _ => (0 : ℝ)) = List.replicate n 0 := fun φ => by rw [replicate_tab]; rfl
  refine ⟨?_, ?_⟩
  · have e1 : Sinv alt = List.replicate n 0 := by
      have h0 : alt = samp n 0 (fun θ => 0 + 1 * cos (m * θ) + 0 * sin (m * θ)) := by
        show tab _ _ = _
        unfold samp; apply tab_congr; intro j _; beta_reduce
        rw [show (m : ℝ) * (0 + j * hh n) = j * (m * hh n) by ring, Periodic.n_hh hm, cos_nat_mul_pi]; simp
      have h1 := (Periodic.shifted_samp hm (IsTrig.zero (m - 1)) (p := fun θ => 0 + 1 * cos (m * θ) + 0 * sin (m * θ)) (a := 1) (b := 0) (fun θ => rfl)).2
      rw [h0, h1, hz']
    have e2 : Hinv (List.replicate n (0 : ℝ)) = List.replicate n 0 := by
      have h := (Res.zero n 0).Hinv
      simp only [intervalIntegral.integral_zero] at h
      rwa [hz', ← replicate_tab] at h
    have e3 : S (List.replicate n (0 : ℝ)) = List.replicate n 0 := by
      have h := (Res.zero n 0).S
      rwa [hz', hz'] at h
    obtain ⟨wa, a1, a2, -⟩ := C52_interweave one (S one) (Or.inl (by simp))
    have h1 : w01 one alt = U1 (vmul wa (List.replicate (2 * n) 0)) := by
      unfold w01 Sp.refine U1
      rw [a1, e1, e2, e3]
      have h4 : interweave (List.replicate n (0 : ℝ)) (List.replicate n 0) = .ok (List.replicate (2 * n) 0) := by
        exact (if_pos (Or.inl rfl)).trans (congrArg _ (weave_zero n))
      rw [h4]
      simp only [bind, Except.bind, (C46_shift_commutes_with_hodge _).1]
    have h2 : vmul wa (List.replicate (2 * n) 0) = List.replicate (2 * n) 0 := by
      have h5 : wa.length = 2 * n := by rw [a2]; simp [one]; omega
      apply List.ext_getElem
      · simp [vmul, h5]
      · intro i _ _; simp [vmul]
    rw [h1, h2, U1_zero]
  · obtain ⟨p, p1, p2, p3⟩ := exists_rep (n := n) 1 true (a := alt) (by simp [alt])
    have h1 : one = (Periodic.make n).P 0 true fun _ => 1 := by
      rw [P0_samp]; show List.replicate n 1 = _; rw [replicate_tab]; rfl
    have hc : IsTrig 0 (fun _ : ℝ => (1 : ℝ)) := (isTrig_cos_nat (m := 0) le_rfl).congr fun θ => by simp
    have h := wedge_rep hc p1 (by omega) 0 1 true true true (by decide) (Res_of_isTrig (show 2 * 0 < n by omega) hc _) p2
    rw [← h1, ← p3] at h
    refine h.trans ?_
    simp only [one_mul]
    rw [p3]; rfl

/-- C63: the product documented as associative is associative for odd `n` ... -/
theorem C63_w01_assoc_odd (n : ℕ) (hn : n % 2 = 1) (a b c : List ℝ) (ha : a.length = n) (hb : b.length = n) (hc : c.length = n) :
    w01_assoc a (w01_assoc b c) = w01_assoc (w00 a b) c := by
  have l1 : (Hinv (Sinv c)).length = n := by rw [length_Hinv', length_Sinv', hc]
  have l2 : (vmul b (Hinv (Sinv c))).length = n := by simp [vmul, hb, l1]
  have l3 : (Hs (vmul b (Hinv (Sinv c)))).length = n := by
    rw [eq_tab' l2 0, Hs_tab]; simp
  unfold w01_assoc w00
  rw [(C46_shift_inverse_odd _ (by rw [l3]; exact hn)).1, Hinv_Hs]
  have hv : vmul a (vmul b (Hinv (Sinv c))) = vmul (vmul a b) (Hinv (Sinv c)) := by
    apply List.ext_getElem
    · simp [vmul, ha, hb, l1]
    · intro i _ _; simp [vmul, mul_assoc]
  rw [hv]

theorem samp_const (n : ℕ) (φ v : ℝ) : samp n φ (fun _ => v) = List.replicate n v := by rw [replicate_tab]; rfl

theorem const_ops (n : ℕ) (v : ℝ) :
    S (List.replicate n v) = List.replicate n v ∧ Sinv (List.replicate n v) = List.replicate n v ∧
    Hs (List.replicate n v) = List.replicate n (v * hh n) ∧ Hinv (List.replicate n (v * hh n)) = List.replicate n v := by
  rcases Nat.eq_zero_or_pos n with rfl | hn
  · have e1 := S_tab 0 (fun _ => 0); have e2 := Sinv_tab 0 (fun _ => 0); have e3 := Hs_tab 0 (fun _ => 0); have e4 := Hinv_tab 0 (fun _ => 0)
    simp only [tab_zero] at e1 e2 e3 e4
    exact ⟨e1, e2, e3, e4⟩
  · have hc1 : IsTrig 0 (fun _ : ℝ => v) := ((isTrig_cos_nat (m := 0) le_rfl).const_mul v).congr fun θ => by simp
    have hr := Res_of_isTrig (show 2 * 0 < n by omega) hc1 0
    have e1 := hr.S; have e2 := hr.Sinv; have e3 := hr.Hs; have e4 := hr.Hinv
    have h : ∀ j : ℕ, (∫ _ in (0 + j * hh n - hh n / 2)..(0 + j * hh n + hh n / 2), v) = v * hh n := fun j => by
      rw [intervalIntegral.integral_const, smul_eq_mul]; ring
    simp only [h, samp_const] at e1 e2 e3 e4
    rw [← replicate_tab] at e3 e4
    exact ⟨e1, e2, e3, e4⟩

theorem S_alt (m : ℕ) (hm : 0 < m) :
    S (tab (2 * m) fun j => (-1) ^ j) = List.replicate (2 * m) 0 ∧ Sinv (tab (2 * m) fun j => (-1) ^ j) = List.replicate (2 * m) 0 := by
  have h0 : (tab (2 * m) fun j => (-1 : ℝ) ^ j) = samp (2 * m) 0 (fun θ => 0 + 1 * cos (m * θ) + 0 * sin (m * θ)) := by
    unfold samp; apply tab_congr; intro j _; beta_reduce
    rw [show (m : ℝ) * (0 + j * hh (2 * m)) = j * (m * hh (2 * m)) by ring, Periodic.n_hh hm, cos_nat_mul_pi]; simp
  have h1 := Periodic.shifted_samp hm (IsTrig.zero (m - 1)) (p := fun θ => 0 + 1 * cos (m * θ) + 0 * sin (m * θ)) (a := 1) (b := 0) (fun θ => rfl)
  rw [h0, h1.1, h1.2, samp_const, samp_const]
  exact ⟨rfl, rfl⟩

theorem vmul_const (n : ℕ) (x : List ℝ) (v : ℝ) (hx : x.length = n) : vmul x (List.replicate n v) = x.map (· * v) := by
  apply List.ext_getElem
  · simp [vmul, hx]
  · intro i _ _; simp [vmul]

theorem hh_pos' {n : ℕ} (hn : 0 < n) : 0 < hh n := by
  unfold hh
  have : (0 : ℝ) < n := by exact_mod_cast hn
  positivity

/-- C63: ... and for even `n` it is not. -/
theorem C63_w01_assoc_even (m : ℕ) (hm : 0 < m) :
    ∃ a b c : List ℝ, a.length = 2 * m ∧ b.length = 2 * m ∧ c.length = 2 * m ∧ w01_assoc a (w01_assoc b c) ≠ w01_assoc (w00 a b) c := by
  obtain ⟨c1, c2, c3, c4⟩ := const_ops (2 * m) 1
  obtain ⟨z1, z2, z3, z4⟩ := const_ops (2 * m) 0
  rw [zero_mul] at z3 z4
  have hp := hh_pos' (show 0 < 2 * m by omega)
  refine ⟨tab (2 * m) fun j => (-1) ^ j, tab (2 * m) fun j => (-1) ^ j, List.replicate (2 * m) (1 * hh (2 * m)), by simp, by simp, by simp, ?_⟩
  have hs := (const_ops (2 * m) (1 * hh (2 * m))).2.1
  have hs' := (const_ops (2 * m) (1 * hh (2 * m))).1
  have e1 : w01_assoc (tab (2 * m) fun j => (-1) ^ j) (List.replicate (2 * m) (1 * hh (2 * m))) = List.replicate (2 * m) 0 := by
    unfold w01_assoc
    rw [hs, c4, vmul_const _ _ _ (by simp), (C46_shift_commutes_with_hodge _).1]
    simp only [mul_one, List.map_id']
    rw [(S_alt m hm).1, z3]
  have e2 : w01_assoc (tab (2 * m) fun j => (-1) ^ j) (List.replicate (2 * m) 0) = List.replicate (2 * m) 0 := by
    unfold w01_assoc
    rw [z2, z4, vmul_const _ _ _ (by simp)]
    simp only [mul_zero, List.map_const', length_tab]
    rw [z3, z1]
  have e3 : w00 (tab (2 * m) fun j => (-1) ^ j) (tab (2 * m) fun j => (-1) ^ j) = List.replicate (2 * m) 1 := by
    unfold w00 vmul
    rw [zipWith_tab, replicate_tab]
    apply tab_congr; intro j _; rw [← mul_pow]; simp
  have e4 : w01_assoc (List.replicate (2 * m) 1) (List.replicate (2 * m) (1 * hh (2 * m))) = List.replicate (2 * m) (1 * hh (2 * m)) := by
    unfold w01_assoc
    rw [hs, c4, vmul_const _ _ _ (by simp)]
    simp only [mul_one, List.map_id']
    rw [c3, hs']
  rw [e1, e2, e3, e4]
  intro h
  have h5 := congrArg (fun l => l.getD 0 0) h
  rw [show 2 * m = 2 * m - 1 + 1 by omega] at h5
  simp only [List.replicate_succ, List.getD_cons_zero, one_mul] at h5
  rw [show 2 * m - 1 + 1 = 2 * m by omega] at h5
  exact hp.ne h5

/-! ## C64 -/

/-- C64: the wedge product of the periodic grid is associative on resolved forms: three smooth coefficient functions whose pairwise products are
below the Nyquist frequency, on any sides, with at most one of them a 1-form. -/
theorem C64_associative_when_resolved (n K L M : ℕ) (hKL : 2 * (K + L) < n) (hLM : 2 * (L + M) < n) (f g h : ℝ → ℝ)
    (hf : IsTrig K f) (hg : IsTrig L g) (hh : IsTrig M h) (i j k : Fin 2) (hd : i.val + j.val + k.val ≤ 1) (s t u v w : Bool) :
    ∃ fg gh r,
      (Periodic.make n).wedge i s j t v ((Periodic.make n).P i s f) ((Periodic.make n).P j t g) = .ok fg ∧
      (Periodic.make n).wedge j t k u v ((Periodic.make n).P j t g) ((Periodic.make n).P k u h) = .ok gh ∧
      (Periodic.make n).wedge (Fin.ofNat 2 (i.val + j.val)) v k u w fg ((Periodic.make n).P k u h) = .ok r ∧
      (Periodic.make n).wedge i s (Fin.ofNat 2 (j.val + k.val)) v w ((Periodic.make n).P i s f) gh = .ok r ∧
      r = (Periodic.make n).P (Fin.ofNat 2 (i.val + j.val + k.val)) w (fun x => f x * g x * h x) := by
  have hr : ∀ {K : ℕ} {p : ℝ → ℝ}, 2 * K < n → IsTrig K p → ∀ d t, Res n (ph n d t) p := fun h hp d t => Res_of_isTrig h hp _
  have e1 : (Fin.ofNat 2 (i.val + j.val)).val = i.val + j.val := by simp [Fin.ofNat]; omega
  have e2 : (Fin.ofNat 2 (j.val + k.val)).val = j.val + k.val := by simp [Fin.ofNat]; omega
  have w1 := wedge_rep (n := n) hf hg (by omega) i j s t v (by omega) (hr (by omega) hf _ _) (hr (by omega) hg _ _)
  have w2 := wedge_rep (n := n) hg hh (by omega) j k t u v (by omega) (hr (by omega) hg _ _) (hr (by omega) hh _ _)
  have w3 := wedge_rep (n := n) (hf.mul hg) hh (by omega) (Fin.ofNat 2 (i.val + j.val)) k v u w (by omega) (hr (by omega) (hf.mul hg) _ _) (hr (by omega) hh _ _)
  have w4 := wedge_rep (n := n) hf (hg.mul hh) (by omega) i (Fin.ofNat 2 (j.val + k.val)) s v w (by omega) (hr (by omega) hf _ _) (hr (by omega) (hg.mul hh) _ _)
  rw [e1] at w3
  rw [e2, ← add_assoc] at w4
  refine ⟨_, _, _, w1, w2, w3, ?_, rfl⟩
  simp only [mul_assoc]
  exact w4

theorem int_cos (k : ℕ) (hk : 0 < k) (x y : ℝ) : ∫ t in x..y, cos (k * t) = (sin (k * y) - sin (k * x)) / k := by
  have hk' : (k : ℝ) ≠ 0 := by exact_mod_cast hk.ne'
  have hd : ∀ t ∈ Set.uIcc x y, HasDerivAt (fun t => sin (k * t) / k) (cos (k * t)) t := fun t _ => by
    have h := (((hasDerivAt_id t).const_mul (k : ℝ)).sin).div_const (k : ℝ)
    simp only [id, mul_one] at h
    rwa [mul_div_assoc, div_self hk', mul_one] at h
  rw [intervalIntegral.integral_eq_sub_of_hasDerivAt hd ((by fun_prop : Continuous fun t : ℝ => cos (k * t)).intervalIntegrable _ _)]
  ring

/-- C64: without that condition the wedge product is not associative, on any periodic grid with at least two vertices. -/
theorem C64_not_associative (n : ℕ) (hn : 2 ≤ n) :
    ∃ a b c ab bc x y : List ℝ, a.length = n ∧ b.length = n ∧ c.length = n ∧
      (Periodic.make n).wedge 0 true 0 true true a b = .ok ab ∧ (Periodic.make n).wedge 0 true 1 true true b c = .ok bc ∧
      (Periodic.make n).wedge 0 true 1 true true ab c = .ok x ∧ (Periodic.make n).wedge 0 true 1 true true a bc = .ok y ∧ x ≠ y := by
  have hP0 : ∀ p, ((Periodic.make n).P 0 true p).length = n := fun p => by rw [P0_samp]; simp
  have hP1 : ∀ p, ((Periodic.make n).P 1 true p).length = n := fun p => by rw [P1_hh]; simp
  have h1 : IsTrig 0 (fun _ : ℝ => (1 : ℝ)) := (isTrig_cos_nat (m := 0) le_rfl).congr fun θ => by simp
  have r1 : ∀ φ, Res n φ (fun _ : ℝ => (1 : ℝ)) := fun φ => Res_of_isTrig (by omega) h1 φ
  have hp := hh_pos' (show 0 < n by omega)
  have hnh : (n : ℝ) * hh n = 2 * π := by
    unfold hh
    have : (n : ℝ) ≠ 0 := by exact_mod_cast (show n ≠ 0 by omega)
    field_simp
  rcases Nat.even_or_odd' n with ⟨m, hm | hm⟩
  · -- the Nyquist mode
    have hm0 : 0 < m := by omega
    have hmh : (m : ℝ) * hh n = π := by rw [hm] at hnh ⊢; push_cast at hnh; linarith
    have hc : IsTrig m (fun θ => cos (m * θ)) := isTrig_cos_nat le_rfl
    have rc : Res n 0 (fun θ => cos (m * θ)) := by
      have := Res.cos_nyquist hm0 0
      simp only [sub_zero] at this
      rwa [hm]
    have hz : (Periodic.make n).P 1 true (fun θ => cos (m * θ) * 1) = (Periodic.make n).P 1 true (fun _ => 0) := by
      rw [P1_hh, P1_hh]
      apply tab_congr; intro j _
      simp only [mul_one, intervalIntegral.integral_zero]
      rw [int_cos m hm0, show (m : ℝ) * (hh n / 2 + j * hh n + hh n / 2) = ((j + 1 : ℕ) : ℝ) * π by push_cast; rw [← hmh]; ring,
        show (m : ℝ) * (hh n / 2 + j * hh n - hh n / 2) = (j : ℝ) * π by rw [← hmh]; ring, sin_nat_mul_pi, sin_nat_mul_pi]
      simp
    have hsq : (Periodic.make n).P 0 true (fun θ => cos (m * θ) * cos (m * θ)) = (Periodic.make n).P 0 true (fun _ => 1) := by
      rw [P0_samp, P0_samp]; unfold samp
      apply tab_congr; intro j _
      beta_reduce
      rw [show (m : ℝ) * (0 + j * hh n) = j * π by rw [← hmh]; ring, cos_nat_mul_pi, ← mul_pow]; simp
    have w1 := wedge_rep (n := n) hc hc (by omega) 0 0 true true true (by decide) rc rc
    have w2 := wedge_rep (n := n) hc h1 (by omega) 0 1 true true true (by decide) rc (r1 _)
    have w3 := wedge_rep (n := n) h1 h1 (by omega) 0 1 true true true (by decide) (r1 _) (r1 _)
    have w4 := wedge_rep (n := n) hc (IsTrig.zero 0) (by omega) 0 1 true true true (by decide) rc (Res.zero _ _)
    rw [show Fin.ofNat 2 ((0 : Fin 2).val + (0 : Fin 2).val) = 0 from rfl, hsq] at w1
    rw [show Fin.ofNat 2 ((0 : Fin 2).val + (1 : Fin 2).val) = 1 from rfl] at w2 w3 w4
    rw [hz] at w2
    refine ⟨_, _, _, _, _, _, _, hP0 _, hP0 _, hP1 _, w1, w2, w3, w4, ?_⟩
    simp only [mul_one, mul_zero]
    rw [P1_hh, P1_hh]
    intro h
    have := tab_inj.1 h 0 (by omega)
    simp only [intervalIntegral.integral_const, intervalIntegral.integral_zero, smul_eq_mul] at this
    nlinarith
  · -- the highest resolved mode
    have hm0 : 0 < m := by omega
    have hc : IsTrig m (fun θ => cos (m * θ)) := isTrig_cos_nat le_rfl
    have rc : ∀ φ, Res n φ (fun θ => cos (m * θ)) := fun φ => Res_of_isTrig (by omega) hc φ
    have hq : IsTrig 1 (fun θ => 1 / 2 * cos ((1 : ℕ) * θ) + 1 / 2 * 1) :=
      ((isTrig_cos_nat le_rfl).const_mul (1 / 2)).add ((h1.mono (by omega)).const_mul (1 / 2))
    have hsq : (Periodic.make n).P 0 true (fun θ => cos (m * θ) * cos (m * θ)) = (Periodic.make n).P 0 true (fun θ => 1 / 2 * cos ((1 : ℕ) * θ) + 1 / 2 * 1) := by
      rw [P0_samp, P0_samp]; unfold samp
      apply tab_congr; intro j _
      beta_reduce
      rw [← sq, cos_sq, show 2 * ((m : ℝ) * (0 + j * hh n)) = j * (2 * π) - ((1 : ℕ) : ℝ) * (0 + j * hh n) by
        rw [← hnh, hm]; push_cast; ring, cos_nat_mul_two_pi_sub]
      ring
    have w1 := wedge_rep (n := n) hc hc (by omega) 0 0 true true true (by decide) (rc _) (rc _)
    have w2 := wedge_rep (n := n) hc h1 (by omega) 0 1 true true true (by decide) (rc _) (r1 _)
    have w3 := wedge_rep (n := n) hq h1 (by omega) 0 1 true true true (by decide) (Res_of_isTrig (by omega) hq _) (r1 _)
    have w4 := wedge_rep (n := n) hc (hc.mul h1) (by omega) 0 1 true true true (by decide) (rc _) (Res_of_isTrig (by omega) (hc.mul h1) _)
    rw [show Fin.ofNat 2 ((0 : Fin 2).val + (0 : Fin 2).val) = 0 from rfl, hsq] at w1
    rw [show Fin.ofNat 2 ((0 : Fin 2).val + (1 : Fin 2).val) = 1 from rfl] at w2 w3 w4
    refine ⟨_, _, _, _, _, _, _, hP0 _, hP0 _, hP1 _, w1, w2, w3, w4, ?_⟩
    rw [P1_hh, P1_hh]
    intro h
    have h0 := tab_inj.1 h 0 (by omega)
    have e1 : ∀ θ, cos (m * θ) * (cos (m * θ) * 1) = 1 / 2 * cos ((2 * m : ℕ) * θ) + 1 / 2 * 1 := fun θ => by
      rw [mul_one, ← sq, cos_sq]; push_cast; ring_nf
    simp only [e1] at h0
    simp only [mul_one] at h0
    have e2 : ∀ k : ℕ, 0 < k → ∫ t in (hh n / 2 + (0 : ℕ) * hh n - hh n / 2)..(hh n / 2 + (0 : ℕ) * hh n + hh n / 2), (1 / 2 * cos (k * t) + 1 / 2)
        = 1 / 2 * (sin (k * hh n) / k) + 1 / 2 * hh n := by
      intro k hk
      rw [intervalIntegral.integral_add ((by fun_prop : Continuous fun t : ℝ => 1 / 2 * cos (k * t)).intervalIntegrable _ _) (continuous_const.intervalIntegrable _ _),
        intervalIntegral.integral_const_mul, int_cos k hk, intervalIntegral.integral_const, smul_eq_mul]
      simp
      ring_nf
    rw [e2 1 one_pos, e2 (2 * m) (by omega)] at h0
    have e3 : ((2 * m : ℕ) : ℝ) * hh n = 2 * π - hh n := by rw [← hnh, hm]; push_cast; ring
    rw [e3, sin_two_pi_sub] at h0
    have hs : 0 < sin (hh n) := by
      apply sin_pos_of_pos_of_lt_pi hp
      have : (3 : ℝ) ≤ n := by exact_mod_cast (show 3 ≤ n by omega)
      nlinarith [pi_pos]
    have hk : (0 : ℝ) < ((2 * m : ℕ) : ℝ) := by exact_mod_cast (show 0 < 2 * m by omega)
    have hdiv : 0 < sin (hh n) / ((2 * m : ℕ) : ℝ) := div_pos hs hk
    rw [neg_div] at h0
    simp only [Nat.cast_one, one_mul, div_one] at h0
    linarith

/-- C63: where the product of the two coefficient functions is resolved, the product documented as associative is the projection of the
product, hence the wedge product of the grid (C21). -/
theorem C63_w01_assoc_exact (n K L : ℕ) (hKL : 2 * (K + L) < n) (f g : ℝ → ℝ) (hf : IsTrig K f) (hg : IsTrig L g) :
    w01_assoc ((Periodic.make n).P 0 true f) ((Periodic.make n).P 1 true g) = (Periodic.make n).P 1 true (fun x => f x * g x) ∧
    (Periodic.make n).wedge 0 true 1 true true ((Periodic.make n).P 0 true f) ((Periodic.make n).P 1 true g)
      = .ok (w01_assoc ((Periodic.make n).P 0 true f) ((Periodic.make n).P 1 true g)) := by
  have rg := Res_of_isTrig (show 2 * L < n by omega) hg
  have rf := Res_of_isTrig (show 2 * K < n by omega) hf
  have rfg := Res_of_isTrig hKL (hf.mul hg)
  have h1 : w01_assoc ((Periodic.make n).P 0 true f) ((Periodic.make n).P 1 true g) = (Periodic.make n).P 1 true (fun x => f x * g x) := by
    unfold w01_assoc
    rw [P1_hh, ← (rg (hh n / 2)).Hs, (C46_shift_commutes_with_hodge _).2.1, Hinv_Hs, (rg _).Sinv, sub_self, P0_samp,
      (C46_shift_commutes_with_hodge _).1]
    have hv : vmul (samp n 0 f) (samp n 0 g) = samp n 0 (fun x => f x * g x) := by
      unfold vmul samp; rw [zipWith_tab]
    rw [hv, (rfg 0).S, zero_add, (rfg _).Hs, P1_hh]
  refine ⟨h1, ?_⟩
  rw [h1]
  exact wedge_rep hf hg (by omega) 0 1 true true true (by decide) (rf _) (rg _)

/-- C63: in general the two products differ, for every `n ≥ 2`. -/
theorem C63_w01_assoc_differs (n : ℕ) (hn : 2 ≤ n) :
    ∃ a b : List ℝ, a.length = n ∧ b.length = n ∧ (Periodic.make n).wedge 0 true 1 true true a b ≠ .ok (w01_assoc a b) := by
  by_contra hno
  push Not at hno
  rcases Nat.even_or_odd' n with ⟨m, rfl | hm⟩
  · have hm : 0 < m := by omega
    have h := hno (List.replicate (2 * m) 1) (tab (2 * m) fun j => (-1) ^ j) (by simp) (by simp)
    rw [(C63_w01_even m hm).2] at h
    obtain ⟨z1, z2, z3, z4⟩ := const_ops (2 * m) 0
    rw [zero_mul] at z3 z4
    unfold w01_assoc at h
    rw [(S_alt m hm).2, z4, vmul_const _ _ _ (by simp)] at h
    simp only [mul_zero, List.map_const', List.length_replicate] at h
    rw [z3, z1, replicate_tab] at h
    have := tab_inj.1 (Except.ok.inj h) 0 (by omega)
    simp at this
  · obtain ⟨a, b, c, ab, bc, x, y, ha, hb, hc, h1, h2, h3, h4, h5⟩ := C64_not_associative n hn
    have h1' := C63_w00 n a b ha hb
    rw [h1'] at h1
    have e1 := Except.ok.inj h1
    have hab : ab.length = n := by rw [← e1]; simp [w00, vmul, ha, hb]
    have e2 := Except.ok.inj ((hno b c hb hc).symm.trans h2)
    have hbc : bc.length = n := by
      obtain ⟨c', q1, q2⟩ := C63_w01_odd n (by omega) b c hb hc
      obtain ⟨wa, wb, -, -, a2, b2, q⟩ := wedge01_eq n b c hb hc
      have hEU := elin_U n 1 true
      simp only [U, wrapTable] at hEU
      obtain ⟨F, hF, eF⟩ := hEU
      have l : (vmul wa wb).length = 2 * n := by simp [vmul, a2, b2]; omega
      rw [h2, eF _ l] at q
      rw [Except.ok.inj q, hF.len _ l]
    have e3 := Except.ok.inj ((hno ab c hab hc).symm.trans h3)
    have e4 := Except.ok.inj ((hno a bc ha hbc).symm.trans h4)
    apply h5
    rw [← e3, ← e4, ← e2, ← e1]
    exact (C63_w01_assoc_odd n (by omega) a b c ha hb hc).symm

example : 2 * (1 + 1) < 5 ∧ IsTrig 1 (fun θ => cos ((1 : ℕ) * θ)) := ⟨by norm_num, isTrig_cos_nat le_rfl⟩

end Dec.Props
