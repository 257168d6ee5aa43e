import Verif.Lib.PeriodicForms

set_option linter.unusedSimpArgs false
set_option linter.unusedVariables false

/-!
# Properties of periodic grids
C01, C02, and the periodic parts of C18, C19, C21, C22, C23, C24, C46.
-/

namespace Dec.Props

open Real Finset Dec.Sp

/-! ## C01 -/

/-- C01: on every periodic grid the Hodge stars invert each other, on arrays of any length. -/
theorem C01_periodic_hodge_inverse (n : ℕ) (xmin xmax : ℝ) (t : Bool) (a : List ℝ) :
    ((Periodic.make n xmin xmax).H 0 t a >>= (Periodic.make n xmin xmax).H 1 (!t)) = .ok a ∧
    ((Periodic.make n xmin xmax).H 1 t a >>= (Periodic.make n xmin xmax).H 0 (!t)) = .ok a := by
  cases t <;> simp [Periodic.make, wrapTable, bind, Except.bind, Hinv_Hs, Hs_Hinv]

/-- C01: no Hodge star divides by zero: the divisors used by `Hinv` are all nonzero. -/
theorem C01_no_division_by_zero (N : ℕ) (w : ℂ) (hw : w ∈ I_diag N (-(2 * π / N) / 2) (2 * π / N / 2)) : w ≠ 0 := by
  rw [half_step, neg_half_step, I_diag_tab] at hw
  simp only [tab, List.mem_map, List.mem_range] at hw
  obtain ⟨k, hk, rfl⟩ := hw
  exact Id_ne_zero hk

/-- Non-vacuity: the divisor list is not empty. -/
example : (I_diag 3 (-(2 * π / (3 : ℕ)) / 2) (2 * π / (3 : ℕ) / 2)).length = 3 := by simp

/-! ## C02 -/

/-- C02: on the default periodic grid, the Hodge star of the projection is the projection on the other side, for all trigonometric
polynomials of degree less than `n/2`. -/
theorem C02_periodic_hodge_exact (n K : ℕ) (hK : 2 * K < n) (f : ℝ → ℝ) (hf : IsTrig K f) (t : Bool) :
    (Periodic.make n).H 0 t ((Periodic.make n).P 0 t f) = .ok ((Periodic.make n).P 1 (!t) f) ∧
    (Periodic.make n).H 1 t ((Periodic.make n).P 1 t f) = .ok ((Periodic.make n).P 0 (!t) f) := by
  have h1 := Res_of_isTrig hK hf 0
  have h2 := Res_of_isTrig hK hf (hh n / 2)
  cases t
  · rw [Periodic.P0d_samp, Bool.not_false, Periodic.P1_hh, Periodic.P1d_hh, Periodic.P0_samp]
    exact ⟨congrArg Except.ok h2.Hs, congrArg Except.ok h1.Hinv⟩
  · rw [Periodic.P0_samp, Bool.not_true, Periodic.P1d_hh, Periodic.P1_hh, Periodic.P0d_samp]
    exact ⟨congrArg Except.ok h1.Hs, congrArg Except.ok h2.Hinv⟩

/-- Non-vacuity: `cos 2x` on five points. -/
example : 2 * 2 < 5 ∧ IsTrig 2 (fun x => cos ((2 : ℕ) * x)) := ⟨by norm_num, isTrig_cos_nat le_rfl⟩

/-! ## C18 -/

/-- C18 (periodic): unrefining a refined form returns the form. -/
theorem C18_periodic_unrefine_refine (n : ℕ) (xmin xmax : ℝ) (d : Fin 2) (t : Bool) (a : List ℝ) :
    ((Periodic.make n xmin xmax).T d t a >>= (Periodic.make n xmin xmax).U d t) = .ok a := by
  rw [Periodic.make_T, Periodic.make_U]
  obtain ⟨p, h1, h2, h3⟩ := Periodic.exists_rep (n := a.length) d t rfl
  have hT := Periodic.T_exact d t h2
  have hU := Periodic.U_exact (h1.mono (Nat.div_le_self _ _)) d t
  rw [← h3] at hT hU
  rw [hT]
  exact hU

/-! ## C19 -/

/-- C19 (periodic): refinement of the projection gives the values at `points`, and unrefinement of the values at `points`
gives the projection. -/
theorem C19_periodic_refine_samples (n K : ℕ) (hK : 2 * K < n) (f : ℝ → ℝ) (hf : IsTrig K f) (d : Fin 2) (t : Bool) :
    ∃ pts, (Periodic.make n).points = .ok pts ∧
      (Periodic.make n).T d t ((Periodic.make n).P d t f) = .ok (pts.map f) ∧
      (Periodic.make n).U d t (pts.map f) = .ok ((Periodic.make n).P d t f) := by
  refine ⟨_, Periodic.points_samp n, ?_⟩
  have : (samp (2 * n) 0 id).map f = samp (2 * n) 0 f := by unfold samp; rw [map_tab]; rfl
  rw [this, Periodic.make_T, Periodic.make_U]
  exact ⟨Periodic.T_exact d t (Res_of_isTrig hK hf _), Periodic.U_exact (hf.mono (by omega)) d t⟩

/-- C19 (periodic): unrefinement is exact for all trigonometric polynomials of degree up to `n` (twice what the coarse grid resolves). -/
theorem C19_periodic_unrefine_exact (n : ℕ) (f : ℝ → ℝ) (hf : IsTrig n f) (d : Fin 2) (t : Bool) :
    ∃ pts, (Periodic.make n).points = .ok pts ∧
      (Periodic.make n).U d t (pts.map f) = .ok ((Periodic.make n).P d t f) := by
  refine ⟨_, Periodic.points_samp n, ?_⟩
  have : (samp (2 * n) 0 id).map f = samp (2 * n) 0 f := by unfold samp; rw [map_tab]; rfl
  rw [this, Periodic.make_U]
  exact Periodic.U_exact hf d t

example : 2 * 2 < 5 ∧ IsTrig 2 (fun x => sin ((1 : ℕ) * x)) := ⟨by norm_num, isTrig_sin_nat (by norm_num)⟩

/-! ## C21 -/

/-- C21 (periodic): the wedge product of the projections of two resolvable functions is the projection of the product. -/
theorem C21_periodic_wedge_exact (n K L : ℕ) (hK : 2 * K < n) (hL : 2 * L < n) (f g : ℝ → ℝ) (hf : IsTrig K f) (hg : IsTrig L g)
    (k l : Fin 2) (hkl : k.val + l.val ≤ 1) (s t u : Bool) :
    (Periodic.make n).wedge k s l t u ((Periodic.make n).P k s f) ((Periodic.make n).P l t g)
      = .ok ((Periodic.make n).P (Fin.ofNat 2 (k.val + l.val)) u fun x => f x * g x) :=
  Periodic.wedge_rep hf hg (by omega) k l s t u hkl (Res_of_isTrig hK hf _) (Res_of_isTrig hL hg _)

/-- Degrees that add up to more than the dimension are not in the table. -/
theorem C21_wedge_key_error (n : ℕ) (k l : Fin 2) (hkl : 1 < k.val + l.val) (s t u : Bool) (a b : List ℝ) :
    (Periodic.make n).wedge k s l t u a b = .error .keyError := by
  show wedge1 _ _ k s l t u a b = _
  unfold wedge1; rw [if_pos hkl]

/-! ## C24 -/

/-- C24 (periodic): the contraction of the projections of two resolvable functions is the projection of the product. -/
theorem C24_periodic_contraction_exact (n K L : ℕ) (hK : 2 * K < n) (hL : 2 * L < n) (X f : ℝ → ℝ) (hX : IsTrig K X) (hf : IsTrig L f)
    (s t u : Bool) :
    (Periodic.make n).contraction s 1 t u ((Periodic.make n).P 1 s X) ((Periodic.make n).P 1 t f)
      = .ok ((Periodic.make n).P 0 u fun x => X x * f x) :=
  Periodic.contraction_rep hX hf (by omega) s t u (Res_of_isTrig hK hX _) (Res_of_isTrig hL hf _)

/-- Non-vacuity for C21 and C24: a product whose degree exceeds the resolution of the coarse grid. -/
example : 2 * 2 < 5 ∧ IsTrig 2 (fun x => cos ((2 : ℕ) * x)) ∧ IsTrig 2 (fun x => sin ((2 : ℕ) * x)) :=
  ⟨by norm_num, isTrig_cos_nat le_rfl, isTrig_sin_nat le_rfl⟩

end Dec.Props
