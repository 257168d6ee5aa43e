import Verif.Lib.ChebyshevForms
import Verif.Model.Grids

set_option linter.unusedSimpArgs false
set_option linter.unusedVariables false

/-!
# C18, C19, C21, C24 and C46 on the Chebyshev grid
-/

namespace Dec.Props

open Real Finset Dec.Sp

/-- Products of polynomials. -/
theorem isPoly_mul {K L M : ℕ} (h : K + L ≤ M + 1) {f g : ℝ → ℝ} (hf : IsPoly K f) (hg : IsPoly L g) : IsPoly M (fun x => f x * g x) := by
  obtain ⟨a, ha⟩ := hf
  obtain ⟨b, hb⟩ := hg
  refine ⟨fun k => ∑ p ∈ (range K ×ˢ range L).filter (fun p => p.1 + p.2 = k), a p.1 * b p.2, fun x => ?_⟩
  beta_reduce
  rw [ha, hb, Finset.sum_mul_sum, ← Finset.sum_product']
  rw [← Finset.sum_fiberwise_of_maps_to (s := range K ×ˢ range L) (t := range M) (g := fun p : ℕ × ℕ => p.1 + p.2)
    (by intro p hp; simp only [mem_product, mem_range] at hp ⊢; omega)]
  refine Finset.sum_congr rfl fun k _ => ?_
  rw [Finset.sum_mul]
  refine Finset.sum_congr rfl fun p hp => ?_
  have : p.1 + p.2 = k := (mem_filter.1 hp).2
  rw [← this, pow_add]; ring

/-- The number of coefficients of the polynomials a form of degree `d` resolves: `n` on primal vertices and dual edges,
`n - 1` on dual vertices and primal edges. -/
noncomputable def chebOrder (n : ℕ) (d : Fin 2) (t : Bool) : ℕ := (Chebyshev.make n).N d t

theorem isCos_of_chebOrder {n : ℕ} (hn : 2 ≤ n) {d : Fin 2} {t : Bool} {K : ℕ} (hK : K ≤ chebOrder n d t) {f : ℝ → ℝ} (hf : IsPoly K f) :
    IsCos (Chebyshev.cdeg n d t) (fun θ => f (-cos θ)) := by
  refine hf.isCos ?_
  obtain rfl | rfl : d = 0 ∨ d = 1 := by omega
  all_goals cases t
  all_goals simp only [chebOrder, Chebyshev.make, Chebyshev.cdeg] at *
  all_goals omega

theorem chebyshev_T (n : ℕ) (a b : ℝ) : (Chebyshev.make n a b).T = Chebyshev.T := rfl
theorem chebyshev_U (n : ℕ) (a b : ℝ) : (Chebyshev.make n a b).U = Chebyshev.U := rfl

/-! ## C18 -/

/-- C18 (Chebyshev): refining and unrefining gives the form back. Primal 1-forms need `n ≤ 927`: see C05. -/
theorem C18_chebyshev_unrefine_refine (n : ℕ) (hn : 2 ≤ n) (xmin xmax : ℝ) (d : Fin 2) (t : Bool) (h927 : d = 1 → t = true → n ≤ 927)
    (a : List ℝ) (ha : a.length = (Chebyshev.make n xmin xmax).N d t) :
    ((Chebyshev.make n xmin xmax).T d t a >>= (Chebyshev.make n xmin xmax).U d t) = .ok a := by
  rw [chebyshev_T, chebyshev_U]
  obtain ⟨p, hp, rfl⟩ := Chebyshev.exists_rep hn d t h927 ha
  have hT := Chebyshev.T_exact hn d t h927 hp
  have hU := Chebyshev.U_exact hn d t (p := p) (fun h => by
    refine hp.mono ?_
    subst h; cases t <;> simp only [Chebyshev.cdeg] <;> omega)
  rw [hT]; exact hU

/-- Non-vacuity: primal 1-forms on three vertices. -/
example : 2 ≤ 3 ∧ ((1 : Fin 2) = 1 → true = true → 3 ≤ 927) ∧ ([1, 2] : List ℝ).length = (Chebyshev.make 3 0 5).N 1 true :=
  ⟨by norm_num, fun _ _ => by norm_num, rfl⟩

/-! ## C19 -/

/-- C19 (Chebyshev): refinement of the projection of a resolvable polynomial samples it at the refined grid points, and unrefinement
projects. -/
theorem C19_chebyshev_refine_samples (n : ℕ) (hn : 2 ≤ n) (d : Fin 2) (t : Bool) (h927 : d = 1 → t = true → n ≤ 927)
    (f : ℝ → ℝ) (hf : IsPoly ((Chebyshev.make n).N d t) f) :
    ∃ pts, (Chebyshev.make n).points = .ok pts ∧
      (Chebyshev.make n).T d t ((Chebyshev.make n).P d t f) = .ok (pts.map f) ∧
      (Chebyshev.make n).U d t (pts.map f) = .ok ((Chebyshev.make n).P d t f) := by
  have hp := isCos_of_chebOrder hn (d := d) (t := t) le_rfl hf
  refine ⟨_, Chebyshev.points_csamp hn, ?_⟩
  have e : (Chebyshev.csamp n fun θ => -cos θ).map f = Chebyshev.csamp n fun θ => f (-cos θ) := by
    unfold Chebyshev.csamp; rw [map_tab]
  rw [e, chebyshev_T, chebyshev_U, Chebyshev.P_eq hn d t hf.continuous]
  refine ⟨Chebyshev.T_exact hn d t h927 hp, Chebyshev.U_exact hn d t fun h => hp.mono ?_⟩
  subst h; cases t <;> simp only [Chebyshev.cdeg] <;> omega

/-- C19 (Chebyshev): unrefinement is exact far beyond the coarse resolution: for every continuous function in degree 0 and for polynomials of
degree at most `2 n - 3` in degree 1. -/
theorem C19_chebyshev_unrefine_exact (n : ℕ) (hn : 2 ≤ n) (d : Fin 2) (t : Bool) (f : ℝ → ℝ) (hc : Continuous f)
    (hf : d = 1 → IsPoly (2 * n - 2) f) :
    ∃ pts, (Chebyshev.make n).points = .ok pts ∧
      (Chebyshev.make n).U d t (pts.map f) = .ok ((Chebyshev.make n).P d t f) := by
  refine ⟨_, Chebyshev.points_csamp hn, ?_⟩
  have e : (Chebyshev.csamp n fun θ => -cos θ).map f = Chebyshev.csamp n fun θ => f (-cos θ) := by
    unfold Chebyshev.csamp; rw [map_tab]
  rw [e, chebyshev_U, Chebyshev.P_eq hn d t hc]
  exact Chebyshev.U_exact hn d t fun h => (hf h).isCos (by omega)

example : IsPoly ((Chebyshev.make 3).N 1 true) (fun x => x) ∧ IsPoly (2 * 3 - 2) (fun x => x ^ 3) :=
  ⟨⟨fun k => if k = 1 then 1 else 0, fun x => by simp [Chebyshev.make]⟩, ⟨fun k => if k = 3 then 1 else 0, fun x => by simp⟩⟩

/-! ## C21 -/

/-- C21 (Chebyshev): the wedge product of the projections of two resolvable polynomials is the projection of the product.  When the result is a 1-form the product
must have degree at most `2 n - 3`, which only excludes the two top degrees together. -/
theorem C21_chebyshev_wedge_exact (n : ℕ) (hn : 2 ≤ n) (k l : Fin 2) (hkl : k.val + l.val ≤ 1) (s t u : Bool)
    (h1 : k = 1 → s = true → n ≤ 927) (h2 : l = 1 → t = true → n ≤ 927)
    (K L : ℕ) (hK : K ≤ (Chebyshev.make n).N k s) (hL : L ≤ (Chebyshev.make n).N l t) (hKL : k.val + l.val = 1 → K + L ≤ 2 * n - 1)
    (f g : ℝ → ℝ) (hf : IsPoly K f) (hg : IsPoly L g) :
    (Chebyshev.make n).wedge k s l t u ((Chebyshev.make n).P k s f) ((Chebyshev.make n).P l t g)
      = .ok ((Chebyshev.make n).P (Fin.ofNat 2 (k.val + l.val)) u fun x => f x * g x) := by
  rw [Chebyshev.P_eq hn k s hf.continuous, Chebyshev.P_eq hn l t hg.continuous,
    Chebyshev.P_eq hn _ u (f := fun x => f x * g x) (hf.continuous.mul hg.continuous)]
  refine Chebyshev.wedge_rep hn k l s t u hkl h1 h2 (isCos_of_chebOrder hn hK hf) (isCos_of_chebOrder hn hL hg) fun h => ?_
  exact (isPoly_mul (M := 2 * n - 2) (by have := hKL h; omega) hf hg).isCos (by omega)

/-- Degrees that add up to more than the dimension are not in the table. -/
theorem C21_chebyshev_wedge_key_error (n : ℕ) (k l : Fin 2) (hkl : 1 < k.val + l.val) (s t u : Bool) (a b : List ℝ) :
    (Chebyshev.make n).wedge k s l t u a b = .error .keyError := by
  show wedge1 _ _ k s l t u a b = _
  unfold wedge1; rw [if_pos hkl]

/-! ## C24 -/

/-- C24 (Chebyshev): the contraction of the projections of two resolvable 1-forms is the projection of the product, whatever its degree. -/
theorem C24_chebyshev_contraction_exact (n : ℕ) (hn : 2 ≤ n) (s t u : Bool) (h1 : s = true → n ≤ 927) (h2 : t = true → n ≤ 927)
    (X f : ℝ → ℝ) (hX : IsPoly ((Chebyshev.make n).N 1 s) X) (hf : IsPoly ((Chebyshev.make n).N 1 t) f) :
    (Chebyshev.make n).contraction s 1 t u ((Chebyshev.make n).P 1 s X) ((Chebyshev.make n).P 1 t f)
      = .ok ((Chebyshev.make n).P 0 u fun x => X x * f x) := by
  rw [Chebyshev.P_eq hn 1 s hX.continuous, Chebyshev.P_eq hn 1 t hf.continuous,
    Chebyshev.P_eq hn _ u (f := fun x => X x * f x) (hX.continuous.mul hf.continuous)]
  exact Chebyshev.contraction_rep hn s t u h1 h2 (isCos_of_chebOrder hn le_rfl hX) (isCos_of_chebOrder hn le_rfl hf)

/-- Non-vacuity for C21 and C24: `x^2` on four vertices against the 1-form `x dx`; the product has degree three, which the coarse grid's 1-forms do not resolve. -/
example : 2 ≤ 4 ∧ 3 ≤ (Chebyshev.make 4).N 0 true ∧ 2 ≤ (Chebyshev.make 4).N 1 true ∧ 3 + 2 ≤ 2 * 4 - 1 ∧
    IsPoly 3 (fun x => x ^ 2) ∧ IsPoly 2 (fun x => x) :=
  ⟨by norm_num, by simp [Chebyshev.make], by simp [Chebyshev.make], by norm_num,
    ⟨fun k => if k = 2 then 1 else 0, fun x => by simp⟩, ⟨fun k => if k = 1 then 1 else 0, fun x => by simp⟩⟩

/-! ## C46 -/

/-- C46 (Chebyshev): shifting a dual vertex array to the primal vertices and back gives it back. -/
theorem C46_chebyshev_shift (a : List ℝ) (ha : 1 ≤ a.length) : Chebyshev.S_cheb (Chebyshev.S_cheb_pinv a) = a := by
  obtain ⟨n, hn⟩ : ∃ n, a.length = n - 1 ∧ 2 ≤ n := ⟨a.length + 1, by omega⟩
  obtain ⟨p, hp, h⟩ := Chebyshev.exists_rep (n := n) hn.2 0 false (fun h => absurd h (by decide)) (a := a) hn.1
  have e1 := Chebyshev.S_cheb_pinv_exact hn.2 hp
  have e2 := Chebyshev.S_cheb_exact hn.2 (hp.mono (show n - 2 ≤ n - 1 by omega))
  have h' : a = tab (n - 1) fun j => p (hh (2 * n - 2) / 2 + j * hh (2 * n - 2)) := h
  rw [h', e1, e2]

/-- C46 (Chebyshev): for a polynomial `f` of degree less than `n` the shift maps its values at the `n` Chebyshev–Lobatto points to its values at
the points half way between in angle, and the inverse shift goes back when the degree is less than `n - 1`. -/
theorem C46_chebyshev_shift_exact (n : ℕ) (hn : 2 ≤ n) (f : ℝ → ℝ) :
    (IsPoly n f → Chebyshev.S_cheb ((Chebyshev.make n).P 0 true f) = (Chebyshev.make n).P 0 false f) ∧
    (IsPoly (n - 1) f → Chebyshev.S_cheb_pinv ((Chebyshev.make n).P 0 false f) = (Chebyshev.make n).P 0 true f) := by
  rw [Chebyshev.P0 hn, Chebyshev.P0d hn]
  refine ⟨fun hf => ?_, fun hf => ?_⟩
  · have h := Chebyshev.S_cheb_exact hn (p := fun θ => f (-cos θ)) (hf.isCos (by omega))
    rw [h]
  · have h := Chebyshev.S_cheb_pinv_exact hn (p := fun θ => f (-cos θ)) (hf.isCos (by omega))
    rw [h]

end Dec.Props
