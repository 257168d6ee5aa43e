import Verif.Lib.Energy2
import Verif.Props.Grid2
import Verif.Props.Grid2Cohomology

set_option linter.unusedSimpArgs false
set_option linter.unusedVariables false

/-! # C73: the stars of periodic and regular grids are symmetric and positive definite, and their Laplacians self-adjoint -/

namespace Dec.Props

open Finset Real Dec.Sp Dec.G2

theorem grid_spd (k : Kind) (n : ℕ) (hn : validSize k n) (hk : k ≠ .chebyshev) (xmin xmax : ℝ) (d : Fin 2) (t : Bool) :
    ∃ L, Lin ((grid k n xmin xmax).N d t) ((grid k n xmin xmax).N (1 - d) (!t)) L ∧ SPD ((grid k n xmin xmax).N d t) L ∧
      ∀ x : List ℝ, x.length = (grid k n xmin xmax).N d t → (grid k n xmin xmax).H d t x = .ok (L x) := by
  obtain ⟨L, hL, hH⟩ := grid_elin_H k n hn xmin xmax d t fun h => absurd h hk
  refine ⟨L, hL, ?_, hH⟩
  -- it is enough to know one operator that agrees with the star
  have agree : ∀ M : List ℝ → List ℝ, (∀ x : List ℝ, x.length = (grid k n xmin xmax).N d t → (grid k n xmin xmax).H d t x = .ok (M x)) →
      SPD ((grid k n xmin xmax).N d t) M → SPD ((grid k n xmin xmax).N d t) L := fun M hM h => by
    have e : ∀ x : List ℝ, x.length = (grid k n xmin xmax).N d t → L x = M x := fun x hx => by
      have := hH x hx; rw [hM x hx] at this; exact (Except.ok.inj this).symm
    exact ⟨fun x y hx hy => by rw [e x hx, e y hy]; exact h.symm x y hx hy, fun x hx hne => by rw [e x hx]; exact h.pos x hx hne⟩
  cases k
  · have hs := Hs_spd (show 0 < n from hn)
    have hi : SPD n Hinv := hs.inverse (fun x hx => by rw [length_Hinv, hx]) (fun x _ => Hs_Hinv x) (by rw [Hs_const, zero_mul])
    obtain rfl | rfl : d = 0 ∨ d = 1 := by omega
    · exact agree Hs (fun x _ => by cases t <;> rfl) hs
    · exact agree Hinv (fun x _ => by cases t <;> rfl) hi
  · have hn' : 2 ≤ n := hn
    have hm : 0 < n - 1 := by omega
    have e00 : ∀ x, (grid .regular n xmin xmax).H 0 true x = .ok (Regular.rH0 x) := fun x => by
      show Except.ok (re (Regular.H0 (toC x))) = _; rw [Regular.H0_real, re_toC]
    have e01 : ∀ x, (grid .regular n xmin xmax).H 0 false x = .ok (Regular.rH0d x) := fun x => by
      show Except.ok (re (Regular.H0d (toC x))) = _; rw [Regular.H0d_real, re_toC]
    have e10 : ∀ x, (grid .regular n xmin xmax).H 1 true x = .ok (Regular.rH1 x) := fun x => by
      show Except.ok (re (Regular.H1 (toC x))) = _; rw [Regular.H1_real, re_toC]
    have e11 : ∀ x, (grid .regular n xmin xmax).H 1 false x = .ok (Regular.rH1d x) := fun x => by
      show Except.ok (re (Regular.H1d (toC x))) = _; rw [Regular.H1d_real, re_toC]
    have s0 := Regular.rH0_spd hn'
    have s1 := Regular.rH0d_spd hm
    obtain rfl | rfl : d = 0 ∨ d = 1 := by omega
    all_goals cases t
    · exact agree _ (fun x _ => e01 x) s1
    · exact agree _ (fun x _ => e00 x) s0
    · refine agree _ (fun x _ => e11 x) (s0.inverse (fun x hx => ?_) (fun x hx => Regular.rH0_rH1d hn' x hx) (lin_zero (Regular.lin_rH0 hn')))
      have h := hL.len x hx
      have h' := hH x hx
      rw [e11] at h'
      rw [Except.ok.inj h']; exact h
    · refine agree _ (fun x _ => e10 x) (s1.inverse (fun x hx => ?_) (fun x hx => Regular.rH0d_rH1 hm x hx) (lin_zero (Regular.lin_rH0d _)))
      have h := hL.len x hx
      have h' := hH x hx
      rw [e10] at h'
      rw [Except.ok.inj h']; exact h
  · exact absurd rfl hk

/-- C73 (stars): on periodic and regular grids, `sum(x*H(y)) = sum(y*H(x))`, and `sum(x*H(x)) > 0` unless `x` is zero. -/
theorem C73_star (k : Kind) (n : ℕ) (hn : validSize k n) (hk : k ≠ .chebyshev) (xmin xmax : ℝ) (d : Fin 2) (t : Bool) (x y : List ℝ)
    (hx : x.length = (grid k n xmin xmax).N d t) (hy : y.length = (grid k n xmin xmax).N d t) :
    ∃ u v, (grid k n xmin xmax).H d t x = .ok u ∧ (grid k n xmin xmax).H d t y = .ok v ∧ dot x v = dot y u ∧
      (x ≠ List.replicate ((grid k n xmin xmax).N d t) 0 → 0 < dot x u) := by
  obtain ⟨L, hL, hs, hH⟩ := grid_spd k n hn hk xmin xmax d t
  exact ⟨_, _, hH x hx, hH y hy, hs.symm x y hx hy, hs.pos x hx⟩

theorem adjoint_any {k : Kind} {n : ℕ} (hn : validSize k n) {a b : ℝ} (hab : a < b) (t : Bool) {u v du dv : List ℝ} (hu : u.length = (grid k n a b).N 0 t)
    (hv : v.length = (grid k n a b).N 0 (!t)) (h1 : (grid k n a b).d0 t u = .ok du) (h2 : (grid k n a b).d0 (!t) v = .ok dv) : dot du v = -dot u dv := by
  cases t
  · obtain ⟨dv', du', e1, e2, e3⟩ := grid_adjoint hn hab v u hv hu
    rw [h1] at e2
    have h2' : (grid k n a b).d0 true v = .ok dv := h2
    rw [h2'] at e1
    rw [← Except.ok.inj e1, ← Except.ok.inj e2] at e3
    have e3' : dot dv v = dot dv v := rfl
    have : dot dv u = -dot v du := e3
    rw [dot_comm du, dot_comm u, this, neg_neg]
  · obtain ⟨du', dv', e1, e2, e3⟩ := grid_adjoint hn hab u v hu hv
    rw [h1] at e1
    have h2' : (grid k n a b).d0 false v = .ok dv := h2
    rw [h2'] at e2
    rw [← Except.ok.inj e1, ← Except.ok.inj e2] at e3
    exact e3

/-- C73 (Laplacian): on periodic and regular grids the Laplacian is self-adjoint and negative semidefinite for the inner product `sum(x*H(y))`, and `sum(x*H(laplacian(x)))` vanishes
exactly when `D(x)` does. -/
theorem C73_laplacian (k : Kind) (n : ℕ) (hn : validSize k n) (hk : k ≠ .chebyshev) (xmin xmax : ℝ) (hab : xmin < xmax) (t : Bool) (x y : List ℝ)
    (hx : x.length = (grid k n xmin xmax).N 0 t) (hy : y.length = (grid k n xmin xmax).N 0 t) :
    ∃ Lx Ly u v, (grid k n xmin xmax).laplacian t x = .ok Lx ∧ (grid k n xmin xmax).laplacian t y = .ok Ly ∧
      (grid k n xmin xmax).H 0 t Lx = .ok u ∧ (grid k n xmin xmax).H 0 t Ly = .ok v ∧
      dot x v = dot y u ∧ dot x u ≤ 0 ∧ (dot x u = 0 ↔ (grid k n xmin xmax).D 0 t x = some (List.replicate ((grid k n xmin xmax).N 1 t) 0)) := by
  have hF := grid_factor k n hn xmin xmax
  have hS := grid_stars k n hn (fun h => absurd h hk) xmin xmax
  obtain ⟨δ, η, δ', η', h1, h2, h3, h4, e1, e2, e3, e4, e⟩ := lap_maps hF hS t
  obtain ⟨M, hM, sM, eM⟩ := grid_spd k n hn hk xmin xmax 1 t
  have ηM : ∀ z : List ℝ, z.length = (grid k n xmin xmax).N 1 t → η z = M z := fun z hz => by
    have := e2 z hz; rw [eM z hz] at this; exact (Except.ok.inj this).symm
  -- the star of the Laplacian is the derivative of the star of the derivative
  have star : ∀ z : List ℝ, z.length = (grid k n xmin xmax).N 0 t → (grid k n xmin xmax).H 0 t (η' (δ' (η (δ z)))) = .ok (δ' (η (δ z))) := fun z hz => by
    have l := h3.len _ (h2.len _ (h1.len z hz))
    have := hS.inv 1 (!t) _ l
    rw [e4 _ l] at this
    rw [show (1 : Fin 2) - 1 = 0 from rfl, Bool.not_not] at this
    exact this
  have adj : ∀ z w : List ℝ, z.length = (grid k n xmin xmax).N 0 t → w.length = (grid k n xmin xmax).N 0 t → dot z (δ' (η (δ w))) = -dot (δ z) (M (δ w)) := fun z w hz hw => by
    have := adjoint_any hn hab t hz (h2.len _ (h1.len w hw)) (e1 z hz) (e3 _ (h2.len _ (h1.len w hw)))
    rw [ηM _ (h1.len w hw)] at this
    rw [ηM _ (h1.len w hw), this, neg_neg]
  refine ⟨_, _, _, _, e x hx, e y hy, star x hx, star y hy, ?_, ?_, ?_⟩
  · rw [adj x y hx hy, adj y x hy hx, sM.symm _ _ (h1.len x hx) (h1.len y hy)]
  · rw [adj x x hx hx]
    by_cases h0 : δ x = List.replicate ((grid k n xmin xmax).N 1 t) 0
    · rw [h0, ← ηM _ (by simp), lin_zero h2]
      simp [dot, vmul]
    · have := sM.pos _ (h1.len x hx) h0
      linarith
  · rw [adj x x hx hx]
    constructor
    · intro h
      by_contra h0
      have := sM.pos _ (h1.len x hx) (fun h' => h0 (D_of_d0 (by rw [e1 x hx, h'])))
      linarith
    · intro h
      have h' := d0_of_D h
      rw [e1 x hx] at h'
      rw [Except.ok.inj h', ← ηM _ (by simp), lin_zero h2]
      simp [dot, vmul]

/-- C73 (eigenvalues): every real eigenvalue of the Laplacian of a periodic or regular grid is nonpositive. -/
theorem C73_eigenvalue (k : Kind) (n : ℕ) (hn : validSize k n) (hk : k ≠ .chebyshev) (xmin xmax : ℝ) (hab : xmin < xmax) (t : Bool) (x : List ℝ) (lam : ℝ)
    (hx : x.length = (grid k n xmin xmax).N 0 t) (hne : x ≠ List.replicate ((grid k n xmin xmax).N 0 t) 0)
    (h : (grid k n xmin xmax).laplacian t x = .ok (x.map (lam * ·))) : lam ≤ 0 := by
  obtain ⟨Lx, Ly, u, v, e1, e2, e3, e4, -, e5, -⟩ := C73_laplacian k n hn hk xmin xmax hab t x x hx hx
  obtain ⟨L, hL, hs, hH⟩ := grid_spd k n hn hk xmin xmax 0 t
  rw [h] at e1
  obtain rfl := Except.ok.inj e1
  rw [hH _ (by rw [List.length_map, hx])] at e3
  obtain rfl := Except.ok.inj e3
  have hp := hs.pos x hx hne
  have hsm := hL.smul lam x hx
  have e6 : dot x (L (x.map (lam * ·))) = lam * dot x (L x) := by
    have hsm' : L (x.map (lam * ·)) = (L x).map (lam * ·) := hsm
    rw [hsm']
    exact dot_smul x (L x) lam
  rw [e6] at e5
  by_contra hlam
  push Not at hlam
  nlinarith

/-- The integral of a quadratic. -/
theorem int_quad (a b p q r : ℝ) : ∫ x in a..b, (p * x ^ 2 + q * x + r) = p * (b ^ 3 - a ^ 3) / 3 + q * (b ^ 2 - a ^ 2) / 2 + r * (b - a) := by
  rw [intervalIntegral.integral_add (by apply Continuous.intervalIntegrable; fun_prop) (by apply Continuous.intervalIntegrable; fun_prop),
    intervalIntegral.integral_add (by apply Continuous.intervalIntegrable; fun_prop) (by apply Continuous.intervalIntegrable; fun_prop),
    intervalIntegral.integral_const_mul, intervalIntegral.integral_const_mul, integral_pow, integral_id, intervalIntegral.integral_const]
  simp only [smul_eq_mul]
  push_cast
  ring

/-- C73 (Chebyshev): the star of a Chebyshev grid is not symmetric: on three vertices `sum(x*H(y))` and `sum(y*H(x))` differ for the first two basis cochains. -/
theorem C73_chebyshev_not_symmetric : ∃ x y u v : List ℝ, x.length = (Chebyshev.make 3).N 0 true ∧ y.length = (Chebyshev.make 3).N 0 true ∧
    (Chebyshev.make 3).H 0 true x = .ok u ∧ (Chebyshev.make 3).H 0 true y = .ok v ∧ dot x v ≠ dot y u := by
  have hI := Chebyshev.isInterval (n := 3) (by norm_num) (-1) 1
  have hc : cos (π / 2 / 2) = √2 / 2 := by rw [show π / 2 / 2 = π / 4 by ring]; exact cos_pi_div_four
  have hq : ∀ p q r : ℝ, IsPoly 3 fun x => p * x ^ 2 + q * x + r := fun p q r =>
    ⟨fun k => if k = 0 then r else if k = 1 then q else p, fun x => by simp [Finset.sum_range_succ]; ring⟩
  have hP0 : ∀ p q r : ℝ, (Chebyshev.make 3).P 0 true (fun x => p * x ^ 2 + q * x + r) = [p - q + r, r, p + q + r] := fun p q r => by
    rw [Chebyshev.P0 (by norm_num), show hh (2 * 3 - 2) = π / 2 by unfold hh; push_cast; ring]
    simp [tab, List.range_succ]
    constructor
    · ring
    · rw [show 2 * (π / 2) = π by ring, cos_pi]; ring
  have hP1 : ∀ p q r : ℝ, (Chebyshev.make 3).P 1 false (fun x => p * x ^ 2 + q * x + r) =
      [∫ x in (-1)..(-(√2 / 2)), (p * x ^ 2 + q * x + r), ∫ x in (-(√2 / 2))..(√2 / 2), (p * x ^ 2 + q * x + r), ∫ x in (√2 / 2)..1, (p * x ^ 2 + q * x + r)] := fun p q r => by
    rw [hI.P1d]
    have e0 : Chebyshev.pt (-1) 1 (((0 : ℕ) + 1 / 2) * (π / ((3 - 1 : ℕ) : ℝ))) = -(√2 / 2) := by
      rw [Chebyshev.pt_default, ← hc]; congr 2; push_cast; ring
    have e1 : Chebyshev.pt (-1) 1 (((1 : ℕ) + 1 / 2) * (π / ((3 - 1 : ℕ) : ℝ))) = √2 / 2 := by
      rw [Chebyshev.pt_default, ← hc, ← cos_pi_sub]; congr 1; push_cast; ring
    show tab 3 _ = _
    simp only [tab, List.range_succ, List.range_zero, List.nil_append, List.map_append, List.map_cons, List.map_nil, List.cons_append]
    have n0 : (Chebyshev.make 3).n = 3 := rfl
    simp only [n0, if_true, one_ne_zero, if_false, Nat.sub_self, Nat.lt_irrefl]
    norm_num at e0 e1 ⊢
    rw [e0, e1]
    exact ⟨rfl, rfl, rfl⟩
  have h1 := (C06_chebyshev_hodge_exact_primal 3 (by norm_num) _ (hq (1/2) (-1/2) 0)).1
  have h2 := (C06_chebyshev_hodge_exact_primal 3 (by norm_num) _ (hq (-1) 0 1)).1
  rw [hP0] at h1 h2
  refine ⟨_, _, _, _, ?_, ?_, h1, h2, ?_⟩
  · rfl
  · rfl
  · rw [hP1, hP1]
    simp only [int_quad]
    simp only [dot, vmul, List.zipWith_cons_cons, List.zipWith_nil_left, List.sum_cons, List.sum_nil]
    have hs : √2 * √2 = 2 := Real.mul_self_sqrt (by norm_num)
    intro h
    have h3 : √2 ^ 3 = 2 * √2 := by rw [pow_succ, pow_two, hs]
    have h2' : √2 ^ 2 = 2 := by rw [pow_two, hs]
    ring_nf at h
    rw [h3] at h
    have : √2 = 4 / 3 := by linarith
    rw [this] at hs; norm_num at hs

/-! ## Product grids -/

/-- The matrix of a star. -/
theorem grid_mpos (k : Kind) (n : ℕ) (hn : validSize k n) (hk : k ≠ .chebyshev) (xmin xmax : ℝ) (d : Fin 2) (t : Bool) :
    ∃ S, HasMat ((grid k n xmin xmax).N d t) ((grid k n xmin xmax).N d t) ((grid k n xmin xmax).H d t) S ∧ MPos ((grid k n xmin xmax).N d t) S := by
  obtain ⟨L, hL, hs, hH⟩ := grid_spd k n hn hk xmin xmax d t
  have e : (grid k n xmin xmax).N (1 - d) (!t) = (grid k n xmin xmax).N d t := by
    obtain rfl | rfl : d = 0 ∨ d = 1 := by omega
    · exact (grid_swap hn xmin xmax t).1
    · exact (grid_swap hn xmin xmax t).2
  rw [e] at hL
  obtain ⟨S, hS⟩ := hL.exists_mat
  exact ⟨S, fun f => by rw [hH _ (length_tab _ _), hS], mpos_of_spd hs hS⟩

section
variable (k k' : Kind) (n n' : ℕ) (hn : validSize k n) (hn' : validSize k' n') (hk : k ≠ .chebyshev) (hk' : k' ≠ .chebyshev) (xmin xmax ymin ymax : ℝ) (t : Bool)

local notation "gx" => grid k n xmin xmax
local notation "gy" => grid k' n' ymin ymax
local notation "𝔾" => product (grid k n xmin xmax) (grid k' n' ymin ymax)

/-- The pairing `∫ α∧β` of a 1-form with a 1-form on the other kind of cells: x-edges cross y-edges. -/
def pair1 (g g' : Grid1) (t : Bool) (α β : List ℝ) : ℝ :=
  dot (α.take (xEdges g g' t)) (β.drop (xEdges g g' (!t))) - dot (α.drop (xEdges g g' t)) (β.take (xEdges g g' (!t)))

theorem dot_data (r c : ℕ) (F G : ℕ → ℕ → ℝ) : dot (mtab r c F).data (mtab r c G).data = dot2 r c F G := vmul_data r c F G

theorem pos_data {r c : ℕ} {F : ℕ → ℕ → ℝ} (h : ∃ z ∈ (mtab r c F).data, z ≠ 0) : ∃ j < r, ∃ i < c, F j i ≠ 0 := by
  by_contra h'
  push Not at h'
  obtain ⟨z, hz, hne⟩ := h
  exact hne (data_all_zero.2 h' z hz)

include hn hn' hk hk' in
theorem star_mat : ∃ S0 S1 R0 R1, MPos ((gx).N 0 t) S0 ∧ MPos ((gx).N 1 t) S1 ∧ MPos ((gy).N 0 t) R0 ∧ MPos ((gy).N 1 t) R1 ∧
    (∀ F, (𝔾).H 0 t (mtab ((gy).N 0 t) ((gx).N 0 t) F).data = .ok (mtab ((gy).N 0 t) ((gx).N 0 t) (kron ((gy).N 0 t) ((gx).N 0 t) R0 S0 F)).data) ∧
    (∀ F, (𝔾).H 2 t (mtab ((gy).N 1 t) ((gx).N 1 t) F).data = .ok (mtab ((gy).N 1 t) ((gx).N 1 t) (kron ((gy).N 1 t) ((gx).N 1 t) R1 S1 F)).data) ∧
    (∀ X Y, (𝔾).H 1 t ((mtab ((gy).N 0 t) ((gx).N 1 t) X).data ++ (mtab ((gy).N 1 t) ((gx).N 0 t) Y).data)
      = .ok ((mtab ((gy).N 1 t) ((gx).N 0 t) fun j i => -kron ((gy).N 1 t) ((gx).N 0 t) R1 S0 Y j i).data ++
        (mtab ((gy).N 0 t) ((gx).N 1 t) (kron ((gy).N 0 t) ((gx).N 1 t) R0 S1 X)).data)) := by
  have Fx := grid_factor k n hn xmin xmax
  have Fy := grid_factor k' n' hn' ymin ymax
  obtain ⟨S0, hS0, p0⟩ := grid_mpos k n hn hk xmin xmax 0 t
  obtain ⟨S1, hS1, p1⟩ := grid_mpos k n hn hk xmin xmax 1 t
  obtain ⟨R0, hR0, q0⟩ := grid_mpos k' n' hn' hk' ymin ymax 0 t
  obtain ⟨R1, hR1, q1⟩ := grid_mpos k' n' hn' hk' ymin ymax 1 t
  have kr : ∀ (m n : ℕ) (R S F : ℕ → ℕ → ℝ) (j i : ℕ), ∑ k ∈ range n, S i k * ∑ l ∈ range m, R j l * F l k = kron m n R S F j i := fun m n R S F j i => by
    unfold kron; simp only [mul_sum]; rw [sum_comm]; exact sum_congr rfl fun _ _ => sum_congr rfl fun _ _ => by ring
  have kr' : ∀ (m n : ℕ) (R S F : ℕ → ℕ → ℝ) (j i : ℕ), ∑ l ∈ range m, R j l * ∑ k ∈ range n, S i k * F l k = kron m n R S F j i := fun m n R S F j i => by
    unfold kron; simp only [mul_sum]; exact sum_congr rfl fun _ _ => sum_congr rfl fun _ _ => by ring
  refine ⟨S0, S1, R0, R1, p0, p1, q0, q1, fun F => ?_, fun F => ?_, fun X Y => ?_⟩
  · rw [H0_mtab Fx Fy t (Fy.pos 0 t) (fun i _ => hR0 fun j => F j i) (fun j _ => hS0 _)]
    exact congrArg (fun K => Except.ok (mtab _ _ K).data) (funext fun j => funext fun i => kr _ _ R0 S0 F j i)
  · rw [H2_mtab Fx Fy t (Fy.pos 1 t) (fun i _ => hR1 fun j => F j i) (fun j _ => hS1 _)]
    exact congrArg (fun K => Except.ok (mtab _ _ K).data) (funext fun j => funext fun i => kr _ _ R1 S1 F j i)
  · rw [H1_mtab Fx Fy t (Fy.pos 1 t) (Fx.pos 1 t) (fun i _ => hR1 fun j => Y j i) (fun j _ => hS0 _) (fun j _ => hS1 (X j)) (fun i _ => hR0 _)]
    refine congrArg₂ (fun K K' => Except.ok ((mtab _ _ K).data ++ (mtab _ _ K').data)) (funext fun j => funext fun i => ?_) (funext fun j => funext fun i => kr' _ _ R0 S1 X j i)
    rw [kr]

include hn hn' hk hk' in
/-- C73 (stars of product grids, 0- and 2-forms): symmetric and positive definite on every product of periodic and regular grids. -/
theorem C73_star_product (d : Fin 3) (hd : d ≠ 1) (x y : List ℝ) (hx : (𝔾).N d t = .ok x.length) (hy : (𝔾).N d t = .ok y.length) :
    ∃ u v, (𝔾).H d t x = .ok u ∧ (𝔾).H d t y = .ok v ∧ dot x v = dot y u ∧ ((∃ z ∈ x, z ≠ 0) → 0 < dot x u) := by
  have Fx := grid_factor k n hn xmin xmax
  have Fy := grid_factor k' n' hn' ymin ymax
  obtain ⟨S0, S1, R0, R1, p0, p1, q0, q1, h0, h2, -⟩ := star_mat k k' n n' hn hn' hk hk' xmin xmax ymin ymax t
  rw [N_eq Fx Fy, Except.ok.injEq] at hx hy
  obtain rfl | rfl : d = 0 ∨ d = 2 := by omega
  · obtain ⟨F, rfl⟩ := flat0 (show x.length = (gy).N 0 t * (gx).N 0 t from hx.symm)
    obtain ⟨G, rfl⟩ := flat0 (show y.length = (gy).N 0 t * (gx).N 0 t from hy.symm)
    refine ⟨_, _, h0 F, h0 G, ?_, fun h => ?_⟩
    · rw [dot_data, dot_data]; exact kron_symm q0 p0 F G
    · rw [dot_data]; exact kron_pos q0 p0 F (pos_data h)
  · obtain ⟨F, rfl⟩ := flat0 (show x.length = (gy).N 1 t * (gx).N 1 t from hx.symm)
    obtain ⟨G, rfl⟩ := flat0 (show y.length = (gy).N 1 t * (gx).N 1 t from hy.symm)
    refine ⟨_, _, h2 F, h2 G, ?_, fun h => ?_⟩
    · rw [dot_data, dot_data]; exact kron_symm q1 p1 F G
    · rw [dot_data]; exact kron_pos q1 p1 F (pos_data h)

include hn hn' hk hk' in
/-- C73 (stars of product grids, 1-forms): `∫ α∧*β` is symmetric and positive definite. -/
theorem C73_star_product_one (α β : List ℝ) (hα : (𝔾).N 1 t = .ok α.length) (hβ : (𝔾).N 1 t = .ok β.length) :
    ∃ u v, (𝔾).H 1 t α = .ok u ∧ (𝔾).H 1 t β = .ok v ∧ pair1 gx gy t α v = pair1 gx gy t β u ∧ ((∃ z ∈ α, z ≠ 0) → 0 < pair1 gx gy t α u) := by
  have Fx := grid_factor k n hn xmin xmax
  have Fy := grid_factor k' n' hn' ymin ymax
  obtain ⟨S0, S1, R0, R1, p0, p1, q0, q1, -, -, h1⟩ := star_mat k k' n n' hn hn' hk hk' xmin xmax ymin ymax t
  obtain ⟨ex1, ex2⟩ := grid_swap hn xmin xmax t
  obtain ⟨ey1, ey2⟩ := grid_swap hn' ymin ymax t
  rw [N_eq Fx Fy, Except.ok.injEq] at hα hβ
  obtain ⟨X, Y, rfl⟩ := flat1 (show α.length = (gy).N 0 t * (gx).N 1 t + (gy).N 1 t * (gx).N 0 t from hα.symm)
  obtain ⟨X', Y', rfl⟩ := flat1 (show β.length = (gy).N 0 t * (gx).N 1 t + (gy).N 1 t * (gx).N 0 t from hβ.symm)
  have key : ∀ X Y X' Y' : ℕ → ℕ → ℝ, pair1 gx gy t ((mtab ((gy).N 0 t) ((gx).N 1 t) X).data ++ (mtab ((gy).N 1 t) ((gx).N 0 t) Y).data)
      ((mtab ((gy).N 1 t) ((gx).N 0 t) fun j i => -kron ((gy).N 1 t) ((gx).N 0 t) R1 S0 Y' j i).data ++
        (mtab ((gy).N 0 t) ((gx).N 1 t) (kron ((gy).N 0 t) ((gx).N 1 t) R0 S1 X')).data)
      = dot2 ((gy).N 0 t) ((gx).N 1 t) X (kron ((gy).N 0 t) ((gx).N 1 t) R0 S1 X') + dot2 ((gy).N 1 t) ((gx).N 0 t) Y (kron ((gy).N 1 t) ((gx).N 0 t) R1 S0 Y') := fun X Y X' Y' => by
    unfold pair1 xEdges
    rw [ex1, ey2]
    rw [List.take_left' (length_data _ _ _), List.drop_left' (length_data _ _ _), List.take_left' (length_data _ _ _), List.drop_left' (length_data _ _ _)]
    rw [dot_data, dot_data]
    unfold dot2
    simp only [mul_neg, sum_neg_distrib, sub_neg_eq_add]
  refine ⟨_, _, h1 X Y, h1 X' Y', ?_, fun h => ?_⟩
  · rw [key, key, kron_symm q0 p1, kron_symm q1 p0]
  · rw [key]
    obtain ⟨z, hz, hne⟩ := h
    rcases List.mem_append.1 hz with hz | hz
    · exact add_pos_of_pos_of_nonneg (kron_pos q0 p1 X (pos_data ⟨z, hz, hne⟩)) (kron_nonneg q1 p0 Y)
    · exact add_pos_of_nonneg_of_pos (kron_nonneg q0 p1 X) (kron_pos q1 p0 Y (pos_data ⟨z, hz, hne⟩))

/-- The Laplacian of a 0-form on a product grid, as the applications compose it: `H2(D1(H1(D0(f))))` (dec/grid1.py:55-67 in one dimension; doc/plot/cheb/poisson2d_cheb.py:21 and
poisson2d_periodic.py:24 call the two-dimensional one `laplacian2`, which the repository does not define). -/
def lap2 (g : Grid2) (t : Bool) (f : List ℝ) : Except Err (List ℝ) := do
  let a ← g.D 0 t f
  let b ← g.H 1 t a
  let c ← g.D 1 (!t) b
  g.H 2 (!t) c

include hn hn' hk hk' in
/-- C73 (Laplacian of product grids): self-adjoint and negative semidefinite for `∫ f *g`, and the energy of a 0-form vanishes exactly when its derivative does. -/
theorem C73_laplacian_product (hab : xmin < xmax) (hab' : ymin < ymax) (x y : List ℝ) (hx : (𝔾).N 0 t = .ok x.length) (hy : (𝔾).N 0 t = .ok y.length) :
    ∃ Lx Ly u v dx, lap2 𝔾 t x = .ok Lx ∧ lap2 𝔾 t y = .ok Ly ∧ (𝔾).H 0 t Lx = .ok u ∧ (𝔾).H 0 t Ly = .ok v ∧ (𝔾).D 0 t x = .ok dx ∧
      dot x v = dot y u ∧ dot x u ≤ 0 ∧ (dot x u = 0 ↔ ∀ z ∈ dx, z = 0) := by
  have maps : ∀ x : List ℝ, (𝔾).N 0 t = .ok x.length → ∃ a b c d, (𝔾).D 0 t x = .ok a ∧ (𝔾).N 1 t = .ok a.length ∧ (𝔾).H 1 t a = .ok b ∧ (𝔾).N 1 (!t) = .ok b.length ∧
      (𝔾).D 1 (!t) b = .ok c ∧ (𝔾).H 2 (!t) c = .ok d ∧ (𝔾).H 0 t d = .ok c ∧ lap2 𝔾 t x = .ok d := fun x hx => by
    have Fx := grid_factor k n hn xmin xmax
    have Fy := grid_factor k' n' hn' ymin ymax
    obtain ⟨A, cA⟩ := grid_coh k n hn xmin xmax t
    obtain ⟨B, cB⟩ := grid_coh k' n' hn' ymin ymax t
    obtain ⟨A', cA'⟩ := grid_coh k n hn xmin xmax (!t)
    obtain ⟨B', cB'⟩ := grid_coh k' n' hn' ymin ymax (!t)
    have hx' := hx
    rw [N_eq Fx Fy, Except.ok.injEq] at hx'
    obtain ⟨F, rfl⟩ := flat0 (show x.length = (gy).N 0 t * (gx).N 0 t from hx'.symm)
    have e1 := D0_mat Fx Fy cA cB F
    have l1 : (𝔾).N 1 t = .ok ((mtab ((gy).N 0 t) ((gx).N 1 t) (dx (gx) t A F)).data ++ (mtab ((gy).N 1 t) ((gx).N 0 t) (dy (gy) t B F)).data).length := by
      rw [N_eq Fx Fy, List.length_append, length_data, length_data]; rfl
    obtain ⟨b, e2, l2, -⟩ := C26_hodge_one k k' n n' hn hn' (fun h => absurd h hk) (fun h => absurd h hk') xmin xmax ymin ymax t _ l1
    have l2' := l2
    rw [N_eq Fx Fy, Except.ok.injEq] at l2'
    obtain ⟨X, Y, rfl⟩ := flat1 (show b.length = (gy).N 0 (!t) * (gx).N 1 (!t) + (gy).N 1 (!t) * (gx).N 0 (!t) from l2'.symm)
    have e3 := D1_mat Fx Fy cA' cB' X Y
    obtain ⟨d, e4, -, e5⟩ := C26_hodge_even k k' n n' hn hn' (fun h => absurd h hk) (fun h => absurd h hk') xmin xmax ymin ymax (!t)
      (mtab ((gy).N 1 (!t)) ((gx).N 1 (!t)) fun j i => -dy (gy) (!t) B' X j i + dx (gx) (!t) A' Y j i).data 2 (by decide) (by rw [N_eq Fx Fy, length_data]; rfl)
    rw [show (2 : Fin 3) - 2 = 0 from rfl, Bool.not_not] at e5
    refine ⟨_, _, _, d, e1, l1, e2, l2, e3, e4, e5, ?_⟩
    unfold lap2
    rw [e1]
    show ((𝔾).H 1 t _ >>= fun b => (𝔾).D 1 (!t) b >>= fun c => (𝔾).H 2 (!t) c) = _
    rw [e2]
    show ((𝔾).D 1 (!t) _ >>= fun c => (𝔾).H 2 (!t) c) = _
    rw [e3]
    exact e4
  obtain ⟨a, b, c, d, e1, l1, e2, l2, e3, e4, e5, e6⟩ := maps x hx
  obtain ⟨a', b', c', d', e1', l1', e2', l2', e3', e4', e5', e6'⟩ := maps y hy
  have adj : ∀ {x a b c : List ℝ}, (𝔾).N 0 t = .ok x.length → (𝔾).D 0 t x = .ok a → (𝔾).N 1 (!t) = .ok b.length → (𝔾).D 1 (!t) b = .ok c → dot x c = -pair1 gx gy t a b := fun {x a b c} hx h1 hb h2 => by
    obtain ⟨da, dβ, h3, h4, h5⟩ := C72_adjoint k k' n n' hn hn' xmin xmax ymin ymax t hab hab' x b hx hb
    rw [h1] at h3; rw [h2] at h4
    rw [← Except.ok.inj h3, ← Except.ok.inj h4] at h5
    have h5' : pair1 gx gy t a b = -dot x c := h5
    rw [h5', neg_neg]
  obtain ⟨u, v, s1, s2, s3, s4⟩ := C73_star_product_one k k' n n' hn hn' hk hk' xmin xmax ymin ymax t a a' l1 l1'
  rw [e2] at s1; rw [e2'] at s2
  obtain rfl := Except.ok.inj s1
  obtain rfl := Except.ok.inj s2
  have zero : (¬ ∃ z ∈ a, z ≠ 0) → pair1 gx gy t a b = 0 := fun h => by
    push Not at h
    have z1 : ∀ (x y : List ℝ), (∀ z ∈ x, z = 0) → dot x y = 0 := fun x y hz => by
      unfold dot vmul
      refine List.sum_eq_zero fun z hz' => ?_
      obtain ⟨i, hi, rfl⟩ := List.mem_iff_getElem.1 hz'
      rw [List.getElem_zipWith, hz _ (List.getElem_mem _), zero_mul]
    unfold pair1
    rw [z1 _ _ fun z hz => h z (List.mem_of_mem_take hz), z1 _ _ fun z hz => h z (List.mem_of_mem_drop hz), sub_zero]
  refine ⟨_, _, _, _, _, e6, e6', e5, e5', e1, ?_, ?_, ?_⟩
  · rw [adj hx e1 l2' e3', adj hy e1' l2 e3, s3]
  · rw [adj hx e1 l2 e3]
    by_cases h : ∃ z ∈ a, z ≠ 0
    · linarith [s4 h]
    · rw [zero h]; norm_num
  · rw [adj hx e1 l2 e3]
    constructor
    · intro h
      by_contra h'
      push Not at h'
      linarith [s4 h']
    · intro h
      rw [zero (by push Not; exact h)]; norm_num

end

/-- Non-vacuity: the energy of a step on a regular grid of three vertices is not zero. -/
example : ∃ Lx Ly u v, (grid .regular 3 0 1).laplacian true [0, 1, 0] = .ok Lx ∧ (grid .regular 3 0 1).laplacian true [1, 2, 3] = .ok Ly ∧
    (grid .regular 3 0 1).H 0 true Lx = .ok u ∧ (grid .regular 3 0 1).H 0 true Ly = .ok v ∧
    dot [0, 1, 0] v = dot [1, 2, 3] u ∧ dot [0, 1, 0] u < 0 := by
  obtain ⟨Lx, Ly, u, v, h1, h2, h3, h4, h5, h6, h7⟩ := C73_laplacian .regular 3 (by norm_num [validSize]) (by simp) 0 1 (by norm_num) true [0, 1, 0] [1, 2, 3] rfl rfl
  refine ⟨Lx, Ly, u, v, h1, h2, h3, h4, h5, lt_of_le_of_ne h6 fun h => ?_⟩
  have h8 := h7.1 h
  have : (grid .regular 3 0 1).D 0 true [0, 1, 0] = some [1, -1] := by
    have hd : (grid .regular 3 0 1).D 0 true [0, 1, 0] = some (diff [0, 1, 0]) := (Regular.isInterval (n := 3) (by norm_num) 0 1).D0 _
    rw [hd]; norm_num [diff]
  rw [this] at h8
  have : ([1, -1] : List ℝ) = [0, 0] := Option.some.inj h8
  norm_num at this

/-- Non-vacuity: a 0-form on the product of a periodic and a regular grid. -/
example : ∃ u v, (product (grid .periodic 2 0 1) (grid .regular 2 0 1)).H 0 true [1, 2, 3, 4] = .ok u ∧ (product (grid .periodic 2 0 1) (grid .regular 2 0 1)).H 0 true [0, 1, 0, 0] = .ok v ∧
    dot [1, 2, 3, 4] v = dot [0, 1, 0, 0] u ∧ 0 < dot [1, 2, 3, 4] u := by
  obtain ⟨u, v, h1, h2, h3, h4⟩ := C73_star_product .periodic .regular 2 2 (by norm_num [validSize]) (by norm_num [validSize]) (by simp) (by simp) 0 1 0 1 true 0 (by decide)
    [1, 2, 3, 4] [0, 1, 0, 0] (by rw [N_eq (grid_factor _ _ (by norm_num [validSize]) _ _) (grid_factor _ _ (by norm_num [validSize]) _ _)]; rfl)
    (by rw [N_eq (grid_factor _ _ (by norm_num [validSize]) _ _) (grid_factor _ _ (by norm_num [validSize]) _ _)]; rfl)
  exact ⟨u, v, h1, h2, h3, h4 ⟨1, by simp, by norm_num⟩⟩

end Dec.Props
