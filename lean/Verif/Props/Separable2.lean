import Verif.Props.Separable
import Verif.Props.HodgeDecomposition
import Verif.Props.PoissonCheb

set_option linter.unusedSimpArgs false
set_option linter.unusedVariables false

/-!
# C110: the left-hand sides of the Poisson equations of `/repo/doc/plot/cheb/poisson2d_cheb.py` and `/repo/doc/plot/cheb/poisson2d_periodic.py`, line by line
-/

namespace Dec.Props

open Real Finset Dec.G2 Dec.Sp

/-- The boundary values of a function on the dual edges of a line: `boundary_condition` on an interval, nothing on a circle (the one-dimensional examples add no boundary term there). -/
def ends (k : Kind) (g : Grid1) (f : ℝ → ℝ) : List ℝ :=
  match k with
  | .periodic => List.replicate (g.N 1 false) 0
  | .regular => g.boundary_condition f
  | .chebyshev => g.boundary_condition f

/-- The boundary term of a problem with prescribed values, `H1(D0(H1d(bc f)))`. -/
noncomputable def valueTerm (k : Kind) (g : Grid1) (f : ℝ → ℝ) : Except Err (List ℝ) := do
  let b ← g.H 1 false (ends k g f)
  let c ← g.d0 true b
  g.H 1 true c

/-- The left-hand side with prescribed values on a line: `Ld(P0d f) + H1(D0(H1d(bc f)))`. -/
noncomputable def valueSide (k : Kind) (g : Grid1) (f : ℝ → ℝ) : Except Err (List ℝ) := do
  let u ← g.laplacian false (g.P 0 false f)
  let d ← valueTerm k g f
  pure (vadd u d)

/-- The left-hand side with prescribed derivatives on a line: `L(P0 f) + H1d(bc f')`. -/
noncomputable def slopeSide (k : Kind) (g : Grid1) (f f' : ℝ → ℝ) : Except Err (List ℝ) := do
  let u ← g.laplacian true (g.P 0 true f)
  let d ← g.H 1 false (ends k g f')
  pure (vadd u d)

theorem interval_beta {g : Grid1} {v w : ℕ → ℝ} (hg : IsInterval g v w) (ho : ∀ i < g.n - 1, g.xmin < w i ∧ w i < g.xmax) (F : ℝ → ℝ) :
    g.boundary_condition F = tab (g.N 1 false) (G2.beta g F) := by
  have hn := hg.two_le
  rw [hg.N10]
  have e : g.boundary_condition F = tab g.n fun i => if i = g.n - 1 then F g.xmax else if i = 0 then -F g.xmin else 0 := by
    unfold Grid1.boundary_condition
    rw [replicate_tab, set_tab, set_tab]
  rw [e]
  refine tab_congr fun i h => ?_
  unfold G2.beta
  rw [hi_tab hg.edges_dual h, lo_tab hg.edges_dual h]
  by_cases h0 : i = 0
  · subst h0
    have h1 : 0 < g.n - 1 := by omega
    have h2 : (0 : ℕ) ≠ g.n - 1 := by omega
    simp only [if_true, if_pos h1, if_neg h2, if_neg (ho 0 h1).2.ne]
    ring
  · have h3 := (ho (i - 1) (by omega)).1.ne'
    by_cases h1 : i < g.n - 1
    · have h2 : i ≠ g.n - 1 := by omega
      simp only [if_neg h0, if_pos h1, if_neg h2, if_neg h3, if_neg (ho i h1).2.ne]
      ring
    · have h2 : i = g.n - 1 := by omega
      simp only [if_neg h0, if_neg h1, if_pos h2, if_neg h3]; simp

theorem ends_beta (k : Kind) (n : ℕ) (hn : validSize k n) {a b : ℝ} (hab : a < b) (f : ℝ → ℝ) :
    ends k (grid k n a b) f = tab ((grid k n a b).N 1 false) (G2.beta (grid k n a b) f) := by
  cases k
  · show List.replicate n 0 = tab n _
    rw [replicate_tab]
    exact tab_congr fun i hi => (periodic_beta hn hab f hi).symm
  · obtain ⟨v, w, hg, ho⟩ := interval_order .regular hn hab
    exact interval_beta hg ho f
  · obtain ⟨v, w, hg, ho⟩ := interval_order .chebyshev hn hab
    exact interval_beta hg ho f

/-! ## Values on the boundary, 0-forms -/

section
variable {gx gy : Grid1} {t : Bool} {A A' S0 S1 S0' S1' B B' R0 R1 R0' R1' : ℕ → ℕ → ℝ}

theorem vadd_data (r c : ℕ) (K K' : ℕ → ℕ → ℝ) : vadd (mtab r c K).data (mtab r c K').data = (mtab r c fun j i => K j i + K' j i).data := zipWith_tab _ _ _ _

section
variable (Fx : Factor gx) (Fy : Factor gy) (Mx : Mats gx t A A' S0 S1 S0' S1') (My : Mats gy t B B' R0 R1 R0' R1')
include Fx Fy Mx My

theorem value_m (F G : ℕ → ℕ → ℝ) : ∃ w₁ w₂, (product gx gy).H 1 t ((mtab (gy.N 0 t) (gx.N 1 t) F).data ++ (mtab (gy.N 1 t) (gx.N 0 t) G).data) = .ok w₁ ∧
    (product gx gy).D 1 (!t) w₁ = .ok w₂ ∧ (product gx gy).H 2 (!t) w₂ = .ok (mtab (gy.N 0 t) (gx.N 0 t) fun j i =>
      rO (gx.N 1 (!t)) S1' (rO (gx.N 0 (!t)) A' (rO (gx.N 1 t) S1 F)) j i + cO (gy.N 1 (!t)) R1' (cO (gy.N 0 (!t)) B' (cO (gy.N 1 t) R1 G)) j i).data := by
  refine ⟨_, _, H1_m Fx Fy Mx My F G, D1_m' Fx Fy Mx My _ _, ?_⟩
  rw [H2_m' Fx Fy Mx My]
  refine congrArg _ (congrArg Arr.data (mtab_congr fun j hj i hi => ?_))
  simp only [cO_neg, neg_neg, cO_add, rO_add]
  rw [add_comm]
  refine congrArg₂ (· + ·) ?_ ?_
  · simp only [rO_cO]
    rw [cinv My _ _ hj]
  · simp only [← rO_cO]
    rw [rinv Mx _ _ hi]

end

theorem valueTerm_m (k : Kind) {β : ℕ → ℝ} {F : ℝ → ℝ} (M : Mats gx false A A' S0 S1 S0' S1') (h : ends k gx F = tab (gx.N 1 false) β) :
    valueTerm k gx F = .ok (tab (gx.N 0 false) (rO (gx.N 1 true) S1' (rO (gx.N 0 true) A' (rO (gx.N 1 false) S1 fun _ => β)) 0)) := by
  unfold valueTerm
  rw [h, M.h1]; simp only [bind, Except.bind]
  have h2 := M.d'
  have h3 := M.h1'
  rw [Bool.not_false] at h2 h3
  rw [show gx.d0 true (tab (gx.N 0 (!false)) _) = _ from h2 _]; simp only []
  rw [h3]; rfl

theorem valueSide_m (k : Kind) {β : ℕ → ℝ} {F : ℝ → ℝ} (Fx : Factor gx) (M : Mats gx false A A' S0 S1 S0' S1') (h : ends k gx F = tab (gx.N 1 false) β) :
    valueSide k gx F = .ok (tab (gx.N 0 false) fun i => lapX gx false A A' S1 S1' (fun _ i => F (vx gx false i)) 0 i +
      rO (gx.N 1 true) S1' (rO (gx.N 0 true) A' (rO (gx.N 1 false) S1 fun _ => β)) 0 i) := by
  unfold valueSide
  rw [P0_tab Fx, M.lap]; simp only [bind, Except.bind]
  rw [valueTerm_m k M h]; simp only []
  rw [vadd_tab]; rfl

theorem slopeSide_m (k : Kind) {β : ℕ → ℝ} {F F' : ℝ → ℝ} (Fx : Factor gx) (M : Mats gx true A A' S0 S1 S0' S1') (h : ends k gx F' = tab (gx.N 1 false) β) :
    slopeSide k gx F F' = .ok (tab (gx.N 0 true) fun i => lapX gx true A A' S1 S1' (fun _ i => F (vx gx true i)) 0 i + rO (gx.N 1 false) S1' (fun _ => β) 0 i) := by
  unfold slopeSide
  rw [P0_tab Fx, M.lap]; simp only [bind, Except.bind]
  have h3 := M.h1'
  rw [Bool.not_true] at h3
  rw [h, h3]; simp only []
  rw [vadd_tab]; rfl

end

section
variable (k k' : Kind) (n n' : ℕ) (hn : validSize k n) (hn' : validSize k' n') (h927 : k = .chebyshev → n ≤ 927) (h927' : k' = .chebyshev → n' ≤ 927) {xmin xmax ymin ymax : ℝ}
  (hx : xmin < xmax) (hy : ymin < ymax)
local notation "gx" => grid k n xmin xmax
local notation "gy" => grid k' n' ymin ymax
local notation "𝔾" => product gx gy
include hn hn' h927 h927' hx hy

/-- **C110** (0-forms, values on the boundary): for every function `f` of two variables, the value of `L0d(P0d f) + H2(D1(H1d(BC0 f)))` at a dual vertex is the value of the one-dimensional
`Ld(P0d ·) + H1(D0(H1d(bc ·)))` of the restriction of `f` to the horizontal line through the vertex, plus that of the restriction to the vertical line. -/
theorem C110_dual_0 (f : ℝ → ℝ → ℝ) :
    ∃ p L v w₁ w₂ w₃, (𝔾).P 0 false [f] = .ok p ∧ lap2 𝔾 false p = .ok L ∧ (𝔾).BC 1 [f] = .ok v ∧ (𝔾).H 1 false v = .ok w₁ ∧ (𝔾).D 1 true w₁ = .ok w₂ ∧ (𝔾).H 2 true w₂ = .ok w₃ ∧
      (𝔾).N 0 false = .ok (vadd L w₃).length ∧
      ∀ j < (gy).N 0 false, ∀ i < (gx).N 0 false, ∃ u u', valueSide k gx (fun x => f x (((gy).cells.v false).getD j 0)) = .ok u ∧
        valueSide k' gy (fun y => f (((gx).cells.v false).getD i 0) y) = .ok u' ∧ (vadd L w₃).getD (j * (gx).N 0 false + i) 0 = u.getD i 0 + u'.getD j 0 := by
  have Fx := grid_factor k n hn xmin xmax
  have Fy := grid_factor k' n' hn' ymin ymax
  obtain ⟨A, A', S0, S1, S0', S1', Mx⟩ := exists_mats Fx (grid_stars k n hn h927 xmin xmax) false
  obtain ⟨B, B', R0, R1, R0', R1', My⟩ := exists_mats Fy (grid_stars k' n' hn' h927' ymin ymax) false
  obtain ⟨w₁, w₂, h1, h2, h3⟩ := value_m Fx Fy Mx My (fun j i => G2.beta gx (fun x => f x (vx gy false j)) i) (fun j i => G2.beta gy (fun y => f (vx gx false i) y) j)
  refine ⟨_, _, _, w₁, w₂, _, P0_mtab Fx Fy false f, lap2_m Fx Fy Mx My _, BC1_mtab Fx Fy f, h1, h2, h3, ?_, fun j hj i hi => ?_⟩
  · rw [vadd_data, length_data, N_eq Fx Fy]; rfl
  · rw [vadd_data, getD_data hj hi]
    refine ⟨_, _, valueSide_m k Fx Mx (ends_beta k n hn hx _), valueSide_m k' Fy My (ends_beta k' n' hn' hy _), ?_⟩
    rw [getD_tab hi, getD_tab hj]
    have q1 : lapX gx false A A' S1 S1' (fun j i => f (vx gx false i) (vx gy false j)) j i = lapX gx false A A' S1 S1' (fun _ i => f (vx gx false i) (vx gy false j)) 0 i := rfl
    have q2 : lapY gy false B B' R1 R1' (fun j i => f (vx gx false i) (vx gy false j)) j i = lapX gy false B B' R1 R1' (fun _ j => f (vx gx false i) (vx gy false j)) 0 j := rfl
    rw [q1, q2, show (!false) = true from rfl]
    have q3 : rO ((gx).N 1 true) S1' (rO ((gx).N 0 true) A' (rO ((gx).N 1 false) S1 fun j i => G2.beta gx (fun x => f x (vx gy false j)) i)) j i
      = rO ((gx).N 1 true) S1' (rO ((gx).N 0 true) A' (rO ((gx).N 1 false) S1 fun _ => G2.beta gx fun x => f x (vx gy false j))) 0 i := rfl
    have q4 : cO ((gy).N 1 true) R1' (cO ((gy).N 0 true) B' (cO ((gy).N 1 false) R1 fun j i => G2.beta gy (fun y => f (vx gx false i) y) j)) j i
      = rO ((gy).N 1 true) R1' (rO ((gy).N 0 true) B' (rO ((gy).N 1 false) R1 fun _ => G2.beta gy fun y => f (vx gx false i) y)) 0 j := rfl
    rw [q3, q4]
    exact add_add_add_comm _ _ _ _

end

/-! ## Derivatives on the boundary, 0-forms -/

/-- The lengths of the dual edges become ones. -/
theorem ones_m (k : Kind) (n : ℕ) (hn : validSize k n) (h927 : k = .chebyshev → n ≤ 927) {A A' S0 S1 S0' S1' : ℕ → ℕ → ℝ} (M : Mats (grid₀ k n) true A A' S0 S1 S0' S1') {i : ℕ} (hi : i < (grid₀ k n).N 0 true) :
    ∑ l ∈ range ((grid₀ k n).N 1 false), S1' i l * (G2.hi (grid₀ k n) false l - lo (grid₀ k n) false l) = 1 := by
  obtain ⟨a, b, hab, e, -⟩ := grid₀_eq' k n
  have F : Factor (grid₀ k n) := by rw [e]; exact grid_factor k n hn a b
  have r : Resolved k ((grid₀ k n).N 1 false) fun _ => (1 : ℝ) := by
    have h1 := F.pos 1 false
    cases k
    · exact (isCos_const _ 1).isTrig
    · exact isCos_const _ 1
    · exact isPoly_mono (show 1 ≤ _ from h1) ⟨fun _ => 1, fun x => by simp⟩
  have h := (grid₀_star k n hn h927).exact1 F false r
  have h3 := M.h1'
  rw [Bool.not_true] at h3
  have h4 := (h3 _).symm.trans h
  rw [Except.ok.injEq, show (!false) = true from rfl, tab_inj] at h4
  have h5 := h4 i hi
  simp only [intervalIntegral.integral_const, smul_eq_mul, mul_one] at h5
  exact h5

/-- The derivative of a constant vanishes. -/
theorem const_m (k : Kind) (n : ℕ) (hn : validSize k n) {A A' S0 S1 S0' S1' : ℕ → ℕ → ℝ} (M : Mats (grid₀ k n) true A A' S0 S1 S0' S1') {i : ℕ} (hi : i < (grid₀ k n).N 1 true) :
    ∑ l ∈ range ((grid₀ k n).N 0 true), A i l = 0 := by
  obtain ⟨a, b, hab, e, -⟩ := grid₀_eq' k n
  have h := grid_primal k n hn hab (fun _ => 1) (fun _ => rfl)
  rw [← e] at h
  have h4 := (M.d _).symm.trans h
  rw [Except.ok.injEq, tab_inj] at h4
  have h5 := h4 i hi
  simp only [mul_one, sub_self] at h5
  exact h5

section
variable (k k' : Kind) (n n' : ℕ) (hn : validSize k n) (hn' : validSize k' n') (h927 : k = .chebyshev → n ≤ 927) (h927' : k' = .chebyshev → n' ≤ 927)
local notation "gx" => grid₀ k n
local notation "gy" => grid₀ k' n'
local notation "𝔾" => product gx gy


include hn in
theorem lapX_const (A A' S0 S1 S0' S1' : ℕ → ℕ → ℝ) (M : Mats gx true A A' S0 S1 S0' S1') (f c : ℕ → ℝ) (j i : ℕ) :
    lapX gx true A A' S1 S1' (fun j i => f i + c j) j i = lapX gx true A A' S1 S1' (fun _ => f) 0 i := by
  unfold lapX
  refine sum_congr rfl fun l _ => congrArg _ (sum_congr rfl fun m _ => congrArg _ (sum_congr rfl fun p hp => congrArg _ ?_))
  have h := const_m k n hn M (mem_range.1 hp)
  show ∑ q ∈ range ((gx).N 0 true), A p q * (f q + c j) = ∑ q ∈ range ((gx).N 0 true), A p q * f q
  simp only [mul_add, sum_add_distrib]
  rw [← sum_mul, h, zero_mul, add_zero]

include hn hn' h927 h927'

/-- **C110** (0-forms, derivatives on the boundary): for all functions `a`, `a'`, `b`, `b'`, the value of `L0(P0 f) + H2d(BC1 (-b', a'))`, `f(x, y) = a(x) + b(y)`, at a vertex is the value of the
one-dimensional `L(P0 ·) + H1d(bc ·)` of `a` and `a'` plus that of `b` and `b'`. -/
theorem C110_primal_0 (a a' b b' : ℝ → ℝ) :
    ∃ p L v w u u', (𝔾).P 0 true [fun x y => a x + b y] = .ok p ∧ lap2 𝔾 true p = .ok L ∧ (𝔾).BC 2 [fun _ y => -b' y, fun x _ => a' x] = .ok v ∧ (𝔾).H 2 false v = .ok w ∧
      (𝔾).N 0 true = .ok (vadd L w).length ∧ slopeSide k gx a a' = .ok u ∧ slopeSide k' gy b b' = .ok u' ∧
      ∀ j < (gy).N 0 true, ∀ i < (gx).N 0 true, (vadd L w).getD (j * (gx).N 0 true + i) 0 = u.getD i 0 + u'.getD j 0 := by
  obtain ⟨xmin, xmax, hx, e, -⟩ := grid₀_eq' k n
  obtain ⟨ymin, ymax, hy, e', -⟩ := grid₀_eq' k' n'
  have Fx : Factor gx := by rw [e]; exact grid_factor k n hn _ _
  have Fy : Factor gy := by rw [e']; exact grid_factor k' n' hn' _ _
  have Sx : Stars gx := by rw [e]; exact grid_stars k n hn h927 _ _
  have Sy : Stars gy := by rw [e']; exact grid_stars k' n' hn' h927' _ _
  have ex : ∀ f, ends k gx f = tab ((gx).N 1 false) (G2.beta gx f) := fun f => by rw [e]; exact ends_beta k n hn hx f
  have ey : ∀ f, ends k' gy f = tab ((gy).N 1 false) (G2.beta gy f) := fun f => by rw [e']; exact ends_beta k' n' hn' hy f
  obtain ⟨A, A', S0, S1, S0', S1', Mx⟩ := exists_mats Fx Sx true
  obtain ⟨B, B', R0, R1, R0', R1', My⟩ := exists_mats Fy Sy true
  refine ⟨_, _, _, _, _, _, P0_mtab Fx Fy true _, lap2_m Fx Fy Mx My _, BC2_mtab Fx Fy _ _, H2_m' Fx Fy Mx My _, ?_, slopeSide_m k Fx Mx (ex a'), slopeSide_m k' Fy My (ey b'), fun j hj i hi => ?_⟩
  · rw [vadd_data, length_data, N_eq Fx Fy]; rfl
  rw [vadd_data, getD_data hj hi, getD_tab hi, getD_tab hj]
  have q1 := lapX_const k n hn A A' S0 S1 S0' S1' Mx (fun i => a (vx gx true i)) (fun j => b (vx gy true j)) j i
  have q2 : lapY gy true B B' R1 R1' (fun j i => a (vx gx true i) + b (vx gy true j)) j i = lapX gy true B B' R1 R1' (fun _ j => b (vx gy true j)) 0 j := by
    have := lapX_const k' n' hn' B B' R0 R1 R0' R1' My (fun j => b (vx gy true j)) (fun i => a (vx gx true i)) i j
    rw [← this]
    simp only [add_comm]
    rfl
  have P1 : ∀ i y, Integrate.P1x (fun _ y => -b' y) (lo gx false i) (G2.hi gx false i) y = -(b' y * (G2.hi gx false i - lo gx false i)) := fun i y => by
    unfold Integrate.P1x; rw [intervalIntegral.integral_const, smul_eq_mul]; ring
  have P2 : ∀ j x, Integrate.P1y (fun x _ => a' x) x (lo gy false j) (G2.hi gy false j) = a' x * (G2.hi gy false j - lo gy false j) := fun j x => by
    unfold Integrate.P1y; rw [intervalIntegral.integral_const, smul_eq_mul]; ring
  have bs : ∀ (g : Grid1) (f : ℝ → ℝ) (c : ℝ) (i : ℕ), G2.beta g (fun x => f x * c) i = G2.beta g f i * c := fun g f c i => by unfold G2.beta; split_ifs <;> ring
  have bn : ∀ (g : Grid1) (f : ℝ → ℝ) (i : ℕ), G2.beta g (fun x => -f x) i = -G2.beta g f i := fun g f i => by unfold G2.beta; split_ifs <;> ring
  simp only [P1, P2, bs, bn, neg_neg]
  rw [q1, q2, cO_add, rO_add]
  have h1 := ones_m k n hn h927 Mx hi
  have h2 := ones_m k' n' hn' h927' My hj
  have q3 : rO ((gx).N 1 (!true)) S1' (cO ((gy).N 1 (!true)) R1' fun j i => G2.beta gy b' j * (G2.hi gx false i - lo gx false i)) j i = rO ((gy).N 1 false) R1' (fun _ => G2.beta gy b') 0 j := by
    rw [rO_cO]
    refine sum_congr rfl fun l _ => congrArg _ ?_
    show ∑ m ∈ range ((gx).N 1 false), S1' i m * (G2.beta gy b' l * (G2.hi gx false m - lo gx false m)) = _
    calc _ = G2.beta gy b' l * ∑ m ∈ range ((gx).N 1 false), S1' i m * (G2.hi gx false m - lo gx false m) := by
          rw [mul_sum]; exact sum_congr rfl fun m _ => by ring
      _ = G2.beta gy b' l := by rw [h1, mul_one]
  have q4 : rO ((gx).N 1 (!true)) S1' (cO ((gy).N 1 (!true)) R1' fun j i => G2.beta gx a' i * (G2.hi gy false j - lo gy false j)) j i = rO ((gx).N 1 false) S1' (fun _ => G2.beta gx a') 0 i := by
    refine sum_congr rfl fun l _ => congrArg _ ?_
    show ∑ m ∈ range ((gy).N 1 false), R1' j m * (G2.beta gx a' l * (G2.hi gy false m - lo gy false m)) = _
    calc _ = G2.beta gx a' l * ∑ m ∈ range ((gy).N 1 false), R1' j m * (G2.hi gy false m - lo gy false m) := by
          rw [mul_sum]; exact sum_congr rfl fun m _ => by ring
      _ = G2.beta gx a' l := by rw [h2, mul_one]
  beta_reduce
  rw [q3, q4]
  ring

end


-- a grid with an interval and a circle as factors, and 0- and 1-forms of the right sizes, meet the hypotheses
example : ∃ z, lap2 (product (grid .chebyshev 3 (-1) 1) (grid .periodic 4 0 (2 * π))) true [1, 2, 3, 4, 5, 6, 7, 8, 9, 10, 11, 13] = .ok z ∧ z.length = 12 := by
  have Fx := grid_factor .chebyshev 3 (show 2 ≤ 3 by norm_num) (-1) 1
  have Fy := grid_factor .periodic 4 (show 1 ≤ 4 by norm_num) 0 (2 * π)
  obtain ⟨z, h, hl, -⟩ := C110_lines_0 .chebyshev .periodic 3 4 (show 2 ≤ 3 by norm_num) (show 1 ≤ 4 by norm_num) (fun _ => by norm_num) (fun h => by cases h) (-1) 1 0 (2 * π) true
    [1, 2, 3, 4, 5, 6, 7, 8, 9, 10, 11, 13] (by rw [N_eq Fx Fy]; rfl)
  exact ⟨z, h, hl⟩

example := C110_dual_0 .chebyshev .periodic 5 4 (show 2 ≤ 5 by norm_num) (show 1 ≤ 4 by norm_num) (fun _ => by norm_num) (fun h => by cases h) (show (-1 : ℝ) < 1 by norm_num)
  (show (0 : ℝ) < 2 * π by positivity) fun x y => exp x * sin y

example := C110_primal_0 .chebyshev .periodic 5 4 (show 2 ≤ 5 by norm_num) (show 1 ≤ 4 by norm_num) (fun _ => by norm_num) (fun h => by cases h) exp exp sin cos

end Dec.Props
