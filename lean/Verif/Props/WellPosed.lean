import Verif.Props.Residual
import Verif.Lib.Dissipative
import Verif.Lib.ChebEnergy

set_option linter.unusedSimpArgs false
set_option linter.unusedVariables false

/-!
# C117: Laplacians of Chebyshev grids and of products with Chebyshev grids (`/repo/doc/plot/cheb/poisson_2d_example.py`)
-/

namespace Dec.Props

open Real Finset Dec.G2 Dec.Sp

/-! ## One axis -/

/-- The energy of an array on the dual vertices of a Chebyshev grid. -/
theorem cheb_dual_energy (n : ℕ) (hn : 2 ≤ n) (h927 : n ≤ 927) (a b : ℝ) (z r : List ℝ) (hz : z.length = n - 1) (h : (Chebyshev.make n a b).laplacian false z = .ok r) :
    r.length = n - 1 ∧ dot z r ≤ -(1 / 2) * dot z z := by
  have h : (Chebyshev.make n).laplacian false z = .ok r := h
  have hv : validSize .chebyshev n := hn
  have hN : (grid₀ .chebyshev n).N 0 false = n - 1 := (Chebyshev.isInterval hn (-1) 1).N00
  have hr : r.length = n - 1 := by
    obtain ⟨L, hL, eL⟩ := lap_elin (grid_factor .chebyshev n hv (-1) 1) (grid_stars .chebyshev n hv (fun _ => h927) (-1) 1) false
    have e := eL z hz
    rw [show (grid .chebyshev n (-1) 1).laplacian false z = .ok r from h] at e
    rw [Except.ok.inj e]
    exact hL.len _ hz
  obtain ⟨u, u', q, g1, g2, g3, g4, g5, g6, d, g7, g8⟩ := C109_dirichlet_function n hn h927 (fun _ => 0) r hr
  have hd := lap_dual_data_zero n hn h927 g7
  have hz2 : z = (Chebyshev.make n).P 0 false u := by
    refine (g8 z hz).1 ?_
    rw [h, hd]
    congr 1
    rw [eq_tab' hr 0, replicate_tab, vsub_tab]
    exact tab_congr fun i _ => (sub_zero _).symm
  have hq2 : (Chebyshev.make n).P 0 false q = r := by
    obtain ⟨q', h1, h2, h3⟩ := C70_reconstruction_determined .chebyshev n hv 0 false r hr
    rw [← h2]
    have hl : ∀ q, ((Chebyshev.make n).P 0 false q).length = n - 1 := fun q => C11_projection .chebyshev n hv (-1) 1 0 false q
    have e : (Chebyshev.make n).P 0 false q = (Chebyshev.make n).P 0 false q' := by
      rw [eq_tab' (hl q) 0, eq_tab' (hl q') 0]
      refine tab_congr fun j hj => ?_
      rw [← hN] at hj
      rw [cheb_P0_getD n hn false q hj, cheb_P0_getD n hn false q' hj]
      have hx := cheb_vx_in n hn false hj
      exact Option.some.inj ((g6 _ hx).symm.trans (h3 _ hx))
    exact e
  refine ⟨hr, ?_⟩
  have hI := Chebyshev.isInterval hn (-1) 1
  have hP : ∀ q, (Chebyshev.make n).P 0 false q = tab (n - 1) fun j => q (-cos (((j : ℝ) + 1 / 2) * (π / ((n - 1 : ℕ) : ℝ)))) := fun q => by
    have : (Chebyshev.make n).P 0 false q = tab (n - 1) fun j => q (Chebyshev.pt (-1) 1 (((j : ℝ) + 1 / 2) * (π / ((n - 1 : ℕ) : ℝ)))) := hI.P0d q
    rw [this]
    refine tab_congr fun j _ => congrArg q ?_
    unfold Chebyshev.pt
    ring
  rw [hz2, ← hq2, hP, hP, dot_tab, dot_tab]
  have e := cheb_energy (N := n - 1) (by omega) (isPoly_mono (by omega) g1) g2 g3 g4 g5
  simp only [pow_two] at e
  exact e

/-- The matrix of the 0-form Laplacian. -/
def L0 (g : Grid1) (t : Bool) (A A' S1 S1' : ℕ → ℕ → ℝ) : ℕ → ℕ → ℝ := mm (g.N 1 (!t)) S1' (mm (g.N 0 (!t)) A' (mm (g.N 1 t) S1 A))
/-- The matrix of the 1-form Laplacian. -/
def L1 (g : Grid1) (t : Bool) (A A' S1 S1' : ℕ → ℕ → ℝ) : ℕ → ℕ → ℝ := mm (g.N 0 t) A (mm (g.N 1 (!t)) S1' (mm (g.N 0 (!t)) A' S1))

section
variable {g : Grid1} {t : Bool} {A A' S0 S1 S0' S1' : ℕ → ℕ → ℝ}

theorem ap_L0 (x : ℕ → ℝ) : ap (g.N 0 t) (L0 g t A A' S1 S1') x = ap (g.N 1 (!t)) S1' (ap (g.N 0 (!t)) A' (ap (g.N 1 t) S1 (ap (g.N 0 t) A x))) := by
  unfold L0; simp only [ap_mm]

theorem ap_L1 (x : ℕ → ℝ) : ap (g.N 1 t) (L1 g t A A' S1 S1') x = ap (g.N 0 t) A (ap (g.N 1 (!t)) S1' (ap (g.N 0 (!t)) A' (ap (g.N 1 t) S1 x))) := by
  unfold L1; simp only [ap_mm]

theorem Mats.lap_ap (M : Mats g t A A' S0 S1 S0' S1') (f : ℕ → ℝ) : g.laplacian t (tab (g.N 0 t) f) = .ok (tab (g.N 0 t) (ap (g.N 0 t) (L0 g t A A' S1 S1') f)) := by
  rw [M.lap f, ap_L0]; rfl

/-- The matrices seen from the other side. -/
theorem Mats.swap (S : Stars g) (M : Mats g t A A' S0 S1 S0' S1') : Mats g (!t) A' A S0' S1' S0 S1 := by
  refine ⟨M.d', by rw [Bool.not_not]; exact M.d, by rw [Bool.not_not]; exact M.h0', by rw [Bool.not_not]; exact M.h1', by rw [Bool.not_not]; exact M.h0, by rw [Bool.not_not]; exact M.h1,
    fun f i hi => ?_, fun f i hi => ?_⟩
  · have := S.inv 0 (!t) (tab (g.N 0 (!t)) f) (length_tab _ _)
    rw [M.h0' f, Bool.not_not] at this
    have h := (M.h1 _).symm.trans this
    rw [Except.ok.injEq, tab_inj] at h
    rw [Bool.not_not]
    exact h i hi
  · have := S.inv 1 (!t) (tab (g.N 1 (!t)) f) (length_tab _ _)
    rw [M.h1' f, Bool.not_not] at this
    have h := (M.h0 _).symm.trans this
    rw [Except.ok.injEq, tab_inj] at h
    rw [Bool.not_not]
    exact h i hi

/-- Nothing but zero is sent to zero by the star of 1-forms. -/
theorem Mats.inj1 (M : Mats g t A A' S0 S1 S0' S1') {f : ℕ → ℝ} (h : ∀ i < g.N 0 (!t), ap (g.N 1 t) S1 f i = 0) : ∀ i < g.N 1 t, f i = 0 := fun i hi => by
  have := M.inv' f i hi
  rw [← this]
  exact sum_eq_zero fun k hk => by
    have := h k (mem_range.1 hk)
    unfold ap at this
    rw [this, mul_zero]

/-- From 0-forms on the other side to 1-forms on this side. -/
theorem diss_edge (S : Stars g) (M : Mats g t A A' S0 S1 S0' S1') (h : Diss (g.N 0 (!t)) (L0 g (!t) A' A S1' S1) (g.N 1 (!t)) A') :
    Diss (g.N 1 t) (L1 g t A A' S1 S1') (g.N 1 (!t)) (mm (g.N 0 (!t)) A' S1) := by
  refine h.conj (w := fun _ => 0) (T := S1) (fun x => by simp) (fun x i hi => ?_) (fun x hx _ => M.inj1 hx)
  rw [ap_L0, ap_L1, Bool.not_not]
end

theorem mpos_one (n : ℕ) : MPos n fun i k => if i = k then 1 else 0 := by
  refine ⟨fun i _ j _ => by simp [eq_comm], fun f ⟨i, hi, hf⟩ => ?_⟩
  have e : ∀ i ∈ range n, f i * ∑ j ∈ range n, (if i = j then 1 else 0) * f j = f i * f i := fun i hi => by
    rw [sum_congr rfl fun j _ => ite_mul _ _ _ _]
    simp only [one_mul, zero_mul, sum_ite_eq, if_pos hi]
  rw [sum_congr rfl e]
  exact sum_pos' (fun i _ => mul_self_nonneg _) ⟨i, mem_range.2 hi, mul_self_pos.2 hf⟩

theorem wq_one (n : ℕ) (x y : ℕ → ℝ) : wq n (fun i k => if i = k then 1 else 0) x y = ∑ i ∈ range n, x i * y i := by
  unfold wq
  refine sum_congr rfl fun i hi => ?_
  rw [sum_congr rfl fun j _ => ite_mul _ _ _ _]
  simp only [one_mul, zero_mul, sum_ite_eq, if_pos hi]

theorem ap_one (n : ℕ) (x : ℕ → ℝ) {i : ℕ} (hi : i < n) : ap n (fun i k => if i = k then 1 else 0) x i = x i := by
  unfold ap
  rw [sum_congr rfl fun j _ => ite_mul _ _ _ _]
  simp only [one_mul, zero_mul, sum_ite_eq, if_pos (mem_range.2 hi)]

/-- The dual side of a Chebyshev grid. -/
theorem cheb_diss_dual (n : ℕ) (hn : 2 ≤ n) (h927 : n ≤ 927) (a b : ℝ) {A A' S0 S1 S0' S1' : ℕ → ℕ → ℝ} (M : Mats (Chebyshev.make n a b) false A A' S0 S1 S0' S1') :
    Diss ((Chebyshev.make n a b).N 0 false) (L0 (Chebyshev.make n a b) false A A' S1 S1') ((Chebyshev.make n a b).N 0 false) fun i k => if i = k then 1 else 0 := by
  have hN : (Chebyshev.make n a b).N 0 false = n - 1 := (Chebyshev.isInterval hn a b).N00
  refine ⟨_, mpos_one _, fun x => ?_⟩
  rw [wq_one]
  have e := (cheb_dual_energy n hn h927 a b (tab _ x) _ (by rw [length_tab, hN]) (M.lap_ap x)).2
  rw [dot_tab, dot_tab] at e
  have hp : 0 ≤ ∑ i ∈ range ((Chebyshev.make n a b).N 0 false), x i * x i := sum_nonneg fun i _ => mul_self_nonneg _
  refine ⟨by linarith, fun h0 i hi => ?_⟩
  have hz : ∑ i ∈ range ((Chebyshev.make n a b).N 0 false), x i * x i = 0 := by linarith
  have := (sum_eq_zero_iff_of_nonneg fun i _ => mul_self_nonneg (x i)).1 hz i (mem_range.2 hi)
  unfold ap
  rw [sum_congr rfl fun j _ => ite_mul _ _ _ _]
  simp only [one_mul, zero_mul, sum_ite_eq, if_pos (mem_range.2 hi)]
  exact mul_self_eq_zero.1 this

/-- The primal side of a Chebyshev grid: the weight measures the derivative and the integral. -/
theorem cheb_diss_primal (n : ℕ) (hn : 2 ≤ n) (h927 : n ≤ 927) (a b : ℝ) (hab : a < b) {A A' S0 S1 S0' S1' : ℕ → ℕ → ℝ} (M : Mats (Chebyshev.make n a b) true A A' S0 S1 S0' S1') :
    Diss ((Chebyshev.make n a b).N 0 true) (L0 (Chebyshev.make n a b) true A A' S1 S1') ((Chebyshev.make n a b).N 1 true) A := by
  have hv : validSize .chebyshev n := hn
  have F : Factor (Chebyshev.make n a b) := grid_factor .chebyshev n hv a b
  have S : Stars (Chebyshev.make n a b) := grid_stars .chebyshev n hv (fun _ => h927) a b
  have hsol := C67_solvable .chebyshev n hv (fun _ => h927) a b hab true (.inr rfl)
  have hsto := free_stokes .chebyshev n hv a b hab true (.inr rfl)
  have hd := fun M' => cheb_diss_dual n hn h927 a b (A := A') (A' := A) (S0 := S0') (S1 := S1') (S0' := S0) (S1' := S1) M'
  simp only [show grid .chebyshev n a b = Chebyshev.make n a b from rfl] at hsol hsto
  generalize Chebyshev.make n a b = g at *
  have M' : Mats g false A' A S0' S1' S0 S1 := M.swap S
  have h := hd M'
  -- the star of a Laplacian is the derivative of a flux
  have hH : ∀ x : ℕ → ℝ, ∀ i < g.N 1 false, ap (g.N 0 true) S0 (ap (g.N 0 true) (L0 g true A A' S1 S1') x) i = ap (g.N 0 false) A' (ap (g.N 1 true) S1 (ap (g.N 0 true) A x)) i := fun x i hi => by
    rw [ap_L0]
    exact M'.inv' _ i hi
  have hw : ∀ x : ℕ → ℝ, ∑ i ∈ range (g.N 0 true), (∑ j ∈ range (g.N 1 false), S0 j i) * x i = ∑ j ∈ range (g.N 1 false), ap (g.N 0 true) S0 x j := fun x => by
    unfold ap
    rw [sum_comm]
    exact sum_congr rfl fun i _ => by rw [sum_mul]
  have comm : ∀ x, ∀ i < g.N 0 false, ap (g.N 0 true) (mm (g.N 1 true) S1 A) (ap (g.N 0 true) (L0 g true A A' S1 S1') x) i = ap (g.N 0 false) (L0 g false A' A S1' S1) (ap (g.N 0 true) (mm (g.N 1 true) S1 A) x) i := fun x i hi => by
    rw [ap_L0, ap_L0, ap_mm, ap_mm]; rfl
  have zero : ∀ x : ℕ → ℝ, (∀ i < g.N 0 false, ap (g.N 0 false) (L0 g false A' A S1' S1) x i = 0) → ∀ i < g.N 0 false, x i = 0 := fun x hx i hi => by
    obtain ⟨W, hW, hD⟩ := h
    have := (hD x).2 (sum_eq_zero fun i _ => mul_eq_zero_of_right _ (sum_eq_zero fun k hk => by rw [hx k (mem_range.1 hk), mul_zero])) i hi
    unfold ap at this
    rw [sum_congr rfl fun j _ => ite_mul _ _ _ _] at this
    simpa only [one_mul, zero_mul, sum_ite_eq, if_pos (mem_range.2 hi)] using this
  have hc := h.conj (p := g.N 0 true) (L' := L0 g true A A' S1 S1') (T := mm (g.N 1 true) S1 A) (w := fun i => ∑ j ∈ range (g.N 1 false), S0 j i) (fun x => ?_) comm fun x hx hx' => ?_
  · refine hc.mono fun x hx i hi => ?_
    refine M.inj1 (fun i hi => ?_) i hi
    have := hx i hi
    rw [ap_mm, ap_mm, ap_one (g.N 0 false) _ hi] at this
    exact this
  · rw [hw]
    have h1 := sum_congr rfl fun i hi => hH x i (mem_range.1 hi)
    rw [h1]
    have h2 := hsto (tab (g.N 0 false) _) _ (length_tab _ _) (M.d' (ap (g.N 1 true) S1 (ap (g.N 0 true) A x)))
    rw [sum_tab] at h2
    exact h2
  · have h1 := (hsol (tab (g.N 0 true) x) (length_tab _ _)).1.2 ⟨_, M.h0 x, by rw [hw] at hx'; rw [sum_tab]; exact hx'⟩
    obtain ⟨y, ly, hy⟩ := h1
    obtain ⟨y, rfl⟩ : ∃ f, y = tab (g.N 0 true) f := ⟨_, eq_tab' ly 0⟩
    rw [M.lap_ap y, Except.ok.injEq, tab_inj] at hy
    have h2 := zero (ap (g.N 0 true) (mm (g.N 1 true) S1 A) y) fun i hi => by
      rw [← comm y i hi, ap_congr hy]
      exact hx i hi
    intro k hk
    rw [← hy k hk, ap_L0]
    refine sum_eq_zero fun l _ => mul_eq_zero_of_right _ (sum_eq_zero fun i hi => mul_eq_zero_of_right _ ?_)
    have := h2 i (mem_range.1 hi)
    rw [ap_mm] at this
    exact this

/-- One axis: on every grid, and on both kinds of cells, the Laplacian decreases an inner product, strictly unless the derivative vanishes. -/
theorem grid_diss (k : Kind) (n : ℕ) (hn : validSize k n) (h927 : k = .chebyshev → n ≤ 927) (a b : ℝ) (hab : a < b) (t : Bool) {A A' S0 S1 S0' S1' : ℕ → ℕ → ℝ} (M : Mats (grid k n a b) t A A' S0 S1 S0' S1') :
    Diss ((grid k n a b).N 0 t) (L0 (grid k n a b) t A A' S1 S1') ((grid k n a b).N 1 t) A := by
  by_cases hk : k = .chebyshev
  · subst hk
    cases t
    · refine (cheb_diss_dual n hn (h927 rfl) a b M).mono fun x hx i hi => ?_
      refine sum_eq_zero fun k hk => mul_eq_zero_of_right _ ?_
      have := hx k (mem_range.1 hk)
      unfold ap at this
      rw [sum_congr rfl fun j _ => ite_mul _ _ _ _] at this
      rw [← this]
      have hk' : k ∈ range ((Chebyshev.make n a b).N 0 false) := hk
      simp only [one_mul, zero_mul, sum_ite_eq, if_pos hk']
    · exact cheb_diss_primal n hn (h927 rfl) a b hab M
  · obtain ⟨W, hW, pW⟩ := grid_mpos k n hn hk a b 0 t
    refine ⟨W, pW, fun x => ?_⟩
    obtain ⟨Lx, -, u, -, e1, -, e2, -, -, h1, h2⟩ := C73_laplacian k n hn hk a b hab t (tab _ x) (tab _ x) (length_tab _ _) (length_tab _ _)
    rw [M.lap_ap x] at e1
    obtain rfl := Except.ok.inj e1
    rw [hW] at e2
    obtain rfl := Except.ok.inj e2
    rw [dot_tab] at h1 h2
    refine ⟨h1, fun h0 i hi => ?_⟩
    have h3 := (M.d x).symm.trans (d0_of_D (h2.1 h0))
    rw [Except.ok.injEq, replicate_tab, tab_inj] at h3
    exact h3 i hi

end Dec.Props
