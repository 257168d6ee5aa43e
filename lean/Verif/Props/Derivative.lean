import Verif.Lib.IntervalGrid
import Verif.Lib.PeriodicForms
import Verif.Model.Grids

set_option linter.unusedSimpArgs false
set_option linter.unusedVariables false

/-!
# Derivatives, projections and cells in one dimension
C07, C08, C09, C10, C12.
-/

namespace Dec

open Real Finset MeasureTheory

theorem exists_isInterval (k : IKind) {n : ℕ} (hn : 2 ≤ n) {a b : ℝ} (hab : a < b) :
    ∃ v w, IsInterval (intervalGrid k n a b) v w ∧ ∀ i < n - 1, v i < w i ∧ w i < v (i + 1) := by
  have hpos : (0 : ℝ) < ((n - 1 : ℕ) : ℝ) := by exact_mod_cast (by omega : 0 < n - 1)
  cases k
  · refine ⟨_, _, Regular.isInterval hn a b, fun i _ => ?_⟩
    have : 0 < (b - a) / ((n - 1 : ℕ) : ℝ) := by apply div_pos <;> linarith
    push_cast
    constructor <;> nlinarith
  · refine ⟨_, _, Chebyshev.isInterval hn a b, fun i hi => ?_⟩
    have hmono : ∀ x y, 0 ≤ x → x < y → y ≤ π → Chebyshev.pt a b x < Chebyshev.pt a b y := by
      intro x y h0 hxy hy
      have := Real.strictAntiOn_cos ⟨h0, by linarith⟩ ⟨by linarith, hy⟩ hxy
      unfold Chebyshev.pt; nlinarith
    have hp := Real.pi_pos
    have h1 : 0 < π / ((n - 1 : ℕ) : ℝ) := by positivity
    have h2 : ((i : ℝ) + 1) * (π / ((n - 1 : ℕ) : ℝ)) ≤ π := by
      have : (i : ℝ) + 1 ≤ ((n - 1 : ℕ) : ℝ) := by exact_mod_cast (by omega : i + 1 ≤ n - 1)
      calc ((i : ℝ) + 1) * (π / ((n - 1 : ℕ) : ℝ)) ≤ ((n - 1 : ℕ) : ℝ) * (π / ((n - 1 : ℕ) : ℝ)) := by gcongr
        _ = π := mul_div_cancel₀ _ hpos.ne'
    have h3 : (0 : ℝ) ≤ i := by positivity
    push_cast
    constructor
    · apply hmono <;> nlinarith
    · apply hmono <;> nlinarith

@[simp] theorem intervalGrid_n (k : IKind) (n : ℕ) (a b : ℝ) : (intervalGrid k n a b).n = n := by cases k <;> rfl
@[simp] theorem intervalGrid_xmin (k : IKind) (n : ℕ) (a b : ℝ) : (intervalGrid k n a b).xmin = a := by cases k <;> rfl
@[simp] theorem intervalGrid_xmax (k : IKind) (n : ℕ) (a b : ℝ) : (intervalGrid k n a b).xmax = b := by cases k <;> rfl

/-- A fundamental theorem of calculus in the form used below. -/
theorem ftc_sub {f f' : ℝ → ℝ} {a b x y : ℝ} (hd : ∀ s ∈ Set.Icc a b, HasDerivAt f (f' s) s)
    (hi : IntervalIntegrable f' volume a b) (hx : a ≤ x) (hxy : x ≤ y) (hy : y ≤ b) :
    ∫ t in x..y, f' t = f y - f x := by
  apply intervalIntegral.integral_eq_sub_of_hasDerivAt
  · intro s hs
    rw [Set.uIcc_of_le hxy] at hs
    exact hd s ⟨by linarith [hs.1], by linarith [hs.2]⟩
  · apply hi.mono_set
    rw [Set.uIcc_of_le hxy, Set.uIcc_of_le (by linarith)]
    exact Set.Icc_subset_Icc hx hy

theorem chain_lt {m : ℕ} {v : ℕ → ℝ} (h : ∀ i < m, v i < v (i + 1)) {i j : ℕ} (hij : i ≤ j) (hj : j ≤ m) : v i ≤ v j := by
  induction j, hij using Nat.le_induction with
  | base => exact le_rfl
  | succ j hj' ih => exact (ih (by omega)).trans (h j (by omega)).le

namespace Props

/-! ## C07 -/

/-- C07 (interval grids): the derivative of the projection is the projection of the derivative. -/
theorem C07_interval (k : IKind) (n : ℕ) (hn : 2 ≤ n) (xmin xmax : ℝ) (hx : xmin < xmax) (f f' : ℝ → ℝ)
    (hd : ∀ s ∈ Set.Icc xmin xmax, HasDerivAt f (f' s) s) (hi : IntervalIntegrable f' volume xmin xmax) :
    (intervalGrid k n xmin xmax).D 0 true ((intervalGrid k n xmin xmax).P 0 true f)
      = some ((intervalGrid k n xmin xmax).P 1 true f') := by
  obtain ⟨v, w, hg, ho⟩ := exists_isInterval k hn hx
  rw [hg.D0, hg.P0, hg.P1, diff_tab]
  have hf := hg.first; have hl := hg.last
  simp only [intervalGrid_n, intervalGrid_xmin, intervalGrid_xmax] at hf hl ⊢
  congr 1; apply tab_congr; intro i hi'
  have hm : ∀ i < n - 1, v i < v (i + 1) := fun i hi => (ho i hi).1.trans (ho i hi).2
  rw [ftc_sub hd hi]
  · rw [← hf]; exact chain_lt hm (by omega) (by omega)
  · exact (hm i hi').le
  · rw [← hl]; exact chain_lt hm (by omega) (by omega)

/-- C07 (periodic grids): the same for functions with equal values at both ends. -/
theorem C07_periodic (n : ℕ) (xmin xmax : ℝ) (hx : xmin < xmax) (f f' : ℝ → ℝ)
    (hd : ∀ s ∈ Set.Icc xmin xmax, HasDerivAt f (f' s) s) (hi : IntervalIntegrable f' volume xmin xmax)
    (hp : f xmin = f xmax) :
    (Periodic.make n xmin xmax).D 0 true ((Periodic.make n xmin xmax).P 0 true f)
      = some ((Periodic.make n xmin xmax).P 1 true f') := by
  show some (Periodic.D0 _) = _
  rw [Periodic.P0, Periodic.P1]
  unfold Periodic.D0
  rw [roll_neg_one_tab, vsub_tab]
  congr 1; apply tab_congr; intro i hin
  have hn : 0 < n := by omega
  have hn' : (0 : ℝ) < n := by exact_mod_cast hn
  have hh : 0 < (xmax - xmin) / n := div_pos (by linarith) hn'
  have hi0 : (0 : ℝ) ≤ i := by positivity
  have hi1 : (i : ℝ) + 1 ≤ n := by exact_mod_cast hin
  have hle : ((i : ℝ) + 1) * ((xmax - xmin) / n) ≤ xmax - xmin := by
    calc ((i : ℝ) + 1) * ((xmax - xmin) / n) ≤ n * ((xmax - xmin) / n) := by gcongr
      _ = xmax - xmin := mul_div_cancel₀ _ hn'.ne'
  rw [ftc_sub hd hi (by nlinarith) (by nlinarith) (by linarith)]
  congr 1
  rcases Nat.lt_or_ge (i + 1) n with h | h
  · rw [Nat.mod_eq_of_lt h]; push_cast; rfl
  · have h2 : i + 1 = n := by omega
    rw [h2, Nat.mod_self]
    have : (i : ℝ) + 1 = n := by exact_mod_cast h2
    rw [this, mul_div_cancel₀ _ hn'.ne']
    simp [hp]

/-- Non-vacuity: `x^2` on `[0, 1]`, and `sin` on `[0, 2π]`. -/
example : (∀ s ∈ Set.Icc (0 : ℝ) 1, HasDerivAt (fun x => x ^ 2) (2 * s) s) ∧
    IntervalIntegrable (fun s : ℝ => 2 * s) volume 0 1 ∧
    (∀ s ∈ Set.Icc (0 : ℝ) (2 * π), HasDerivAt sin (cos s) s) ∧ IntervalIntegrable cos volume 0 (2 * π) ∧ sin 0 = sin (2 * π) := by
  refine ⟨fun s _ => by simpa using hasDerivAt_pow 2 s, Continuous.intervalIntegrable (by fun_prop) _ _,
    fun s _ => Real.hasDerivAt_sin s, Continuous.intervalIntegrable (by fun_prop) _ _, by simp⟩

/-! ## C08 -/

/-- C08 (interval grids): derivative of the dual projection plus the boundary term. -/
theorem C08_interval (k : IKind) (n : ℕ) (hn : 2 ≤ n) (xmin xmax : ℝ) (hx : xmin < xmax) (f f' : ℝ → ℝ)
    (hd : ∀ s ∈ Set.Icc xmin xmax, HasDerivAt f (f' s) s) (hi : IntervalIntegrable f' volume xmin xmax) :
    ((intervalGrid k n xmin xmax).D 0 false ((intervalGrid k n xmin xmax).P 0 false f)).map
        (vadd · ((intervalGrid k n xmin xmax).boundary_condition f))
      = some ((intervalGrid k n xmin xmax).P 1 false f') := by
  obtain ⟨v, w, hg, ho⟩ := exists_isInterval k hn hx
  rw [hg.D0d, hg.P0d, hg.P1d, hg.boundary_condition, hg.diff_zero_pad, Option.map_some, vadd_tab]
  have hf := hg.first; have hl := hg.last
  simp only [intervalGrid_n, intervalGrid_xmin, intervalGrid_xmax] at hf hl ⊢
  congr 1; apply tab_congr; intro i hi'
  have hm : ∀ i < n - 1, v i < v (i + 1) := fun i hi => (ho i hi).1.trans (ho i hi).2
  have hb : ∀ j < n - 1, xmin < w j ∧ w j < xmax := by
    intro j hj
    constructor
    · rw [← hf]; exact lt_of_le_of_lt (chain_lt hm (Nat.zero_le j) (by omega)) (ho j hj).1
    · rw [← hl]; exact lt_of_lt_of_le (ho j hj).2 (chain_lt hm (by omega) le_rfl)
  by_cases h0 : i = 0
  · subst h0
    have hlt : 0 < n - 1 := by omega
    have hne : ¬ 0 = n - 1 := by omega
    simp only [hlt, hne, if_true, if_false]
    rw [ftc_sub hd hi le_rfl (hb 0 hlt).1.le (hb 0 hlt).2.le]; ring
  · by_cases h1 : i < n - 1
    · have := ho (i - 1) (by omega)
      have e : i - 1 + 1 = i := by omega
      rw [e] at this
      rw [if_pos h1, if_neg h0, if_neg (by omega), if_neg h0, if_neg h0, if_pos h1,
        ftc_sub hd hi (hb _ (by omega)).1.le (this.2.trans (ho i h1).1).le (hb _ h1).2.le]
      ring
    · have : i = n - 1 := by omega
      rw [if_neg h1, if_neg h0, if_pos this, if_neg h0, if_neg h1,
        ftc_sub hd hi (hb _ (by omega)).1.le (hb _ (by omega)).2.le le_rfl]
      ring

/-- C08 (periodic grids): for periodic functions, without a boundary term. -/
theorem C08_periodic (n : ℕ) (xmin xmax : ℝ) (hx : xmin < xmax) (f f' : ℝ → ℝ)
    (hd : ∀ s, HasDerivAt f (f' s) s) (hi : ∀ a b, IntervalIntegrable f' volume a b)
    (hp : Function.Periodic f (xmax - xmin)) :
    (Periodic.make n xmin xmax).D 0 false ((Periodic.make n xmin xmax).P 0 false f)
      = some ((Periodic.make n xmin xmax).P 1 false f') := by
  show some (Periodic.D0d _) = _
  rw [Periodic.P0d, Periodic.P1d hx.le]
  unfold Periodic.D0d Periodic.D0
  rw [roll_neg_one_tab, vsub_tab, roll_one_tab]
  congr 1; apply tab_congr; intro i hin
  have hn : 0 < n := by omega
  have hn' : (0 : ℝ) < n := by exact_mod_cast hn
  rw [intervalIntegral.integral_eq_sub_of_hasDerivAt (fun s _ => hd s) (hi _ _)]
  have e1 : ((i + n - 1) % n + 1) % n = i := by
    rcases Nat.eq_zero_or_pos i with rfl | h
    · rw [Nat.zero_add, Nat.mod_eq_of_lt (by omega : n - 1 < n), Nat.sub_add_cancel hn, Nat.mod_self]
    · rw [show i + n - 1 = i - 1 + n by omega, Nat.add_mod_right, Nat.mod_eq_of_lt (by omega : i - 1 < n),
        Nat.sub_add_cancel h, Nat.mod_eq_of_lt hin]
  rw [e1]
  congr 1
  rcases Nat.eq_zero_or_pos i with rfl | h
  · rw [Nat.zero_add, Nat.mod_eq_of_lt (by omega : n - 1 < n), ← hp (xmin + (((0 : ℕ) : ℝ) - 1 / 2) * ((xmax - xmin) / n))]
    congr 1
    rw [Nat.cast_pred hn]; field_simp; push_cast; ring
  · rw [show i + n - 1 = i - 1 + n by omega, Nat.add_mod_right, Nat.mod_eq_of_lt (by omega : i - 1 < n), Nat.cast_pred h]
    congr 1; ring

example : (∀ s, HasDerivAt sin (cos s) s) ∧ (∀ a b, IntervalIntegrable cos volume a b) ∧ Function.Periodic sin (2 * π - 0) :=
  ⟨Real.hasDerivAt_sin, fun a b => Continuous.intervalIntegrable (by fun_prop) _ _, by rw [sub_zero]; exact Real.sin_periodic⟩

/-! ## C09 -/

/-- C09 (interval grids): primal and dual derivatives are negative adjoints. -/
theorem C09_interval (k : IKind) (n : ℕ) (hn : 2 ≤ n) (xmin xmax : ℝ) (hx : xmin < xmax) (a b : List ℝ)
    (ha : a.length = n) (hb : b.length = n - 1) :
    ∃ da db, (intervalGrid k n xmin xmax).D 0 true a = some da ∧ (intervalGrid k n xmin xmax).D 0 false b = some db ∧
      (vmul da b).sum = -(vmul a db).sum := by
  obtain ⟨v, w, hg, -⟩ := exists_isInterval k hn hx
  refine ⟨_, _, hg.D0 _, hg.D0d _, ?_⟩
  rw [eq_tab' ha 0, eq_tab' hb 0]
  generalize (fun i => a.getD i 0) = x
  generalize (fun i => b.getD i 0) = y
  have h := hg.diff_zero_pad y
  rw [intervalGrid_n] at h
  rw [diff_tab, h, vmul_tab, vmul_tab, sum_tab, sum_tab]
  obtain ⟨m, rfl⟩ : ∃ m, n = m + 1 := ⟨n - 1, by omega⟩
  simp only [Nat.add_sub_cancel]
  rw [Finset.sum_congr (f := fun i => x i * ((if i < m then y i else 0) - if i = 0 then 0 else y (i - 1))) rfl
      (g := fun i => x i * (if i < m then y i else 0) - x i * (if i = 0 then 0 else y (i - 1))) (fun i _ => by ring),
    Finset.sum_sub_distrib, Finset.sum_range_succ, Finset.sum_range_succ' (fun i => x i * (if i = 0 then 0 else y (i - 1)))]
  simp only [lt_irrefl, if_false, if_true, Nat.add_sub_cancel, Nat.succ_ne_zero, mul_zero, add_zero]
  rw [Finset.sum_congr (f := fun i => x i * if i < m then y i else 0) rfl (g := fun i => x i * y i) (fun i hi => by rw [if_pos (by simpa using hi)]), ← Finset.sum_sub_distrib, ← Finset.sum_neg_distrib]
  exact Finset.sum_congr rfl fun i _ => by ring

theorem sum_shift_mod (n : ℕ) (f : ℕ → ℝ) : ∑ i ∈ range n, f ((i + 1) % n) = ∑ i ∈ range n, f i := by
  cases n with
  | zero => simp
  | succ m =>
    rw [Finset.sum_range_succ, Nat.mod_self, Finset.sum_range_succ']
    congr 1
    exact Finset.sum_congr rfl fun i hi => by rw [Nat.mod_eq_of_lt (by simp at hi; omega)]

theorem D0d_tab (n : ℕ) (x : ℕ → ℝ) : Periodic.D0d (tab n x) = tab n (fun i => x i - x ((i + n - 1) % n)) := by
  unfold Periodic.D0d Periodic.D0
  rw [roll_neg_one_tab, vsub_tab, roll_one_tab]
  apply tab_congr; intro i hin
  congr 2
  rcases Nat.eq_zero_or_pos i with rfl | h
  · rw [Nat.zero_add, Nat.mod_eq_of_lt (by omega : n - 1 < n), Nat.sub_add_cancel (by omega), Nat.mod_self]
  · rw [show i + n - 1 = i - 1 + n by omega, Nat.add_mod_right, Nat.mod_eq_of_lt (by omega : i - 1 < n),
      Nat.sub_add_cancel h, Nat.mod_eq_of_lt hin]

theorem D0_tab (n : ℕ) (x : ℕ → ℝ) : Periodic.D0 (tab n x) = tab n (fun i => x ((i + 1) % n) - x i) := by
  unfold Periodic.D0; rw [roll_neg_one_tab, vsub_tab]

theorem pred_succ_mod {n i : ℕ} (hi : i < n) : ((i + 1) % n + n - 1) % n = i := by
  rcases Nat.lt_or_ge (i + 1) n with h | h
  · rw [Nat.mod_eq_of_lt h, show i + 1 + n - 1 = i + n by omega, Nat.add_mod_right, Nat.mod_eq_of_lt hi]
  · have : i + 1 = n := by omega
    rw [this, Nat.mod_self, Nat.zero_add, Nat.mod_eq_of_lt (by omega)]; omega

theorem succ_pred_mod {n i : ℕ} (hi : i < n) : ((i + n - 1) % n + 1) % n = i := by
  rcases Nat.eq_zero_or_pos i with rfl | h
  · rw [Nat.zero_add, Nat.mod_eq_of_lt (by omega : n - 1 < n), Nat.sub_add_cancel (by omega), Nat.mod_self]
  · rw [show i + n - 1 = i - 1 + n by omega, Nat.add_mod_right, Nat.mod_eq_of_lt (by omega : i - 1 < n),
      Nat.sub_add_cancel h, Nat.mod_eq_of_lt hi]

/-- C09 (periodic grids). -/
theorem C09_periodic (n : ℕ) (xmin xmax : ℝ) (a b : List ℝ) (ha : a.length = n) (hb : b.length = n) :
    ∃ da db, (Periodic.make n xmin xmax).D 0 true a = some da ∧ (Periodic.make n xmin xmax).D 0 false b = some db ∧
      (vmul da b).sum = -(vmul a db).sum := by
  refine ⟨_, _, rfl, rfl, ?_⟩
  rw [eq_tab' ha 0, eq_tab' hb 0]
  generalize (fun i => a.getD i 0) = x
  generalize (fun i => b.getD i 0) = y
  rw [D0_tab, D0d_tab, vmul_tab, vmul_tab, sum_tab, sum_tab]
  rw [Finset.sum_congr rfl (g := fun i => x ((i + 1) % n) * y i - x i * y i) (fun i _ => by ring),
    Finset.sum_sub_distrib,
    Finset.sum_congr (f := fun i => x i * (y i - y ((i + n - 1) % n))) rfl (g := fun i => x i * y i - x i * y ((i + n - 1) % n)) (fun i _ => by ring),
    Finset.sum_sub_distrib, ← sum_shift_mod n (fun i => x i * y ((i + n - 1) % n))]
  rw [Finset.sum_congr (f := fun i => x ((i + 1) % n) * y (((i + 1) % n + n - 1) % n)) rfl (g := fun i => x ((i + 1) % n) * y i)
    (fun i hi => by rw [pred_succ_mod (by simpa using hi)])]
  ring

/-- Non-vacuity for C09: forms of the required lengths exist. -/
example : ([1, 2, 5] : List ℝ).length = 3 ∧ ([4, 7] : List ℝ).length = 3 - 1 := by simp

/-- C09: `derivative_matrix(n)` returns exactly the matrices of the two derivatives. -/
theorem C09_derivative_matrix (n : ℕ) (xmin xmax : ℝ) (a : List ℝ) (ha : a.length = n) :
    (Periodic.make n xmin xmax).D 0 true a = some (matVec (Periodic.derivative_matrix_primal n) a) ∧
    (Periodic.make n xmin xmax).D 0 false a = some (matVec (Periodic.derivative_matrix_dual n) a) := by
  have entry : ∀ i j, i < n → j < n → ((Periodic.derivative_matrix_primal n).getD i []).getD j 0
      = (if (i + 1) % n = j then 1 else 0) + (if i = j then -1 else 0) := by
    intro i j hi hj
    unfold Periodic.derivative_matrix_primal sparseMatrix
    rw [getD_tab hi, getD_tab hj, List.filter_append, List.map_append, List.sum_append]
    have hr : List.range n = tab n id := by simp [tab]
    have h1 : List.zipWith (fun i j => (i, j, (1 : ℝ))) (List.range n) (roll (List.range n) (-1))
        = (List.range n).map fun i => (i, (i + 1) % n, (1 : ℝ)) := by
      rw [hr, roll_neg_one_tab, zipWith_tab]; simp [tab]
    rw [h1, List.filter_map, List.filter_map, List.map_map, List.map_map]
    have key : ∀ (c : ℕ → ℕ) (r : ℝ),
        ((List.range n).filter ((fun e : ℕ × ℕ × ℝ => decide (e.1 = i ∧ e.2.1 = j)) ∘ fun i => (i, c i, r))).map
          ((fun e : ℕ × ℕ × ℝ => e.2.2) ∘ fun i => (i, c i, r))
        = if c i = j then [r] else [] := by
      intro c r
      have : (List.range n).filter ((fun e : ℕ × ℕ × ℝ => decide (e.1 = i ∧ e.2.1 = j)) ∘ fun i => (i, c i, r))
          = if c i = j then [i] else [] := by
        have h2 : ((fun e : ℕ × ℕ × ℝ => decide (e.1 = i ∧ e.2.1 = j)) ∘ fun i => (i, c i, r))
            = fun m => decide (m = i) && decide (c i = j) := by
          funext m
          by_cases hm : m = i
          · subst hm; simp
          · simp [hm]
        rw [h2]
        by_cases hc : c i = j
        · simp only [hc, decide_true, Bool.and_true, if_true]
          have := List.filter_eq (l := List.range n) i
          rw [List.count_eq_one_of_mem (List.nodup_range) (by simpa using hi)] at this
          exact this
        · simp [hc]
      rw [this]; split_ifs <;> simp
    rw [key (fun i => (i + 1) % n) 1, key (fun i => i) (-1)]
    split_ifs <;> simp
  have hrow : ∀ (M : List (List ℝ)) (m : ℕ → ℕ → ℝ), M = tab n (fun i => tab n fun j => m i j) → ∀ x : ℕ → ℝ,
      matVec M (tab n x) = tab n fun i => ∑ j ∈ range n, m i j * x j := by
    intro M m hM x
    subst hM
    unfold matVec
    rw [map_tab]
    exact tab_congr fun i _ => by rw [zipWith_tab, sum_tab]
  have hlen : (Periodic.derivative_matrix_primal n) = tab n fun i => tab n fun j => (if (i + 1) % n = j then 1 else 0) + (if i = j then -1 else 0) := by
    have e : Periodic.derivative_matrix_primal n = tab n fun i => tab n fun j => ((Periodic.derivative_matrix_primal n).getD i []).getD j 0 := by
      conv_lhs => unfold Periodic.derivative_matrix_primal sparseMatrix
      apply tab_congr; intro i hi; apply tab_congr; intro j hj
      unfold Periodic.derivative_matrix_primal sparseMatrix
      rw [getD_tab hi, getD_tab hj]
    rw [e]
    exact tab_congr fun i hi => tab_congr fun j hj => entry i j hi hj
  have hdual : (Periodic.derivative_matrix_dual n) = tab n fun i => tab n fun j => -((if (j + 1) % n = i then 1 else 0) + (if j = i then -1 else 0)) := by
    unfold Periodic.derivative_matrix_dual
    exact tab_congr fun i hi => tab_congr fun j hj => by rw [entry j i hj hi]
  rw [eq_tab' ha 0]
  generalize (fun i => a.getD i 0) = x
  rw [hrow _ _ hlen, hrow _ _ hdual]
  constructor
  · show some (Periodic.D0 _) = _
    rw [D0_tab]
    congr 1; apply tab_congr; intro i hi
    have hm : (i + 1) % n < n := Nat.mod_lt _ (by omega)
    simp only [add_mul, ite_mul, one_mul, zero_mul, Finset.sum_add_distrib, Finset.sum_ite_eq, Finset.mem_range, hi, hm, if_true]
    ring
  · show some (Periodic.D0d _) = _
    rw [D0d_tab]
    congr 1; apply tab_congr; intro i hi
    have hm : (i + n - 1) % n < n := Nat.mod_lt _ (by omega)
    have hiff : ∀ j ∈ range n, ((j + 1) % n = i ↔ j = (i + n - 1) % n) := by
      intro j hj
      have hj' : j < n := by simpa using hj
      constructor
      · intro h; rw [← h, pred_succ_mod hj']
      · intro h; rw [h, succ_pred_mod hi]
    rw [Finset.sum_congr rfl (g := fun j => (if j = i then x j else 0) - (if j = (i + n - 1) % n then x j else 0))]
    · rw [Finset.sum_sub_distrib]
      simp [hi, hm]
    · intro j hj
      simp only [hiff j hj]
      split_ifs <;> ring

/-! ## C10 -/

/-- C10 (interval grids): the entries of the primal derivative add up to the last minus the first value. -/
theorem C10_interval_stokes (k : IKind) (n : ℕ) (hn : 2 ≤ n) (xmin xmax : ℝ) (hx : xmin < xmax) (a : List ℝ) (ha : a.length = n) :
    ∃ da, (intervalGrid k n xmin xmax).D 0 true a = some da ∧ da.sum = a.getD (n - 1) 0 - a.getD 0 0 := by
  obtain ⟨v, w, hg, -⟩ := exists_isInterval k hn hx
  refine ⟨_, hg.D0 _, ?_⟩
  conv_lhs => rw [eq_tab' ha 0]
  rw [diff_tab, sum_tab, Finset.sum_range_sub (fun i => a.getD i 0)]

/-- C10 (interval grids): the entries of the dual derivative add up to zero. -/
theorem C10_interval_stokes_dual (k : IKind) (n : ℕ) (hn : 2 ≤ n) (xmin xmax : ℝ) (hx : xmin < xmax) (b : List ℝ) (hb : b.length = n - 1) :
    ∃ db, (intervalGrid k n xmin xmax).D 0 false b = some db ∧ db.sum = 0 := by
  obtain ⟨v, w, hg, -⟩ := exists_isInterval k hn hx
  refine ⟨_, hg.D0d _, ?_⟩
  have e : [0] ++ b ++ [0] = tab (n + 1) fun i => ([0] ++ b ++ [0]).getD i 0 := eq_tab' (by simp; omega) 0
  rw [e, diff_tab, sum_tab, Finset.sum_range_sub (fun i => ([0] ++ b ++ [0] : List ℝ).getD i 0), Nat.add_sub_cancel]
  simp [List.getD, List.getElem?_cons, List.getElem?_append, hb, show n ≠ 0 by omega]

/-- C10 (interval grids): exactly the constant primal 0-forms have derivative zero. -/
theorem C10_interval_kernel (k : IKind) (n : ℕ) (hn : 2 ≤ n) (xmin xmax : ℝ) (hx : xmin < xmax) (a : List ℝ) (ha : a.length = n) :
    (intervalGrid k n xmin xmax).D 0 true a = some (List.replicate (n - 1) 0) ↔ ∃ c, a = List.replicate n c := by
  obtain ⟨v, w, hg, -⟩ := exists_isInterval k hn hx
  rw [hg.D0, eq_tab' ha 0]
  generalize (fun i => a.getD i 0) = x
  rw [diff_tab, replicate_tab, Option.some.injEq, tab_inj]
  constructor
  · intro h
    refine ⟨x 0, ?_⟩
    rw [replicate_tab]
    apply tab_congr
    intro i
    induction i with
    | zero => intro _; rfl
    | succ i ih => intro hi; rw [← ih (by omega)]; linarith [h i (by omega)]
  · rintro ⟨c, hc⟩ i hi
    rw [replicate_tab, tab_inj] at hc
    rw [hc i (by omega), hc (i + 1) (by omega), sub_self]

/-- C10 (interval grids): the dual derivative (with zero boundary values) is injective. -/
theorem C10_interval_kernel_dual (k : IKind) (n : ℕ) (hn : 2 ≤ n) (xmin xmax : ℝ) (hx : xmin < xmax) (b : List ℝ) (hb : b.length = n - 1) :
    (intervalGrid k n xmin xmax).D 0 false b = some (List.replicate n 0) ↔ b = List.replicate (n - 1) 0 := by
  obtain ⟨v, w, hg, -⟩ := exists_isInterval k hn hx
  rw [hg.D0d, eq_tab' hb 0]
  generalize (fun i => b.getD i 0) = x
  have h := hg.diff_zero_pad x
  rw [intervalGrid_n] at h
  rw [h, replicate_tab, replicate_tab, Option.some.injEq, tab_inj, tab_inj]
  constructor
  · intro h i
    induction i with
    | zero => intro hi; have := h 0 (by omega); simpa [hi] using this
    | succ i ih =>
      intro hi
      have := h (i + 1) (by omega)
      rw [if_pos hi, if_neg (by omega), Nat.add_sub_cancel, ih (by omega)] at this
      linarith
  · intro h i hi
    have e1 : (if i < n - 1 then x i else 0) = 0 := by split_ifs with h1; exacts [h i h1, rfl]
    have e2 : (if i = 0 then 0 else x (i - 1)) = 0 := by split_ifs with h1; exacts [rfl, h _ (by omega)]
    rw [e1, e2, sub_zero]

/-- C10 (periodic grids): the entries of a derivative, primal or dual, add up to zero. -/
theorem C10_periodic_stokes (n : ℕ) (xmin xmax : ℝ) (t : Bool) (a : List ℝ) (ha : a.length = n) :
    ∃ da, (Periodic.make n xmin xmax).D 0 t a = some da ∧ da.sum = 0 := by
  rw [eq_tab' ha 0]
  generalize (fun i => a.getD i 0) = x
  cases t
  · refine ⟨_, rfl, ?_⟩
    rw [D0d_tab, sum_tab, Finset.sum_sub_distrib, ← sum_shift_mod n (fun i => x ((i + n - 1) % n)), sub_eq_zero]
    exact Finset.sum_congr rfl fun i hi => by rw [pred_succ_mod (by simpa using hi)]
  · refine ⟨_, rfl, ?_⟩
    rw [D0_tab, sum_tab, Finset.sum_sub_distrib, sum_shift_mod, sub_self]

/-- C10 (periodic grids): exactly the constant 0-forms, primal or dual, have derivative zero. -/
theorem C10_periodic_kernel (n : ℕ) (xmin xmax : ℝ) (t : Bool) (a : List ℝ) (ha : a.length = n) :
    (Periodic.make n xmin xmax).D 0 t a = some (List.replicate n 0) ↔ ∃ c, a = List.replicate n c := by
  rw [eq_tab' ha 0]
  generalize (fun i => a.getD i 0) = x
  have main : (∀ i < n, x ((i + 1) % n) - x i = 0) ↔ ∃ c, tab n x = List.replicate n c := by
    constructor
    · intro h
      refine ⟨x 0, ?_⟩
      rw [replicate_tab]
      apply tab_congr
      intro i
      induction i with
      | zero => intro _; rfl
      | succ i ih =>
        intro hi
        have := h i (by omega)
        rw [Nat.mod_eq_of_lt hi] at this
        rw [← ih (by omega)]; linarith
    · rintro ⟨c, hc⟩ i hi
      rw [replicate_tab, tab_inj] at hc
      rw [hc i hi, hc _ (Nat.mod_lt _ (by omega)), sub_self]
  cases t
  · show some (Periodic.D0d _) = _ ↔ _
    rw [D0d_tab, replicate_tab, Option.some.injEq, tab_inj, ← main]
    constructor
    · intro h i hi
      have := h ((i + 1) % n) (Nat.mod_lt _ (by omega))
      rwa [pred_succ_mod hi] at this
    · intro h i hi
      have := h ((i + n - 1) % n) (Nat.mod_lt _ (by omega))
      rwa [succ_pred_mod hi] at this
  · show some (Periodic.D0 _) = _ ↔ _
    rw [D0_tab, replicate_tab, Option.some.injEq, tab_inj, ← main]

example : ([1, 4, 9] : List ℝ).length = 3 := by simp

end Props

end Dec
