import Verif.Props.Periodic
import Verif.Props.Regular
import Verif.Props.Chebyshev
import Verif.Props.Basis
import Verif.Props.Cells

set_option linter.unusedSimpArgs false
set_option linter.unusedVariables false

/-!
# C51: the Hodge stars ignore the interval

The constructors accept any `xmin < xmax` and move the cells accordingly, but the four Hodge stars are the ones of the default
interval. On `[a, b]` they are therefore off by the ratio of the lengths.
-/

namespace Dec.Props

open Real Finset Dec.Sp MeasureTheory

/-- The left end of the default interval of each constructor. -/
noncomputable def defaultMin : Kind → ℝ
  | .periodic => 0
  | .regular => 0
  | .chebyshev => -1

/-- The right end of the default interval of each constructor. -/
noncomputable def defaultMax : Kind → ℝ
  | .periodic => 2 * π
  | .regular => π
  | .chebyshev => 1

/-- The smallest size for which the constructors and their operators are meaningful. -/
def minSize : Kind → ℕ
  | .periodic => 1
  | .regular => 2
  | .chebyshev => 2

/-- The functions on the default interval that the vertices of the grid resolve. -/
def ResolvedOn (k : Kind) (n : ℕ) (t : Bool) (f : ℝ → ℝ) : Prop :=
  match k with
  | .periodic => ∃ K, 2 * K < n ∧ IsTrig K f
  | .regular => IsCos (if t then n - 1 else n - 2) f
  | .chebyshev => IsPoly (if t then n else n - 1) f

/-- The affine map from the default interval to `[a, b]`. -/
noncomputable def toInterval (k : Kind) (a b x : ℝ) : ℝ :=
  a + (b - a) / (defaultMax k - defaultMin k) * (x - defaultMin k)

theorem defaultLength_pos (k : Kind) : 0 < defaultMax k - defaultMin k := by
  have := pi_pos
  cases k
  · show 0 < 2 * π - 0; linarith
  · show 0 < π - 0; linarith
  · show (0 : ℝ) < 1 - -1; norm_num

theorem toInterval_eq (k : Kind) (a b x : ℝ) :
    toInterval k a b x = (a - (b - a) / (defaultMax k - defaultMin k) * defaultMin k) + (b - a) / (defaultMax k - defaultMin k) * x := by
  unfold toInterval; ring

theorem stretch_integral (c s x y x' y' : ℝ) (f : ℝ → ℝ) (hx : x' = c + s * x) (hy : y' = c + s * y) :
    ∫ t in x'..y', f t = s * ∫ t in x..y, f (c + s * t) := by
  rw [hx, hy]
  exact (intervalIntegral.smul_integral_comp_add_mul (a := x) (b := y) f s c).symm

theorem stretch_interval {g g' : Grid1} {v w v' w' : ℕ → ℝ} (h : IsInterval g v w) (h' : IsInterval g' v' w') (hn : g'.n = g.n) {c s : ℝ}
    (hv : ∀ i, v' i = c + s * v i) (hw : ∀ i, w' i = c + s * w i) (f : ℝ → ℝ) (t : Bool) :
    g'.P 0 t f = g.P 0 t (fun x => f (c + s * x)) ∧ g'.P 1 t f = smul s (g.P 1 t fun x => f (c + s * x)) := by
  have e0 : g'.xmin = c + s * g.xmin := by rw [← h'.first, ← h.first, hv]
  have e1 : g'.xmax = c + s * g.xmax := by rw [← h'.last, ← h.last, hv, hn]
  cases t
  · rw [h'.P0d, h.P0d, h'.P1d, h.P1d, hn]
    refine ⟨tab_congr fun i _ => by rw [hw], ?_⟩
    rw [smul, map_tab]
    refine tab_congr fun i _ => stretch_integral _ _ _ _ _ _ _ ?_ ?_
    · split_ifs
      · exact e0
      · exact hw _
    · split_ifs
      · exact hw _
      · exact e1
  · rw [h'.P0, h.P0, h'.P1, h.P1, hn]
    refine ⟨tab_congr fun i _ => by rw [hv], ?_⟩
    rw [smul, map_tab]
    exact tab_congr fun i _ => stretch_integral _ _ _ _ _ _ _ (hv _) (hv _)

/-- The cells of a grid on `[a, b]` are the images of the cells of the standard grid. -/
theorem stretch (k : Kind) (n : ℕ) (hn : minSize k ≤ n) {a b : ℝ} (hab : a < b) (f : ℝ → ℝ) (t : Bool) :
    (grid k n a b).P 0 t f = (standardGrid k n).P 0 t (fun x => f (toInterval k a b x)) ∧
    (grid k n a b).P 1 t f = smul ((b - a) / (defaultMax k - defaultMin k)) ((standardGrid k n).P 1 t fun x => f (toInterval k a b x)) := by
  simp only [toInterval_eq]
  have hL := defaultLength_pos k
  have hpi := pi_pos
  cases k
  · show (Periodic.make n a b).P 0 t f = (Periodic.make n 0 (2 * π)).P 0 t _ ∧ (Periodic.make n a b).P 1 t f = smul _ ((Periodic.make n 0 (2 * π)).P 1 t _)
    have hn' : (n : ℝ) ≠ 0 := by
      have : 1 ≤ n := hn
      positivity
    have key : ∀ z : ℝ, a + z * ((b - a) / n) = a - (b - a) / (2 * π - 0) * 0 + (b - a) / (2 * π - 0) * (0 + z * ((2 * π - 0) / n)) := by
      intro z; field_simp; ring
    cases t
    · rw [Periodic.P0d, Periodic.P0d, Periodic.P1d hab.le, Periodic.P1d (by positivity)]
      refine ⟨tab_congr fun i _ => congrArg f ?_, ?_⟩
      · refine (Eq.trans ?_ (key (i + 1 / 2))).trans ?_
        · ring
        · show _ = (a - (b - a) / (2 * π - 0) * 0) + (b - a) / (2 * π - 0) * _
          ring
      · rw [smul, map_tab]
        refine tab_congr fun i _ => stretch_integral _ _ _ _ _ _ _ ?_ ?_
        · refine (Eq.trans ?_ (key (i - 1 / 2))).trans ?_
          · ring
          · show _ = (a - (b - a) / (2 * π - 0) * 0) + (b - a) / (2 * π - 0) * _
            ring
        · refine (Eq.trans ?_ (key (i + 1 / 2))).trans ?_
          · ring
          · show _ = (a - (b - a) / (2 * π - 0) * 0) + (b - a) / (2 * π - 0) * _
            ring
    · rw [Periodic.P0, Periodic.P0, Periodic.P1, Periodic.P1]
      refine ⟨tab_congr fun i _ => congrArg f (key i), ?_⟩
      rw [smul, map_tab]
      refine tab_congr fun i _ => stretch_integral _ _ _ _ _ _ _ (key i) ?_
      exact key _
  · have hn2 : 2 ≤ n := hn
    have hn' : ((n - 1 : ℕ) : ℝ) ≠ 0 := by
      have : 0 < n - 1 := by omega
      positivity
    refine stretch_interval (Regular.isInterval hn2 0 π) (Regular.isInterval hn2 a b) rfl ?_ ?_ f t
    · intro i
      show _ = (a - (b - a) / (π - 0) * 0) + (b - a) / (π - 0) * _
      beta_reduce
      field_simp; ring
    · intro i
      show _ = (a - (b - a) / (π - 0) * 0) + (b - a) / (π - 0) * _
      beta_reduce
      field_simp; ring
  · have hn2 : 2 ≤ n := hn
    refine stretch_interval (Chebyshev.isInterval hn2 (-1) 1) (Chebyshev.isInterval hn2 a b) rfl ?_ ?_ f t
    · intro i
      show _ = (a - (b - a) / (1 - -1) * -1) + (b - a) / (1 - -1) * _
      unfold Chebyshev.pt
      ring
    · intro i
      show _ = (a - (b - a) / (1 - -1) * -1) + (b - a) / (1 - -1) * _
      unfold Chebyshev.pt
      ring

/-- The Hodge stars do not depend on the interval. -/
theorem H_standard (k : Kind) (n : ℕ) (a b : ℝ) : (grid k n a b).H = (standardGrid k n).H := by cases k <;> rfl

theorem hodge_standard (k : Kind) (n : ℕ) (hn : minSize k ≤ n) (f : ℝ → ℝ) (t : Bool) (hf : ResolvedOn k n t f) :
    (standardGrid k n).H 0 t ((standardGrid k n).P 0 t f) = .ok ((standardGrid k n).P 1 (!t) f) ∧
    ((k = .chebyshev → t = false → n ≤ 927) → (standardGrid k n).H 1 (!t) ((standardGrid k n).P 1 (!t) f) = .ok ((standardGrid k n).P 0 t f)) := by
  cases k
  · obtain ⟨K, hK, hT⟩ := hf
    have h1 := (C02_periodic_hodge_exact n K hK f hT t).1
    have h2 := (C02_periodic_hodge_exact n K hK f hT (!t)).2
    rw [Bool.not_not] at h2
    exact ⟨h1, fun _ => h2⟩
  · cases t
    · exact ⟨(C04_regular_hodge_exact_dual n (n - 2) hn le_rfl f hf).1, fun _ => (C04_regular_hodge_exact_dual n (n - 2) hn le_rfl f hf).2⟩
    · exact ⟨(C04_regular_hodge_exact_primal n (n - 1) hn le_rfl f hf).1, fun _ => (C04_regular_hodge_exact_primal n (n - 1) hn le_rfl f hf).2⟩
  · cases t
    · exact ⟨(C06_chebyshev_hodge_exact_dual n hn f hf).1, fun h => (C06_chebyshev_hodge_exact_dual n hn f hf).2 (h rfl rfl)⟩
    · exact ⟨(C06_chebyshev_hodge_exact_primal n hn f hf).1, fun _ => (C06_chebyshev_hodge_exact_primal n hn f hf).2⟩

theorem ResolvedOn.smul {k : Kind} {n : ℕ} {t : Bool} {f : ℝ → ℝ} (h : ResolvedOn k n t f) (c : ℝ) : ResolvedOn k n t (fun x => c * f x) := by
  cases k
  · obtain ⟨K, hK, p, q, e⟩ := h
    exact ⟨K, hK, fun i => c * p i, fun i => c * q i, fun x => by beta_reduce; rw [e, mul_sum]; exact sum_congr rfl fun i _ => by ring⟩
  · obtain ⟨p, e⟩ := h
    exact ⟨fun i => c * p i, fun x => by beta_reduce; rw [e, mul_sum]; exact sum_congr rfl fun i _ => by ring⟩
  · obtain ⟨p, e⟩ := h
    exact ⟨fun i => c * p i, fun x => by beta_reduce; rw [e, mul_sum]; exact sum_congr rfl fun i _ => by ring⟩

theorem P1_smul (cells : Cells) (t : Bool) (c : ℝ) (f : ℝ → ℝ) : P cells 1 t (fun x => c * f x) = smul c (P cells 1 t f) := by
  show slow_integration _ _ _ = smul c (slow_integration _ _ _)
  unfold slow_integration smul
  rw [List.map_zipWith]
  simp only [intervalIntegral.integral_const_mul]

theorem P0_smul (cells : Cells) (t : Bool) (c : ℝ) (f : ℝ → ℝ) : P cells 0 t (fun x => c * f x) = smul c (P cells 0 t f) := by
  show (cells.v t).map _ = smul c ((cells.v t).map _)
  unfold smul
  rw [List.map_map]; rfl

theorem smul_smul' (c d : ℝ) (x : List ℝ) : smul c (smul d x) = smul (c * d) x := by
  unfold smul
  rw [List.map_map]
  exact List.map_congr_left fun y _ => by simp [mul_assoc]

theorem smul_one' (x : List ℝ) : smul 1 x = x := by
  unfold smul; simp

/-- C51: what the Hodge stars really compute on a grid over `[a, b]`. With `r` the length of `[a, b]` divided by the length of the default
interval, the star of a projected 0-form is the projected 1-form divided by `r`, and the star of a projected 1-form is the projected 0-form
times `r`, for every function that the grid resolves. -/
theorem C51_hodge_off_by_length (k : Kind) (n : ℕ) (hn : minSize k ≤ n) (a b : ℝ) (hab : a < b) (t : Bool) (f : ℝ → ℝ)
    (hf : ResolvedOn k n t fun x => f (toInterval k a b x)) :
    (grid k n a b).H 0 t ((grid k n a b).P 0 t f)
      = .ok (smul ((b - a) / (defaultMax k - defaultMin k))⁻¹ ((grid k n a b).P 1 (!t) f)) ∧
    ((k = .chebyshev → t = false → n ≤ 927) → (grid k n a b).H 1 (!t) ((grid k n a b).P 1 (!t) f)
      = .ok (smul ((b - a) / (defaultMax k - defaultMin k)) ((grid k n a b).P 0 t f))) := by
  have hL := defaultLength_pos k
  have hr : (b - a) / (defaultMax k - defaultMin k) ≠ 0 := (div_pos (sub_pos.2 hab) hL).ne'
  obtain ⟨h0, -⟩ := stretch k n hn hab f t
  obtain ⟨-, h1⟩ := stretch k n hn hab f (!t)
  rw [H_standard, h0, h1]
  refine ⟨?_, fun h => ?_⟩
  · rw [(hodge_standard k n hn _ t hf).1, smul_smul', inv_mul_cancel₀ hr, smul_one']
  · have h2 := (hodge_standard k n hn _ t (hf.smul ((b - a) / (defaultMax k - defaultMin k)))).2 h
    unfold Grid1.P at h2 ⊢
    rw [P1_smul, P0_smul] at h2
    exact h2

theorem IsPartition.pos_mem {a b : ℝ} {s e : List ℝ} (h : IsPartition a b s e) : ∃ y ∈ slow_integration s e (fun _ => 1), 0 < y := by
  obtain ⟨h1, h2, -, -, h5, -⟩ := h
  refine ⟨_, List.getElem_mem (n := 0) (by simp [slow_integration]; omega), ?_⟩
  simp only [slow_integration, List.getElem_zipWith, integral_one]
  have := h5 0 h2
  simp only [List.getD_eq_getElem?_getD, List.getElem?_eq_getElem h2, List.getElem?_eq_getElem (h1 ▸ h2), Option.getD_some] at this
  linarith

theorem P1_one_pos (k : Kind) (n : ℕ) (hn : minSize k ≤ n) {a b : ℝ} (hab : a < b) (t : Bool) :
    ∃ y ∈ (grid k n a b).P 1 t (fun _ => 1), 0 < y := by
  cases k
  · cases t
    · obtain ⟨-, -, -, h, -⟩ := C12_periodic n hn a b hab
      exact IsPartition.pos_mem h
    · exact IsPartition.pos_mem (C12_periodic n hn a b hab).1
  · cases t
    · exact IsPartition.pos_mem (C12_interval_dual .regular n hn a b hab).2.1
    · exact IsPartition.pos_mem (C12_interval_primal .regular n hn a b hab).1
  · cases t
    · exact IsPartition.pos_mem (C12_interval_dual .chebyshev n hn a b hab).2.1
    · exact IsPartition.pos_mem (C12_interval_primal .chebyshev n hn a b hab).1

theorem resolved_one (k : Kind) (n : ℕ) (hn : minSize k ≤ n) (t : Bool) : ResolvedOn k n t (fun _ => 1) := by
  cases k
  · exact ⟨0, hn, fun _ => 1, fun _ => 0, fun x => by simp⟩
  · refine ⟨fun i => if i = 0 then 1 else 0, fun x => ?_⟩
    rw [sum_eq_single 0 (by intro i _ hi; simp [hi]) (by intro h; simp at h)]
    simp
  · have hn2 : 2 ≤ n := hn
    refine ⟨fun i => if i = 0 then 1 else 0, fun x => ?_⟩
    rw [sum_eq_single 0 (by intro i _ hi; simp [hi]) (by intro h; exfalso; apply h; cases t <;> simp <;> omega)]
    simp

/-- C51: the property as one would expect it, `H[0, t](P[0, t](1)) = P[1, not t](1)`, holds exactly on the grids whose interval is as long as
the default one. -/
theorem C51_constant_iff (k : Kind) (n : ℕ) (hn : minSize k ≤ n) (a b : ℝ) (hab : a < b) (t : Bool) :
    (grid k n a b).H 0 t ((grid k n a b).P 0 t fun _ => 1) = .ok ((grid k n a b).P 1 (!t) fun _ => 1) ↔
      b - a = defaultMax k - defaultMin k := by
  have hL := defaultLength_pos k
  rw [(C51_hodge_off_by_length k n hn a b hab t (fun _ => 1) (resolved_one k n hn t)).1]
  constructor
  · intro h
    obtain ⟨y, hy, hp⟩ := P1_one_pos k n hn hab (!t)
    injection h with h
    obtain ⟨i, hi, rfl⟩ := List.mem_iff_getElem.1 hy
    have h2 := congrArg (fun l => l.getD i 0) h
    simp only [smul] at h2
    simp only [List.getD_eq_getElem?_getD, List.getElem?_map, List.getElem?_eq_getElem hi, Option.map_some, Option.getD_some] at h2
    have h3 := mul_right_cancel₀ hp.ne' (h2.trans (one_mul _).symm)
    rw [inv_eq_one] at h3
    exact (div_eq_one_iff_eq hL.ne').1 h3
  · intro h
    rw [h, div_self hL.ne', inv_one, smul_one']

/-- C51: the defect on a concrete grid, `Grid_1D.periodic(4, 0, 1)`. -/
theorem C51_unit_interval_fails : (Periodic.make 4 0 1).H 0 true ((Periodic.make 4 0 1).P 0 true fun _ => 1) ≠ .ok ((Periodic.make 4 0 1).P 1 false fun _ => 1) := by
  intro h
  have := (C51_constant_iff .periodic 4 (by decide) 0 1 one_pos true).1 h
  have h2 : (1 : ℝ) - 0 = 2 * π - 0 := this
  have := pi_gt_three
  linarith

/-- Non-vacuity: `cos (2 π x)` on `Grid_1D.periodic(4, 0, 1)`. -/
example : ResolvedOn .periodic 4 true (fun x => (fun y => cos (2 * π * y)) (toInterval .periodic 0 1 x)) := by
  refine ⟨1, by norm_num, ?_⟩
  convert isTrig_cos_nat (m := 1) (K := 1) le_rfl using 2 with x
  unfold toInterval
  show cos (2 * π * (0 + (1 - 0) / (2 * π - 0) * (x - 0))) = _
  congr 1
  have := pi_pos
  field_simp
  simp

end Dec.Props
