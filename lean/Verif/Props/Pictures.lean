import Verif.Model.Pictures
import Verif.Props.HodgeDecomposition
import Verif.Props.Reconstruction
import Verif.Props.Cells
import Verif.Props.Grid2Cohomology

set_option linter.unusedSimpArgs false
set_option linter.unusedVariables false

/-!
# C114: what the pictures of grids and basis forms show (`/repo/dec/plot.py`, `_plot_scatter` of `/repo/dec/grid2.py`)
-/

namespace Dec.Props

open Real Finset Dec.G2 Dec.Sp Dec.Pictures

/-! ## `grid_1d` -/

theorem grid_edges (k : Kind) (n : ℕ) (hn : validSize k n) {xmin xmax : ℝ} (hab : xmin < xmax) (t : Bool) (hkt : k = .periodic → t = true) :
    IsPartition xmin xmax ((grid k n xmin xmax).cells.e t).1 ((grid k n xmin xmax).cells.e t).2 := by
  cases k <;> cases t
  · cases hkt rfl
  · exact (C12_periodic n hn xmin xmax hab).1
  · exact (C12_interval_dual .regular n hn xmin xmax hab).2.1
  · exact (C12_interval_primal .regular n hn xmin xmax hab).1
  · exact (C12_interval_dual .chebyshev n hn xmin xmax hab).2.1
  · exact (C12_interval_primal .chebyshev n hn xmin xmax hab).1

theorem partition_mono {a b : ℝ} {s e : List ℝ} (h : IsPartition a b s e) {i j : ℕ} (hij : i < j) (hj : j < s.length) : e.getD i 0 ≤ s.getD j 0 := by
  obtain ⟨-, -, -, -, h5, h6⟩ := h
  induction j with
  | zero => omega
  | succ j ih =>
    rcases Nat.lt_or_ge i j with h | h
    · exact (ih h (by omega)).trans ((h5 j (by omega)).le.trans (h6 j hj).le)
    · rw [show i = j by omega, h6 j hj]

theorem partition_cover {a b : ℝ} {s e : List ℝ} (h : IsPartition a b s e) (x : ℝ) : (∃ i < s.length, s.getD i 0 ≤ x ∧ x ≤ e.getD i 0) ↔ a ≤ x ∧ x ≤ b := by
  obtain ⟨h1, h2, h3, h4, h5, h6⟩ := h
  constructor
  · rintro ⟨i, hi, l, r⟩
    have H : IsPartition a b s e := ⟨h1, h2, h3, h4, h5, h6⟩
    constructor
    · rcases Nat.eq_zero_or_pos i with h0 | h0
      · rw [← h3, ← h0]; exact l
      · exact (h3 ▸ ((h5 0 h2).le.trans (partition_mono H h0 hi))).trans l
    · rcases Nat.lt_or_ge i (s.length - 1) with h0 | h0
      · exact r.trans ((partition_mono H h0 (by omega)).trans ((h5 _ (by omega)).le.trans (by rw [← h4, h1])))
      · rw [← h4, ← h1, show s.length - 1 = i by omega]; exact r
  · rintro ⟨l, r⟩
    by_contra hc
    push Not at hc
    have key : ∀ i < s.length, s.getD i 0 ≤ x := fun i hi => by
      induction i with
      | zero => rw [h3]; exact l
      | succ i ih => rw [← h6 i hi]; exact (hc i (by omega) (ih (by omega))).le
    have := hc (s.length - 1) (by omega) (key _ (by omega))
    rw [h1, h4] at this
    linarith

theorem verts_edges (k : Kind) (n : ℕ) (hn : validSize k n) {xmin xmax : ℝ} (hab : xmin < xmax) :
    (∀ i < (grid k n xmin xmax).N 1 true, lo (grid k n xmin xmax) true i = vx (grid k n xmin xmax) true i) ∧
      (k ≠ .periodic → (grid k n xmin xmax).N 0 true = (grid k n xmin xmax).N 1 true + 1 ∧ ∀ i < (grid k n xmin xmax).N 1 true, G2.hi (grid k n xmin xmax) true i = vx (grid k n xmin xmax) true (i + 1)) ∧
      (k = .periodic → (grid k n xmin xmax).N 0 true = (grid k n xmin xmax).N 1 true) := by
  have key : ∀ (k : IKind) (hn : 2 ≤ n), (∀ i < (intervalGrid k n xmin xmax).N 1 true, lo (intervalGrid k n xmin xmax) true i = vx (intervalGrid k n xmin xmax) true i) ∧
      ((intervalGrid k n xmin xmax).N 0 true = (intervalGrid k n xmin xmax).N 1 true + 1 ∧ ∀ i < (intervalGrid k n xmin xmax).N 1 true, G2.hi (intervalGrid k n xmin xmax) true i = vx (intervalGrid k n xmin xmax) true (i + 1)) := fun k hn => by
    obtain ⟨v, w, hg, -⟩ := exists_isInterval k hn hab
    have h2 := hg.two_le
    rw [hg.N11, hg.N01]
    unfold lo G2.hi vx
    rw [hg.edges, hg.verts]
    refine ⟨fun i hi => ?_, by omega, fun i hi => ?_⟩
    · rw [getD_tab (by omega), getD_tab (by omega)]
    · rw [getD_tab (by omega), getD_tab (by omega)]
  cases k
  · refine ⟨fun i _ => ?_, fun h => absurd rfl h, fun _ => rfl⟩
    unfold lo vx
    rw [show ((grid .periodic n xmin xmax).cells.e true).1 = (grid .periodic n xmin xmax).cells.v true from (C12_periodic n hn xmin xmax hab).2.1]
  · exact ⟨(key .regular hn).1, fun _ => (key .regular hn).2, fun h => by cases h⟩
  · exact ⟨(key .chebyshev hn).1, fun _ => (key .chebyshev hn).2, fun h => by cases h⟩

theorem verts_lt (k : Kind) (n : ℕ) (hn : validSize k n) {xmin xmax : ℝ} (hab : xmin < xmax) {i j : ℕ} (hij : i < j) (hj : j < (grid k n xmin xmax).N 0 true) :
    vx (grid k n xmin xmax) true i < vx (grid k n xmin xmax) true j := by
  have h := grid_edges k n hn hab true (fun _ => rfl)
  have l := (grid_factor k n hn xmin xmax).e1 true
  obtain ⟨e1, e2, e3⟩ := verts_edges k n hn hab
  have m : ∀ {i j : ℕ}, i < j → j < (grid k n xmin xmax).N 1 true → G2.hi (grid k n xmin xmax) true i ≤ lo (grid k n xmin xmax) true j := fun hij hj => partition_mono h hij (by rw [l]; exact hj)
  have lt : ∀ i < (grid k n xmin xmax).N 1 true, lo (grid k n xmin xmax) true i < G2.hi (grid k n xmin xmax) true i := fun i hi => h.2.2.2.2.1 i (by rw [l]; exact hi)
  by_cases hp : k = .periodic
  · rw [e3 hp] at hj
    rw [← e1 i (by omega), ← e1 j hj]
    exact (lt i (by omega)).trans_le (m hij hj)
  · obtain ⟨a, b⟩ := e2 hp
    rw [← e1 i (by omega)]
    rw [show j = (j - 1) + 1 by omega, ← b (j - 1) (by omega)]
    rcases Nat.lt_or_ge i (j - 1) with hc | hc
    · exact (lt i (by omega)).trans_le ((m hc (by omega)).trans (lt _ (by omega)).le)
    · rw [show j - 1 = i by omega]; exact lt i (by omega)

section
variable (k : Kind) (n : ℕ) (hn : validSize k n) {xmin xmax : ℝ} (hab : xmin < xmax)
local notation "𝔤" => grid k n xmin xmax
include hn hab

/-- **C114** (segments): `grid_1d` draws one segment per edge, each on the axis and from left to right; together they cover exactly the interval, and different segments meet at most in an end. -/
theorem C114_segments :
    (grid_1d 𝔤).2.length = (𝔤).N 1 true ∧ (∀ s ∈ (grid_1d 𝔤).2, s.1.2 = 0 ∧ s.2.2 = 0 ∧ s.1.1 < s.2.1) ∧
      (∀ x : ℝ, (∃ s ∈ (grid_1d 𝔤).2, s.1.1 ≤ x ∧ x ≤ s.2.1) ↔ xmin ≤ x ∧ x ≤ xmax) ∧ (grid_1d 𝔤).2.Pairwise fun s s' => s.2.1 ≤ s'.1.1 := by
  have h := grid_edges k n hn hab true (fun _ => rfl)
  have F := grid_factor k n hn xmin xmax
  have e : (grid_1d 𝔤).2 = tab ((𝔤).N 1 true) fun i => ((lo 𝔤 true i, 0), (G2.hi 𝔤 true i, 0)) := by
    show (((𝔤).cells.e true).1.zip ((𝔤).cells.e true).2).map _ = _
    rw [F.e1_tab, F.e2_tab, List.zip, zipWith_tab, map_tab]
  have l : ((𝔤).cells.e true).1.length = (𝔤).N 1 true := F.e1 true
  rw [e]
  refine ⟨length_tab _ _, fun s hs => ?_, fun x => ?_, ?_⟩
  · obtain ⟨i, hi, rfl⟩ := List.mem_map.1 hs
    exact ⟨rfl, rfl, h.2.2.2.2.1 i (by rw [l]; exact List.mem_range.1 hi)⟩
  · rw [← partition_cover h x, l]
    constructor
    · rintro ⟨s, hs, a, b⟩
      obtain ⟨i, hi, rfl⟩ := List.mem_map.1 hs
      exact ⟨i, List.mem_range.1 hi, a, b⟩
    · rintro ⟨i, hi, a, b⟩
      exact ⟨_, List.mem_map.2 ⟨i, List.mem_range.2 hi, rfl⟩, a, b⟩
  · unfold tab
    rw [List.pairwise_map]
    refine List.Pairwise.imp_of_mem (fun {i j} _ hj (hij : i < j) => ?_) List.pairwise_lt_range
    exact partition_mono h hij (by rw [l]; exact List.mem_range.1 hj)

/-- **C114** (dots): `grid_1d` draws one dot per vertex, on the axis and from left to right; the left ends of the segments are dots, and so are the right ends, except that on a periodic grid the last
segment ends at `xmax`, where there is no dot. -/
theorem C114_dots :
    (grid_1d 𝔤).1.length = (𝔤).N 0 true ∧ (∀ p ∈ (grid_1d 𝔤).1, p.2 = 0 ∧ xmin ≤ p.1 ∧ p.1 ≤ xmax) ∧ (grid_1d 𝔤).1.Pairwise (fun p p' => p.1 < p'.1) ∧
      (∀ s ∈ (grid_1d 𝔤).2, s.1 ∈ (grid_1d 𝔤).1) ∧ (∀ s ∈ (grid_1d 𝔤).2, s.2 ∉ (grid_1d 𝔤).1 ↔ k = .periodic ∧ s.2 = (xmax, 0)) ∧
      ∀ p ∈ (grid_1d 𝔤).1, ∃ s ∈ (grid_1d 𝔤).2, s.1 = p ∨ s.2 = p := by
  have h := grid_edges k n hn hab true (fun _ => rfl)
  have F := grid_factor k n hn xmin xmax
  have l : ((𝔤).cells.e true).1.length = (𝔤).N 1 true := F.e1 true
  have hpos := F.pos 1 true
  obtain ⟨e1, e2, e3⟩ := verts_edges k n hn hab
  have last : G2.hi 𝔤 true ((𝔤).N 1 true - 1) = xmax := by
    have := h.2.2.2.1
    rwa [F.e2 true] at this
  have step : ∀ i, i + 1 < (𝔤).N 1 true → G2.hi 𝔤 true i = lo 𝔤 true (i + 1) := fun i hi => h.2.2.2.2.2 i (by rw [l]; exact hi)
  have inn : ∀ i < (𝔤).N 1 true, (xmin ≤ lo 𝔤 true i ∧ lo 𝔤 true i < xmax) ∧ G2.hi 𝔤 true i ≤ xmax := fun i hi => by
    have lt : lo 𝔤 true i < G2.hi 𝔤 true i := h.2.2.2.2.1 i (by rw [l]; exact hi)
    have a := (partition_cover h (lo 𝔤 true i)).1 ⟨i, by rw [l]; exact hi, le_refl _, lt.le⟩
    have b := (partition_cover h (G2.hi 𝔤 true i)).1 ⟨i, by rw [l]; exact hi, lt.le, le_refl _⟩
    exact ⟨⟨a.1, lt.trans_le b.2⟩, b.2⟩
  have es : (grid_1d 𝔤).2 = tab ((𝔤).N 1 true) fun i => ((lo 𝔤 true i, 0), (G2.hi 𝔤 true i, 0)) := by
    show (((𝔤).cells.e true).1.zip ((𝔤).cells.e true).2).map _ = _
    rw [F.e1_tab, F.e2_tab, List.zip, zipWith_tab, map_tab]
  have ev : (grid_1d 𝔤).1 = tab ((𝔤).N 0 true) fun i => (vx 𝔤 true i, 0) := by
    show ((𝔤).cells.v true).zip (((𝔤).cells.v true).map (0 * ·)) = _
    rw [F.v_tab, map_tab, List.zip, zipWith_tab]
    simp only [zero_mul]
  have mem : ∀ x : ℝ, (x, (0 : ℝ)) ∈ (grid_1d 𝔤).1 ↔ ∃ i < (𝔤).N 0 true, vx 𝔤 true i = x := fun x => by
    rw [ev]
    constructor
    · intro hx
      obtain ⟨i, hi, e⟩ := List.mem_map.1 hx
      exact ⟨i, List.mem_range.1 hi, congrArg Prod.fst e⟩
    · rintro ⟨i, hi, rfl⟩
      exact List.mem_map.2 ⟨i, List.mem_range.2 hi, rfl⟩
  have ge : (𝔤).N 1 true ≤ (𝔤).N 0 true := by
    by_cases hp : k = .periodic
    · exact (e3 hp).ge
    · have := (e2 hp).1; omega
  refine ⟨by rw [ev]; exact length_tab _ _, fun p hp => ?_, ?_, fun s hs => ?_, fun s hs => ?_, fun p hp => ?_⟩
  · rw [ev] at hp
    obtain ⟨i, hi, rfl⟩ := List.mem_map.1 hp
    have hi := List.mem_range.1 hi
    refine ⟨rfl, ?_⟩
    show xmin ≤ vx 𝔤 true i ∧ vx 𝔤 true i ≤ xmax
    by_cases hc : i < (𝔤).N 1 true
    · rw [← e1 i hc]
      exact ⟨(inn i hc).1.1, (inn i hc).1.2.le⟩
    · have hp : k ≠ .periodic := fun h => hc (by rw [← e3 h]; exact hi)
      have hN := (e2 hp).1
      have := (e2 hp).2 ((𝔤).N 1 true - 1) (by omega)
      rw [show (𝔤).N 1 true - 1 + 1 = i by omega, last] at this
      rw [← this]
      exact ⟨hab.le, le_refl _⟩
  · rw [ev]
    unfold tab
    rw [List.pairwise_map]
    exact List.Pairwise.imp_of_mem (fun {i j} _ hj (hij : i < j) => verts_lt k n hn hab hij (List.mem_range.1 hj)) List.pairwise_lt_range
  · rw [es] at hs
    obtain ⟨i, hi, rfl⟩ := List.mem_map.1 hs
    have hi := List.mem_range.1 hi
    exact (mem _).2 ⟨i, by omega, (e1 i hi).symm⟩
  · rw [es] at hs
    obtain ⟨i, hi, rfl⟩ := List.mem_map.1 hs
    have hi := List.mem_range.1 hi
    show (G2.hi 𝔤 true i, (0 : ℝ)) ∉ _ ↔ _ ∧ (G2.hi 𝔤 true i, (0 : ℝ)) = (xmax, 0)
    rw [mem, Prod.mk.injEq]
    by_cases hp : k = .periodic
    · have hN := e3 hp
      constructor
      · intro hne
        refine ⟨hp, ?_, rfl⟩
        rcases Nat.lt_or_ge (i + 1) ((𝔤).N 1 true) with hc | hc
        · exact absurd ⟨i + 1, by omega, by rw [step i hc, e1 _ hc]⟩ hne
        · rw [show i = (𝔤).N 1 true - 1 by omega, last]
      · rintro ⟨-, e, -⟩ ⟨j, hj, e'⟩
        have hj : j < (𝔤).N 1 true := by omega
        rw [← e1 j hj, e] at e'
        exact absurd e' (inn j hj).1.2.ne
    · constructor
      · intro hne
        exact absurd ⟨i + 1, by rw [(e2 hp).1]; omega, ((e2 hp).2 i hi).symm⟩ hne
      · rintro ⟨h, -⟩
        exact absurd h hp
  · rw [ev] at hp
    obtain ⟨i, hi, rfl⟩ := List.mem_map.1 hp
    have hi := List.mem_range.1 hi
    rw [es]
    by_cases hc : i < (𝔤).N 1 true
    · exact ⟨_, List.mem_map.2 ⟨i, List.mem_range.2 hc, rfl⟩, Or.inl (by rw [e1 i hc])⟩
    · have hp : k ≠ .periodic := fun h => hc (by rw [← e3 h]; exact hi)
      have hN := (e2 hp).1
      refine ⟨_, List.mem_map.2 ⟨(𝔤).N 1 true - 1, List.mem_range.2 (by omega), rfl⟩, Or.inr ?_⟩
      rw [(e2 hp).2 _ (by omega), show (𝔤).N 1 true - 1 + 1 = i by omega]

end

/-! ## `plot_bases_1d` -/

theorem delta_eq (k : Kind) (n : ℕ) (hn : validSize k n) {xmin xmax : ℝ} (hab : xmin < xmax) (t : Bool) :
    (grid k n xmin xmax).delta t = tab ((grid k n xmin xmax).N 1 t) fun i => G2.hi (grid k n xmin xmax) t i - lo (grid k n xmin xmax) t i := by
  have F := grid_factor k n hn xmin xmax
  have e : (grid k n xmin xmax).delta t = vsub ((grid k n xmin xmax).cells.e t).2 ((grid k n xmin xmax).cells.e t).1 := by
    cases k
    · exact (C12_cell_lengths_periodic n hn xmin xmax hab t).1
    · exact C12_cell_lengths_interval .regular n xmin xmax t
    · exact C12_cell_lengths_interval .chebyshev n xmin xmax t
  rw [e, F.e1_tab, F.e2_tab, vsub_tab]

/-- The factor with which the basis form number `i` is drawn: 1 for 0-forms, the length of its edge for 1-forms. -/
noncomputable def drawn (g : Grid1) (d : Fin 2) (t : Bool) (i : ℕ) (x : ℝ) : Option ℝ := (g.B d t i x).map (· * if d = 0 then 1 else (g.delta t).getD i 0)

/-- **C114** (curves): the four subplots of `plot_bases_1d` hold one curve per basis form, in the order 0-forms, 1-forms, dual 0-forms, dual 1-forms; each runs through the 100 points from `a` to `b`. -/
theorem C114_curves (k : Kind) (n : ℕ) (hn : validSize k n) (xmin xmax a b : ℝ) (hab : xmin < xmax) :
    plot_bases_1d (grid k n xmin xmax) a b = [(0, true), (1, true), (0, false), (1, false)].map fun p : Fin 2 × Bool =>
      (List.range ((grid k n xmin xmax).N p.1 p.2)).map fun i => (List.range 100).map fun m : ℕ =>
        (a + m * ((b - a) / 99), drawn (grid k n xmin xmax) p.1 p.2 i (a + m * ((b - a) / 99))) := by
  have e := delta_eq k n hn hab
  generalize grid k n xmin xmax = g at *
  have hz : linspace a b 100 = (List.range 100).map fun m : ℕ => a + m * ((b - a) / 99) := by
    unfold linspace tab
    norm_num
  have h0 : ∀ t, (tab (g.N 0 t) (g.B 0 t)).map (fun f => curve (linspace a b 100) f 1) = (List.range (g.N 0 t)).map fun i => (List.range 100).map fun m : ℕ =>
        (a + m * ((b - a) / 99), drawn g 0 t i (a + m * ((b - a) / 99))) := fun t => by
    unfold tab curve
    rw [List.map_map, hz]
    simp only [List.map_map]
    rfl
  have h1 : ∀ t, ((tab (g.N 1 t) (g.B 1 t)).zip (g.delta t)).map (fun p => curve (linspace a b 100) p.1 p.2) = (List.range (g.N 1 t)).map fun i => (List.range 100).map fun m : ℕ =>
        (a + m * ((b - a) / 99), drawn g 1 t i (a + m * ((b - a) / 99))) := fun t => by
    have e' := e t
    rw [e t, List.zip, zipWith_tab, map_tab]
    refine tab_congr fun i hi => ?_
    unfold curve
    rw [hz, List.map_map]
    refine List.map_congr_left fun m _ => ?_
    show (_, _) = (_, _)
    refine congrArg _ ?_
    unfold drawn
    rw [if_neg (by decide), e t, getD_tab hi]
  show [_, _, _, _] = [_, _, _, _]
  beta_reduce
  rw [← h0 true, ← h0 false, ← h1 true, ← h1 false]

section
variable (k : Kind) (n : ℕ) (hn : validSize k n)
include hn

theorem dual_basis : DualBasis (grid₀ k n) := (spans' k n hn).dual

/-- **C114** (0-forms): the curve number `j` has the value 1 at its own vertex and 0 at the others. -/
theorem C114_peaks (t : Bool) (i j : ℕ) (hi : i < (grid₀ k n).N 0 t) (hj : j < (grid₀ k n).N 0 t) :
    drawn (grid₀ k n) 0 t j (((grid₀ k n).cells.v t).getD i 0) = some (if i = j then 1 else 0) := by
  unfold drawn
  rw [(dual_basis k n hn).v0 t i hi j hj]
  simp

/-- **C114** (1-forms): the curve number `j` has mean value 1 over its own edge and mean value 0 over the others: the areas that are shaded above and below the box function cancel. -/
theorem C114_means (t : Bool) (i j : ℕ) (hi : i < (grid₀ k n).N 1 t) (hj : j < (grid₀ k n).N 1 t) :
    ∃ c : ℝ → ℝ, (∀ s ∈ Set.Ioo (((grid₀ k n).cells.e t).1.getD i 0) (((grid₀ k n).cells.e t).2.getD i 0), drawn (grid₀ k n) 1 t j s = some (c s)) ∧
      IntervalIntegrable c MeasureTheory.volume (((grid₀ k n).cells.e t).1.getD i 0) (((grid₀ k n).cells.e t).2.getD i 0) ∧
      (∫ s in (((grid₀ k n).cells.e t).1.getD i 0)..(((grid₀ k n).cells.e t).2.getD i 0), c s) / (((grid₀ k n).cells.e t).2.getD i 0 - ((grid₀ k n).cells.e t).1.getD i 0) = if i = j then 1 else 0 := by
  have h := (dual_basis k n hn).e1 t i hi j hj
  obtain ⟨a, b, hab, e, -⟩ := grid₀_eq' k n
  have hd := delta_eq k n hn hab t
  have hp : ∀ i < (grid k n a b).N 1 t, 0 < G2.hi (grid k n a b) t i - lo (grid k n a b) t i := fun i hi => len_pos k n hn hab t i hi
  rw [← e] at hd hp
  have hj' : ((grid₀ k n).delta t).getD j 0 = G2.hi (grid₀ k n) t j - lo (grid₀ k n) t j := by rw [hd, getD_tab hj]
  refine ⟨fun s => ((grid₀ k n).B 1 t j s).getD 0 * ((grid₀ k n).delta t).getD j 0, fun s hs => ?_, h.int.mul_const _, ?_⟩
  · obtain ⟨r, hr⟩ := h.some s hs
    unfold drawn
    simp only [hr, if_neg (show ¬ (1 : Fin 2) = 0 by decide)]
    rfl
  · rw [intervalIntegral.integral_mul_const, h.val, hj']
    by_cases hij : i = j
    · rw [if_pos hij, ← hij, one_mul]
      exact div_self (hp i hi).ne'
    · rw [if_neg hij, zero_mul, zero_div]

/-- **C114** (sums): at every point inside the interval the curves of each subplot add up to 1. -/
theorem C114_unity (d : Fin 2) (t : Bool) (x : ℝ) (hx : x ∈ Inside k d) :
    ∃ c : ℕ → ℝ, (∀ i < (grid₀ k n).N d t, drawn (grid₀ k n) d t i x = some (c i)) ∧ ∑ i ∈ range ((grid₀ k n).N d t), c i = 1 := by
  have one : Determined k n d t fun _ => 1 := by
    unfold Determined
    cases k
    · exact ⟨fun _ => 1, 0, isTrig_const _ 1, fun _ => rfl, fun θ => by simp⟩
    · exact isCos_const _ 1
    · have h2 : 2 ≤ n := hn
      refine ⟨fun m => if m = 0 then 1 else 0, fun x => ?_⟩
      rw [Finset.sum_eq_single 0 (fun m _ hm => by simp [hm]) (fun h => absurd (Finset.mem_range.2 (by split_ifs <;> omega)) h)]
      simp
  have hR := C70_reconstruct k n hn d t _ one x hx
  have s := spans' k n hn
  have h := s.rep d t
  choose! b hb hB using h
  have hx' := inside_dom k n hn d t hx
  rw [s.R_eq d t _ b (fun j hj => hB j hj) hx'] at hR
  refine ⟨fun i => b i x * if d = 0 then 1 else ((grid₀ k n).delta t).getD i 0, fun i hi => ?_, ?_⟩
  · unfold drawn
    rw [hB i hi x hx']
    rfl
  · refine Eq.trans (Finset.sum_congr rfl fun i hi => ?_) (Option.some.inj hR)
    have hi := Finset.mem_range.1 hi
    obtain ⟨a, b', hab, e, -⟩ := grid₀_eq' k n
    beta_reduce
    rw [mul_comm]
    refine congrArg (· * b i x) ?_
    obtain rfl | rfl : d = 0 ∨ d = 1 := by omega
    · rw [e, P0_const k n hn, getD_tab (by rw [← e]; exact hi)]
      simp
    · rw [e, P1_const k n hn, getD_tab (by rw [← e]; exact hi), if_neg (by decide), delta_eq k n hn hab t, getD_tab (by rw [← e]; exact hi), one_mul]
      rfl

end

/-! ## `_plot_scatter` -/

theorem labels_data {r c : ℕ} (X Y : ℕ → ℕ → ℝ) :
    labels [((mtab r c X).data, (mtab r c Y).data)] = .ok ((List.range (r * c)).map fun m => (m, X (m / c) (m % c), Y (m / c) (m % c))) := by
  have e : ∀ Z : ℕ → ℕ → ℝ, (mtab r c Z).data = tab (r * c) fun m => Z (m / c) (m % c) := fun _ => rfl
  unfold labels average
  simp only [e, List.foldl_nil, List.length_nil, map_tab, bind, Except.bind, pure, Except.pure, length_tab]
  refine congrArg _ ?_
  rw [List.zip, List.zip, zipWith_tab, show List.range (r * c) = tab (r * c) fun m => m from (List.map_id' _).symm, zipWith_tab, map_tab]
  exact tab_congr fun i _ => by simp

theorem average_two (x1 x2 y1 y2 : ℕ → ℝ) (m : ℕ) : average [(tab m x1, tab m y1), (tab m x2, tab m y2)] = .ok (tab m fun i => (x1 i + x2 i) / 2, tab m fun i => (y1 i + y2 i) / 2) := by
  unfold average
  simp only [List.foldl_cons, List.foldl_nil, vadd_tab, map_tab, List.length_cons, List.length_nil]
  norm_num

theorem average_four (x1 x2 x3 x4 y1 y2 y3 y4 : ℕ → ℝ) (m : ℕ) : average [(tab m x1, tab m y1), (tab m x2, tab m y2), (tab m x3, tab m y3), (tab m x4, tab m y4)] =
    .ok (tab m fun i => (x1 i + x2 i + x3 i + x4 i) / 4, tab m fun i => (y1 i + y2 i + y3 i + y4 i) / 4) := by
  unfold average
  simp only [List.foldl_cons, List.foldl_nil, vadd_tab, map_tab, List.length_cons, List.length_nil]
  norm_num

theorem labels_of {m : ℕ} {x y : ℕ → ℝ} {pnts : List (List ℝ × List ℝ)} (h : average pnts = .ok (tab m x, tab m y)) : labels pnts = .ok (tab m fun i => (i, x i, y i)) := by
  unfold labels
  rw [h]
  simp only [bind, Except.bind, pure, Except.pure, length_tab]
  refine congrArg _ ?_
  rw [List.zip, List.zip, zipWith_tab, show List.range m = tab m fun i => i from (List.map_id' _).symm, zipWith_tab]

section
variable (k k' : Kind) (n n' : ℕ) (hn : validSize k n) (hn' : validSize k' n') (xmin xmax ymin ymax : ℝ)
local notation "gx" => grid k n xmin xmax
local notation "gy" => grid k' n' ymin ymax
local notation "𝔾" => product (grid k n xmin xmax) (grid k' n' ymin ymax)
include hn hn'

/-- **C114** (numbers of the vertices): `_plot_scatter` labels the vertices and dual vertices with 0, 1, 2, …, and the label `m` stands at the point at which the entry `m` of `P[0, t](f)` evaluates `f`. -/
theorem C114_scatter : ∃ l : Bool → List (ℕ × ℝ × ℝ), plot_scatter 𝔾 = .ok (l true, l false) ∧
    ∀ t, .ok (l t).length = (𝔾).N 0 t ∧ (l t).map Prod.fst = List.range (l t).length ∧ ∀ f : ℝ → ℝ → ℝ, (𝔾).P 0 t [f] = .ok ((l t).map fun p => f p.2.1 p.2.2) := by
  have Fx := grid_factor k n hn xmin xmax
  have Fy := grid_factor k' n' hn' ymin ymax
  have e : ∀ t, labels [(𝔾).cells.v t] = .ok ((List.range ((gy).N 0 t * (gx).N 0 t)).map fun m => (m, vx gx t (m % (gx).N 0 t), vx gy t (m / (gx).N 0 t))) := fun t => by
    have : (𝔾).cells.v t = (((𝔾).bcells.v t).1.data, ((𝔾).bcells.v t).2.data) := rfl
    rw [this, bcells_v Fx Fy t, labels_data]
  refine ⟨fun t => (List.range ((gy).N 0 t * (gx).N 0 t)).map fun m => (m, vx gx t (m % (gx).N 0 t), vx gy t (m / (gx).N 0 t)), ?_, fun t => ⟨?_, ?_, fun f => ?_⟩⟩
  · unfold plot_scatter
    rw [e true, e false]
    rfl
  · rw [N_eq Fx Fy, List.length_map, List.length_range]
    rfl
  · rw [List.map_map, List.length_map, List.length_range]
    exact List.map_id' _
  · rw [P0_mtab Fx Fy, List.map_map]
    rfl

/-- **C114** (numbers of the edges): drawn as in the commented-out calls, the label `m` stands at the midpoint of the edge `m`. -/
theorem C114_edge_labels (t : Bool) : ∃ l : List (ℕ × ℝ × ℝ), labels (edgePoints 𝔾 t) = .ok l ∧ .ok l.length = (𝔾).N 1 t ∧
    ∀ m < l.length, l[m]? = some (m, ((((𝔾).cells.e t).1.1.getD m 0 + ((𝔾).cells.e t).2.1.getD m 0) / 2, (((𝔾).cells.e t).1.2.getD m 0 + ((𝔾).cells.e t).2.2.getD m 0) / 2)) := by
  have Fx := grid_factor k n hn xmin xmax
  have Fy := grid_factor k' n' hn' ymin ymax
  have len : ((((𝔾).cells.e t).1.1.length = count gx gy 1 t ∧ ((𝔾).cells.e t).1.2.length = count gx gy 1 t) ∧ (((𝔾).cells.e t).2.1.length = count gx gy 1 t ∧ ((𝔾).cells.e t).2.2.length = count gx gy 1 t)) := by
    simp only [Grid2.cells, flatten_cells, bcells_e Fx Fy t, List.length_append, length_data]
    refine ⟨⟨?_, ?_⟩, ?_, ?_⟩ <;> rfl
  obtain ⟨⟨a, b⟩, c, d⟩ := len
  have h := labels_of (average_two (fun i => ((𝔾).cells.e t).1.1.getD i 0) (fun i => ((𝔾).cells.e t).2.1.getD i 0) (fun i => ((𝔾).cells.e t).1.2.getD i 0) (fun i => ((𝔾).cells.e t).2.2.getD i 0) (count gx gy 1 t))
  rw [← eq_tab' a 0, ← eq_tab' b 0, ← eq_tab' c 0, ← eq_tab' d 0] at h
  refine ⟨_, h, by rw [length_tab, N_eq Fx Fy], fun m hm => ?_⟩
  rw [length_tab] at hm
  unfold tab
  rw [List.getElem?_map, List.getElem?_range hm]
  rfl

/-- **C114** (numbers of the faces): the label `m` stands at the centre of the face `m`, strictly inside it (a dual face of a periodic factor may reach over the end of the period). -/
theorem C114_face_labels (hx : xmin < xmax) (hy : ymin < ymax) (t : Bool) : ∃ l : List (ℕ × ℝ × ℝ), labels (facePoints 𝔾 t) = .ok l ∧ .ok l.length = (𝔾).N 2 t ∧
    ∀ m < l.length, ∃ x y : ℝ, l[m]? = some (m, (x, y)) ∧
      x = (((𝔾).cells.f t).1.1.getD m 0 + ((𝔾).cells.f t).2.2.1.1.getD m 0) / 2 ∧ y = (((𝔾).cells.f t).1.2.getD m 0 + ((𝔾).cells.f t).2.2.1.2.getD m 0) / 2 ∧
      ((𝔾).cells.f t).1.1.getD m 0 < x ∧ x < ((𝔾).cells.f t).2.2.1.1.getD m 0 ∧ ((𝔾).cells.f t).1.2.getD m 0 < y ∧ y < ((𝔾).cells.f t).2.2.1.2.getD m 0 := by
  have Fx := grid_factor k n hn xmin xmax
  have Fy := grid_factor k' n' hn' ymin ymax
  have px : ∀ i < (gx).N 1 t, 0 < G2.hi gx t i - lo gx t i := fun i hi => len_pos k n hn hx t i hi
  have py : ∀ i < (gy).N 1 t, 0 < G2.hi gy t i - lo gy t i := fun i hi => len_pos k' n' hn' hy t i hi
  have e : ∀ Z : ℕ → ℕ → ℝ, (mtab ((gy).N 1 t) ((gx).N 1 t) Z).data = tab ((gy).N 1 t * (gx).N 1 t) fun m => Z (m / (gx).N 1 t) (m % (gx).N 1 t) := fun _ => rfl
  have hf : (𝔾).cells.f t = ((tab ((gy).N 1 t * (gx).N 1 t) fun m => lo gx t (m % (gx).N 1 t), tab ((gy).N 1 t * (gx).N 1 t) fun m => lo gy t (m / (gx).N 1 t)),
      (tab ((gy).N 1 t * (gx).N 1 t) fun m => G2.hi gx t (m % (gx).N 1 t), tab ((gy).N 1 t * (gx).N 1 t) fun m => lo gy t (m / (gx).N 1 t)),
      (tab ((gy).N 1 t * (gx).N 1 t) fun m => G2.hi gx t (m % (gx).N 1 t), tab ((gy).N 1 t * (gx).N 1 t) fun m => G2.hi gy t (m / (gx).N 1 t)),
      (tab ((gy).N 1 t * (gx).N 1 t) fun m => lo gx t (m % (gx).N 1 t), tab ((gy).N 1 t * (gx).N 1 t) fun m => G2.hi gy t (m / (gx).N 1 t))) := by
    simp only [Grid2.cells, flatten_cells, bcells_f Fx Fy t, e]
  unfold facePoints
  rw [hf]
  refine ⟨_, labels_of (average_four _ _ _ _ _ _ _ _ _), by rw [length_tab, N_eq Fx Fy]; rfl, fun m hm => ?_⟩
  rw [length_tab] at hm
  have hc : 0 < (gx).N 1 t := Nat.pos_of_ne_zero fun h => by rw [h] at hm; omega
  have a := px (m % (gx).N 1 t) (Nat.mod_lt _ hc)
  have b := py (m / (gx).N 1 t) (Nat.div_lt_of_lt_mul (by rw [mul_comm]; exact hm))
  refine ⟨(lo gx t (m % (gx).N 1 t) + G2.hi gx t (m % (gx).N 1 t) + G2.hi gx t (m % (gx).N 1 t) + lo gx t (m % (gx).N 1 t)) / 4,
    (lo gy t (m / (gx).N 1 t) + lo gy t (m / (gx).N 1 t) + G2.hi gy t (m / (gx).N 1 t) + G2.hi gy t (m / (gx).N 1 t)) / 4, ?_, ?_⟩
  · unfold tab
    rw [List.getElem?_map, List.getElem?_range hm]
    rfl
  · simp only [getD_tab hm]
    refine ⟨by ring, by ring, ?_, ?_, ?_, ?_⟩ <;> linarith

end

/-! ## Non-vacuity -/

example := C114_segments .chebyshev 5 (show 2 ≤ 5 by norm_num) (show (-1 : ℝ) < 1 by norm_num)
example := C114_dots .periodic 3 (show 1 ≤ 3 by norm_num) (show (0 : ℝ) < 1 by norm_num)
example := C114_curves .regular 4 (show 2 ≤ 4 by norm_num) 0 1 0 1 (show (0 : ℝ) < 1 by norm_num)
/-- The dot of a periodic grid at `xmax` is missing: the second case of `C114_dots` occurs. -/
example : ∃ s ∈ (grid_1d (grid .periodic 3 0 1)).2, s.2 ∉ (grid_1d (grid .periodic 3 0 1)).1 := by
  have h := C114_dots .periodic 3 (show 1 ≤ 3 by norm_num) (show (0 : ℝ) < 1 by norm_num)
  obtain ⟨-, s2, s3, -⟩ := C114_segments .periodic 3 (show 1 ≤ 3 by norm_num) (show (0 : ℝ) < 1 by norm_num)
  obtain ⟨s, hs, -, r⟩ := (s3 1).2 ⟨by norm_num, by norm_num⟩
  obtain ⟨a, b, c⟩ := s2 s hs
  have hle := ((s3 s.2.1).1 ⟨s, hs, c.le, le_refl _⟩).2
  exact ⟨s, hs, (h.2.2.2.2.1 s hs).2 ⟨rfl, Prod.ext (le_antisymm hle r) b⟩⟩
example : (grid₀ .chebyshev 4).N 0 false = 3 := rfl
example := C114_peaks .chebyshev 4 (show 2 ≤ 4 by norm_num) false 0 2 (by decide) (by decide)
example := C114_means .regular 4 (show 2 ≤ 4 by norm_num) true 1 2 (by decide) (by decide)
example := C114_unity .chebyshev 4 (show 2 ≤ 4 by norm_num) 1 false (1 / 2) (by unfold Inside; norm_num)
example := C114_scatter .periodic .chebyshev 3 4 (show 1 ≤ 3 by norm_num) (show 2 ≤ 4 by norm_num) 0 1 (-1) 1
example := C114_face_labels .periodic .chebyshev 3 4 (show 1 ≤ 3 by norm_num) (show 2 ≤ 4 by norm_num) 0 1 (-1) 1 (by norm_num) (by norm_num) false

end Dec.Props
