import Verif.Props.Reconstruction
import Verif.Props.DeprecatedStars
import Verif.Model.StarMatrix

set_option linter.unusedSimpArgs false
set_option linter.unusedVariables false

/-! # C71: the Hodge-star matrices computed from the basis functions -/

namespace Dec.Props

open Finset Real G2 Sp StarMatrix

/-- `m` (a matrix whose entries may be NaN) is a real matrix, and multiplying by it is applying `f` to arrays of length `N`. -/
def IsMatrixOf (f : List ℝ → Except Err (List ℝ)) (N : ℕ) (m : List (List (Option ℝ))) : Prop :=
  ∃ r : List (List ℝ), m = r.map (List.map some) ∧ ∀ a, a.length = N → f a = .ok (matVec r a)

section
variable {g : Grid1} {V : Fin 2 → Bool → (ℝ → ℝ) → Prop} {dom : Fin 2 → Bool → Set ℝ}

theorem spans_reps (s : Spans g V dom) (d : Fin 2) (t : Bool) :
    ∃ b : ℕ → ℝ → ℝ, (∀ j < g.N d t, V d t (b j)) ∧ (∀ j < g.N d t, ∀ x ∈ dom d t, g.B d t j x = some (b j x)) ∧
      ∀ a : List ℝ, a.length = g.N d t → V d t (fun x => ∑ j ∈ range (g.N d t), a.getD j 0 * b j x) ∧ g.P d t (fun x => ∑ j ∈ range (g.N d t), a.getD j 0 * b j x) = a := by
  have h := s.rep d t
  choose! b hb hB using h
  refine ⟨b, hb, hB, fun a ha => ⟨(s.space d t).sum _ (fun j x => a.getD j 0 * b j x) fun j hj => (s.space d t).smul _ _ (hb j hj), ?_⟩⟩
  rw [s.P_lin d t _ (fun j => a.getD j 0) b hb]
  conv_rhs => rw [eq_tab' ha 0]
  refine tab_congr fun i hi => ?_
  rw [sum_eq_single i]
  · rw [s.P_rep d t hi (hb i hi) (hB i hi), getD_tab hi, if_pos rfl, mul_one]
  · intro j hj hne
    rw [s.P_rep d t (mem_range.1 hj) (hb j (mem_range.1 hj)) (hB j (mem_range.1 hj)), getD_tab hi, if_neg (Ne.symm hne), mul_zero]
  · intro h; exact absurd (mem_range.2 hi) h

theorem vstackT_tab {N M : ℕ} (hN : 0 < N) (col : ℕ → ℕ → ℝ) :
    vstackT (tab N fun j => tab M fun i => some (col j i)) = .ok ((tab M fun i => tab N fun j => col j i).map (List.map some)) := by
  obtain ⟨N, rfl⟩ : ∃ n, N = n + 1 := ⟨N - 1, by omega⟩
  have e : (tab (N + 1) fun j => tab M fun i => some (col j i)) = (tab M fun i => some (col 0 i)) :: tab N fun j => tab M fun i => some (col (j + 1) i) := by
    rw [cons_tab]
    refine tab_congr fun j hj => ?_
    by_cases h : j = 0
    · subst h; rfl
    · simp only [if_neg h, show j - 1 + 1 = j by omega]
  unfold vstackT
  rw [e]
  simp only
  rw [← e, if_pos]
  · rw [map_tab]
    simp only [length_tab]
    refine congrArg _ (tab_congr fun i hi => ?_)
    rw [map_tab, map_tab]
    exact tab_congr fun j hj => by rw [getD_tab hi]
  · rw [List.all_eq_true]
    intro x hx
    unfold tab at hx
    obtain ⟨j, _, rfl⟩ := List.mem_map.1 hx
    simp

theorem matVec_tab (M N : ℕ) (c : ℕ → ℕ → ℝ) (a : List ℝ) (ha : a.length = N) :
    matVec (tab M fun i => tab N fun j => c i j) a = tab M fun i => ∑ j ∈ range N, a.getD j 0 * c i j := by
  unfold matVec
  rw [map_tab]
  refine tab_congr fun i _ => ?_
  conv_lhs => rw [eq_tab' ha 0]
  rw [zipWith_tab, sum_tab]
  exact sum_congr rfl fun j _ => mul_comm _ _

/-- The cells of the other grid lie where the basis functions are defined. -/
def Covers (g : Grid1) (dom : Fin 2 → Bool → Set ℝ) (d : Fin 2) (t : Bool) : Prop :=
  match d with
  | 0 => ∀ i < g.N 1 (!t), lo g (!t) i ≤ hi g (!t) i ∧ Set.Ioo (lo g (!t) i) (hi g (!t) i) ⊆ dom 0 t
  | 1 => ∀ i < g.N 0 (!t), vx g (!t) i ∈ dom 1 t

theorem oP_rep (s : Spans g V dom) (d : Fin 2) (t : Bool) (hc : Covers g dom d t) {j : ℕ} {b : ℝ → ℝ} (hb : V d t b) (hB : ∀ x ∈ dom d t, g.B d t j x = some (b x)) :
    oP g.cells (1 - d) (!t) (g.B d t j) = tab (g.N (1 - d) (!t)) fun i => some (pe g (1 - d) (!t) b i) := by
  obtain rfl | rfl : d = 0 ∨ d = 1 := by omega
  · refine oP1 (s.dual.len1 _) (s.dual.len2 _) fun i hi => ?_
    rw [show (1 - 0 : Fin 2) = 1 from rfl, pe1 s.factor _ _ hi]
    exact OInt.of_cont (hc i hi).1 ((s.space 0 t).cont b hb) (fun x hx => hB x ((hc i hi).2 hx)) rfl
  · refine oP0 (s.dual.len0 _) fun i hi => ?_
    rw [show (1 - 1 : Fin 2) = 0 from rfl, pe0 s.factor _ _ hi]
    exact hB _ (hc i hi)

theorem matrix_core (s : Spans g V dom) (d : Fin 2) (t : Bool) (hc : Covers g dom d t) :
    ∃ r : List (List ℝ), vstackT ((tab (g.N d t) (g.B d t)).map (oP g.cells (1 - d) (!t))) = .ok (r.map (List.map some)) ∧
      ∀ a, a.length = g.N d t → ∃ f, V d t f ∧ g.P d t f = a ∧ matVec r a = g.P (1 - d) (!t) f := by
  obtain ⟨b, hb, hB, hr⟩ := spans_reps s d t
  refine ⟨tab (g.N (1 - d) (!t)) fun i => tab (g.N d t) fun j => pe g (1 - d) (!t) (b j) i, ?_, fun a ha => ⟨_, (hr a ha).1, (hr a ha).2, ?_⟩⟩
  · rw [← vstackT_tab (s.factor.pos d t), map_tab]
    refine congrArg _ (tab_congr fun j hj => ?_)
    exact oP_rep s d t hc (hb j hj) (hB j hj)
  · rw [matVec_tab _ _ _ _ ha]
    symm
    obtain rfl | rfl : d = 0 ∨ d = 1 := by omega
    · rw [show (1 - 0 : Fin 2) = 1 from rfl, P1_tab s.factor]
      refine tab_congr fun i hi => ?_
      rw [intervalIntegral.integral_finsetSum fun j hj => (((s.space 0 t).cont _ (hb j (mem_range.1 hj))).const_mul _).intervalIntegrable _ _]
      refine sum_congr rfl fun j _ => ?_
      rw [intervalIntegral.integral_const_mul, pe1 s.factor _ _ hi]
    · rw [show (1 - 1 : Fin 2) = 0 from rfl, P0_tab s.factor]
      refine tab_congr fun i hi => sum_congr rfl fun j _ => ?_
      rw [pe0 s.factor _ _ hi]
end

/-- The stars are exact on the functions that the coefficients determine. -/
theorem determined_star (k : Kind) (n : ℕ) (hn : validSize k n) (d : Fin 2) (t : Bool) (h927 : k = .chebyshev → d = 1 → t = true → n ≤ 927) (f : ℝ → ℝ)
    (hf : Determined k n d t f) : (grid₀ k n).H d t ((grid₀ k n).P d t f) = .ok ((grid₀ k n).P (1 - d) (!t) f) := by
  cases k
  · have hn' : 0 < n := hn
    replace hf := (determined_iff .periodic n hn d t f).1 hf
    have hr := IsTrigAt.res hn' hf
    show (Periodic.make n).H d t ((Periodic.make n).P d t f) = .ok ((Periodic.make n).P (1 - d) (!t) f)
    obtain rfl | rfl : d = 0 ∨ d = 1 := by omega
    all_goals cases t
    · rw [Periodic.P0d_samp, Bool.not_false, show (1 - 0 : Fin 2) = 1 from rfl, Periodic.P1_hh]
      exact congrArg Except.ok hr.Hs
    · rw [Periodic.P0_samp, Bool.not_true, show (1 - 0 : Fin 2) = 1 from rfl, Periodic.P1d_hh]
      exact congrArg Except.ok hr.Hs
    · rw [Periodic.P1d_hh, Bool.not_false, show (1 - 1 : Fin 2) = 0 from rfl, Periodic.P0_samp]
      exact congrArg Except.ok hr.Hinv
    · rw [Periodic.P1_hh, Bool.not_true, show (1 - 1 : Fin 2) = 0 from rfl, Periodic.P0d_samp]
      exact congrArg Except.ok hr.Hinv
  · exact (grid₀_star .regular n hn (fun h => by cases h)).exact d t f ((determined_iff .regular n hn d t f).1 hf)
  · have hn' : 2 ≤ n := hn
    have h1 := C06_chebyshev_hodge_exact_primal n hn' f
    have h2 := C06_chebyshev_hodge_exact_dual n hn' f
    obtain rfl | rfl : d = 0 ∨ d = 1 := by omega
    all_goals cases t
    · exact (h2 (by simpa [Determined] using hf)).1
    · exact (h1 (by simpa [Determined] using hf)).1
    · exact (h1 (by simpa [Determined] using hf)).2
    · exact (h2 (by simpa [Determined] using hf)).2 (h927 rfl rfl rfl)

theorem periodic_lo_hi {n : ℕ} (hn : 0 < n) (t : Bool) {i : ℕ} (h : i < n) :
    lo (Periodic.make n) t i = (if t then 0 else -(hh n / 2)) + i * hh n ∧ hi (Periodic.make n) t i = (if t then 0 else -(hh n / 2)) + (i + 1) * hh n := by
  cases t
  · have e : (Periodic.make n).cells.e false = (tab n fun i => (0 : ℝ) + (i - 1 / 2) * ((2 * π - 0) / n), tab n fun i => (0 : ℝ) + (i + 1 / 2) * ((2 * π - 0) / n)) :=
      Prod.ext (Periodic.edges_dual_tab (by positivity)) (Periodic.verts_dual_tab n 0 (2 * π))
    rw [lo_tab e h, hi_tab e h]
    unfold hh
    simp only [Bool.false_eq_true, if_false]
    constructor <;> ring
  · have e : (Periodic.make n).cells.e true = (tab n fun i => (0 : ℝ) + i * ((2 * π - 0) / n), tab n fun i => (0 : ℝ) + (i + 1 : ℕ) * ((2 * π - 0) / n)) := by
      show ((Periodic.pnts n 0 (2 * π)).dropLast, (Periodic.pnts n 0 (2 * π)).tail) = _
      rw [Periodic.pnts_tab, dropLast_tab, tail_tab, Nat.add_sub_cancel]
    rw [lo_tab e h, hi_tab e h]
    unfold hh
    simp only [if_true]
    push_cast
    constructor <;> ring

theorem covers (k : Kind) (n : ℕ) (hn : validSize k n) (d : Fin 2) (t : Bool) (h : ¬ (k = .chebyshev ∧ d = 1 ∧ t = false)) : Covers (grid₀ k n) (Dom k n) d t := by
  have s := spans' k n hn
  have hle : ∀ t, ∀ i < (grid₀ k n).N 1 t, lo (grid₀ k n) t i ≤ hi (grid₀ k n) t i := fun t i hi => (s.dual.e1 t i hi i hi).le
  cases k
  · have hn' : 0 < n := hn
    have hpos := hh_pos hn'
    have hN := mul_hh hn'
    obtain rfl | rfl : d = 0 ∨ d = 1 := by omega
    · intro i hi
      refine ⟨hle (!t) i hi, fun x hx => ?_⟩
      have hi' : i < n := hi
      obtain ⟨e1, e2⟩ := periodic_lo_hi hn' (!t) hi'
      have h1 : lo (Periodic.make n) (!t) i < x := hx.1
      have h2 : x < G2.hi (Periodic.make n) (!t) i := hx.2
      rw [e1] at h1
      rw [e2] at h2
      have hin : ((i : ℝ) + 1) * hh n ≤ 2 * π := by
        rw [← hN]; exact mul_le_mul_of_nonneg_right (by exact_mod_cast hi') hpos.le
      have hi0 : 0 ≤ (i : ℝ) * hh n := by positivity
      cases t
      · simp only [Bool.not_false, if_true] at h1 h2
        exact ⟨by linarith, by linarith⟩
      · simp only [Bool.not_true, Bool.false_eq_true, if_false] at h1 h2
        exact ⟨by linarith, by linarith⟩
    · intro i hi
      show vx (Periodic.make n) (!t) i ∈ Dom .periodic n 1 t
      unfold Dom; trivial
  · have hin := interval_inside .regular hn pi_pos
    obtain rfl | rfl : d = 0 ∨ d = 1 := by omega
    · exact fun i hi => ⟨hle (!t) i hi, fun x hx => Set.Ioo_subset_Icc_self (hin.2.1 _ i hi hx)⟩
    · exact fun i hi => hin.1 _ i hi
  · have hin := interval_inside .chebyshev hn (a := -1) (b := 1) (by norm_num)
    obtain rfl | rfl : d = 0 ∨ d = 1 := by omega
    · exact fun i hi => ⟨hle (!t) i hi, fun x hx => Set.Ioo_subset_Icc_self (hin.2.1 _ i hi hx)⟩
    · cases t
      · exact absurd ⟨rfl, rfl, rfl⟩ h
      · exact fun i hi => hin.2.2 i hi

/-- The matrix of the star from dual 1-forms to primal 0-forms on a Chebyshev grid. -/
theorem chebyshev_matrix {n : ℕ} (hn : 2 ≤ n) :
    ∃ r : List (List ℝ), vstackT ((tab ((Chebyshev.make n).N 1 false) ((Chebyshev.make n).B 1 false)).map (oP (Chebyshev.make n).cells 0 true)) = .ok (r.map (List.map some)) ∧
      ∀ f, IsPoly n f → matVec r ((Chebyshev.make n).P 1 false f) = (((Chebyshev.make n).P 0 true f).set 0 (f (-1 + 1e-16))).set (n - 1) (f (1 - 1e-16)) := by
  have s : Spans (Chebyshev.make n) _ _ := spans' .chebyshev n hn
  have hI := Chebyshev.isInterval hn (-1) 1
  have N01 : (Chebyshev.make n).N 0 true = n := hI.N01
  have N10 : (Chebyshev.make n).N 1 false = n := hI.N10
  obtain ⟨b, hb, hB, hr⟩ := spans_reps s 1 false
  have hfix : ∀ x : ℝ, -1 ≤ x → x ≤ 1 → -1 < fixSingularity x ∧ fixSingularity x < 1 := fun x h0 h1 => by
    unfold fixSingularity
    by_cases hx : x = -1
    · rw [if_pos hx, hx]; norm_num
    · rw [if_neg hx]
      by_cases hx' : x = 1
      · rw [if_pos hx', hx']; norm_num
      · rw [if_neg hx']; exact ⟨lt_of_le_of_ne h0 (Ne.symm hx), lt_of_le_of_ne h1 hx'⟩
  have hin := interval_inside .chebyshev hn (a := -1) (b := 1) (by norm_num)
  have hv : ∀ i < n, -1 ≤ vx (Chebyshev.make n) true i ∧ vx (Chebyshev.make n) true i ≤ 1 := fun i hi => hin.1 true i (show i < (Chebyshev.make n).N 0 true by rw [N01]; exact hi)
  have hB' : ∀ j < n, ∀ x : ℝ, -1 ≤ x → x ≤ 1 → (Chebyshev.make n).B 1 false j x = some (b j (fixSingularity x)) := fun j hj x h0 h1 => by
    obtain ⟨h2, h3⟩ := hfix x h0 h1
    rw [← hB j (by rw [N10]; exact hj) _ ⟨h2, h3⟩]
    show psid1 n j x = psid1 n j (fixSingularity x)
    unfold psid1
    rw [fix_inside h2 h3]
  have ends : ∀ {i : ℕ}, i < n → fixSingularity (vx (Chebyshev.make n) true i) = if i = n - 1 then 1 - 1e-16 else if i = 0 then -1 + 1e-16 else vx (Chebyshev.make n) true i := by
    obtain ⟨v, w, hg, ho⟩ := exists_isInterval .chebyshev hn (a := -1) (b := 1) (by norm_num)
    have hf := hg.first; have hl := hg.last
    have e3 := hg.verts
    simp only [intervalGrid_n, intervalGrid_xmin, intervalGrid_xmax] at hf hl e3
    have hm : ∀ i < n - 1, v i < v (i + 1) := fun i hi => (ho i hi).1.trans (ho i hi).2
    intro i hi
    have e : vx (Chebyshev.make n) true i = v i := vx_tab (g := intervalGrid .chebyshev n (-1) 1) e3 hi
    rw [e]
    unfold fixSingularity
    by_cases h1 : i = n - 1
    · rw [if_pos h1, h1, hl, if_neg (by norm_num), if_pos rfl]
    · rw [if_neg h1]
      by_cases h0 : i = 0
      · rw [if_pos h0, h0, hf, if_pos rfl]
      · have h2 := mono_lt hm (show 1 ≤ i by omega) (by omega)
        have h3 := mono_lt hm (show i + 1 ≤ n - 1 by omega) le_rfl
        have h4 := hm 0 (by omega)
        have h5 := hm i (by omega)
        rw [hl] at h3; rw [hf] at h4
        rw [if_neg h0, if_neg (by linarith), if_neg (by linarith)]
  refine ⟨tab n fun i => tab ((Chebyshev.make n).N 1 false) fun j => b j (fixSingularity (vx (Chebyshev.make n) true i)), ?_, fun f hf => ?_⟩
  · rw [← vstackT_tab (s.factor.pos 1 false), map_tab]
    refine congrArg _ (tab_congr fun j hj => ?_)
    refine oP0 (by rw [← N01]; exact s.factor.v true) fun i hi => ?_
    exact hB' j (by rw [N10] at hj; exact hj) _ (hv i hi).1 (hv i hi).2
  · have hl : ((Chebyshev.make n).P 1 false f).length = (Chebyshev.make n).N 1 false := by rw [P1_tab s.factor, length_tab]
    obtain ⟨hV, hP⟩ := hr _ hl
    rw [matVec_tab _ _ _ _ hl, P0_tab s.factor, N01]
    rw [set_tab, set_tab]
    refine tab_congr fun i hi => ?_
    obtain ⟨h2, h3⟩ := hfix _ (hv i hi).1 (hv i hi).2
    have := s.uniq 1 false _ f hV (by simpa [Determined] using hf) hP _ (show fixSingularity (vx (Chebyshev.make n) true i) ∈ Set.Ioo (-1 : ℝ) 1 from ⟨h2, h3⟩)
    rw [this, ends hi]
    by_cases h4 : i = n - 1
    · rw [if_pos h4, if_pos h4]
    · rw [if_neg h4, if_neg h4]
      by_cases h5 : i = 0
      · rw [if_pos h5, if_pos h5]
      · rw [if_neg h5, if_neg h5]

/-- **C71**: on every grid of its default interval the four matrices computed by `hodge_star_matrix` from the projections and the basis functions are the
matrices of the four Hodge stars (of `H1` on a Chebyshev grid as long as that star is not rejected) — except that on a Chebyshev grid the rows of the last
matrix that belong to the ends of the interval are evaluated a distance `1e-16` inside it. -/
theorem C71_star_matrix (k : Kind) (n : ℕ) (hn : validSize k n) :
    ∃ H0 H1 H0d H1d, hodge_star_matrix (projection (grid₀ k n)) (basis_fn (grid₀ k n)) = .ok (H0, H1, H0d, H1d) ∧
      IsMatrixOf ((grid₀ k n).H 0 true) ((grid₀ k n).N 0 true) H0 ∧
      ((k = .chebyshev → n ≤ 927) → IsMatrixOf ((grid₀ k n).H 1 true) ((grid₀ k n).N 1 true) H1) ∧
      IsMatrixOf ((grid₀ k n).H 0 false) ((grid₀ k n).N 0 false) H0d ∧
      (k ≠ .chebyshev → IsMatrixOf ((grid₀ k n).H 1 false) ((grid₀ k n).N 1 false) H1d) ∧
      (k = .chebyshev → ∃ r : List (List ℝ), H1d = r.map (List.map some) ∧ ∀ f, IsPoly n f →
        (grid₀ k n).H 1 false ((grid₀ k n).P 1 false f) = .ok ((grid₀ k n).P 0 true f) ∧
        matVec r ((grid₀ k n).P 1 false f) = (((grid₀ k n).P 0 true f).set 0 (f (-1 + 1e-16))).set (n - 1) (f (1 - 1e-16))) := by
  have s := spans' k n hn
  have conv : ∀ d t r, (k = .chebyshev → d = 1 → t = true → n ≤ 927) → (∀ a, a.length = (grid₀ k n).N d t → ∃ f, Determined k n d t f ∧ (grid₀ k n).P d t f = a ∧ matVec r a = (grid₀ k n).P (1 - d) (!t) f) →
      IsMatrixOf ((grid₀ k n).H d t) ((grid₀ k n).N d t) (r.map (List.map some)) := fun d t r h927 h => ⟨r, rfl, fun a ha => by
    obtain ⟨f, hf, rfl, e⟩ := h a ha
    rw [determined_star k n hn d t h927 f hf, e]⟩
  obtain ⟨r0, e0, h0⟩ := matrix_core s 0 true (covers k n hn 0 true (by simp))
  obtain ⟨r1, e1, h1⟩ := matrix_core s 1 true (covers k n hn 1 true (by simp))
  obtain ⟨r0d, e0d, h0d⟩ := matrix_core s 0 false (covers k n hn 0 false (by simp))
  simp only [show (1 - 0 : Fin 2) = 1 from rfl, show (1 - 1 : Fin 2) = 0 from rfl, Bool.not_true, Bool.not_false] at e0 e1 e0d
  have fin : ∀ H1d, vstackT ((tab ((grid₀ k n).N 1 false) ((grid₀ k n).B 1 false)).map (oP (grid₀ k n).cells 0 true)) = .ok H1d →
      hodge_star_matrix (projection (grid₀ k n)) (basis_fn (grid₀ k n)) = .ok (r0.map (List.map some), r1.map (List.map some), r0d.map (List.map some), H1d) := fun H1d h => by
    unfold hodge_star_matrix projection basis_fn
    simp only [e0, e1, e0d, h, Bind.bind, Except.bind]
  by_cases hk : k = .chebyshev
  · subst hk
    obtain ⟨r, e, h⟩ := chebyshev_matrix hn
    refine ⟨_, _, _, _, fin _ e, conv 0 true r0 (by simp) h0, fun hh => conv 1 true r1 (fun _ _ _ => hh rfl) h1, conv 0 false r0d (by simp) h0d, fun h => absurd rfl h, fun _ => ⟨r, rfl, fun f hf => ⟨?_, h f hf⟩⟩⟩
    exact (C06_chebyshev_hodge_exact_primal n hn f hf).2
  · obtain ⟨r, e, h⟩ := matrix_core s 1 false (covers k n hn 1 false (by simp [hk]))
    simp only [show (1 - 1 : Fin 2) = 0 from rfl, Bool.not_false] at e
    exact ⟨_, _, _, _, fin _ e, conv 0 true r0 (by simp) h0, fun hh => conv 1 true r1 (fun h _ _ => absurd h hk) h1, conv 0 false r0d (by simp) h0d, fun _ => conv 1 false r (by simp) h, fun h => absurd h hk⟩

/-! ## The Toeplitz form of the periodic star -/

theorem Ak_periodic {n : ℕ} (hn : 0 < n) (x : ℝ) : Ak n (x + 2 * π) = Ak n x := (Ak_isTrig n).periodic x

theorem toeplitz_eq {n : ℕ} (hn : 1 ≤ n) :
    vstackT ((tab ((Periodic.make n).N 0 true) ((Periodic.make n).B 0 true)).map (oP (Periodic.make n).cells 1 false)) = .ok (hodge_star_toeplitz (Periodic.make n)) := by
  have s : Spans (Periodic.make n) _ _ := spans' .periodic n hn
  have hpos := hh_pos (show 0 < n by omega)
  have hN := mul_hh (show 0 < n by omega)
  set c : ℕ → ℝ := fun i => ∫ x in (-(hh n / 2) + i * hh n)..(-(hh n / 2) + (i + 1) * hh n), Ak n x with hc
  have cols : ∀ j < n, oP (Periodic.make n).cells 1 false ((Periodic.make n).B 0 true j) = tab n fun i => some (∫ x in (lo (Periodic.make n) false i)..(hi (Periodic.make n) false i), Ak n (x - j * hh n)) := by
    intro j hj
    refine oP1 (s.factor.e1 false) (s.factor.e2 false) fun i h => ?_
    have hi' : i < n := h
    obtain ⟨e1, e2⟩ := periodic_lo_hi (by omega) false hi'
    simp only [Bool.false_eq_true, if_false] at e1 e2
    refine OInt.of_cont (b := fun x => Ak n (x - j * hh n)) ((s.dual.e1 false i h i h).le) ?_ (fun x hx => ?_) rfl
    · exact (Ak_isTrig n).continuous.comp (by fun_prop)
    · have h1 : lo (Periodic.make n) false i < x := hx.1
      have h2 : x < hi (Periodic.make n) false i := hx.2
      rw [e1] at h1; rw [e2] at h2
      have hin : ((i : ℝ) + 1) * hh n ≤ 2 * π := by
        rw [← hN]; exact mul_le_mul_of_nonneg_right (by exact_mod_cast hi') hpos.le
      have hjn : ((j : ℝ) + 1) * hh n ≤ 2 * π := by
        rw [← hN]; exact mul_le_mul_of_nonneg_right (by exact_mod_cast hj) hpos.le
      have hi0 : 0 ≤ (i : ℝ) * hh n := by positivity
      have hj0 : 0 ≤ (j : ℝ) * hh n := by positivity
      have e0 : 2 * π / n * (j : ℝ) = j * hh n := by unfold hh; ring
      show alpha n j x = _
      rw [alpha_some hn (by rw [e0]; linarith) (by rw [e0]; linarith), e0]
  have shift : ∀ i < n, ∀ j < n, (∫ x in (lo (Periodic.make n) false i)..(hi (Periodic.make n) false i), Ak n (x - j * hh n)) = if j ≤ i then c (i - j) else c (n - (j - i)) := by
    intro i hi j hj
    obtain ⟨e1, e2⟩ := periodic_lo_hi (by omega) false hi
    simp only [Bool.false_eq_true, if_false] at e1 e2
    rw [e1, e2, intervalIntegral.integral_comp_sub_right (fun x => Ak n x)]
    by_cases h : j ≤ i
    · rw [if_pos h, hc]
      beta_reduce
      have : ((i - j : ℕ) : ℝ) = i - j := by push_cast [h]; ring
      rw [this, show -(hh n / 2) + i * hh n - j * hh n = -(hh n / 2) + (i - j) * hh n by ring, show -(hh n / 2) + ((i : ℝ) + 1) * hh n - j * hh n = -(hh n / 2) + (i - j + 1) * hh n by ring]
    · rw [if_neg h, hc]
      beta_reduce
      have : ((n - (j - i) : ℕ) : ℝ) = n - (j - i) := by
        rw [Nat.cast_sub (by omega), Nat.cast_sub (by omega)]
      rw [this, show -(hh n / 2) + ((n : ℝ) - (j - i)) * hh n = (-(hh n / 2) + i * hh n - j * hh n) + 2 * π by rw [← hN]; ring,
        show -(hh n / 2) + ((n : ℝ) - (j - i) + 1) * hh n = (-(hh n / 2) + (i + 1) * hh n - j * hh n) + 2 * π by rw [← hN]; ring,
        ← intervalIntegral.integral_comp_add_right (fun x => Ak n x)]
      simp only [Ak_periodic (show 0 < n by omega)]
  have e1 : (tab ((Periodic.make n).N 0 true) ((Periodic.make n).B 0 true)).map (oP (Periodic.make n).cells 1 false) = tab n fun j => tab n fun i => some (if j ≤ i then c (i - j) else c (n - (j - i))) := by
    rw [map_tab]
    refine tab_congr fun j hj => ?_
    have hj' : j < n := hj
    rw [cols j hj']
    exact tab_congr fun i hi => by rw [shift i hi j hj']
  have col : oP (Periodic.make n).cells 1 false (alpha0 (Periodic.make n).n) = tab n fun i => some (c i) := by
    have h0 := cols 0 (by omega)
    have : (Periodic.make n).B 0 true 0 = alpha0 n := by
      funext x
      show alpha n ((0 : ℕ) : ℝ) x = _
      unfold alpha; simp
    rw [this] at h0
    show oP (Periodic.make n).cells 1 false (alpha0 n) = _
    rw [h0]
    exact tab_congr fun i hi => by rw [shift i hi 0 (by omega), if_pos (Nat.zero_le _), Nat.sub_zero]
  rw [e1, vstackT_tab (by omega)]
  unfold hodge_star_toeplitz toeplitz
  simp only [col, length_tab]
  have hrow : (tab n fun i => some (c i)).take 1 ++ ((tab n fun i => some (c i)).drop 1).reverse = tab n fun k => if k = 0 then some (c 0) else some (c (n - k)) := by
    rw [take_tab, drop_tab, reverse_tab, append_tab, show min 1 n + (n - 1) = n by omega]
    refine tab_congr fun k hk => ?_
    by_cases h : k = 0
    · rw [if_pos h, if_pos (by omega), h]
    · rw [if_neg h, if_neg (by omega), show 1 + (n - 1 - 1 - (k - min 1 n)) = n - k by omega]
  rw [hrow, map_tab, length_tab]
  refine congrArg _ (tab_congr fun i hi => ?_)
  rw [map_tab]
  refine tab_congr fun j hj => ?_
  beta_reduce
  by_cases h : j ≤ i
  · rw [if_pos h, if_pos h, getD_tab (by omega)]
  · rw [if_neg h, if_neg h, getD_tab (by omega), if_neg (by omega)]

/-- **C71**: `hodge_star_toeplitz` on the circle is the first of these matrices, hence the matrix of `H0`. -/
theorem C71_toeplitz (n : ℕ) (hn : 1 ≤ n) :
    IsMatrixOf ((Periodic.make n).H 0 true) n (hodge_star_toeplitz (Periodic.make n)) ∧
    ∀ H0 H1 H0d H1d, hodge_star_matrix (projection (Periodic.make n)) (basis_fn (Periodic.make n)) = .ok (H0, H1, H0d, H1d) → hodge_star_toeplitz (Periodic.make n) = H0 := by
  have key : ∀ H0 H1 H0d H1d, hodge_star_matrix (projection (Periodic.make n)) (basis_fn (Periodic.make n)) = .ok (H0, H1, H0d, H1d) → hodge_star_toeplitz (Periodic.make n) = H0 := by
    intro H0 H1 H0d H1d h
    unfold hodge_star_matrix projection basis_fn at h
    simp only [toeplitz_eq hn, Bind.bind, Except.bind] at h
    repeat (split at h; · cases h)
    injection h with h
    exact congrArg Prod.fst h
  obtain ⟨H0, H1, H0d, H1d, h, h0, _⟩ := C71_star_matrix .periodic n hn
  refine ⟨?_, key⟩
  rw [key _ _ _ _ h]; exact h0

end Dec.Props
