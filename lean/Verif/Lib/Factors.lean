import Verif.Lib.Grid2
import Verif.Props.Lengths
import Verif.Props.Derivative
import Verif.Props.Regular
import Verif.Props.Chebyshev
import Verif.Props.Periodic
import Verif.Props.ChebyshevCalculus

set_option linter.unusedSimpArgs false
set_option linter.unusedVariables false

/-! # The three kinds of one-dimensional grids as factors of a product grid -/

namespace Dec.G2

open Finset Real Dec.Props

theorem lin_diff (n : ℕ) : Lin n (n - 1) (fun f : List ℝ => diff f) :=
  Lin.of_tab (fun f i => f (i + 1) - f i) (fun f => diff_tab n f) (fun f g i _ => by simp; ring) (fun c f i _ => by simp; ring)

theorem interval_d0 {g : Grid1} {v w : ℕ → ℝ} (hg : IsInterval g v w) (a : List ℝ) :
    g.d0 true a = .ok (diff a) ∧ g.d0 false a = .ok (diff ([0] ++ a ++ [0])) := by
  unfold Grid1.d0; rw [hg.D0, hg.D0d]; exact ⟨rfl, rfl⟩

theorem lin_diff_pad {g : Grid1} {v w : ℕ → ℝ} (hg : IsInterval g v w) : Lin (g.n - 1) g.n (fun f : List ℝ => diff ([0] ++ f ++ [0])) :=
  Lin.of_tab (fun f i => (if i < g.n - 1 then f i else 0) - (if i = 0 then 0 else f (i - 1))) (fun f => hg.diff_zero_pad f)
    (fun f g i _ => by (repeat' split_ifs) <;> simp <;> ring) (fun c f i _ => by (repeat' split_ifs) <;> simp <;> ring)

theorem interval_factor {g : Grid1} {v w : ℕ → ℝ} (hg : IsInterval g v w) : Factor g where
  pos d t := by
    have := hg.two_le
    obtain rfl | rfl : d = 0 ∨ d = 1 := by omega
    all_goals cases t
    · rw [hg.N00]; omega
    · rw [hg.N01]; omega
    · rw [hg.N10]; omega
    · rw [hg.N11]; omega
  v t := by obtain ⟨h1, h2, _⟩ := interval_cells hg; cases t; exacts [h2.trans hg.N00.symm, h1.trans hg.N01.symm]
  e1 t := by obtain ⟨_, _, h1, _, h2, _⟩ := interval_cells hg; cases t; exacts [h2.trans hg.N10.symm, h1.trans hg.N11.symm]
  e2 t := by obtain ⟨_, _, _, h1, _, h2⟩ := interval_cells hg; cases t; exacts [h2.trans hg.N10.symm, h1.trans hg.N11.symm]
  d t := by
    cases t
    · rw [hg.N00, hg.N10]
      exact (ELin.ok (lin_diff_pad hg)).congr fun x _ => (interval_d0 hg x).2
    · rw [hg.N01, hg.N11]
      exact (ELin.ok (lin_diff g.n)).congr fun x _ => (interval_d0 hg x).1

theorem periodic_d0 (n : ℕ) (a b : ℝ) (x : List ℝ) :
    (Periodic.make n a b).d0 true x = .ok (Periodic.D0 x) ∧ (Periodic.make n a b).d0 false x = .ok (Periodic.D0d x) := ⟨rfl, rfl⟩

theorem periodic_D0_tab (n : ℕ) (f : ℕ → ℝ) : Periodic.D0 (tab n f) = tab n fun i => f ((i + 1) % n) - f i := by
  unfold Periodic.D0; rw [roll_neg_one_tab, vsub_tab]

theorem periodic_D0d_tab (n : ℕ) (f : ℕ → ℝ) : Periodic.D0d (tab n f) = tab n fun i => f i - f ((i + n - 1) % n) := by
  unfold Periodic.D0d; rw [periodic_D0_tab, roll_one_tab]
  refine tab_congr fun i hin => ?_
  have hn : 0 < n := by omega
  have e1 : ((i + n - 1) % n + 1) % n = i := by
    rcases Nat.eq_zero_or_pos i with rfl | h
    · rw [Nat.zero_add, Nat.mod_eq_of_lt (by omega : n - 1 < n), Nat.sub_add_cancel hn, Nat.mod_self]
    · rw [show i + n - 1 = i - 1 + n by omega, Nat.add_mod_right, Nat.mod_eq_of_lt (by omega : i - 1 < n),
        Nat.sub_add_cancel h, Nat.mod_eq_of_lt hin]
  rw [e1]

theorem periodic_factor {n : ℕ} (hn : 1 ≤ n) (a b : ℝ) : Factor (Periodic.make n a b) where
  pos d t := hn
  v t := (C11_cells .periodic n hn a b t).1
  e1 t := (C11_cells .periodic n hn a b t).2.1
  e2 t := (C11_cells .periodic n hn a b t).2.2
  d t := by
    cases t
    · exact (ELin.ok (Lin.of_tab (fun f i => f i - f ((i + n - 1) % n)) (fun f => periodic_D0d_tab n f) (fun f g i _ => by simp; ring) (fun c f i _ => by simp; ring))).congr
        fun x _ => (periodic_d0 n a b x).2
    · exact (ELin.ok (Lin.of_tab (fun f i => f ((i + 1) % n) - f i) (fun f => periodic_D0_tab n f) (fun f g i _ => by simp; ring) (fun c f i _ => by simp; ring))).congr
        fun x _ => (periodic_d0 n a b x).1

theorem grid_factor (k : Kind) (n : ℕ) (hn : validSize k n) (a b : ℝ) : Factor (grid k n a b) := by
  cases k
  · exact periodic_factor hn a b
  · exact interval_factor (Regular.isInterval hn a b)
  · exact interval_factor (Chebyshev.isInterval hn a b)

/-- The stars of a factor are linear and inverse to each other. -/
structure Stars (g : Grid1) : Prop where
  lin : ∀ d t, ELin (g.N d t) (g.N (1 - d) (!t)) (g.H d t)
  inv : ∀ d t (a : List ℝ), a.length = g.N d t → (g.H d t a >>= g.H (1 - d) (!t)) = .ok a

theorem grid_stars (k : Kind) (n : ℕ) (hn : validSize k n) (h927 : k = .chebyshev → n ≤ 927) (a b : ℝ) : Stars (grid k n a b) where
  lin d t := grid_elin_H k n hn a b d t fun h _ _ => h927 h
  inv d t x hx := by
    cases k
    · obtain rfl | rfl : d = 0 ∨ d = 1 := by omega
      · exact (C01_periodic_hodge_inverse n a b t x).1
      · exact (C01_periodic_hodge_inverse n a b t x).2
    · obtain rfl | rfl : d = 0 ∨ d = 1 := by omega
      · exact (C03_regular_hodge_inverse n hn a b t).1 x hx
      · exact (C03_regular_hodge_inverse n hn a b t).2 x hx
    · obtain rfl | rfl : d = 0 ∨ d = 1 := by omega
      all_goals cases t
      · exact (C05_chebyshev_hodge_inverse_dual n hn (h927 rfl) a b x hx).1
      · exact (C05_chebyshev_hodge_inverse_primal n hn a b x hx).1
      · exact (C05_chebyshev_hodge_inverse_primal n hn a b x hx).2
      · exact (C05_chebyshev_hodge_inverse_dual n hn (h927 rfl) a b x hx).2

/-! ## The derivative of the samples of a function -/

theorem vx_tab {g : Grid1} {t : Bool} {N : ℕ} {v : ℕ → ℝ} (h : g.cells.v t = tab N v) {i : ℕ} (hi : i < N) : vx g t i = v i := by
  unfold vx; rw [h, getD_tab hi]
theorem lo_tab {g : Grid1} {t : Bool} {N : ℕ} {v w : ℕ → ℝ} (h : g.cells.e t = (tab N v, tab N w)) {i : ℕ} (hi : i < N) : lo g t i = v i := by
  unfold lo; rw [h, getD_tab hi]
theorem hi_tab {g : Grid1} {t : Bool} {N : ℕ} {v w : ℕ → ℝ} (h : g.cells.e t = (tab N v, tab N w)) {i : ℕ} (h' : i < N) : hi g t i = w i := by
  unfold hi; rw [h, getD_tab h']

theorem interval_primal {g : Grid1} {v w : ℕ → ℝ} (hg : IsInterval g v w) (F : ℝ → ℝ) :
    g.d0 true (tab (g.N 0 true) fun i => F (vx g true i)) = .ok (tab (g.N 1 true) fun i => F (hi g true i) - F (lo g true i)) := by
  rw [(interval_d0 hg _).1, hg.N01, hg.N11, diff_tab]
  refine congrArg _ (tab_congr fun i h => ?_)
  rw [vx_tab hg.verts (by omega), vx_tab hg.verts (by omega), hi_tab hg.edges h, lo_tab hg.edges h]

open Classical in
/-- The boundary term of a dual edge. -/
noncomputable def beta (g : Grid1) (F : ℝ → ℝ) (i : ℕ) : ℝ :=
  (if lo g false i = g.xmin then -F (lo g false i) else 0) + (if hi g false i = g.xmax then F (hi g false i) else 0)

theorem interval_dual {g : Grid1} {v w : ℕ → ℝ} (hg : IsInterval g v w) (ho : ∀ i < g.n - 1, g.xmin < w i ∧ w i < g.xmax) (F : ℝ → ℝ) :
    g.d0 false (tab (g.N 0 false) fun i => F (vx g false i)) = .ok (tab (g.N 1 false) fun i => F (hi g false i) - F (lo g false i) - beta g F i) := by
  rw [(interval_d0 hg _).2, hg.N00, hg.N10, hg.diff_zero_pad]
  refine congrArg _ (tab_congr fun i h => ?_)
  have hn := hg.two_le
  unfold beta
  rw [hi_tab hg.edges_dual h, lo_tab hg.edges_dual h]
  have hv : ∀ j < g.n - 1, vx g false j = w j := fun j hj => vx_tab hg.verts_dual hj
  by_cases h0 : i = 0
  · subst h0
    have h1 : 0 < g.n - 1 := by omega
    have h2 : (0 : ℕ) ≠ g.n - 1 := by omega
    simp only [if_true, if_pos h1, if_neg h2, if_neg (ho 0 h1).2.ne]
    rw [hv 0 h1]; ring
  · have h3 := (ho (i - 1) (by omega)).1.ne'
    have h4 := hv (i - 1) (by omega)
    by_cases h1 : i < g.n - 1
    · have h2 : i ≠ g.n - 1 := by omega
      simp only [if_neg h0, if_pos h1, if_neg h2, h4, if_neg h3, if_neg (ho i h1).2.ne]
      rw [hv i h1]; ring
    · have h2 : i = g.n - 1 := by omega
      simp only [if_neg h0, if_neg h1, if_pos h2, h4, if_neg h3]; simp

theorem mono_lt {v : ℕ → ℝ} {N : ℕ} (h : ∀ i < N, v i < v (i + 1)) {i j : ℕ} (hij : i ≤ j) (hj : j ≤ N) : v i ≤ v j := by
  induction j with
  | zero => simp_all
  | succ j ih =>
    rcases Nat.lt_or_ge i (j + 1) with h1 | h1
    · exact (ih (by omega) (by omega)).trans (h j (by omega)).le
    · rw [show i = j + 1 by omega]

theorem interval_order (k : IKind) {n : ℕ} (hn : 2 ≤ n) {a b : ℝ} (hab : a < b) :
    ∃ v w, IsInterval (intervalGrid k n a b) v w ∧ ∀ i < n - 1, a < w i ∧ w i < b := by
  obtain ⟨v, w, hg, ho⟩ := exists_isInterval k hn hab
  refine ⟨v, w, hg, fun i hi => ?_⟩
  have hf := hg.first; have hl := hg.last
  simp only [intervalGrid_n, intervalGrid_xmin, intervalGrid_xmax] at hf hl
  have hm : ∀ i < n - 1, v i < v (i + 1) := fun i hi => (ho i hi).1.trans (ho i hi).2
  have h1 := mono_lt hm (Nat.zero_le i) (by omega)
  have h2 := mono_lt hm (show i + 1 ≤ n - 1 by omega) le_rfl
  rw [hf] at h1; rw [hl] at h2
  exact ⟨h1.trans_lt (ho i hi).1, (ho i hi).2.trans_le h2⟩

/-- On a periodic grid the functions are periodic. -/
def Admissible (k : Kind) (a b : ℝ) (F : ℝ → ℝ) : Prop := k = .periodic → Function.Periodic F (b - a)

theorem periodic_edges {n : ℕ} (a b : ℝ) : (Periodic.make n a b).cells.e true
    = (tab n fun i => a + i * ((b - a) / n), tab n fun i => a + ((i + 1 : ℕ) : ℝ) * ((b - a) / n)) := by
  show ((Periodic.pnts n a b).dropLast, (Periodic.pnts n a b).tail) = _
  rw [Periodic.pnts_tab, dropLast_tab, tail_tab, Nat.add_sub_cancel]

theorem periodic_edges_dual {n : ℕ} {a b : ℝ} (hab : a < b) : (Periodic.make n a b).cells.e false
    = (tab n fun i => a + ((i : ℝ) - 1 / 2) * ((b - a) / n), tab n fun i => a + ((i : ℝ) + 1 / 2) * ((b - a) / n)) := by
  show ((roll (Periodic.verts_dual n a b) 1).modify 0 (· - |b - a|), Periodic.verts_dual n a b) = _
  rw [Periodic.edges_dual_tab hab.le, Periodic.verts_dual_tab]

theorem grid_primal (k : Kind) (n : ℕ) (hn : validSize k n) {a b : ℝ} (hab : a < b) (F : ℝ → ℝ) (hF : k = .periodic → F a = F b) :
    (grid k n a b).d0 true (tab ((grid k n a b).N 0 true) fun i => F (vx (grid k n a b) true i))
      = .ok (tab ((grid k n a b).N 1 true) fun i => F (hi (grid k n a b) true i) - F (lo (grid k n a b) true i)) := by
  cases k
  · have hn' : (n : ℝ) ≠ 0 := by have : 1 ≤ n := hn; positivity
    show (Periodic.make n a b).d0 true (tab n fun i => F (vx (Periodic.make n a b) true i)) = .ok (tab n _)
    rw [(periodic_d0 n a b _).1, periodic_D0_tab]
    refine congrArg _ (tab_congr fun i h => ?_)
    have hv : (Periodic.make n a b).cells.v true = tab n fun i => a + i * ((b - a) / n) := Periodic.verts_tab n a b
    show F (vx (Periodic.make n a b) true _) - F (vx (Periodic.make n a b) true _) = F (hi (Periodic.make n a b) true i) - F (lo (Periodic.make n a b) true i)
    rw [vx_tab hv (Nat.mod_lt _ (by omega)), vx_tab hv h, hi_tab (periodic_edges a b) h, lo_tab (periodic_edges a b) h]
    congr 1
    rcases Nat.lt_or_ge (i + 1) n with h' | h'
    · rw [Nat.mod_eq_of_lt h']
    · rw [show i + 1 = n by omega, Nat.mod_self, mul_div_cancel₀ _ hn']
      simp [hF rfl]
  · exact interval_primal (Regular.isInterval hn a b) F
  · exact interval_primal (Chebyshev.isInterval hn a b) F

theorem periodic_off {n : ℕ} (hn : 1 ≤ n) {a b : ℝ} (hab : a < b) {i : ℕ} (h : i < n) :
    lo (Periodic.make n a b) false i ≠ a ∧ hi (Periodic.make n a b) false i ≠ b := by
  have he := periodic_edges_dual (n := n) hab
  have hn0 : 0 < n := hn
  have hn' : (n : ℝ) ≠ 0 := by positivity
  have hd : 0 < (b - a) / n := by apply div_pos; linarith; positivity
  rw [hi_tab he h, lo_tab he h]
  have h1 : a + ((i : ℝ) - 1 / 2) * ((b - a) / n) ≠ a := by
    intro e
    have : ((i : ℝ) - 1 / 2) * ((b - a) / n) = 0 := by linarith
    rcases mul_eq_zero.mp this with h | h
    · have : (2 * i : ℕ) = (1 : ℝ) := by push_cast; linarith
      have : 2 * i = 1 := by exact_mod_cast this
      omega
    · exact hd.ne' h
  have h2 : a + ((i : ℝ) + 1 / 2) * ((b - a) / n) ≠ b := by
    intro e
    have : ((i : ℝ) + 1 / 2) * (b - a) = n * (b - a) := by field_simp at e ⊢; nlinarith
    have h3 : ((i : ℝ) + 1 / 2) = n := mul_right_cancel₀ (by linarith : b - a ≠ 0) this
    have : ((2 * i + 1 : ℕ) : ℝ) = ((2 * n : ℕ) : ℝ) := by push_cast; linarith
    have : 2 * i + 1 = 2 * n := by exact_mod_cast this
    omega
  exact ⟨h1, h2⟩

theorem periodic_beta {n : ℕ} (hn : 1 ≤ n) {a b : ℝ} (hab : a < b) (F : ℝ → ℝ) {i : ℕ} (h : i < n) : beta (Periodic.make n a b) F i = 0 := by
  obtain ⟨h1, h2⟩ := periodic_off hn hab h
  exact (congrArg₂ (· + ·) (if_neg h1) (if_neg h2)).trans (add_zero _)

theorem grid_dual (k : Kind) (n : ℕ) (hn : validSize k n) {a b : ℝ} (hab : a < b) (F : ℝ → ℝ) (hF : Admissible k a b F) :
    (grid k n a b).d0 false (tab ((grid k n a b).N 0 false) fun i => F (vx (grid k n a b) false i))
      = .ok (tab ((grid k n a b).N 1 false) fun i => F (hi (grid k n a b) false i) - F (lo (grid k n a b) false i) - beta (grid k n a b) F i) := by
  cases k
  · have hp := hF rfl
    have hn0 : 0 < n := hn
    have hn' : (n : ℝ) ≠ 0 := by positivity
    show (Periodic.make n a b).d0 false (tab n fun i => F (vx (Periodic.make n a b) false i)) = .ok (tab n _)
    rw [(periodic_d0 n a b _).2, periodic_D0d_tab]
    refine congrArg _ (tab_congr fun i h => ?_)
    have hv : (Periodic.make n a b).cells.v false = tab n fun i => a + ((i : ℝ) + 1 / 2) * ((b - a) / n) := Periodic.verts_dual_tab n a b
    have he := periodic_edges_dual (n := n) hab
    have hd : 0 < (b - a) / n := by apply div_pos; linarith; positivity
    show F (vx (Periodic.make n a b) false _) - F (vx (Periodic.make n a b) false _)
      = F (hi (Periodic.make n a b) false i) - F (lo (Periodic.make n a b) false i) - beta (Periodic.make n a b) F i
    have hb : beta (Periodic.make n a b) F i = 0 := periodic_beta hn hab F h
    rw [hb, sub_zero, vx_tab hv (Nat.mod_lt _ hn0), vx_tab hv h, hi_tab he h, lo_tab he h]
    congr 1
    rcases Nat.eq_zero_or_pos i with rfl | h'
    · rw [Nat.zero_add, Nat.mod_eq_of_lt (by omega : n - 1 < n), ← hp (a + (((0 : ℕ) : ℝ) - 1 / 2) * ((b - a) / n))]
      congr 1
      rw [Nat.cast_pred hn0]; field_simp; push_cast; ring
    · rw [show i + n - 1 = i - 1 + n by omega, Nat.add_mod_right, Nat.mod_eq_of_lt (by omega : i - 1 < n), Nat.cast_pred h']
      congr 1; ring
  · obtain ⟨v, w, hg, ho⟩ := interval_order .regular hn hab
    exact interval_dual hg ho F
  · obtain ⟨v, w, hg, ho⟩ := interval_order .chebyshev hn hab
    exact interval_dual hg ho F

end Dec.G2
