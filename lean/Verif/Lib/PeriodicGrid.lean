import Verif.Model.Periodic
import Verif.Lib.Trig

set_option linter.unusedSimpArgs false
set_option linter.unusedVariables false

/-! The periodic grid in normal form. -/

namespace Dec.Periodic

open Real Finset Dec.Sp

theorem pnts_tab (n : ℕ) (a b : ℝ) : pnts n a b = tab (n + 1) (fun i => a + i * ((b - a) / n)) := by
  unfold pnts linspace; simp

theorem delta_tab (n : ℕ) (a b : ℝ) : delta n a b = tab n (fun _ => (b - a) / n) := by
  unfold delta; rw [pnts_tab, diff_tab, Nat.add_sub_cancel]
  exact tab_congr fun i _ => by push_cast; ring

theorem verts_tab (n : ℕ) (a b : ℝ) : verts n a b = tab n (fun i => a + i * ((b - a) / n)) := by
  unfold verts; rw [pnts_tab, dropLast_tab, Nat.add_sub_cancel]

theorem verts_dual_tab (n : ℕ) (a b : ℝ) :
    verts_dual n a b = tab n (fun i => a + (i + 1 / 2) * ((b - a) / n)) := by
  unfold verts_dual; rw [verts_tab, delta_tab, smul_tab, vadd_tab]
  exact tab_congr fun i _ => by ring

theorem modify_zero_tab {α : Type*} (n : ℕ) (f : ℕ → α) (g : α → α) :
    (tab n f).modify 0 g = tab n (fun i => if i = 0 then g (f i) else f i) := by
  cases n with
  | zero => simp
  | succ n => rw [tab_succ, List.modify_zero_cons, tab_succ]; simp

theorem edges_dual_tab {n : ℕ} {a b : ℝ} (hab : a ≤ b) :
    (roll (verts_dual n a b) 1).modify 0 (· - |b - a|)
      = tab n (fun i => a + (i - 1 / 2) * ((b - a) / n)) := by
  rcases Nat.eq_zero_or_pos n with rfl | hn
  · simp [verts_dual_tab, roll]
  have hn' : (n : ℝ) ≠ 0 := by positivity
  rw [verts_dual_tab, roll_one_tab, modify_zero_tab]
  apply tab_congr
  intro i hi
  rw [abs_of_nonneg (by linarith)]
  rcases Nat.eq_zero_or_pos i with rfl | hi0
  · simp only [if_true, Nat.zero_add, Nat.mod_eq_of_lt (show n - 1 < n by omega)]
    rw [Nat.cast_pred hn]; field_simp; push_cast; ring
  · have : (i + n - 1) % n = i - 1 := by
      rw [show i + n - 1 = (i - 1) + n by omega, Nat.add_mod_right, Nat.mod_eq_of_lt (by omega)]
    rw [if_neg (by omega), this, Nat.cast_pred hi0]; ring

theorem P0 (n : ℕ) (a b : ℝ) (f : ℝ → ℝ) :
    (make n a b).P 0 true f = tab n (fun i => f (a + i * ((b - a) / n))) := by
  show (verts n a b).map f = _; rw [verts_tab, map_tab]

theorem P0d (n : ℕ) (a b : ℝ) (f : ℝ → ℝ) :
    (make n a b).P 0 false f = tab n (fun i => f (a + (i + 1 / 2) * ((b - a) / n))) := by
  show (verts_dual n a b).map f = _; rw [verts_dual_tab, map_tab]

theorem P1 (n : ℕ) (a b : ℝ) (f : ℝ → ℝ) :
    (make n a b).P 1 true f
      = tab n (fun i => ∫ t in (a + i * ((b - a) / n))..(a + (i + 1) * ((b - a) / n)), f t) := by
  show slow_integration (pnts n a b).dropLast (pnts n a b).tail f = _
  unfold slow_integration
  rw [pnts_tab, dropLast_tab, tail_tab, Nat.add_sub_cancel, zipWith_tab]
  push_cast; rfl

theorem P1d {n : ℕ} {a b : ℝ} (hab : a ≤ b) (f : ℝ → ℝ) :
    (make n a b).P 1 false f
      = tab n (fun i => ∫ t in (a + (i - 1 / 2) * ((b - a) / n))..(a + (i + 1 / 2) * ((b - a) / n)), f t) := by
  show slow_integration ((roll (verts_dual n a b) 1).modify 0 (· - |b - a|)) (verts_dual n a b) f = _
  unfold slow_integration
  rw [edges_dual_tab hab, verts_dual_tab, zipWith_tab]

/-! ### The default interval -/

theorem P0_samp (n : ℕ) (f : ℝ → ℝ) : (make n).P 0 true f = samp n 0 f := by
  rw [P0]; unfold samp hh; simp only [sub_zero, zero_add]

theorem P0d_samp (n : ℕ) (f : ℝ → ℝ) : (make n).P 0 false f = samp n (hh n / 2) f := by
  rw [P0d]; unfold samp; apply tab_congr; intro i _; unfold hh; congr 1; ring

theorem P1_hh (n : ℕ) (f : ℝ → ℝ) :
    (make n).P 1 true f
      = tab n (fun j => ∫ t in (hh n / 2 + j * hh n - hh n / 2)..(hh n / 2 + j * hh n + hh n / 2), f t) := by
  rw [P1]; apply tab_congr; intro i _; unfold hh; congr 1 <;> ring

theorem P1d_hh (n : ℕ) (f : ℝ → ℝ) :
    (make n).P 1 false f
      = tab n (fun j => ∫ t in (0 + j * hh n - hh n / 2)..(0 + j * hh n + hh n / 2), f t) := by
  rw [P1d (by positivity)]; apply tab_congr; intro i _; unfold hh; congr 1 <;> ring

/-! ### Interweaving samples -/

theorem hh_two_mul (n : ℕ) : hh (2 * n) = hh n / 2 := by
  unfold hh; push_cast
  rcases Nat.eq_zero_or_pos n with rfl | hn
  · simp
  · field_simp

theorem weave_tab {α : Type*} (n : ℕ) (f g : ℕ → α) :
    weave (tab n f) (tab n g) = tab (2 * n) (fun i => if i % 2 = 0 then f (i / 2) else g (i / 2)) := by
  induction n generalizing f g with
  | zero => simp [weave]
  | succ n ih =>
    rw [tab_succ, tab_succ, weave, ih, show 2 * (n + 1) = 2 * n + 1 + 1 by ring, tab_succ, tab_succ]
    simp only [Nat.zero_mod, if_true, Nat.zero_div, List.cons.injEq, true_and]
    refine ⟨by simp, tab_congr fun i _ => ?_⟩
    rw [show i + 1 + 1 = i + 2 by ring, Nat.add_mod_right, Nat.add_div_right _ (by norm_num)]

theorem interweave_samp (n : ℕ) (φ : ℝ) (p : ℝ → ℝ) :
    interweave (samp n φ p) (samp n (φ + hh n / 2) p) = .ok (samp (2 * n) φ p) := by
  unfold interweave
  rw [if_pos (by simp)]
  congr 1
  unfold samp
  rw [weave_tab, hh_two_mul]
  apply tab_congr; intro i hi
  rcases Nat.mod_two_eq_zero_or_one i with h | h
  · rw [if_pos h]; congr 1
    have : (i : ℝ) = 2 * (i / 2 : ℕ) := by exact_mod_cast (by omega : i = 2 * (i / 2))
    rw [show (i : ℝ) * (hh n / 2) = (2 * (i / 2 : ℕ)) * (hh n / 2) by rw [← this]]; ring
  · rw [if_neg (by omega)]; congr 1
    have : (i : ℝ) = 2 * (i / 2 : ℕ) + 1 := by exact_mod_cast (by omega : i = 2 * (i / 2) + 1)
    rw [show (i : ℝ) * (hh n / 2) = (2 * (i / 2 : ℕ) + 1) * (hh n / 2) by rw [← this]]; ring

theorem stride2_samp (n : ℕ) (φ : ℝ) (p : ℝ → ℝ) : stride2 (samp (2 * n) φ p) = samp n φ p := by
  unfold samp; rw [stride2_tab]
  apply tab_congr' (by omega); intro i _; rw [hh_two_mul]; push_cast; ring_nf

theorem stride2'_samp (n : ℕ) (φ : ℝ) (p : ℝ → ℝ) :
    stride2' (samp (2 * n) φ p) = samp n (φ + hh n / 2) p := by
  unfold samp; rw [stride2'_tab]
  apply tab_congr' (by omega); intro i _; rw [hh_two_mul]; push_cast; ring_nf

/-- `g.points` on the default grid. -/
theorem points_samp (n : ℕ) : (make n).points = .ok (samp (2 * n) 0 id) := by
  have h1 : (make n).cells.v true = samp n 0 id := by rw [← P0_samp]; simp [Grid1.P, P]
  have h2 : (make n).cells.v false = samp n (0 + hh n / 2) id := by
    rw [zero_add, ← P0d_samp]; simp [Grid1.P, P]
  unfold Grid1.points; rw [h1, h2, interweave_samp]

end Dec.Periodic
