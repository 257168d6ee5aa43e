import Verif.Model.Transforms
import Verif.Model.Accessors
import Verif.Props.Quadrature
import Verif.Props.PoissonNeumann

set_option linter.unusedSimpArgs false
set_option linter.unusedVariables false

/-!
# C48: the integrators as functions of the starts and the ends of the cells (`split_args`, `/repo/dec/spectral.py:640-648`)
-/

namespace Dec.Props

open Real Finset Dec.Sp

theorem split_tab {R : Type*} (I : List ℝ → (ℝ → ℝ) → List R) {n : ℕ} (hn : 0 < n) (p : ℕ → ℝ) (f : ℝ → ℝ) :
    split_args I (tab n p) (tab n fun i => p (i + 1)) f = .ok (I (tab (n + 1) p) f) := by
  unfold split_args
  have h : almostEqual (tab n p).tail (tab n fun i => p (i + 1)).dropLast := by
    rw [tail_tab, dropLast_tab]
    exact ⟨rfl, fun i _ => by rw [sub_self, abs_zero]; norm_num⟩
  rw [if_pos h]
  obtain ⟨m, rfl⟩ : ∃ m, n = m + 1 := ⟨n - 1, by omega⟩
  have e : (tab (m + 1) fun i => p (i + 1)).getLast? = some (p (m + 1)) := by
    rw [List.getLast?_eq_getElem?, length_tab, List.getElem?_eq_getElem (by rw [length_tab]; omega)]
    simp [tab]
  rw [e]
  refine congrArg (fun l => Except.ok (I l f)) ?_
  rw [append_singleton_tab]
  refine tab_congr fun i hi => ?_
  by_cases h : i < m + 1
  · rw [if_pos h]
  · rw [if_neg h, show i = m + 1 by omega]

/-- **C48** (`split_args`): the starts and the ends of consecutive cells given by at least two points make the integrator integrate over these points; arrays of different lengths, or with a start that is
not the end of the cell before (up to 1.5e-7), are an AssertionError; a call that returns has used the starts and the last end. -/
theorem C48_split_args {R : Type*} (I : List ℝ → (ℝ → ℝ) → List R) (f : ℝ → ℝ) :
    (∀ p : List ℝ, 2 ≤ p.length → split_args I p.dropLast p.tail f = .ok (I p f)) ∧
    (∀ x0 x1 : List ℝ, x0.length ≠ x1.length → x0 ≠ [] → x1 ≠ [] → split_args I x0 x1 f = .error .assertion) ∧
    (∀ (x0 x1 : List ℝ) (i : ℕ), x0.length = x1.length → i + 1 < x0.length → 15 / 10 ^ 8 ≤ |x0.getD (i + 1) 0 - x1.getD i 0| → split_args I x0 x1 f = .error .assertion) ∧
    ∀ (x0 x1 : List ℝ) (r : List R), split_args I x0 x1 f = .ok r → ∃ e, x1.getLast? = some e ∧ r = I (x0 ++ [e]) f := by
  refine ⟨fun p hp => ?_, fun x0 x1 hl h0 h1 => ?_, fun x0 x1 i hl hi hd => ?_, fun x0 x1 r h => ?_⟩
  · obtain ⟨q, hq⟩ : ∃ q, p = tab p.length q := ⟨_, eq_tab' rfl 0⟩
    have := split_tab I (n := p.length - 1) (by omega) q f
    rw [show p.length - 1 + 1 = p.length by omega] at this
    rw [hq, dropLast_tab, tail_tab]
    exact this
  · unfold split_args
    rw [if_neg]
    intro h
    have a := h.1
    have b := List.length_pos_iff.2 h0
    have c := List.length_pos_iff.2 h1
    rw [List.length_tail, List.length_dropLast] at a
    omega
  · unfold split_args
    rw [if_neg]
    intro h
    have := h.2 i (by rw [List.length_tail]; omega)
    obtain ⟨u, hu⟩ : ∃ u, x0 = tab x0.length u := ⟨_, eq_tab' rfl 0⟩
    obtain ⟨v, hv⟩ : ∃ v, x1 = tab x0.length v := ⟨_, eq_tab' hl.symm 0⟩
    rw [hu, hv, getD_tab hi, getD_tab (show i < x0.length by omega)] at hd
    rw [hu, hv, tail_tab, dropLast_tab, getD_tab (show i < x0.length - 1 by omega), getD_tab (show i < x0.length - 1 by omega)] at this
    linarith
  · unfold split_args at h
    by_cases hc : almostEqual x0.tail x1.dropLast
    · rw [if_pos hc] at h
      cases he : x1.getLast? with
      | none => rw [he] at h; cases h
      | some e => rw [he] at h; exact ⟨e, rfl, (Except.ok.inj h).symm⟩
    · rw [if_neg hc] at h; cases h

/-- **C48**: with the edges, or the dual edges, of a periodic grid of the circle the spectral integrator gives the numbers of `g.P1`, `g.P1d` for every trigonometric polynomial of degree less than `4 n`. -/
theorem C48_split_periodic (n : ℕ) (hn : 0 < n) (t : Bool) (K : ℕ) (hK : K < 4 * n) (p : ℝ → ℝ) (hp : IsTrig K p) :
    split_args integrate_spectral ((Periodic.make n).cells.e t).1 ((Periodic.make n).cells.e t).2 p = .ok ((Periodic.make n).P 1 t p) := by
  cases t
  · have e1 : (Periodic.make n).cells.e false = (tab n fun i => (0 : ℝ) + ((i : ℝ) - 1 / 2) * ((2 * π - 0) / n), tab n fun i => (0 : ℝ) + ((i : ℝ) + 1 / 2) * ((2 * π - 0) / n)) :=
      G2.periodic_edges_dual (by positivity)
    rw [e1, Periodic.P1d (by positivity)]
    have h := split_tab integrate_spectral hn (fun i => -(2 * π / n) / 2 + i * (2 * π / n)) p
    rw [show (tab (n + 1) fun i : ℕ => -(2 * π / n) / 2 + i * (2 * π / n)) = circlePoints n (-(2 * π / n) / 2) from rfl, C48_spectral n _ K hK p hp] at h
    have a1 : (tab n fun i : ℕ => -(2 * π / n) / 2 + i * (2 * π / n)) = tab n fun i => (0 : ℝ) + ((i : ℝ) - 1 / 2) * ((2 * π - 0) / n) := tab_congr fun i _ => by ring
    have a2 : (tab n fun i : ℕ => -(2 * π / n) / 2 + (i + 1 : ℕ) * (2 * π / n)) = tab n fun i => (0 : ℝ) + ((i : ℝ) + 1 / 2) * ((2 * π - 0) / n) := tab_congr fun i _ => by push_cast; ring
    rw [a1, a2] at h
    rw [h]
    exact congrArg Except.ok (tab_congr fun i _ => by congr 1 <;> ring)
  · have e1 : (Periodic.make n).cells.e true = (tab n fun i => (0 : ℝ) + i * ((2 * π - 0) / n), tab n fun i => (0 : ℝ) + ((i + 1 : ℕ) : ℝ) * ((2 * π - 0) / n)) := G2.periodic_edges _ _
    rw [e1, Periodic.P1]
    have h := split_tab integrate_spectral hn (fun i => 0 + i * ((2 * π - 0) / n)) p
    have a : (tab (n + 1) fun i : ℕ => 0 + i * ((2 * π - 0) / n)) = circlePoints n 0 := tab_congr fun i _ => by ring
    rw [a, C48_spectral n _ K hK p hp] at h
    rw [h]
    exact congrArg Except.ok (tab_congr fun i _ => by congr 1 <;> ring)

/-- **C48**: with the edges of a Chebyshev grid `integrate_chebyshev`, and with its dual edges `integrate_chebyshev_dual`, gives the numbers of `g.P1` and `g.P1d` for every polynomial of `K < 8 (n - 1)` (dual:
`16 (n - 1)`) coefficients. -/
theorem C48_split_chebyshev (n : ℕ) (hn : 2 ≤ n) (K : ℕ) (p : ℝ → ℝ) (hp : IsPoly K p) :
    (K < 8 * (n - 1) → split_args integrate_chebyshev ((Chebyshev.make n).cells.e true).1 ((Chebyshev.make n).cells.e true).2 p = .ok ((Chebyshev.make n).P 1 true p)) ∧
    (K < 16 * (n - 1) → split_args integrate_chebyshev_dual ((Chebyshev.make n).cells.e false).1 ((Chebyshev.make n).cells.e false).2 p = .ok ((Chebyshev.make n).P 1 false p)) := by
  have hI := Chebyshev.isInterval hn (-1) 1
  have hg : (Chebyshev.make n (-1) 1).n = n := rfl
  constructor
  · intro hK
    have e1 : (Chebyshev.make n).cells.e true = _ := hI.edges
    have e2 : (Chebyshev.make n).P 1 true p = _ := hI.P1 p
    rw [e1, e2, hg]
    rw [split_tab integrate_chebyshev (by omega)]
    have a : (tab (n - 1 + 1) fun i : ℕ => Chebyshev.pt (-1) 1 (i * (π / ((n - 1 : ℕ) : ℝ)))) = chebPoints (n - 1) := tab_congr fun i _ => pt_cos _
    rw [a, C48_chebyshev (n - 1) (by omega) K hK p hp]
    exact congrArg Except.ok (tab_congr fun i _ => by rw [pt_cos, pt_cos]; push_cast; rfl)
  · intro hK
    have e1 : (Chebyshev.make n).cells.e false = _ := hI.edges_dual
    have e2 : (Chebyshev.make n).P 1 false p = _ := hI.P1d p
    rw [e1, e2, hg]
    have hmin : (Chebyshev.make n (-1) 1).xmin = -1 := rfl
    have hmax : (Chebyshev.make n (-1) 1).xmax = 1 := rfl
    rw [hmin, hmax]
    set q : ℕ → ℝ := fun i => if i = 0 then -1 else if i < n then -cos (((i - 1 : ℕ) + 1 / 2 : ℝ) * (π / ((n - 1 : ℕ) : ℝ))) else 1 with hq
    have a1 : (tab n fun i => if i = 0 then (-1 : ℝ) else Chebyshev.pt (-1) 1 (((i - 1 : ℕ) + 1 / 2 : ℝ) * (π / ((n - 1 : ℕ) : ℝ)))) = tab n q := tab_congr fun i hi => by
      rw [hq]; beta_reduce; rw [if_pos hi, pt_cos]
    have a2 : (tab n fun i => if i < n - 1 then Chebyshev.pt (-1) 1 ((i + 1 / 2 : ℝ) * (π / ((n - 1 : ℕ) : ℝ))) else 1) = tab n fun i => q (i + 1) := tab_congr fun i hi => by
      rw [hq]; beta_reduce
      rw [if_neg (Nat.succ_ne_zero i), pt_cos]
      by_cases h : i < n - 1
      · rw [if_pos h, if_pos (show i + 1 < n by omega), Nat.add_sub_cancel]
      · rw [if_neg h, if_neg (show ¬ i + 1 < n by omega)]
    have a3 : tab (n + 1) q = chebDualPoints (n - 1) := by
      unfold chebDualPoints
      rw [List.singleton_append, cons_tab, append_singleton_tab]
      refine tab_congr' (by omega) fun i hi => ?_
      rw [hq]; beta_reduce
      by_cases h0 : i = 0
      · rw [if_pos h0, if_pos (show i < n - 1 + 1 by omega), if_pos h0]
      by_cases h1 : i < n
      · rw [if_neg h0, if_pos h1, if_pos (show i < n - 1 + 1 by omega), if_neg h0]
      · rw [if_neg h0, if_neg h1, if_neg (show ¬ i < n - 1 + 1 by omega)]
    rw [a1, a2, split_tab integrate_chebyshev_dual (by omega), a3, C48_chebyshev_dual (n - 1) (by omega) K hK p hp]
    refine congrArg Except.ok (tab_congr' (by omega) fun i hi => ?_)
    simp only [pt_cos]
    by_cases h0 : i = 0
    · rw [if_pos h0, if_pos h0]
      by_cases h1 : i = n - 1
      · rw [if_pos h1, if_neg (show ¬ i < n - 1 by omega)]
      · rw [if_neg h1, if_pos (show i < n - 1 by omega)]
    · rw [if_neg h0, if_neg h0, show ((i - 1 : ℕ) : ℝ) + 1 / 2 = (i : ℝ) - 1 / 2 by rw [Nat.cast_sub (by omega)]; push_cast; ring]
      by_cases h1 : i = n - 1
      · rw [if_pos h1, if_neg (show ¬ i < n - 1 by omega)]
      · rw [if_neg h1, if_pos (show i < n - 1 by omega)]

/-- Non-vacuity: the edges of the periodic grid of three vertices and `cos`, and a call with a gap. -/
example : split_args integrate_spectral ((Periodic.make 3).cells.e true).1 ((Periodic.make 3).cells.e true).2 cos = .ok ((Periodic.make 3).P 1 true cos) ∧
    split_args integrate_spectral [0, 1] [2, 3] cos = .error .assertion :=
  ⟨C48_split_periodic 3 (by norm_num) true 1 (by norm_num) cos ((isTrig_cos_nat (m := 1) le_rfl).congr fun θ => by simp),
    (C48_split_args integrate_spectral cos).2.2.1 [0, 1] [2, 3] 0 rfl (by norm_num) (by norm_num)⟩

end Dec.Props
