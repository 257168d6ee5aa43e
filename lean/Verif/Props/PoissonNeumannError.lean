import Verif.Props.PoissonNeumann
import Mathlib.Algebra.Order.Chebyshev

set_option linter.unusedSimpArgs false
set_option linter.unusedVariables false

/-! # C109: accuracy of the Neumann problem of the Chebyshev Poisson example -/

namespace Dec.Props

open Finset Real Sp G2

theorem isPoly_sum' {m : ℕ} (N : ℕ) (c : ℕ → ℝ) (ℓ : ℕ → ℝ → ℝ) (h : ∀ i, IsPoly m (ℓ i)) : IsPoly m fun x => ∑ i ∈ range N, c i * ℓ i x := by
  choose a ha using h
  refine ⟨fun k => ∑ i ∈ range N, c i * a i k, fun x => ?_⟩
  simp only [ha, mul_sum, sum_mul]
  rw [sum_comm]
  exact sum_congr rfl fun _ _ => sum_congr rfl fun _ _ => by ring

/-- The weights of the quadrature rule on the primal vertices. -/
theorem cheb_weights (n : ℕ) (hn : 2 ≤ n) : ∃ w : ℕ → ℝ, ∀ g, IsPoly n g → ∫ x in (-1 : ℝ)..1, g x = ∑ i ∈ range n, w i * g (-cos ((i : ℝ) * (π / ((n - 1 : ℕ) : ℝ)))) := by
  have hI : ∀ i : ℕ, ∃ g, IsPoly n g ∧ (Chebyshev.make n).P 0 true g = tab n fun j => if j = i then 1 else 0 := fun i => cheb_interp n hn _ (length_tab _ _)
  choose ℓ h1 h2 using hI
  refine ⟨fun i => ∫ x in (-1 : ℝ)..1, ℓ i x, fun g hg => ?_⟩
  set X : ℕ → ℝ := fun i => -cos ((i : ℝ) * (π / ((n - 1 : ℕ) : ℝ))) with hX
  have hs : IsPoly n fun x => ∑ i ∈ range n, g (X i) * ℓ i x := isPoly_sum' n _ _ h1
  have e : (Chebyshev.make n).P 0 true g = (Chebyshev.make n).P 0 true fun x => ∑ i ∈ range n, g (X i) * ℓ i x := by
    rw [cheb_P0_cos n hn, cheb_P0_cos n hn]
    refine tab_congr fun j hj => ?_
    have hl : ∀ i, ℓ i (X j) = if j = i then 1 else 0 := fun i => by
      have := h2 i
      rw [cheb_P0_cos n hn] at this
      exact tab_inj.1 this j hj
    show g (X j) = ∑ i ∈ range n, g (X i) * ℓ i (X j)
    simp only [hl, mul_ite, mul_one, mul_zero]
    rw [sum_ite_eq, if_pos (mem_range.2 hj)]
  have hu : ∀ x ∈ Set.Icc (-1 : ℝ) 1, g x = ∑ i ∈ range n, g (X i) * ℓ i x :=
    fun x hx => C70_projection_injective .chebyshev n hn 0 true _ _ (by simpa [Determined] using hg) (by simpa [Determined] using hs) e x hx
  rw [intervalIntegral.integral_congr (g := fun x => ∑ i ∈ range n, g (X i) * ℓ i x) fun x hx => hu x (by rwa [Set.uIcc_of_le (by norm_num)] at hx)]
  rw [intervalIntegral.integral_finsetSum fun i _ => (((isPoly_cont (h1 i)).const_mul _).intervalIntegrable _ _)]
  exact sum_congr rfl fun i _ => by rw [intervalIntegral.integral_const_mul, mul_comm]

theorem cheb_sum_P1d (n : ℕ) (hn : 2 ≤ n) {g : ℝ → ℝ} (hg : IsPoly n g) : ((Chebyshev.make n).P 1 false g).sum = ∫ x in (-1 : ℝ)..1, g x := by
  obtain ⟨G, hGp, hG⟩ := isPoly_antideriv hg
  rw [intervalIntegral.integral_eq_sub_of_hasDerivAt (fun x _ => hG x) ((isPoly_cont hg).intervalIntegrable _ _)]
  have h8 : ((Chebyshev.make n).D 0 false ((Chebyshev.make n).P 0 false G)).map (vadd · ((Chebyshev.make n).boundary_condition G)) = some ((Chebyshev.make n).P 1 false g) :=
    C08_interval .chebyshev n hn (-1) 1 (by norm_num) G g (fun s _ => hG s) ((isPoly_cont hg).intervalIntegrable _ _)
  obtain ⟨db, e1, e2⟩ := C10_interval_stokes_dual .chebyshev n hn (-1) 1 (by norm_num) ((Chebyshev.make n).P 0 false G) (by rw [cheb_P0d_cos n hn]; simp)
  have e1' : (Chebyshev.make n).D 0 false ((Chebyshev.make n).P 0 false G) = some db := e1
  have hl : db.length = n := by
    rw [cheb_P0d_cos n hn, cheb_D0d n hn] at e1'
    rw [← Option.some.inj e1']; simp
  rw [e1', Option.map_some] at h8
  rw [← Option.some.inj h8, cheb_bc n hn]
  obtain ⟨f, rfl⟩ : ∃ f, db = tab n f := ⟨_, eq_tab' hl 0⟩
  rw [sum_tab] at e2
  rw [vadd_tab, sum_tab, sum_add_distrib, e2, zero_add]
  have : ∀ i ∈ range n, (if i = n - 1 then G 1 else if i = 0 then -G (-1) else 0) = (if i = n - 1 then G 1 else 0) + if i = 0 then -G (-1) else 0 := fun i _ => by
    split_ifs <;> first | omega | simp
  rw [sum_congr rfl this, sum_add_distrib, sum_ite_eq', sum_ite_eq', if_pos (mem_range.2 (by omega)), if_pos (mem_range.2 (by omega))]
  ring

section
variable (n : ℕ) (hn : 2 ≤ n) (h927 : n ≤ 927) {w : ℕ → ℝ}
  (hw : ∀ g, IsPoly n g → ∫ x in (-1 : ℝ)..1, g x = ∑ i ∈ range n, w i * g (-cos ((i : ℝ) * (π / ((n - 1 : ℕ) : ℝ)))))
include hn h927 hw

theorem cheb_lap_range {a b : List ℝ} (ha : a.length = n) (h : (Chebyshev.make n).laplacian true a = .ok b) : b.length = n ∧ ∑ i ∈ range n, w i * b.getD i 0 = 0 := by
  have hv : validSize .chebyshev n := hn
  have hb : b.length = n := by
    obtain ⟨L, hL, eL⟩ := lap_elin (grid_factor .chebyshev n hv (-1) 1) (grid_stars .chebyshev n hv (fun _ => h927) (-1) 1) true
    have e := eL a ha
    rw [show (grid .chebyshev n (-1) 1).laplacian true a = .ok b from h] at e
    rw [Except.ok.inj e]
    exact hL.len _ ha
  refine ⟨hb, ?_⟩
  obtain ⟨u, hu, rfl⟩ := cheb_interp n hn a ha
  obtain ⟨g, hg, rfl⟩ := cheb_interp n hn b hb
  obtain ⟨u', u'', h1, h2⟩ := poly_derivs hu
  obtain ⟨G, hGp, hG⟩ := isPoly_antideriv hg
  have k := (neumann_key n hn h927 (G := fun x => G x - G (-1)) (φ := fun _ => 0) hu h1 h2 hg (fun x => (hG x).sub_const _) (sub_self _) (cheb_H_zero n hn h927) (by rw [vsub_replicate hb]; exact h)).2
  have hi := hw g hg
  rw [intervalIntegral.integral_eq_sub_of_hasDerivAt (fun x _ => hG x) ((isPoly_cont hg).intervalIntegrable _ _), k] at hi
  rw [hi]
  refine sum_congr rfl fun i hi => ?_
  rw [cheb_P0_cos n hn, getD_tab (mem_range.1 hi)]

theorem cheb_lap_solve {b : List ℝ} (hb : b.length = n) (h0 : ∑ i ∈ range n, w i * b.getD i 0 = 0) (c : ℝ) :
    ∃! a, a.length = n ∧ a.getD 0 0 = c ∧ (Chebyshev.make n).laplacian true a = .ok b := by
  have hv : validSize .chebyshev n := hn
  have h := (C67_solvable .chebyshev n hv (fun _ => h927) (-1) 1 (by norm_num) true (.inr rfl) b hb).2
  obtain ⟨g, hg, rfl⟩ := cheb_interp n hn b hb
  have hH : (grid .chebyshev n (-1) 1).H 0 true ((Chebyshev.make n).P 0 true g) = .ok ((Chebyshev.make n).P 1 false g) := (C06_chebyshev_hodge_exact_primal n hn g hg).1
  have hs : ((Chebyshev.make n).P 1 false g).sum = 0 := by
    rw [cheb_sum_P1d n hn hg, hw g hg, ← h0]
    refine sum_congr rfl fun i hi => ?_
    rw [cheb_P0_cos n hn, getD_tab (mem_range.1 hi)]
  obtain ⟨a, ⟨h1, h2, h3⟩, h4⟩ := h ⟨_, hH, hs⟩ c
  have e : ∀ a : List ℝ, a.length = n → (a.getD 0 0 = c ↔ a.head? = some c) := fun a ha => by
    cases a with
    | nil => simp at ha; omega
    | cons x l => simp
  exact ⟨a, ⟨h1, (e a h1).2 h2, h3⟩, fun z ⟨g1, g2, g3⟩ => h4 z ⟨g1, (e z g1).1 g2, g3⟩⟩

end

/-- Least squares with a range that is the orthogonal complement of one vector. -/
theorem least_squares_key {n : ℕ} {L : List ℝ → Except Err (List ℝ)} {w : ℕ → ℝ} (hw0 : 0 < ∑ i ∈ range n, w i ^ 2)
    (hrange : ∀ a b : List ℝ, a.length = n → L a = .ok b → b.length = n ∧ ∑ i ∈ range n, w i * b.getD i 0 = 0)
    (hsolve : ∀ b : List ℝ, b.length = n → ∑ i ∈ range n, w i * b.getD i 0 = 0 → ∀ c : ℝ, ∃! a, a.length = n ∧ a.getD 0 0 = c ∧ L a = .ok b)
    (c : ℝ) (q : List ℝ) (hq : q.length = n) :
    (∃! z, LeastSquares L c q z) ∧ ∃ l : ℝ, l * (∑ i ∈ range n, w i ^ 2) = ∑ i ∈ range n, w i * q.getD i 0 ∧
      ∀ z, LeastSquares L c q z ↔ z.length = n ∧ z.getD 0 0 = c ∧ L z = .ok (vsub q (tab n fun i => l * w i)) := by
  set S := ∑ i ∈ range n, w i ^ 2 with hS
  set l := (∑ i ∈ range n, w i * q.getD i 0) / S with hl
  have hlS : l * S = ∑ i ∈ range n, w i * q.getD i 0 := by rw [hl]; field_simp
  obtain ⟨y, rfl⟩ : ∃ y, q = tab n y := ⟨_, eq_tab' hq 0⟩
  have hy : ∀ i ∈ range n, w i * (tab n y).getD i 0 = w i * y i := fun i hi => by rw [getD_tab (mem_range.1 hi)]
  rw [sum_congr rfl hy] at hlS ⊢
  simp only [vsub_tab]
  set r : List ℝ := tab n fun i => y i - l * w i with hr
  have hrl : r.length = n := length_tab _ _
  have hr0 : ∑ i ∈ range n, w i * r.getD i 0 = 0 := by
    rw [sum_congr rfl fun i hi => by rw [hr, getD_tab (mem_range.1 hi)], sum_congr rfl fun i _ => show w i * (y i - l * w i) = w i * y i - l * w i ^ 2 by ring, sum_sub_distrib, ← mul_sum, ← hlS, ← hS, sub_self]
  have key : ∀ z v : List ℝ, z.length = n → L z = .ok v → misfit c (tab n y) z v = (z.getD 0 0 - c) ^ 2 + (∑ i ∈ range n, (v.getD i 0 - r.getD i 0) ^ 2 + l ^ 2 * S) := by
    intro z v hz hv
    obtain ⟨h1, h2⟩ := hrange z v hz hv
    obtain ⟨x, rfl⟩ : ∃ x, v = tab n x := ⟨_, eq_tab' h1 0⟩
    have h3 : ∑ i ∈ range n, w i * x i = 0 := by
      rw [← h2]; exact sum_congr rfl fun i hi => by rw [getD_tab (mem_range.1 hi)]
    unfold misfit
    rw [vsub_tab, map_tab, sum_tab]
    have e : ∀ i ∈ range n, ((tab n x).getD i 0 - r.getD i 0) ^ 2 = (x i - y i) ^ 2 + (2 * l * (w i * x i) - 2 * l * (w i * y i) + l ^ 2 * w i ^ 2) := fun i hi => by
      rw [hr, getD_tab (mem_range.1 hi), getD_tab (mem_range.1 hi)]; ring
    rw [sum_congr rfl e, sum_add_distrib, sum_add_distrib, sum_sub_distrib, ← mul_sum, ← mul_sum, ← mul_sum, h3, ← hlS, ← hS]
    ring
  have iff : ∀ z, LeastSquares L c (tab n y) z ↔ z.length = n ∧ z.getD 0 0 = c ∧ L z = .ok r := by
    intro z
    constructor
    · rintro ⟨hz, v, hv, hmin⟩
      rw [hq] at hz
      obtain ⟨a, ⟨a1, a2, a3⟩, _⟩ := hsolve r hrl hr0 c
      have h := hmin a r (by rw [a1, hq]) a3
      rw [key z v hz hv, key a r a1 a3, a2] at h
      simp only [sub_self, ne_eq, OfNat.ofNat_ne_zero, not_false_eq_true, zero_pow, sum_const_zero, zero_add] at h
      have hs : 0 ≤ ∑ i ∈ range n, (v.getD i 0 - r.getD i 0) ^ 2 := sum_nonneg fun i _ => sq_nonneg _
      have hz0 : (z.getD 0 0 - c) ^ 2 = 0 := by nlinarith [sq_nonneg (z.getD 0 0 - c)]
      have hs0 : ∑ i ∈ range n, (v.getD i 0 - r.getD i 0) ^ 2 = 0 := by nlinarith [sq_nonneg (z.getD 0 0 - c)]
      refine ⟨hz, by have := pow_eq_zero_iff (two_ne_zero) |>.1 hz0; linarith, ?_⟩
      rw [hv]
      congr 1
      obtain ⟨hyl, _⟩ := hrange z v hz hv
      rw [eq_tab' hyl 0, eq_tab' hrl 0]
      refine tab_congr fun i hi => ?_
      have := (sum_eq_zero_iff_of_nonneg fun i _ => sq_nonneg _).1 hs0 i (mem_range.2 hi)
      have := pow_eq_zero_iff (two_ne_zero) |>.1 this
      linarith
    · rintro ⟨h1, h2, h3⟩
      refine ⟨by rw [h1, hq], r, h3, fun x v hx hv => ?_⟩
      rw [hq] at hx
      rw [key z r h1 h3, key x v hx hv, h2]
      simp only [sub_self, ne_eq, OfNat.ofNat_ne_zero, not_false_eq_true, zero_pow, sum_const_zero, zero_add]
      have hs : 0 ≤ ∑ i ∈ range n, (v.getD i 0 - r.getD i 0) ^ 2 := sum_nonneg fun i _ => sq_nonneg _
      nlinarith [sq_nonneg (x.getD 0 0 - c)]
  refine ⟨?_, l, hlS, iff⟩
  obtain ⟨a, ha, hu⟩ := hsolve r hrl hr0 c
  exact ⟨a, (iff a).2 ha, fun z hz => hu z ((iff z).1 hz)⟩

/-- Mean value inequality on the interval. -/
theorem mean_value_le {u u' : ℝ → ℝ} (h : ∀ x, HasDerivAt u (u' x) x) {c : ℝ} (hc : ∀ x ∈ Set.Icc (-1 : ℝ) 1, |u' x| ≤ c) {x : ℝ} (hx : x ∈ Set.Icc (-1 : ℝ) 1) : |u x - u (-1)| ≤ 2 * c := by
  have := Convex.norm_image_sub_le_of_norm_hasDerivWithin_le (f := u) (f' := u') (C := c) (s := Set.Icc (-1 : ℝ) 1) (x := -1) (y := x)
    (fun y _ => (h y).hasDerivWithinAt) (fun y hy => hc y hy) (convex_Icc _ _) (by norm_num) hx
  rw [Real.norm_eq_abs, Real.norm_eq_abs] at this
  have h0 : 0 ≤ c := (abs_nonneg _).trans (hc x hx)
  have h1 : |x - -1| ≤ 2 := by rw [abs_le]; constructor <;> linarith [hx.1, hx.2]
  nlinarith

theorem cos_mem (θ : ℝ) : -cos θ ∈ Set.Icc (-1 : ℝ) 1 := ⟨by linarith [cos_le_one θ], by linarith [neg_one_le_cos θ]⟩

/-- What a reconstruction that is close to `f` gives: a polynomial with the samples of `f`, close to `f`. -/
theorem recovers_poly (n : ℕ) (hn : 2 ≤ n) (t : Bool) {δ : ℝ} {f : ℝ → ℝ} (h : Recovers .chebyshev n 0 t δ f) :
    ∃ p, IsPoly (if t then n else n - 1) p ∧ (Chebyshev.make n).P 0 t p = (Chebyshev.make n).P 0 t f ∧ ∀ x ∈ Set.Icc (-1 : ℝ) 1, |p x - f x| ≤ δ := by
  have hl : ((Chebyshev.make n).P 0 t f).length = (grid₀ .chebyshev n).N 0 t := C11_projection .chebyshev n hn (-1) 1 0 t f
  obtain ⟨p, h1, h2, h3⟩ := C70_reconstruction_determined .chebyshev n hn 0 t _ hl
  refine ⟨p, by cases t <;> simpa [Determined] using h1, h2, fun x hx => ?_⟩
  obtain ⟨y, e1, e2⟩ := h x hx
  have e3 : some y = some (p x) := e1.symm.trans (h3 x hx)
  rw [Option.some.inj e3] at e2
  exact e2

/-- The Lagrange multiplier of the least-squares solution is small. -/
theorem multiplier_small {N : ℕ} (hN : 0 < N) {v : ℝ → ℝ} (hv : IsPoly (N + 1) v) {w : ℕ → ℝ} (hvw : ∀ j < N + 1, v (-cos ((j : ℝ) * (π / N))) = w j) (h2 : ∑ j ∈ range (N + 1), w j = 2) {l δ : ℝ}
    (hl : |l * ∑ j ∈ range (N + 1), w j ^ 2| ≤ 2 * δ) : |l| * ∫ x in (-1 : ℝ)..1, |v x| ≤ π * δ := by
  have hN' : (0 : ℝ) < N := by exact_mod_cast hN
  have hN1 : (1 : ℝ) ≤ N := by exact_mod_cast hN
  set S := ∑ j ∈ range (N + 1), w j ^ 2 with hS
  have a := l1_primal hN hv
  rw [sum_congr rfl fun j hj => by rw [hvw j (mem_range.1 hj)], ← hS] at a
  have b : 4 ≤ (N + 1 : ℝ) * S := by
    have := sq_sum_le_card_mul_sum_sq (s := range (N + 1)) (f := w)
    rw [h2, card_range] at this
    push_cast at this
    linarith
  have hδ : 0 ≤ δ := by linarith [abs_nonneg (l * S)]
  have hI : 0 ≤ ∫ x in (-1 : ℝ)..1, |v x| := intervalIntegral.integral_nonneg (by norm_num) fun x _ => abs_nonneg _
  have hS0 : 0 ≤ S := sum_nonneg fun _ _ => sq_nonneg _
  have c : 2 ≤ N * S := by nlinarith
  have hπ := pi_pos
  refine abs_le_of_sq_le_sq' ?_ (by positivity) |>.2
  calc (|l| * ∫ x in (-1 : ℝ)..1, |v x|) ^ 2 = l ^ 2 * (∫ x in (-1 : ℝ)..1, |v x|) ^ 2 := by rw [mul_pow, sq_abs]
    _ ≤ l ^ 2 * (π ^ 2 / (2 * N) * S) := mul_le_mul_of_nonneg_left a (sq_nonneg _)
    _ ≤ l ^ 2 * (π ^ 2 / (2 * N) * S) * (N * S / 2) := le_mul_of_one_le_right (by positivity) (by linarith)
    _ = π ^ 2 * ((l * S) ^ 2 / 4) := by field_simp; ring
    _ ≤ π ^ 2 * δ ^ 2 := by
      refine mul_le_mul_of_nonneg_left ?_ (by positivity)
      have := pow_le_pow_left₀ (abs_nonneg _) hl 2
      rw [sq_abs] at this
      nlinarith
    _ = _ := by ring

/-- The solution of the Neumann system with a multiple of the weights added to the source. -/
theorem neumann_error_key (n : ℕ) (hn : 2 ≤ n) (h927 : n ≤ 927) {w : ℕ → ℝ}
    (hw : ∀ g, IsPoly n g → ∫ x in (-1 : ℝ)..1, g x = ∑ i ∈ range n, w i * g (-cos ((i : ℝ) * (π / ((n - 1 : ℕ) : ℝ)))))
    (f f' f'' : ℝ → ℝ) (h1 : ∀ x, HasDerivAt f (f' x) x) (h2 : ∀ x, HasDerivAt f' (f'' x) x) {δ δ' l : ℝ} (hδ : Recovers .chebyshev n 0 true δ f'') (hδ' : Recovers .chebyshev n 0 false δ' f')
    {b z : List ℝ} (hb : (Chebyshev.make n).H 1 false ((Chebyshev.make n).boundary_condition f') = .ok b) (hbl : b.length = n) (hz : z.length = n) (hz0 : z.getD 0 0 = f (-1))
    (h : (Chebyshev.make n).laplacian true z = .ok (vsub (vsub ((Chebyshev.make n).P 0 true f'') b) (tab n fun i => l * w i))) {i : ℕ} (hi : i < n) :
    |z.getD i 0 - f (-cos ((i : ℝ) * (π / ((n - 1 : ℕ) : ℝ))))| ≤ 12 * δ + 2 * δ' := by
  have hN : 0 < n - 1 := by omega
  obtain ⟨u, hu, rfl⟩ := cheb_interp n hn z hz
  obtain ⟨u', u'', d1, d2⟩ := poly_derivs hu
  obtain ⟨v, hv, ev⟩ := cheb_interp n hn (tab n w) (length_tab _ _)
  obtain ⟨p, hp, ep, bp⟩ := recovers_poly n hn true hδ
  obtain ⟨r, hr, er, br⟩ := recovers_poly n hn false hδ'
  simp only [if_true, Bool.false_eq_true, if_false] at hp hr
  obtain ⟨P, -, dP⟩ := isPoly_antideriv hp
  obtain ⟨V, -, dV⟩ := isPoly_antideriv hv
  obtain ⟨R, -, dR⟩ := isPoly_antideriv hr
  have hg : IsPoly n fun x => p x + -l * v x := isPoly_add hp (isPoly_smul (-l) hv)
  have hvw : ∀ j < n, v (-cos ((j : ℝ) * (π / ((n - 1 : ℕ) : ℝ)))) = w j := fun j hj => by
    rw [cheb_P0_cos n hn] at ev
    exact tab_inj.1 ev j hj
  have eg : vsub (vsub ((Chebyshev.make n).P 0 true f'') b) (tab n fun i => l * w i) = vsub ((Chebyshev.make n).P 0 true fun x => p x + -l * v x) b := by
    rw [cheb_P0_cos n hn, cheb_P0_cos n hn] at ep
    rw [cheb_P0_cos n hn, cheb_P0_cos n hn, ← ep]
    obtain ⟨y, rfl⟩ : ∃ y, b = tab n y := ⟨_, eq_tab' hbl 0⟩
    rw [vsub_tab, vsub_tab, vsub_tab]
    exact tab_congr fun j hj => by rw [hvw j hj]; ring
  rw [eg] at h
  obtain ⟨k1, k2⟩ := neumann_key n hn h927 (G := fun x => P x - P (-1) + -l * (V x - V (-1)) + f' (-1)) (φ := f') hu d1 d2 hg
    (fun x => (((dP x).sub_const _).add (((dV x).sub_const _).const_mul (-l))).add_const _) (by ring) hb h
  have mP : ∀ x ∈ Set.Icc (-1 : ℝ) 1, |(P x - f' x) - (P (-1) - f' (-1))| ≤ 2 * δ := fun x hx =>
    mean_value_le (u := fun x => P x - f' x) (fun x => (dP x).sub (h2 x)) bp hx
  have hS : V 1 - V (-1) = ∑ j ∈ range n, w j ^ 2 := by
    rw [← intervalIntegral.integral_eq_sub_of_hasDerivAt (fun x _ => dV x) ((isPoly_cont hv).intervalIntegrable _ _), hw v hv]
    exact sum_congr rfl fun j hj => by rw [hvw j (mem_range.1 hj)]; ring
  have hlS : |l * ∑ j ∈ range n, w j ^ 2| ≤ 2 * δ := by
    rw [← hS]
    have := mP 1 (by norm_num)

    rw [show l * (V 1 - V (-1)) = (P 1 - f' 1) - (P (-1) - f' (-1)) by linarith]
    exact this
  have hone : IsPoly n fun _ : ℝ => (1 : ℝ) := ⟨fun k => if k = 0 then 1 else 0, fun x => by
    obtain ⟨m, rfl⟩ : ∃ m, n = m + 1 := ⟨n - 1, by omega⟩
    rw [sum_range_succ']; simp⟩
  have hw2 : ∑ j ∈ range n, w j = 2 := by
    have := hw _ hone
    simp only [mul_one] at this
    rw [← this]
    norm_num
  have ml : |l| * ∫ x in (-1 : ℝ)..1, |v x| ≤ π * δ := by
    obtain ⟨N, rfl⟩ : ∃ N, n = N + 1 := ⟨n - 1, by omega⟩
    exact multiplier_small (N := N) hN hv hvw hw2 hlS
  have du : ∀ x ∈ Set.Icc (-1 : ℝ) 1, |(P x - P (-1) + -l * (V x - V (-1)) + f' (-1)) - f' x| ≤ (2 + π) * δ := fun x hx => by
    have a := mP x hx
    have b := variation_le dV (isPoly_cont hv) hx
    have c : |l * (V x - V (-1))| ≤ π * δ := by
      rw [abs_mul]
      exact (mul_le_mul_of_nonneg_left b (abs_nonneg _)).trans ml
    rw [show (P x - P (-1) + -l * (V x - V (-1)) + f' (-1)) - f' x = ((P x - f' x) - (P (-1) - f' (-1))) - l * (V x - V (-1)) by ring]
    refine (abs_sub _ _).trans ?_
    linarith
  have hδ0 : 0 ≤ δ := by
    have := mP (-1) (by norm_num)
    linarith [abs_nonneg ((P (-1) - f' (-1)) - (P (-1) - f' (-1)))]
  have hdiff : IsPoly (n - 1) fun x => u' x + -1 * r x := isPoly_add (isPoly_deriv hu d1) (isPoly_smul (-1) hr)
  have er' : ∀ j < n - 1, r (-cos (((j : ℝ) + 1 / 2) * (π / ((n - 1 : ℕ) : ℝ)))) = f' (-cos (((j : ℝ) + 1 / 2) * (π / ((n - 1 : ℕ) : ℝ)))) := fun j hj => by
    rw [cheb_P0d_cos n hn, cheb_P0d_cos n hn] at er
    exact tab_inj.1 er j hj
  have vd := variation_dual hN hdiff (E := ((2 + π) * δ) ^ 2) fun j hj => by
    rw [k1 j hj, er' j hj, ← sq_abs, neg_one_mul, ← sub_eq_add_neg]
    exact pow_le_pow_left₀ (abs_nonneg _) (du _ (cos_mem _)) 2
  have hπ := pi_pos
  have hπ2 := pi_lt_d2
  have hI : ∫ x in (-1 : ℝ)..1, |u' x + -1 * r x| ≤ 12 * δ := by
    refine abs_le_of_sq_le_sq' (vd.trans ?_) (by positivity) |>.2
    rw [mul_pow, mul_pow, ← mul_assoc]
    refine mul_le_mul_of_nonneg_right ?_ (sq_nonneg _)
    have : π * (2 + π) ≤ 3.15 * 5.15 := mul_le_mul hπ2.le (by linarith) (by positivity) (by norm_num)
    have h0 : 0 ≤ π * (2 + π) := by positivity
    nlinarith
  have hx := cos_mem ((i : ℝ) * (π / ((n - 1 : ℕ) : ℝ)))
  have s1 := variation_le (u := fun x => u x + -1 * R x) (fun x => (d1 x).add ((dR x).const_mul (-1))) (isPoly_cont hdiff) hx
  have s2 := mean_value_le (u := fun x => R x - f x) (fun x => (dR x).sub (h1 x)) br hx
  rw [cheb_P0_cos n hn] at hz0 ⊢
  rw [getD_tab (show 0 < n by omega)] at hz0
  simp only [Nat.cast_zero, zero_mul, cos_zero] at hz0
  rw [getD_tab hi]
  set x := -cos ((i : ℝ) * (π / ((n - 1 : ℕ) : ℝ)))
  rw [show u x - f x = ((u x + -1 * R x) - (u (-1) + -1 * R (-1))) + ((R x - f x) - (R (-1) - f (-1))) by rw [hz0]; ring]
  refine (abs_add_le _ _).trans ?_
  linarith

/-- **C109** (least squares, Neumann): the overdetermined system of the example has exactly one least-squares solution, for every right-hand side and every prescribed first value. It takes the first value
exactly, and it is the unique solution of the system whose right-hand side is corrected by the multiple of the quadrature weights that makes it solvable. -/
theorem C109_neumann_least_squares (n : ℕ) (hn : 2 ≤ n) (h927 : n ≤ 927) :
    ∃ w : ℕ → ℝ, (∀ g, IsPoly n g → ∫ x in (-1 : ℝ)..1, g x = ∑ i ∈ range n, w i * ((Chebyshev.make n).P 0 true g).getD i 0) ∧
      ∀ (c : ℝ) (q : List ℝ), q.length = n → (∃! z, LeastSquares ((Chebyshev.make n).laplacian true) c q z) ∧
        ∃ l : ℝ, l * (∑ i ∈ range n, w i ^ 2) = ∑ i ∈ range n, w i * q.getD i 0 ∧
          ∀ z, LeastSquares ((Chebyshev.make n).laplacian true) c q z ↔ z.length = n ∧ z.getD 0 0 = c ∧ (Chebyshev.make n).laplacian true z = .ok (vsub q (tab n fun i => l * w i)) := by
  obtain ⟨w, hw⟩ := cheb_weights n hn
  refine ⟨w, fun g hg => (hw g hg).trans (sum_congr rfl fun i hi => by rw [cheb_P0_cos n hn, getD_tab (mem_range.1 hi)]), fun c q hq => ?_⟩
  refine least_squares_key ?_ (fun a b ha h => cheb_lap_range n hn h927 hw ha h) (fun b hb h0 c => cheb_lap_solve n hn h927 hw hb h0 c) c q hq
  have hone : IsPoly n fun _ : ℝ => (1 : ℝ) := ⟨fun k => if k = 0 then 1 else 0, fun x => by
    obtain ⟨m, rfl⟩ : ∃ m, n = m + 1 := ⟨n - 1, by omega⟩
    rw [sum_range_succ']; simp⟩
  have hw2 : ∑ j ∈ range n, w j = 2 := by
    have := hw _ hone
    simp only [mul_one] at this
    rw [← this]
    norm_num
  have := sq_sum_le_card_mul_sum_sq (s := range n) (f := w)
  rw [hw2, card_range] at this
  by_contra h
  have : (n : ℝ) * ∑ i ∈ range n, w i ^ 2 ≤ 0 := mul_nonpos_of_nonneg_of_nonpos (by positivity) (not_lt.1 h)
  linarith

/-- **C109** (accuracy, Neumann): if `f''` and `f'` differ from the reconstructions of their samples on the primal and dual vertices by at most `δ` and `δ'`, the least-squares solution of the example
exists, is unique, and differs from `f` by at most `12 δ + 2 δ'`. -/
theorem C109_neumann_error (n : ℕ) (hn : 2 ≤ n) (h927 : n ≤ 927) (f f' f'' : ℝ → ℝ) (h1 : ∀ x, HasDerivAt f (f' x) x) (h2 : ∀ x, HasDerivAt f' (f'' x) x)
    (δ δ' : ℝ) (hδ : Recovers .chebyshev n 0 true δ f'') (hδ' : Recovers .chebyshev n 0 false δ' f') :
    ∃ b z, (Chebyshev.make n).H 1 false ((Chebyshev.make n).boundary_condition f') = .ok b ∧
      (∀ w, LeastSquares ((Chebyshev.make n).laplacian true) (f (((Chebyshev.make n).cells.v true).getD 0 0)) (vsub ((Chebyshev.make n).P 0 true f'') b) w ↔ w = z) ∧
      z.length = n ∧ ∀ i < n, |z.getD i 0 - ((Chebyshev.make n).P 0 true f).getD i 0| ≤ 12 * δ + 2 * δ' := by
  have hv : validSize .chebyshev n := hn
  have hS : Stars (Chebyshev.make n) := grid_stars .chebyshev n hv (fun _ => h927) (-1) 1
  have N10 : (Chebyshev.make n).N 1 false = n := (Chebyshev.isInterval hn (-1) 1).N10
  have N01 : (Chebyshev.make n).N (1 - 1) (!false) = n := (Chebyshev.isInterval hn (-1) 1).N01
  have N01' : (grid₀ .chebyshev n).N 0 true = n := (Chebyshev.isInterval hn (-1) 1).N01
  obtain ⟨η, hη, eη⟩ := hS.lin 1 false
  rw [N10, N01] at hη
  rw [N10] at eη
  have lbc : ((Chebyshev.make n).boundary_condition f').length = n := by rw [cheb_bc n hn]; simp
  have lP : ((Chebyshev.make n).P 0 true f'').length = n := by rw [cheb_P0_cos n hn]; simp
  have hb := eη _ lbc
  have hbl := hη.len _ lbc
  obtain ⟨w, hw, hls⟩ := C109_neumann_least_squares n hn h927
  obtain ⟨⟨z, hz, hzu⟩, l, hl, hiff⟩ := hls (f (((Chebyshev.make n).cells.v true).getD 0 0)) (vsub ((Chebyshev.make n).P 0 true f'') (η ((Chebyshev.make n).boundary_condition f')))
    (by rw [eq_tab' lP 0, eq_tab' hbl 0, vsub_tab]; simp)
  refine ⟨_, z, hb, fun x => ⟨fun h => hzu x h, fun h => h ▸ hz⟩, ((hiff z).1 hz).1, fun i hi => ?_⟩
  obtain ⟨g1, g2, g3⟩ := (hiff z).1 hz
  have hx0 : ((Chebyshev.make n).cells.v true).getD 0 0 = -1 := by
    have e := cheb_P0_getD n hn true (fun x => x) (i := 0) (by rw [N01']; omega)
    rw [← e, cheb_P0_cos n hn, getD_tab (show 0 < n by omega)]
    simp
  rw [hx0] at g2
  have := neumann_error_key n hn h927 (w := w) (fun g hg => (hw g hg).trans (sum_congr rfl fun i hi => by rw [cheb_P0_cos n hn, getD_tab (mem_range.1 hi)])) f f' f'' h1 h2 hδ hδ' hb hbl g1 g2 g3 hi
  rw [cheb_P0_cos n hn, getD_tab hi]
  exact this

/-- **C109** (the example itself, Neumann: `f = f' = f'' = exp`): the error at every primal vertex is at most `24 Σ_{k ≥ n} 1/k! + 4 Σ_{k ≥ n - 1} 1/k!`. -/
theorem C109_neumann_example (n : ℕ) (hn : 2 ≤ n) (h927 : n ≤ 927) :
    ∃ b z, (Chebyshev.make n).H 1 false ((Chebyshev.make n).boundary_condition exp) = .ok b ∧
      (∀ w, LeastSquares ((Chebyshev.make n).laplacian true) (exp (((Chebyshev.make n).cells.v true).getD 0 0)) (vsub ((Chebyshev.make n).P 0 true exp) b) w ↔ w = z) ∧
      z.length = n ∧ ∀ i < n, |z.getD i 0 - ((Chebyshev.make n).P 0 true exp).getD i 0|
        ≤ 24 * (∑' k : ℕ, 1 / ((k + n).factorial : ℝ)) + 4 * ∑' k : ℕ, 1 / ((k + (n - 1)).factorial : ℝ) := by
  have hN : (Chebyshev.make n).N 0 false = n - 1 := (Chebyshev.isInterval hn (-1) 1).N00
  have hN' : (Chebyshev.make n).N 0 true = n := (Chebyshev.isInterval hn (-1) 1).N01
  have r1 := (C92_power_series_grid _ exp exp_power_series.1 exp_power_series.2 n hn true).2
  have r2 := (C92_power_series_grid _ exp exp_power_series.1 exp_power_series.2 n hn false).2
  rw [hN'] at r1
  rw [hN] at r2
  obtain ⟨b, z, e1, e2, e3, e4⟩ := C109_neumann_error n hn h927 exp exp exp hasDerivAt_exp hasDerivAt_exp _ _ (fun x hx => r1 x hx) (fun x hx => r2 x hx)
  refine ⟨b, z, e1, e2, e3, fun i hi => (e4 i hi).trans (le_of_eq ?_)⟩
  have e : ∀ m k : ℕ, |(1 : ℝ) / ((k + m).factorial : ℝ)| = 1 / ((k + m).factorial : ℝ) := fun m k => abs_of_nonneg (by positivity)
  rw [tsum_congr (e n), tsum_congr (e (n - 1))]
  ring

end Dec.Props
