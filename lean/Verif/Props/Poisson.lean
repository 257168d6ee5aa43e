import Verif.Lib.Laplace
import Verif.Lib.LagrangePoly
import Verif.Props.PeriodicCalculus
import Verif.Props.Scaling
import Verif.Props.Grid2Exact
import Mathlib.Analysis.Calculus.Deriv.Polynomial

set_option linter.unusedSimpArgs false
set_option linter.unusedVariables false

/-!
# C67: Poisson problems (`/repo/doc/plot/cheb/poisson1d_periodic.py`, `/repo/doc/plot/cheb/poisson1d_cheb.py`)
-/

namespace Dec.Props

open Real Finset Dec.Sp Dec.G2 MeasureTheory

/-! ## Kernels -/

theorem d0_of_D {g : Grid1} {t : Bool} {a b : List ℝ} (h : g.D 0 t a = some b) : g.d0 t a = .ok b := by
  unfold Grid1.d0; rw [h]

theorem D_of_d0 {g : Grid1} {t : Bool} {a b : List ℝ} (h : g.d0 t a = .ok b) : g.D 0 t a = some b := by
  unfold Grid1.d0 at h
  cases hD : g.D 0 t a with
  | none => rw [hD] at h; exact absurd h (by simp)
  | some c => rw [hD] at h; rw [Except.ok.inj h]

/-- The sides on which no boundary values are imposed: both on a periodic grid, the primal one on an interval. -/
def free (k : Kind) (t : Bool) : Prop := k = .periodic ∨ t = true

theorem free_stokes (k : Kind) (n : ℕ) (hn : validSize k n) (xmin xmax : ℝ) (hx : xmin < xmax) (t : Bool) (ht : free k t) (b c : List ℝ)
    (hb : b.length = (grid k n xmin xmax).N 0 (!t)) (h : (grid k n xmin xmax).d0 (!t) b = .ok c) : c.sum = 0 := by
  have h := D_of_d0 h
  cases k
  · obtain ⟨da, e1, e2⟩ := C10_periodic_stokes n xmin xmax (!t) b hb
    have e1' : (grid .periodic n xmin xmax).D 0 (!t) b = some da := e1
    rw [h] at e1'; rw [Option.some.inj e1']; exact e2
  all_goals
    obtain rfl : t = true := ht.resolve_left (by simp)
    first
      | obtain ⟨da, e1, e2⟩ := C10_interval_stokes_dual .regular n hn xmin xmax hx b hb
        have e1' : (grid .regular n xmin xmax).D 0 false b = some da := e1
        rw [Bool.not_true] at h
        rw [h] at e1'; rw [Option.some.inj e1']; exact e2
      | obtain ⟨da, e1, e2⟩ := C10_interval_stokes_dual .chebyshev n hn xmin xmax hx b hb
        have e1' : (grid .chebyshev n xmin xmax).D 0 false b = some da := e1
        rw [Bool.not_true] at h
        rw [h] at e1'; rw [Option.some.inj e1']; exact e2

theorem free_kernel (k : Kind) (n : ℕ) (hn : validSize k n) (xmin xmax : ℝ) (hx : xmin < xmax) (t : Bool) (ht : free k t) (a : List ℝ)
    (ha : a.length = (grid k n xmin xmax).N 0 t) :
    (grid k n xmin xmax).d0 t a = .ok (List.replicate ((grid k n xmin xmax).N 1 t) 0) ↔ ∃ c, a = List.replicate ((grid k n xmin xmax).N 0 t) c := by
  have key : ∀ b : List ℝ, (grid k n xmin xmax).d0 t a = .ok b ↔ (grid k n xmin xmax).D 0 t a = some b := fun b => ⟨D_of_d0, d0_of_D⟩
  rw [key]
  cases k
  · exact C10_periodic_kernel n xmin xmax t a ha
  · obtain rfl : t = true := ht.resolve_left (by simp)
    exact C10_interval_kernel .regular n hn xmin xmax hx a ha
  · obtain rfl : t = true := ht.resolve_left (by simp)
    exact C10_interval_kernel .chebyshev n hn xmin xmax hx a ha

/-- C67 (pure Neumann and periodic problems): exactly the constants have Laplacian zero.  On an interval `L = H1d D0d H1 D0` imposes zero fluxes at the ends. -/
theorem C67_kernel (k : Kind) (n : ℕ) (hn : validSize k n) (h927 : k = .chebyshev → n ≤ 927) (xmin xmax : ℝ) (hx : xmin < xmax) (t : Bool) (ht : free k t) (a : List ℝ)
    (ha : a.length = (grid k n xmin xmax).N 0 t) :
    (grid k n xmin xmax).laplacian t a = .ok (List.replicate ((grid k n xmin xmax).N 0 t) 0) ↔ ∃ c, a = List.replicate ((grid k n xmin xmax).N 0 t) c := by
  have hF := grid_factor k n hn xmin xmax
  have hS := grid_stars k n hn h927 xmin xmax
  rw [← free_kernel k n hn xmin xmax hx t ht a ha, lap_zero_iff hF hS t ha]
  constructor
  · rintro ⟨y, z, hy, hz, lz, ly, hd⟩
    rw [hy]; congr 1
    have zero : z = List.replicate ((grid k n xmin xmax).N 0 (!t)) 0 → y = List.replicate ((grid k n xmin xmax).N 1 t) 0 := fun h => by
      refine star_injective hS 1 t ly (by simp) ?_
      obtain ⟨η, hη, eη⟩ := hS.lin 1 t
      rw [hz, h, eη _ (by simp), lin_zero hη]; rfl
    cases k
    · obtain ⟨c, hc⟩ := (free_kernel .periodic n hn xmin xmax hx (!t) (.inl rfl) z lz).1 hd
      have hc' : z = List.replicate n c := hc
      have hs : y.sum = 0 := free_stokes .periodic n hn xmin xmax hx (!t) (.inl rfl) a y (by rw [Bool.not_not]; exact ha) (by rw [Bool.not_not]; exact hy)
      have hy' : y = List.replicate n (c * hh n) := by
        have h2 : (grid .periodic n xmin xmax).H 1 t y = .ok (Hinv y) := by cases t <;> rfl
        rw [h2] at hz
        have h3 := Except.ok.inj hz
        rw [← Hs_Hinv y, h3, hc', Hs_const]
      rw [hy', List.sum_replicate, nsmul_eq_mul] at hs
      have hn1 : 1 ≤ n := hn
      have h4 : (0 : ℝ) < hh n := hh_pos (by omega)
      have h5 : (0 : ℝ) < n := by exact_mod_cast hn1
      have h6 : c = 0 := by
        rcases mul_eq_zero.1 hs with h | h
        · exact absurd h h5.ne'
        · exact (mul_eq_zero.1 h).resolve_right h4.ne'
      rw [hy', h6, zero_mul]; rfl
    · obtain rfl : t = true := ht.resolve_left (by simp)
      exact zero ((C10_interval_kernel_dual .regular n hn xmin xmax hx z lz).1 (D_of_d0 hd))
    · obtain rfl : t = true := ht.resolve_left (by simp)
      exact zero ((C10_interval_kernel_dual .chebyshev n hn xmin xmax hx z lz).1 (D_of_d0 hd))
  · intro h
    obtain ⟨η, hη, eη⟩ := hS.lin 1 t
    obtain ⟨δ, hδ, eδ⟩ := hF.d (!t)
    refine ⟨_, _, h, eη _ (by simp), ?_, by simp, ?_⟩
    · exact hη.len _ (by simp)
    · rw [lin_zero hη]
      show (grid k n xmin xmax).d0 (!t) (List.replicate ((grid k n xmin xmax).N 0 (!t)) 0) = _
      rw [eδ _ (by simp), lin_zero hδ]

/-- C67 (pure Neumann and periodic problems): the equation `L a = b` has a solution exactly when the total of the source (the sum of the star of `b`) vanishes; and then
exactly one solution for every prescribed value at the first vertex. -/
theorem C67_solvable (k : Kind) (n : ℕ) (hn : validSize k n) (h927 : k = .chebyshev → n ≤ 927) (xmin xmax : ℝ) (hx : xmin < xmax) (t : Bool) (ht : free k t) (b : List ℝ)
    (hb : b.length = (grid k n xmin xmax).N 0 t) :
    ((∃ a, a.length = (grid k n xmin xmax).N 0 t ∧ (grid k n xmin xmax).laplacian t a = .ok b) ↔ ∃ s, (grid k n xmin xmax).H 0 t b = .ok s ∧ s.sum = 0) ∧
    ((∃ s, (grid k n xmin xmax).H 0 t b = .ok s ∧ s.sum = 0) → ∀ c : ℝ,
      ∃! a, a.length = (grid k n xmin xmax).N 0 t ∧ a.head? = some c ∧ (grid k n xmin xmax).laplacian t a = .ok b) := by
  have hF := grid_factor k n hn xmin xmax
  have hS := grid_stars k n hn h927 xmin xmax
  have hp := hF.pos 0 t
  obtain ⟨L, hL, eL⟩ := lap_elin hF hS t
  obtain ⟨σ, hσ, eσ⟩ := hS.lin 0 t
  have hσs : ∀ c : ℝ, ∀ x : List ℝ, (x.map (c • ·)).sum = c * x.sum := fun c x => by
    induction x with
    | nil => simp
    | cons y x ih => rw [List.map_cons, List.sum_cons, ih, List.sum_cons, smul_eq_mul]; ring
  have hσa : ∀ m : ℕ, ∀ x y : List ℝ, x.length = m → y.length = m → (vadd x y).sum = x.sum + y.sum := fun m x y h1 h2 => by
    rw [eq_tab' h1 0, eq_tab' h2 0, vadd_tab]; simp only [sum_tab, Finset.sum_add_distrib]
  have hk := C67_kernel k n hn h927 xmin xmax hx t ht
  have hk' : ∀ a : List ℝ, a.length = (grid k n xmin xmax).N 0 t → (L a = List.replicate ((grid k n xmin xmax).N 0 t) 0 ↔ ∃ c, a = List.replicate ((grid k n xmin xmax).N 0 t) c) := fun a ha => by
    rw [← hk a ha, eL a ha, Except.ok.injEq]
  obtain ⟨e, he, he'⟩ := star_surjective hS 0 t (b := (1 : ℝ) :: List.replicate ((grid k n xmin xmax).N (1 - 0) (!t) - 1) 0) (by
    have := hF.pos (1 - 0) (!t)
    simp only [List.length_cons, List.length_replicate]; omega)
  rw [eσ e he] at he'
  have h0 : ∀ a : List ℝ, a.length = (grid k n xmin xmax).N 0 t → (σ (L a)).sum = 0 := by
    obtain ⟨δ, η, δ', η', h1, h2, h3, h4, e1, e2, e3, e4, e⟩ := lap_maps hF hS t
    intro a ha
    have hLa : L a = η' (δ' (η (δ a))) := by have := e a ha; rw [eL a ha] at this; exact Except.ok.inj this
    have l2 := h2.len _ (h1.len a ha)
    have l3 := h3.len _ l2
    have hi := hS.inv 1 (!t) _ l3
    rw [e4 _ l3] at hi
    have hi' : (grid k n xmin xmax).H 0 t (L a) = .ok (δ' (η (δ a))) := by
      rw [hLa]
      have : (grid k n xmin xmax).H (1 - 1) (!(!t)) (η' (δ' (η (δ a)))) = .ok (δ' (η (δ a))) := hi
      rwa [Bool.not_not] at this
    rw [eσ _ (hL.len a ha)] at hi'
    rw [Except.ok.inj hi']
    exact free_stokes k n hn xmin xmax hx t ht _ _ l2 (e3 _ l2)
  have main := Lin.range_of_const hp hL hk' (φ := fun x => (σ x).sum)
    (fun x y h1 h2 => by beta_reduce; rw [hσ.add x y h1 h2]; exact hσa _ _ _ (hσ.len x h1) (hσ.len y h2))
    (fun c x h1 => by beta_reduce; rw [hσ.smul c x h1, hσs]) h0 he (by rw [Except.ok.inj he']; simp) b hb
  have hs : (∃ s, (grid k n xmin xmax).H 0 t b = .ok s ∧ s.sum = 0) ↔ (σ b).sum = 0 := by
    rw [eσ b hb]
    exact ⟨fun ⟨s, h1, h2⟩ => by rw [Except.ok.inj h1]; exact h2, fun h => ⟨_, rfl, h⟩⟩
  have hex : (∃ a, a.length = (grid k n xmin xmax).N 0 t ∧ (grid k n xmin xmax).laplacian t a = .ok b) ↔ ∃ a, a.length = (grid k n xmin xmax).N 0 t ∧ L a = b :=
    exists_congr fun a => and_congr_right fun ha => by rw [eL a ha, Except.ok.injEq]
  refine ⟨by rw [hex, hs, ← main], fun h c => ?_⟩
  obtain ⟨a, ha, hab⟩ := main.1 (hs.1 h)
  have hconst : ∀ c : ℝ, L (List.replicate ((grid k n xmin xmax).N 0 t) c) = List.replicate ((grid k n xmin xmax).N 0 t) 0 := fun c => (hk' _ (by simp)).2 ⟨c, rfl⟩
  have head : ∀ {x : List ℝ} {c : ℝ}, x.length = (grid k n xmin xmax).N 0 t → (x.head? = some c ↔ x.getD 0 0 = c) := fun {x c} hx => by
    cases x with
    | nil => simp at hx; omega
    | cons y x => simp
  refine ⟨vadd a (List.replicate ((grid k n xmin xmax).N 0 t) (c - a.getD 0 0)), ⟨by simp [ha], ?_, ?_⟩, ?_⟩
  · rw [head (by simp [ha]), getD_vadd ha (by simp) hp]; simp [hp]
  · rw [eL _ (by simp [ha]), hL.add _ _ ha (by simp), hconst, hab]
    congr 1
    conv_rhs => rw [eq_tab' hb 0]
    conv_lhs => rw [eq_tab' hb 0, replicate_tab, vadd_tab]
    exact tab_congr fun i _ => by simp
  · rintro x ⟨hx1, hx2, hx3⟩
    rw [eL x hx1, Except.ok.injEq] at hx3
    have h1 : L (vsub x a) = List.replicate ((grid k n xmin xmax).N 0 t) 0 := by
      rw [lin_sub hL hx1 ha, hx3, hab, vsub_zero_iff hb hb]
    obtain ⟨d, hd⟩ := (hk' _ (by simp [hx1, ha])).1 h1
    have h2 : x = vadd a (List.replicate ((grid k n xmin xmax).N 0 t) d) := by
      rw [eq_tab' hx1 0, eq_tab' ha 0, vsub_tab, replicate_tab, tab_inj] at hd
      rw [eq_tab' hx1 0, eq_tab' ha 0, replicate_tab, vadd_tab]
      exact tab_congr fun i hi => by rw [← hd i hi]; ring
    rw [head hx1] at hx2
    rw [h2, getD_vadd ha (by simp) hp] at hx2
    have h3 : c - a.getD 0 0 = d := by rw [← hx2]; simp [hp]
    rw [h3]; exact h2

example : validSize .chebyshev 3 ∧ free .chebyshev true ∧ free .periodic false ∧ ([1, 0, -1] : List ℝ).length = (grid .chebyshev 3 (-1) 1).N 0 true :=
  ⟨by simp [validSize], .inr rfl, .inl rfl, rfl⟩

/-! ## Dirichlet problems -/

theorem dual_length (k : IKind) (n : ℕ) (hn : 2 ≤ n) (xmin xmax : ℝ) (hx : xmin < xmax) :
    ((intervalGrid k n xmin xmax).P 1 false fun _ => 1).sum = xmax - xmin := by
  have h := C08_interval k n hn xmin xmax hx (fun x => x) (fun _ => 1) (fun s _ => hasDerivAt_id s) intervalIntegrable_const
  obtain ⟨v, w, hg, -⟩ := exists_isInterval k hn hx
  obtain ⟨db, e1, e2⟩ := C10_interval_stokes_dual k n hn xmin xmax hx ((intervalGrid k n xmin xmax).P 0 false fun x => x) (by
    rw [hg.P0d]; simp)
  rw [e1, Option.map_some, Option.some.injEq] at h
  rw [← h]
  have hl : db.length = n := by
    rw [hg.D0d, hg.P0d, hg.diff_zero_pad] at e1
    rw [← Option.some.inj e1]; simp
  have hbc : ((intervalGrid k n xmin xmax).boundary_condition fun x => x) = tab n fun i => if i = n - 1 then xmax else if i = 0 then -xmin else 0 := by
    unfold Grid1.boundary_condition
    simp only [intervalGrid_n, intervalGrid_xmin, intervalGrid_xmax]
    apply List.ext_getElem
    · simp
    · intro i h1 h2
      simp only [length_tab] at h2
      simp only [List.getElem_set, List.getElem_replicate, getElem_tab]
      by_cases hi : i = n - 1
      · subst hi; simp
      · rw [if_neg (Ne.symm hi), if_neg hi]
        by_cases h0 : i = 0
        · subst h0; simp
        · rw [if_neg (Ne.symm h0), if_neg h0]
  rw [hbc, eq_tab' hl 0, vadd_tab, sum_tab, Finset.sum_add_distrib]
  rw [eq_tab' hl 0, sum_tab] at e2
  rw [e2, zero_add]
  have : ∀ i ∈ range n, (if i = n - 1 then xmax else if i = 0 then -xmin else 0) = (if i = n - 1 then xmax else 0) + if i = 0 then -xmin else 0 := by
    intro i _
    by_cases hi : i = n - 1
    · rw [if_pos hi, if_pos hi, if_neg (by omega), add_zero]
    · rw [if_neg hi, if_neg hi, zero_add]
  rw [Finset.sum_congr rfl this, Finset.sum_add_distrib, Finset.sum_ite_eq' (range n) (n - 1), Finset.sum_ite_eq' (range n) 0,
    if_pos (by simp; omega), if_pos (by simp; omega)]
  ring

/-- On an interval the star of a non-zero constant does not add up to zero. -/
theorem star_const_sum (k : IKind) (n : ℕ) (hn : 2 ≤ n) (xmin xmax c : ℝ) :
    ∃ s, (intervalGrid k n xmin xmax).H 0 true (List.replicate n c) = .ok s ∧ (s.sum = 0 → c = 0) := by
  have hlin : ELin n n ((intervalGrid k n xmin xmax).H 0 true) := by
    cases k
    · exact grid_elin_H .regular n hn xmin xmax 0 true (fun h => by simp at h)
    · exact grid_elin_H .chebyshev n hn xmin xmax 0 true (fun _ h => by simp at h)
  obtain ⟨σ, hσ, eσ⟩ := hlin
  refine ⟨_, eσ _ (by simp), fun h => ?_⟩
  have hc : List.replicate n c = (List.replicate n (1 : ℝ)).map (c • ·) := by simp
  rw [hc, hσ.smul c _ (by simp)] at h
  have one : ∃ l : ℝ, 0 < l ∧ (σ (List.replicate n 1)).sum = l := by
    cases k
    · have e := (C04_regular_hodge_exact_primal n 0 hn (by omega) (fun _ => 1) ⟨fun _ => 1, fun x => by simp⟩).1
      have e' : (intervalGrid .regular n xmin xmax).H 0 true (List.replicate n 1) = .ok ((Regular.make n).P 1 false fun _ => 1) := by
        refine Eq.trans ?_ e
        rw [(Regular.isInterval hn 0 π).P0]
        rw [replicate_tab]; rfl
      rw [eσ _ (by simp)] at e'
      refine ⟨π - 0, by simp [pi_pos], ?_⟩
      rw [Except.ok.inj e']
      exact dual_length .regular n hn 0 π pi_pos
    · have e := (C06_chebyshev_hodge_exact_primal n hn (fun _ => 1) ⟨fun k => if k = 0 then 1 else 0, fun x => by
        have : 0 < n := by omega
        simp [this]⟩).1
      have e' : (intervalGrid .chebyshev n xmin xmax).H 0 true (List.replicate n 1) = .ok ((Chebyshev.make n).P 1 false fun _ => 1) := by
        refine Eq.trans ?_ e
        rw [(Chebyshev.isInterval hn (-1) 1).P0]
        rw [replicate_tab]; rfl
      rw [eσ _ (by simp)] at e'
      refine ⟨1 - (-1), by norm_num, ?_⟩
      rw [Except.ok.inj e']
      exact dual_length .chebyshev n hn (-1) 1 (by norm_num)
  obtain ⟨l, h1, h2⟩ := one
  have h3 : ∀ x : List ℝ, (x.map (c • ·)).sum = c * x.sum := fun x => by
    induction x with
    | nil => simp
    | cons y x ih => rw [List.map_cons, List.sum_cons, ih, List.sum_cons, smul_eq_mul]; ring
  rw [h3, h2] at h
  exact (mul_eq_zero.1 h).resolve_right h1.ne'

/-- The kind of a grid on an interval, as a kind of grid. -/
def IKind.kind : IKind → Kind
  | .regular => .regular
  | .chebyshev => .chebyshev

theorem intervalGrid_eq (k : IKind) (n : ℕ) (a b : ℝ) : intervalGrid k n a b = grid (IKind.kind k) n a b := by cases k <;> rfl

/-- C67 (Dirichlet problem): the Laplacian `Ld = H1 D0 H1d D0d` on dual 0-forms, which imposes the value zero at both ends, is a bijection: the matrix inverted in the example is regular. -/
theorem C67_dirichlet_bijective (k : IKind) (n : ℕ) (hn : 2 ≤ n) (h927 : k = .chebyshev → n ≤ 927) (xmin xmax : ℝ) (hx : xmin < xmax) (b : List ℝ) (hb : b.length = n - 1) :
    ∃! a, a.length = n - 1 ∧ (intervalGrid k n xmin xmax).laplacian false a = .ok b := by
  have hv : validSize (IKind.kind k) n := by cases k <;> exact hn
  have hF : Factor (intervalGrid k n xmin xmax) := by rw [intervalGrid_eq]; exact grid_factor _ n hv xmin xmax
  have hS : Stars (intervalGrid k n xmin xmax) := by
    rw [intervalGrid_eq]; exact grid_stars _ n hv (fun h => h927 (by cases k <;> simp_all [IKind.kind])) xmin xmax
  have hN : (intervalGrid k n xmin xmax).N 0 false = n - 1 := by cases k <;> rfl
  have hN1 : (intervalGrid k n xmin xmax).N 1 false = n := by cases k <;> rfl
  have hN2 : (intervalGrid k n xmin xmax).N 0 true = n := by cases k <;> rfl
  have hN3 : (intervalGrid k n xmin xmax).N 1 true = n - 1 := by cases k <;> rfl
  obtain ⟨L, hL, eL⟩ := lap_elin hF hS false
  rw [hN] at hL eL
  have hinj : ∀ a : List ℝ, a.length = n - 1 → L a = List.replicate (n - 1) 0 → a = List.replicate (n - 1) 0 := by
    intro a ha h0
    have h1 : (intervalGrid k n xmin xmax).laplacian false a = .ok (List.replicate ((intervalGrid k n xmin xmax).N 0 false) 0) := by rw [eL a ha, h0, hN]
    obtain ⟨y, z, hy, hz, lz, ly, hd⟩ := (lap_zero_iff hF hS false (by rw [hN]; exact ha)).1 h1
    simp only [Bool.not_false] at hd lz
    rw [hN3] at hd
    rw [hN2] at lz
    rw [hN1] at ly
    obtain ⟨c, rfl⟩ := (C10_interval_kernel k n hn xmin xmax hx z lz).1 (D_of_d0 hd)
    obtain ⟨s, hs, hs0⟩ := star_const_sum k n hn xmin xmax c
    have hi := hS.inv 1 false y (by rw [hN1]; exact ly)
    rw [hz] at hi
    have hi' : (intervalGrid k n xmin xmax).H 0 true (List.replicate n c) = .ok y := hi
    rw [hs] at hi'
    obtain rfl := Except.ok.inj hi'
    obtain ⟨db, e1, e2⟩ := C10_interval_stokes_dual k n hn xmin xmax hx a ha
    have e3 := D_of_d0 hy
    rw [e1] at e3
    rw [Option.some.inj e3] at e2
    obtain rfl := hs0 e2
    have hz0 : s = List.replicate n 0 := by
      obtain ⟨σ, hσ, eσ⟩ := hS.lin 0 true
      have h5 := eσ (List.replicate n 0) (by simp [hN2])
      rw [hs] at h5
      have hM : (intervalGrid k n xmin xmax).N (1 - 0) (!true) = n := hN1
      rw [hM, hN2] at hσ
      rw [Except.ok.inj h5]
      exact lin_zero hσ
    rw [hz0] at e3
    rw [← e1] at e3
    exact (C10_interval_kernel_dual k n hn xmin xmax hx a ha).1 e3
  obtain ⟨a, ha, hab⟩ := hL.surjective hinj b hb
  refine ⟨a, ⟨ha, by rw [eL a ha, hab]⟩, ?_⟩
  rintro x ⟨hx1, hx2⟩
  rw [eL x hx1, Except.ok.injEq] at hx2
  have h1 : L (vsub x a) = List.replicate (n - 1) 0 := by
    rw [lin_sub hL hx1 ha, hx2, hab, vsub_zero_iff hb hb]
  exact (vsub_zero_iff hx1 ha).1 (hinj _ (by simp [hx1, ha]) h1)

example : 2 ≤ 3 ∧ (IKind.chebyshev = .chebyshev → 3 ≤ 927) ∧ ([1, 2] : List ℝ).length = 3 - 1 := ⟨by norm_num, fun _ => by norm_num, rfl⟩

/-! ## Exact solutions -/

/-- C67 (periodic problem of the example): when the exact solution `f` is a trigonometric polynomial of degree less than `n/2`, the overdetermined system of the example —
the value of `f` at the first vertex, and the Laplacian equal to the samples of `f''` — has exactly one solution, the samples of `f`; on the primal and on the dual side. -/
theorem C67_periodic_solution (n K : ℕ) (hK : 2 * K < n) (f f' f'' : ℝ → ℝ) (hf : IsTrig K f)
    (h1 : ∀ θ, HasDerivAt f (f' θ) θ) (h2 : ∀ θ, HasDerivAt f' (f'' θ) θ) (t : Bool) (z : List ℝ) (hz : z.length = n) :
    (z.head? = ((Periodic.make n).cells.v t).head?.map f ∧ (Periodic.make n).laplacian t z = .ok ((Periodic.make n).P 0 t f'')) ↔ z = (Periodic.make n).P 0 t f := by
  have hv : validSize .periodic n := by show 1 ≤ n; omega
  have ex := C23_periodic_laplacian_exact n K hK f f' f'' hf h1 h2 t
  have hl : ∀ q, ((Periodic.make n).P 0 t q).length = n := fun q => C11_projection .periodic n hv 0 (2 * π) 0 t q
  have hh : ((Periodic.make n).P 0 t f).head? = ((Periodic.make n).cells.v t).head?.map f := by
    show (((Periodic.make n).cells.v t).map f).head? = _
    rw [List.head?_map]
  obtain ⟨h3, h4⟩ := C67_solvable .periodic n hv (by simp) 0 (2 * π) (by positivity) t (.inl rfl) ((Periodic.make n).P 0 t f'') (hl _)
  have hs := h3.1 ⟨_, hl _, ex⟩
  have hhead : ∃ c, ((Periodic.make n).P 0 t f).head? = some c := by
    have := hl f
    cases hq : (Periodic.make n).P 0 t f with
    | nil => rw [hq] at this; simp at this; omega
    | cons c _ => exact ⟨c, rfl⟩
  obtain ⟨c, hc⟩ := hhead
  obtain ⟨x, -, hu⟩ := h4 hs c
  have e1 := hu _ ⟨hl f, hc, ex⟩
  constructor
  · rintro ⟨h5, h6⟩
    rw [e1]
    exact hu z ⟨hz, by rw [h5, ← hh]; exact hc, h6⟩
  · rintro rfl
    exact ⟨hh, ex⟩

example : 2 * 2 < 5 ∧ IsTrig 2 (fun x => sin ((2 : ℕ) * x)) := ⟨by norm_num, isTrig_sin_nat (by norm_num)⟩

open Polynomial in
theorem isPoly_deriv {m : ℕ} {f f' : ℝ → ℝ} (hf : IsPoly m f) (h : ∀ x, HasDerivAt f (f' x) x) : IsPoly (m - 1) f' := by
  obtain ⟨P, hP, e⟩ := hf.exists_eval
  obtain rfl : f = fun x => P.eval x := funext e
  obtain rfl : f' = fun x => P.derivative.eval x := funext fun x => (h x).unique (P.hasDerivAt x)
  by_cases h0 : P.natDegree = 0
  · have : P.derivative = 0 := by
      rw [natDegree_eq_zero.1 h0 |>.choose_spec.symm, derivative_C]
    rw [this]
    exact ⟨fun _ => 0, fun x => by simp⟩
  · have h1 : P.derivative.natDegree < P.natDegree := natDegree_derivative_lt h0
    have hP0 : P ≠ 0 := fun h => h0 (by rw [h, natDegree_zero])
    have h2 : P.natDegree < m := (natDegree_lt_iff_degree_lt hP0).2 hP
    exact isPoly_eval (by omega)

/-- C67 (Neumann problem, Chebyshev grid): for polynomials of degree less than `n`, the Laplacian of the samples plus the star of the boundary fluxes is the array of samples of `f''`. -/
theorem C67_neumann_exact (n : ℕ) (hn : 2 ≤ n) (h927 : n ≤ 927) (f f' f'' : ℝ → ℝ) (hf : IsPoly n f)
    (h1 : ∀ x, HasDerivAt f (f' x) x) (h2 : ∀ x, HasDerivAt f' (f'' x) x) :
    ∃ y z, (Chebyshev.make n).laplacian true ((Chebyshev.make n).P 0 true f) = .ok y ∧ (Chebyshev.make n).H 1 false ((Chebyshev.make n).boundary_condition f') = .ok z ∧
      vadd y z = (Chebyshev.make n).P 0 true f'' := by
  have hv : validSize .chebyshev n := hn
  have hF : Factor (Chebyshev.make n) := grid_factor .chebyshev n hv (-1) 1
  have hS : Stars (Chebyshev.make n) := grid_stars .chebyshev n hv (fun _ => h927) (-1) 1
  have hf' : IsPoly (n - 1) f' := isPoly_deriv hf h1
  have hf'' : IsPoly (n - 1 - 1) f'' := isPoly_deriv hf' h2
  have c1 : Continuous f' := hf'.continuous
  have c2 : Continuous f'' := hf''.continuous
  obtain ⟨δ, η, δ', η', g1, g2, g3, g4, e1, e2, e3, e4, e⟩ := lap_maps hF hS true
  have l0 : ((Chebyshev.make n).P 0 true f).length = n := C11_projection .chebyshev n hv (-1) 1 0 true f
  have l1 : ((Chebyshev.make n).P 1 true f').length = n - 1 := C11_projection .chebyshev n hv (-1) 1 1 true f'
  have l2 : ((Chebyshev.make n).P 0 false f').length = n - 1 := C11_projection .chebyshev n hv (-1) 1 0 false f'
  have l3 : ((Chebyshev.make n).boundary_condition f').length = n := by simp [Grid1.boundary_condition, Chebyshev.make]
  have s1 := e1 _ l0
  have hD : (Chebyshev.make n).D 0 true ((Chebyshev.make n).P 0 true f) = some ((Chebyshev.make n).P 1 true f') :=
    C07_interval .chebyshev n hn (-1) 1 (by norm_num) f f' (fun s _ => h1 s) (c1.intervalIntegrable _ _)
  rw [d0_of_D hD] at s1
  have s1' : (Chebyshev.make n).P 1 true f' = δ ((Chebyshev.make n).P 0 true f) := Except.ok.inj s1
  have s2 := e2 _ l1
  rw [(C06_chebyshev_hodge_exact_dual n hn f' hf').2 h927] at s2
  have s2' := Except.ok.inj s2
  have s3 := C08_interval .chebyshev n hn (-1) 1 (by norm_num) f' f'' (fun s _ => h2 s) (c2.intervalIntegrable _ _)
  have s3a : (Chebyshev.make n).D 0 false ((Chebyshev.make n).P 0 false f') = some (δ' ((Chebyshev.make n).P 0 false f')) := D_of_d0 (e3 _ l2)
  have s3' : vadd (δ' ((Chebyshev.make n).P 0 false f')) ((Chebyshev.make n).boundary_condition f') = (Chebyshev.make n).P 1 false f'' := by
    have : ((Chebyshev.make n).D 0 false ((Chebyshev.make n).P 0 false f')).map (vadd · ((Chebyshev.make n).boundary_condition f')) = some ((Chebyshev.make n).P 1 false f'') := s3
    rw [s3a] at this
    exact Option.some.inj this
  have l4 : (δ' ((Chebyshev.make n).P 0 false f')).length = n := g3.len _ l2
  have l5 : ((Chebyshev.make n).P 1 false f'').length = n := C11_projection .chebyshev n hv (-1) 1 1 false f''
  have s4 : (Chebyshev.make n).H 1 false ((Chebyshev.make n).P 1 false f'') = .ok (η' ((Chebyshev.make n).P 1 false f'')) := e4 _ l5
  rw [(C06_chebyshev_hodge_exact_primal n hn f'' (isPoly_mono (by omega) hf'')).2] at s4
  refine ⟨_, _, e _ l0, e4 _ l3, ?_⟩
  rw [← s1', ← s2', ← g4.add _ _ l4 l3, s3']
  exact (Except.ok.inj s4).symm

/-- C67 (Neumann problem of the example): when the exact solution `f` is a polynomial of degree less than `n`, the system of the example — the value of `f` at the first vertex, and the
Laplacian equal to the samples of the source minus the star of the prescribed boundary fluxes — has exactly one solution, the samples of `f`. -/
theorem C67_neumann_solution (n : ℕ) (hn : 2 ≤ n) (h927 : n ≤ 927) (f f' f'' : ℝ → ℝ) (hf : IsPoly n f)
    (h1 : ∀ x, HasDerivAt f (f' x) x) (h2 : ∀ x, HasDerivAt f' (f'' x) x) (z : List ℝ) (hz : z.length = n) :
    (z.head? = some (f (-1)) ∧ ∃ b, (Chebyshev.make n).H 1 false ((Chebyshev.make n).boundary_condition f') = .ok b ∧
        (Chebyshev.make n).laplacian true z = .ok (vsub ((Chebyshev.make n).P 0 true f'') b)) ↔ z = (Chebyshev.make n).P 0 true f := by
  have hv : validSize .chebyshev n := hn
  obtain ⟨y, b, e1, e2, e3⟩ := C67_neumann_exact n hn h927 f f' f'' hf h1 h2
  have hF : Factor (Chebyshev.make n) := grid_factor .chebyshev n hv (-1) 1
  have hS : Stars (Chebyshev.make n) := grid_stars .chebyshev n hv (fun _ => h927) (-1) 1
  have l0 : ∀ q, ((Chebyshev.make n).P 0 true q).length = n := fun q => C11_projection .chebyshev n hv (-1) 1 0 true q
  have ly : y.length = n := by
    obtain ⟨L, hL, eL⟩ := lap_elin hF hS true
    rw [eL _ (l0 f)] at e1
    rw [← Except.ok.inj e1]; exact hL.len _ (l0 f)
  have lb : b.length = n := by
    obtain ⟨L, hL, eL⟩ := hS.lin 1 false
    have : ((Chebyshev.make n).boundary_condition f').length = n := by simp [Grid1.boundary_condition, Chebyshev.make]
    rw [eL _ this] at e2
    rw [← Except.ok.inj e2]; exact hL.len _ this
  have ey : y = vsub ((Chebyshev.make n).P 0 true f'') b := (vsub_vadd_cancel ly lb (l0 _)).1 e3
  have hfirst : ((Chebyshev.make n).P 0 true f).head? = some (f (-1)) := by
    have hg := Chebyshev.isInterval hn (-1) 1
    rw [hg.P0]
    have h0 : (Chebyshev.make n (-1) 1).n = n := rfl
    have hfst := hg.first
    rw [h0]
    have : tab n (fun i => f (Chebyshev.pt (-1) 1 (i * (π / ((n - 1 : ℕ) : ℝ))))) = f (Chebyshev.pt (-1) 1 ((0 : ℕ) * (π / ((n - 1 : ℕ) : ℝ)))) :: tab (n - 1) fun i => f (Chebyshev.pt (-1) 1 ((i + 1 : ℕ) * (π / ((n - 1 : ℕ) : ℝ)))) := by
      obtain ⟨m, rfl⟩ : ∃ m, n = m + 1 := ⟨n - 1, by omega⟩
      rw [cons_tab]
      refine tab_congr' (by simp) fun i hi => ?_
      cases i with
      | zero => simp
      | succ i => simp
    rw [this, List.head?_cons]
    exact congrArg (fun x => some (f x)) hfst
  rw [ey] at e1
  obtain ⟨h3, h4⟩ := C67_solvable .chebyshev n hv (fun _ => h927) (-1) 1 (by norm_num) true (.inr rfl) (vsub ((Chebyshev.make n).P 0 true f'') b) (by simp [l0, lb]; rfl)
  obtain ⟨x, -, hu⟩ := h4 (h3.1 ⟨_, l0 f, e1⟩) (f (-1))
  have ef := hu _ ⟨l0 f, hfirst, e1⟩
  constructor
  · rintro ⟨h5, b', h6, h7⟩
    rw [e2] at h6
    obtain rfl := Except.ok.inj h6
    rw [ef]; exact hu z ⟨hz, h5, h7⟩
  · rintro rfl
    exact ⟨hfirst, b, e2, e1⟩

/-- C67 (Dirichlet problem of the example): when the exact solution `f` is a polynomial of degree at most `n`, then
`Ld z = P0d(f'') - H1(D0(H1d(bc(f))))` has exactly one solution, the values of `f` at the dual vertices. -/
theorem C67_dirichlet_solution (n : ℕ) (hn : 2 ≤ n) (h927 : n ≤ 927) (f f' f'' : ℝ → ℝ) (hf : IsPoly (n + 1) f)
    (h1 : ∀ x, HasDerivAt f (f' x) x) (h2 : ∀ x, HasDerivAt f' (f'' x) x) :
    ∃ b c d, (Chebyshev.make n).H 1 false ((Chebyshev.make n).boundary_condition f) = .ok b ∧ (Chebyshev.make n).d0 true b = .ok c ∧ (Chebyshev.make n).H 1 true c = .ok d ∧
      ∀ z : List ℝ, z.length = n - 1 → ((Chebyshev.make n).laplacian false z = .ok (vsub ((Chebyshev.make n).P 0 false f'') d) ↔ z = (Chebyshev.make n).P 0 false f) := by
  have hv : validSize .chebyshev n := hn
  have hF : Factor (Chebyshev.make n) := grid_factor .chebyshev n hv (-1) 1
  have hS : Stars (Chebyshev.make n) := grid_stars .chebyshev n hv (fun _ => h927) (-1) 1
  have hf' : IsPoly n f' := isPoly_deriv hf h1
  have hf'' : IsPoly (n - 1) f'' := isPoly_deriv hf' h2
  have c1 : Continuous f' := hf'.continuous
  have c2 : Continuous f'' := hf''.continuous
  obtain ⟨δ, η, δ', η', g1, g2, g3, g4, e1, e2, e3, e4, e⟩ := lap_maps hF hS false
  simp only [Bool.not_false] at g1 g2 g3 g4 e1 e2 e3 e4 e
  have l0 : ∀ q, ((Chebyshev.make n).P 0 false q).length = n - 1 := fun q => C11_projection .chebyshev n hv (-1) 1 0 false q
  have lbc : ((Chebyshev.make n).boundary_condition f).length = n := by simp [Grid1.boundary_condition, Chebyshev.make]
  have l1 : ((Chebyshev.make n).P 1 false f').length = n := C11_projection .chebyshev n hv (-1) 1 1 false f'
  have l2 : ((Chebyshev.make n).P 0 true f').length = n := C11_projection .chebyshev n hv (-1) 1 0 true f'
  have l3 : ((Chebyshev.make n).P 1 true f'').length = n - 1 := C11_projection .chebyshev n hv (-1) 1 1 true f''
  have s1 : vadd (δ ((Chebyshev.make n).P 0 false f)) ((Chebyshev.make n).boundary_condition f) = (Chebyshev.make n).P 1 false f' := by
    have h := C08_interval .chebyshev n hn (-1) 1 (by norm_num) f f' (fun s _ => h1 s) (c1.intervalIntegrable _ _)
    have h' : ((Chebyshev.make n).D 0 false ((Chebyshev.make n).P 0 false f)).map (vadd · ((Chebyshev.make n).boundary_condition f)) = some ((Chebyshev.make n).P 1 false f') := h
    rw [D_of_d0 (e1 _ (l0 f))] at h'
    exact Option.some.inj h'
  have s2 := e2 _ l1
  rw [(C06_chebyshev_hodge_exact_primal n hn f' hf').2] at s2
  have s2' := Except.ok.inj s2
  have s3 : (Chebyshev.make n).P 1 true f'' = δ' ((Chebyshev.make n).P 0 true f') := by
    have h := e3 _ l2
    have hD : (Chebyshev.make n).D 0 true ((Chebyshev.make n).P 0 true f') = some ((Chebyshev.make n).P 1 true f'') :=
      C07_interval .chebyshev n hn (-1) 1 (by norm_num) f' f'' (fun s _ => h2 s) (c2.intervalIntegrable _ _)
    rw [d0_of_D hD] at h
    exact Except.ok.inj h
  have s4 := e4 _ l3
  rw [(C06_chebyshev_hodge_exact_dual n hn f'' hf'').2 h927] at s4
  have s4' := Except.ok.inj s4
  have m1 := g2.len _ lbc
  have m2 := g3.len _ m1
  have m3 : (η' (δ' (η ((Chebyshev.make n).boundary_condition f)))).length = n - 1 := g4.len _ m2
  refine ⟨_, _, _, e2 _ lbc, e3 _ m1, e4 _ m2, fun z hz => ?_⟩
  have key : η' (δ' (η (δ ((Chebyshev.make n).P 0 false f)))) = vsub ((Chebyshev.make n).P 0 false f'') (η' (δ' (η ((Chebyshev.make n).boundary_condition f)))) := by
    have n1 := g1.len _ (l0 f)
    have n2 := g2.len _ n1
    have n3 := g3.len _ n2
    have n4 : (η' (δ' (η (δ ((Chebyshev.make n).P 0 false f))))).length = n - 1 := g4.len _ n3
    rw [← vsub_vadd_cancel n4 m3 (l0 _), ← g4.add _ _ n3 m2, ← g3.add _ _ n2 m1, ← g2.add _ _ n1 lbc, s1, ← s2', ← s3, ← s4']
  have ex : (Chebyshev.make n).laplacian false ((Chebyshev.make n).P 0 false f) = .ok (vsub ((Chebyshev.make n).P 0 false f'') (η' (δ' (η ((Chebyshev.make n).boundary_condition f))))) := by
    rw [e _ (l0 f), key]
  obtain ⟨x, -, hu⟩ := C67_dirichlet_bijective .chebyshev n hn (fun _ => h927) (-1) 1 (by norm_num)
    (vsub ((Chebyshev.make n).P 0 false f'') (η' (δ' (η ((Chebyshev.make n).boundary_condition f))))) (by simp [l0, m3])
  constructor
  · intro h
    rw [hu _ ⟨l0 f, ex⟩]; exact hu z ⟨hz, h⟩
  · rintro rfl; exact ex

/-- The commented-out data of the example: `f = x^3`, `f'' = 6 x`, on a grid with three vertices. -/
example : IsPoly (3 + 1) (fun x => x ^ 3) ∧ (∀ x : ℝ, HasDerivAt (fun x => x ^ 3) (3 * x ^ 2) x) ∧ (∀ x : ℝ, HasDerivAt (fun x => 3 * x ^ 2) (6 * x) x) :=
  ⟨⟨fun k => if k = 3 then 1 else 0, fun x => by simp⟩, fun x => by simpa using hasDerivAt_pow 3 x,
    fun x => by simpa [← mul_assoc, show (3 : ℝ) * 2 = 6 by norm_num] using (hasDerivAt_pow 2 x).const_mul 3⟩

end Dec.Props
