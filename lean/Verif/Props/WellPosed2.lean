import Verif.Props.WellPosed

set_option linter.unusedSimpArgs false
set_option linter.unusedVariables false

/-!
# C117: Poisson problems on every product grid (`/repo/doc/plot/cheb/poisson_2d_example.py`)
-/

namespace Dec.Props

open Real Finset Dec.G2 Dec.Sp

/-- The stars of constants on every grid: a constant becomes a multiple of the lengths and the lengths become a constant. -/
theorem star_lengths' (k : Kind) (n : ℕ) (hn : validSize k n) (h927 : k = .chebyshev → n ≤ 927) {a b : ℝ} (hab : a < b) (t : Bool) : ∃ r q : ℝ, 0 < r ∧ 0 < q ∧ ∀ c : ℝ,
    (grid k n a b).H 1 t (tab ((grid k n a b).N 1 t) fun i => c * len (grid k n a b) t i) = .ok (tab ((grid k n a b).N 1 t) fun _ => c * r) ∧
    (grid k n a b).H 0 t (tab ((grid k n a b).N 0 t) fun _ => c) = .ok (tab ((grid k n a b).N 0 t) fun i => c * q * len (grid k n a b) (!t) i) := by
  have hm := minSize_of_valid hn
  have res : ∀ (s : Bool) (c : ℝ), ResolvedOn k n s fun _ => c := fun s c => by simpa using (resolved_one k n hm s).smul c
  have hp : 0 < (b - a) / (defaultMax k - defaultMin k) := div_pos (sub_pos.2 hab) (defaultLength_pos k)
  refine ⟨(b - a) / (defaultMax k - defaultMin k), ((b - a) / (defaultMax k - defaultMin k))⁻¹, hp, inv_pos.2 hp, fun c => ⟨?_, ?_⟩⟩
  · have h := (C51_hodge_off_by_length k n hm a b hab (!t) (fun _ => c) (res _ c)).2 fun h _ => h927 h
    rw [Bool.not_not, P1_const k n hn, P0_const k n hn, (grid_swap hn a b t).2] at h
    rw [h]
    unfold smul
    rw [map_tab]
    exact congrArg Except.ok (tab_congr fun _ _ => mul_comm _ _)
  · have h := (C51_hodge_off_by_length k n hm a b hab t (fun _ => c) (res _ c)).1
    rw [P1_const k n hn, P0_const k n hn, (grid_swap hn a b t).1] at h
    rw [h]
    unfold smul
    rw [map_tab]
    exact congrArg Except.ok (tab_congr fun _ _ => by ring)

/-- The total of a derivative vanishes where the other side is free. -/
theorem stokes_ap (k : Kind) (n : ℕ) (hn : validSize k n) {a b : ℝ} (hab : a < b) (t : Bool) (ht : free k t) {A A' S0 S1 S0' S1' : ℕ → ℕ → ℝ} (M : Mats (grid k n a b) t A A' S0 S1 S0' S1') (f : ℕ → ℝ) :
    ∑ j ∈ range ((grid k n a b).N 1 (!t)), ap ((grid k n a b).N 0 (!t)) A' f j = 0 := by
  have := free_stokes k n hn a b hab t ht (tab _ f) _ (length_tab _ _) (M.d' f)
  rw [sum_tab] at this
  exact this

section
variable (k k' : Kind) (n n' : ℕ) (hn : validSize k n) (hn' : validSize k' n') (h927 : k = .chebyshev → n ≤ 927) (h927' : k' = .chebyshev → n' ≤ 927) (xmin xmax ymin ymax : ℝ)
  (hx : xmin < xmax) (hy : ymin < ymax) (t : Bool)

local notation "gx" => grid k n xmin xmax
local notation "gy" => grid k' n' ymin ymax
local notation "𝔾" => product (grid k n xmin xmax) (grid k' n' ymin ymax)
local notation "𝔫" => count (grid k n xmin xmax) (grid k' n' ymin ymax)

include hn hn' h927 h927' hx hy

/-- **C117** (kernel): on every product grid the 0-forms with Laplacian zero are the constants if no boundary values are imposed, and only zero otherwise. -/
theorem C117_kernel (a : List ℝ) (ha : (𝔾).N 0 t = .ok a.length) :
    (∃ L, lap2 𝔾 t a = .ok L ∧ ∀ z ∈ L, z = 0) ↔ ∃ c : ℝ, a = List.replicate a.length c ∧ (c = 0 ∨ (free k t ∧ free k' t)) := by
  have Fx := grid_factor k n hn xmin xmax
  have Fy := grid_factor k' n' hn' ymin ymax
  have Sx := grid_stars k n hn h927 xmin xmax
  have Sy := grid_stars k' n' hn' h927' ymin ymax
  have la : a.length = 𝔫 0 t := by rw [N_eq Fx Fy] at ha; exact (Except.ok.inj ha).symm
  rw [← C72_kernel k k' n n' hn hn' xmin xmax ymin ymax t a ha]
  constructor
  · rintro ⟨L, h1, h2⟩
    obtain ⟨A, A', S0, S1, S0', S1', Mx⟩ := exists_mats Fx Sx t
    obtain ⟨B, B', R0, R1, R0', R1', My⟩ := exists_mats Fy Sy t
    obtain ⟨F, rfl⟩ := flat0 (show a.length = (gy).N 0 t * (gx).N 0 t from la)
    rw [lap2_m Fx Fy Mx My] at h1
    rw [← Except.ok.inj h1] at h2
    have hs := sylvester (grid_diss k n hn h927 xmin xmax hx t Mx) (grid_diss k' n' hn' h927' ymin ymax hy t My) F fun j hj i hi => by
      rw [ap_L0, ap_L0]
      exact data_all_zero.1 h2 j hj i hi
    refine ⟨_, D0_m Fx Fy Mx My F, fun z hz => ?_⟩
    rcases List.mem_append.1 hz with hz | hz
    · exact data_all_zero.2 (fun j hj i hi => hs.1 j hj i hi) z hz
    · exact data_all_zero.2 (fun j hj i hi => hs.2 i hi j hj) z hz
  · rintro ⟨da, h1, h2⟩
    obtain ⟨δ, η, o⟩ := exists_ops' Fx Fy Sx Sy
    have ld : da.length = 𝔫 1 t := by
      rw [o.D 0 t (by decide) a la] at h1; rw [← Except.ok.inj h1]; exact (o.linD 0 t (by decide)).len a la
    rw [o.D 0 t (by decide) a la] at h1
    have hl := Except.ok.inj h1
    refine ⟨_, (o.lap2 t).2 a la, ?_⟩
    rw [hl, zeros_eq h2, ld]
    have h3 : Lin (𝔫 1 t) (𝔫 1 (!t)) (η 1 t) := o.linH 1 t
    have h4 : Lin (𝔫 1 (!t)) (𝔫 2 (!t)) (δ 1 (!t)) := o.linD 1 (!t) (by decide)
    rw [G2.lin_zero h3, G2.lin_zero h4, G2.lin_zero (o.linH 2 (!t))]
    intro z hz
    exact (List.mem_replicate.1 hz).2

/-- **C117** (Dirichlet problem): if values are imposed on the boundary of at least one axis, every right-hand side has exactly one solution, on every product grid. -/
theorem C117_dirichlet (h : ¬ (free k t ∧ free k' t)) (b : List ℝ) (hb : (𝔾).N 0 t = .ok b.length) :
    ∃! a, (𝔾).N 0 t = .ok a.length ∧ lap2 𝔾 t a = .ok b := by
  have Fx := grid_factor k n hn xmin xmax
  have Fy := grid_factor k' n' hn' ymin ymax
  obtain ⟨δ, η, o⟩ := exists_ops' Fx Fy (grid_stars k n hn h927 xmin xmax) (grid_stars k' n' hn' h927' ymin ymax)
  obtain ⟨hL, eL⟩ := o.lap2 t
  have hN : ∀ a : List ℝ, (𝔾).N 0 t = .ok a.length ↔ a.length = 𝔫 0 t := fun a => by
    rw [N_eq Fx Fy, Except.ok.injEq, eq_comm]
  have hinj : ∀ a : List ℝ, a.length = 𝔫 0 t → η 2 (!t) (δ 1 (!t) (η 1 t (δ 0 t a))) = List.replicate (𝔫 0 t) 0 → a = List.replicate (𝔫 0 t) 0 := fun a la h0 => by
    obtain ⟨c, hc, hc'⟩ := (C117_kernel k k' n n' hn hn' h927 h927' xmin xmax ymin ymax hx hy t a ((hN a).2 la)).1
      ⟨_, eL a la, by rw [h0]; intro z hz; exact (List.mem_replicate.1 hz).2⟩
    rw [hc'.resolve_right h, la] at hc
    exact hc
  have lb := (hN b).1 hb
  obtain ⟨a, la, hab⟩ := hL.surjective hinj b lb
  refine ⟨a, ⟨(hN a).2 la, by rw [eL a la, hab]⟩, ?_⟩
  rintro x ⟨hx1, hx2⟩
  have lx := (hN x).1 hx1
  rw [eL x lx, Except.ok.injEq] at hx2
  have h1 := lin_sub hL lx la
  beta_reduce at h1
  rw [hx2, hab, (vsub_zero_iff lb lb).2 rfl] at h1
  exact (vsub_zero_iff lx la).1 (hinj _ (by simp [lx, la]) h1)

/-- **C117** (Poisson problem without boundary values): if no values are imposed, `L0(a) = b` has a solution exactly when the integral of `b` (the sum of its star) is zero, and two solutions differ by a
constant, on every product grid. -/
theorem C117_neumann (h : free k t ∧ free k' t) (b : List ℝ) (hb : (𝔾).N 0 t = .ok b.length) :
    ((∃ a, (𝔾).N 0 t = .ok a.length ∧ lap2 𝔾 t a = .ok b) ↔ ∃ s, (𝔾).H 0 t b = .ok s ∧ s.sum = 0) ∧
    ∀ a a', (𝔾).N 0 t = .ok a.length → (𝔾).N 0 t = .ok a'.length → lap2 𝔾 t a = .ok b → lap2 𝔾 t a' = .ok b → ∃ c : ℝ, a' = a.map (· + c) := by
  have ci := count_iff k k' n n' hn hn' xmin xmax ymin ymax
  have Fx := grid_factor k n hn xmin xmax
  have Fy := grid_factor k' n' hn' ymin ymax
  have Sx := grid_stars k n hn h927 xmin xmax
  have Sy := grid_stars k' n' hn' h927' ymin ymax
  obtain ⟨δ, η, o⟩ := exists_ops' Fx Fy Sx Sy
  obtain ⟨hL, eL⟩ := o.lap2 t
  have lb := (ci 0 t b).1 hb
  have e0 := count_swap (n := n) (n' := n') hn hn' (xmin := xmin) (xmax := xmax) (ymin := ymin) (ymax := ymax)
  have hpos : 0 < 𝔫 0 t := Nat.mul_pos (Fy.pos 0 t) (Fx.pos 0 t)
  have ker : ∀ a : List ℝ, a.length = 𝔫 0 t → (η 2 (!t) (δ 1 (!t) (η 1 t (δ 0 t a))) = List.replicate (𝔫 0 t) 0 ↔ ∃ c, a = List.replicate (𝔫 0 t) c) := fun a la => by
    have hk := C117_kernel k k' n n' hn hn' h927 h927' xmin xmax ymin ymax hx hy t a ((ci 0 t a).2 la)
    constructor
    · intro h0
      obtain ⟨c, hc, -⟩ := hk.1 ⟨_, eL a la, by rw [h0]; intro z hz; exact (List.mem_replicate.1 hz).2⟩
      exact ⟨c, by rw [la] at hc; exact hc⟩
    · rintro ⟨c, rfl⟩
      obtain ⟨L, h1, h2⟩ := hk.2 ⟨c, by simp, Or.inr h⟩
      rw [eL _ la, Except.ok.injEq] at h1
      rw [h1]
      have lL := hL.len _ la
      beta_reduce at lL
      rw [h1] at lL
      exact (mem_zero lL).1 h2
  have lS : ∀ x : List ℝ, x.length = 𝔫 0 t → (η 0 t x).length = 𝔫 0 t := fun x hx => ((o.linH 0 t).len x hx).trans (e0 t)
  -- the integral of a Laplacian is zero
  have h0 : ∀ a : List ℝ, a.length = 𝔫 0 t → (η 0 t (η 2 (!t) (δ 1 (!t) (η 1 t (δ 0 t a))))).sum = 0 := fun a la => by
    obtain ⟨A, A', S0, S1, S0', S1', Mx⟩ := exists_mats Fx Sx t
    obtain ⟨B, B', R0, R1, R0', R1', My⟩ := exists_mats Fy Sy t
    obtain ⟨F, rfl⟩ := flat0 (show a.length = (gy).N 0 t * (gx).N 0 t from la)
    have l2 := (o.linD 1 (!t) (by decide)).len _ ((o.linH 1 t).len _ ((o.linD 0 t (by decide)).len _ la))
    obtain ⟨u, h1, h2, h3⟩ := C26_hodge_even k k' n n' hn hn' h927 h927' xmin xmax ymin ymax (!t) _ 2 (by decide) ((ci 2 (!t) _).2 l2)
    rw [o.H 2 (!t) _ l2, Except.ok.injEq] at h1
    rw [← h1, Bool.not_not] at h3
    have h3' : (𝔾).H 0 t (η 2 (!t) (δ 1 (!t) (η 1 t (δ 0 t (mtab ((gy).N 0 t) ((gx).N 0 t) F).data)))) = .ok (δ 1 (!t) (η 1 t (δ 0 t (mtab ((gy).N 0 t) ((gx).N 0 t) F).data))) := h3
    rw [o.H 0 t _ (hL.len _ la), Except.ok.injEq] at h3'
    rw [h3']
    have f1 := (o.D 0 t (by decide) _ la).symm.trans (D0_m Fx Fy Mx My F)
    have f2 := (o.H 1 t _ ((o.linD 0 t (by decide)).len _ la)).symm
    rw [Except.ok.inj f1, H1_m Fx Fy Mx My] at f2
    have f3 := (o.D 1 (!t) (by decide) _ ((o.linH 1 t).len _ ((o.linD 0 t (by decide)).len _ la))).symm
    rw [Except.ok.inj f1, Except.ok.inj f2, D1_m' Fx Fy Mx My] at f3
    rw [Except.ok.inj f1, Except.ok.inj f2, Except.ok.inj f3, sum_data]
    have sy := stokes_ap k' n' hn' hy t h.2 My
    have sx := stokes_ap k n hn hx t h.1 Mx
    simp only [sum_add_distrib, sum_neg_distrib]
    rw [sum_comm]
    have z1 : ∀ K : ℕ → ℕ → ℝ, ∑ i ∈ range ((gx).N 1 (!t)), ∑ j ∈ range ((gy).N 1 (!t)), cO ((gy).N 0 (!t)) B' K j i = 0 := fun K => sum_eq_zero fun i _ => sy fun j => K j i
    have z2 : ∀ K : ℕ → ℕ → ℝ, ∑ j ∈ range ((gy).N 1 (!t)), ∑ i ∈ range ((gx).N 1 (!t)), rO ((gx).N 0 (!t)) A' K j i = 0 := fun K => sum_eq_zero fun j _ => sx (K j)
    rw [z1, z2, neg_zero, add_zero]
  have hsum : ∀ x y : List ℝ, x.length = 𝔫 0 t → y.length = 𝔫 0 t → (vadd x y).sum = x.sum + y.sum := fun x y hx hy => by
    rw [eq_tab' hx 0, eq_tab' hy 0, vadd_tab, sum_tab, sum_tab, sum_tab, sum_add_distrib]
  have hne : (η 0 t (mtab ((gy).N 0 t) ((gx).N 0 t) fun _ _ => 1).data).sum ≠ 0 := by
    obtain ⟨r, q, -, hq, hr⟩ := star_lengths' k n hn h927 hx t
    obtain ⟨r', q', -, hq', hr'⟩ := star_lengths' k' n' hn' h927' hy t
    have f := (o.H 0 t (mtab ((gy).N 0 t) ((gx).N 0 t) fun _ _ => 1).data (length_data _ _ _)).symm.trans
      (H0_mtab Fx Fy t (Fy.pos 0 t) (G := fun j i => 1 * q' * len gy (!t) j) (K := fun j i => (1 * q' * len gy (!t) j) * q * len gx (!t) i) (fun i _ => (hr' 1).2) (fun j _ => (hr _).2))
    rw [Except.ok.inj f, sum_data]
    refine (sum_pos (fun j hj => sum_pos (fun i hi => ?_) ⟨0, mem_range.2 (Fx.pos 0 t)⟩) ⟨0, mem_range.2 (Fy.pos 0 t)⟩).ne'
    have l1 := len_pos k n hn hx (!t) i (by rw [(grid_swap hn xmin xmax t).1]; exact mem_range.1 hi)
    have l2 := len_pos k' n' hn' hy (!t) j (by rw [(grid_swap hn' ymin ymax t).1]; exact mem_range.1 hj)
    positivity
  have range := Lin.range_of_const hpos hL ker (φ := fun x => (η 0 t x).sum)
    (fun x y hx hy => by beta_reduce; rw [(o.linH 0 t).add x y hx hy, hsum _ _ (lS x hx) (lS y hy)])
    (fun c x hx => by
      beta_reduce
      rw [(o.linH 0 t).smul c x hx, eq_tab' (lS x hx) 0, map_tab, sum_tab, sum_tab, mul_sum]
      rfl) h0 (e := (mtab ((gy).N 0 t) ((gx).N 0 t) fun _ _ => 1).data) (length_data _ _ _) hne b lb
  refine ⟨⟨?_, ?_⟩, fun a a' ha ha' h1 h2 => ?_⟩
  · rintro ⟨a, ha, e⟩
    have la := (ci 0 t a).1 ha
    rw [eL a la, Except.ok.injEq] at e
    exact ⟨_, o.H 0 t b lb, range.2 ⟨a, la, e⟩⟩
  · rintro ⟨s, h1, h2⟩
    obtain rfl := Except.ok.inj ((o.H 0 t b lb).symm.trans h1)
    obtain ⟨a, la, e⟩ := range.1 h2
    exact ⟨a, (ci 0 t a).2 la, by rw [eL a la]; exact congrArg Except.ok e⟩
  · have la := (ci 0 t a).1 ha
    have la' := (ci 0 t a').1 ha'
    rw [eL a la, Except.ok.injEq] at h1
    rw [eL a' la', Except.ok.injEq] at h2
    have h3 := lin_sub hL la' la
    beta_reduce at h3
    rw [h1, h2, (vsub_zero_iff lb lb).2 rfl] at h3
    obtain ⟨c, hc⟩ := (ker _ (by simp [la, la'])).1 h3
    refine ⟨c, ?_⟩
    rw [eq_tab' la 0, eq_tab' la' 0, vsub_tab, replicate_tab, tab_inj] at hc
    rw [eq_tab' la 0, eq_tab' la' 0, map_tab]
    exact tab_congr fun i hi => by have := hc i hi; linarith

end

end Dec.Props
