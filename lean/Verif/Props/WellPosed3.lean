import Verif.Props.WellPosed2

set_option linter.unusedSimpArgs false
set_option linter.unusedVariables false

/-!
# C117: Poisson problems for 1-forms on every product grid (`/repo/doc/plot/cheb/poisson_2d_example.py`)
-/

namespace Dec

open Dec.G2

/-- If `Ψ` annihilates the range of `L`, is zero on no element of its kernel but zero, and `Ψ` is injective on its own range, the range of `L` is the kernel of `Ψ`. -/
theorem Lin.range_of_kernel {n : ℕ} {L Ψ : List ℝ → List ℝ} (hL : Lin n n L) (hΨ : Lin n n Ψ) (h0 : ∀ a : List ℝ, a.length = n → Ψ (L a) = List.replicate n 0)
    (hk : ∀ a : List ℝ, a.length = n → L a = List.replicate n 0 → Ψ a = List.replicate n 0 → a = List.replicate n 0)
    (hi : ∀ a : List ℝ, a.length = n → Ψ (Ψ a) = List.replicate n 0 → Ψ a = List.replicate n 0) (b : List ℝ) (hb : b.length = n) :
    (∃ a, a.length = n ∧ L a = b) ↔ Ψ b = List.replicate n 0 := by
  constructor
  · rintro ⟨a, ha, rfl⟩
    exact h0 a ha
  · intro h
    have hM : Lin n n fun a => vadd (L a) (Ψ a) := hL.add_map hΨ
    have key : ∀ a : List ℝ, a.length = n → Ψ (vadd (L a) (Ψ a)) = List.replicate n 0 → Ψ a = List.replicate n 0 := fun a ha h => by
      rw [hΨ.add _ _ (hL.len a ha) (hΨ.len a ha), h0 a ha, Props.vadd_zero_left (hΨ.len _ (hΨ.len a ha))] at h
      exact hi a ha h
    obtain ⟨a, ha, hab⟩ := hM.surjective (fun a ha h' => by
      have h1 := key a ha (by rw [h', lin_zero hΨ])
      rw [h1, Props.vadd_zero_right (hL.len a ha)] at h'
      exact hk a ha h' h1) b hb
    have h1 := key a ha (by rw [hab]; exact h)
    rw [h1, Props.vadd_zero_right (hL.len a ha)] at hab
    exact ⟨a, ha, hab⟩

end Dec

namespace Dec.Props

open Real Finset Dec.G2 Dec.Sp

/-- Where the derivative vanishes: constants on a free side, zero on the other. -/
theorem deriv_ker (k : Kind) (n : ℕ) (hn : validSize k n) {a b : ℝ} (hab : a < b) (t : Bool) {A : ℕ → ℕ → ℝ} (hA : HasMat ((grid k n a b).N 0 t) ((grid k n a b).N 1 t) ((grid k n a b).d0 t) A) {f : ℕ → ℝ}
    (h : ∀ i < (grid k n a b).N 1 t, ap ((grid k n a b).N 0 t) A f i = 0) : ∃ c : ℝ, (c = 0 ∨ free k t) ∧ ∀ i < (grid k n a b).N 0 t, f i = c := by
  have e : (grid k n a b).d0 t (tab ((grid k n a b).N 0 t) f) = .ok (List.replicate ((grid k n a b).N 1 t) 0) := by
    rw [hA f, replicate_tab]
    exact congrArg _ (tab_congr fun i hi => h i hi)
  by_cases ht : free k t
  · obtain ⟨c, hc⟩ := (free_kernel k n hn a b hab t ht _ (length_tab _ _)).1 e
    rw [replicate_tab, tab_inj] at hc
    exact ⟨c, .inr ht, hc⟩
  · refine ⟨0, .inl rfl, ?_⟩
    cases k
    · exact absurd (.inl rfl) ht
    · obtain rfl : t = false := by cases t; rfl; exact absurd (.inr rfl) ht
      have hc : tab (n - 1) f = List.replicate (n - 1) 0 := (C10_interval_kernel_dual .regular n hn a b hab (tab (n - 1) f) (length_tab _ _)).1 (D_of_d0 e)
      rw [replicate_tab, tab_inj] at hc
      exact hc
    · obtain rfl : t = false := by cases t; rfl; exact absurd (.inr rfl) ht
      have hc : tab (n - 1) f = List.replicate (n - 1) 0 := (C10_interval_kernel_dual .chebyshev n hn a b hab (tab (n - 1) f) (length_tab _ _)).1 (D_of_d0 e)
      rw [replicate_tab, tab_inj] at hc
      exact hc

/-- The star of the lengths, in coordinates. -/
theorem star_len_ap (k : Kind) (n : ℕ) (hn : validSize k n) (h927 : k = .chebyshev → n ≤ 927) {a b : ℝ} (hab : a < b) (t : Bool) {A A' S0 S1 S0' S1' : ℕ → ℕ → ℝ} (M : Mats (grid k n a b) t A A' S0 S1 S0' S1') :
    ∃ r : ℝ, 0 < r ∧ ∀ c : ℝ, ∀ i < (grid k n a b).N 0 (!t), ap ((grid k n a b).N 1 t) S1 (fun i => c * len (grid k n a b) t i) i = c * r := by
  obtain ⟨r, q, hr, -, h⟩ := star_lengths' k n hn h927 hab t
  refine ⟨r, hr, fun c i hi => ?_⟩
  have := (M.h1 _).symm.trans (h c).1
  rw [(grid_swap hn a b t).2, Except.ok.injEq] at this
  rw [(grid_swap hn a b t).2] at hi
  exact tab_inj.1 this i hi

/-- One component of a 1-form with Laplacian zero. -/
theorem component_ker (k k' : Kind) (n n' : ℕ) (hn : validSize k n) (hn' : validSize k' n') (h927 : k = .chebyshev → n ≤ 927) {xmin xmax ymin ymax : ℝ} (hx : xmin < xmax) (hy : ymin < ymax) (t : Bool)
    {A A' S0 S1 S0' S1' B B' R0 R1 R0' R1' : ℕ → ℕ → ℝ} (Sx : Stars (grid k n xmin xmax)) (Mx : Mats (grid k n xmin xmax) t A A' S0 S1 S0' S1') (My : Mats (grid k' n' ymin ymax) t B B' R0 R1 R0' R1') (F : ℕ → ℕ → ℝ)
    (h1 : ∀ j < (grid k' n' ymin ymax).N 0 t, ∀ i < (grid k n xmin xmax).N 1 (!t), ap ((grid k n xmin xmax).N 0 (!t)) A' (ap ((grid k n xmin xmax).N 1 t) S1 (F j)) i = 0)
    (h2 : ∀ i < (grid k n xmin xmax).N 1 t, ∀ j < (grid k' n' ymin ymax).N 1 t, ap ((grid k' n' ymin ymax).N 0 t) B (fun l => F l i) j = 0) :
    ∃ c : ℝ, (c = 0 ∨ (free k' t ∧ free k (!t))) ∧ ∀ j < (grid k' n' ymin ymax).N 0 t, ∀ i < (grid k n xmin xmax).N 1 t, F j i = c * len (grid k n xmin xmax) t i := by
  have Fy := grid_factor k' n' hn' ymin ymax
  obtain ⟨r, hr, hl⟩ := star_len_ap k n hn h927 hx t Mx
  by_cases hf : free k' t
  · obtain ⟨d, hd, h3⟩ := deriv_ker k n hn hx (!t) Mx.d' (h1 0 (Fy.pos 0 t))
    refine ⟨d / r, ?_, fun j hj i hi => ?_⟩
    · rcases hd with rfl | hd
      · exact .inl (zero_div _)
      · exact .inr ⟨hf, hd⟩
    · obtain ⟨c, -, h4⟩ := deriv_ker k' n' hn' hy t My.d (h2 i hi)
      rw [h4 j hj, ← h4 0 (Fy.pos 0 t)]
      have := Mx.inj1 (f := fun i => F 0 i - d / r * len (grid k n xmin xmax) t i) (fun i hi => by
        have e1 := h3 i hi
        have e2 := hl (d / r) i hi
        rw [div_mul_cancel₀ _ hr.ne'] at e2
        have : ap ((grid k n xmin xmax).N 1 t) S1 (fun i => F 0 i - d / r * len (grid k n xmin xmax) t i) i
            = ap ((grid k n xmin xmax).N 1 t) S1 (F 0) i - ap ((grid k n xmin xmax).N 1 t) S1 (fun i => d / r * len (grid k n xmin xmax) t i) i := by
          unfold ap
          rw [← sum_sub_distrib]
          exact sum_congr rfl fun k _ => by ring
        rw [this, e1, e2, sub_self]) i hi
      linarith
  · refine ⟨0, .inl rfl, fun j hj i hi => ?_⟩
    obtain ⟨c, hc, h4⟩ := deriv_ker k' n' hn' hy t My.d (h2 i hi)
    rw [h4 j hj, hc.resolve_right hf, zero_mul]

/-- Constant components have Laplacian zero. -/
theorem component_const (k k' : Kind) (n n' : ℕ) (hn : validSize k n) (hn' : validSize k' n') (h927 : k = .chebyshev → n ≤ 927) {xmin xmax ymin ymax : ℝ} (hx : xmin < xmax) (hy : ymin < ymax) (t : Bool)
    {A A' S0 S1 S0' S1' B B' R0 R1 R0' R1' : ℕ → ℕ → ℝ} (Mx : Mats (grid k n xmin xmax) t A A' S0 S1 S0' S1') (My : Mats (grid k' n' ymin ymax) t B B' R0 R1 R0' R1') (c : ℝ)
    (hc : c = 0 ∨ (free k' t ∧ free k (!t))) :
    (∀ i < (grid k n xmin xmax).N 1 (!t), ap ((grid k n xmin xmax).N 0 (!t)) A' (ap ((grid k n xmin xmax).N 1 t) S1 fun i => c * len (grid k n xmin xmax) t i) i = 0) ∧
    ∀ d : ℝ, ∀ j < (grid k' n' ymin ymax).N 1 t, ap ((grid k' n' ymin ymax).N 0 t) B (fun _ => c * d) j = 0 := by
  rcases hc with rfl | ⟨h1, h2⟩
  · simp [ap]
  have zero : ∀ (k : Kind) (n : ℕ) (hn : validSize k n) (a b : ℝ) (hab : a < b) (t : Bool) (ht : free k t) (A : ℕ → ℕ → ℝ) (hA : HasMat ((grid k n a b).N 0 t) ((grid k n a b).N 1 t) ((grid k n a b).d0 t) A) (c : ℝ),
      ∀ i < (grid k n a b).N 1 t, ap ((grid k n a b).N 0 t) A (fun _ => c) i = 0 := fun k n hn a b hab t ht A hA c i hi => by
    have := (free_kernel k n hn a b hab t ht (tab ((grid k n a b).N 0 t) fun _ => c) (length_tab _ _)).2 ⟨c, by rw [replicate_tab]⟩
    rw [hA, replicate_tab, Except.ok.injEq, tab_inj] at this
    exact this i hi
  obtain ⟨r, hr, hl⟩ := star_len_ap k n hn h927 hx t Mx
  refine ⟨fun i hi => ?_, fun d j hj => zero k' n' hn' ymin ymax hy t h1 B My.d _ j hj⟩
  rw [ap_congr (hl c)]
  exact zero k n hn xmin xmax hx (!t) h2 A' Mx.d' _ i hi

/-- The integral of a component of a 1-form on the x-edges: the sums over the rows, starred along y and added up; the operator leaves it alone only where it may be different from zero. -/
theorem component_integral (k k' : Kind) (n n' : ℕ) (hn : validSize k n) (hn' : validSize k' n') {xmin xmax ymin ymax : ℝ} (hx : xmin < xmax) (hy : ymin < ymax) (t : Bool)
    {A A' S0 S1 S0' S1' B B' R0 R1 R0' R1' : ℕ → ℕ → ℝ} (Sx : Stars (grid k n xmin xmax)) (Sy : Stars (grid k' n' ymin ymax)) (Mx : Mats (grid k n xmin xmax) t A A' S0 S1 S0' S1') (My : Mats (grid k' n' ymin ymax) t B B' R0 R1 R0' R1') (F : ℕ → ℕ → ℝ)
    (h1 : free k' t) (h2 : free k (!t)) :
    ∑ l ∈ range ((grid k' n' ymin ymax).N 1 (!t)), ap ((grid k' n' ymin ymax).N 0 t) R0 (fun j => ∑ i ∈ range ((grid k n xmin xmax).N 1 t),
      (edgX (grid k n xmin xmax) t A A' S1 S1' F j i + lapY (grid k' n' ymin ymax) t B B' R1 R1' F j i)) l = 0 := by
  have s1 : ∀ f, ∑ j ∈ range ((grid k n xmin xmax).N 1 t), ap ((grid k n xmin xmax).N 0 t) A f j = 0 := fun f => by
    have := stokes_ap k n hn hx (!t) h2 (Mx.swap Sx) f
    rw [Bool.not_not] at this
    exact this
  have s2 := stokes_ap k' n' hn' hy t h1 My
  have e1 : (fun j => ∑ i ∈ range ((grid k n xmin xmax).N 1 t), (edgX (grid k n xmin xmax) t A A' S1 S1' F j i + lapY (grid k' n' ymin ymax) t B B' R1 R1' F j i))
      = fun j => ∑ i ∈ range ((grid k n xmin xmax).N 1 t), lapY (grid k' n' ymin ymax) t B B' R1 R1' F j i := funext fun j => by
    rw [sum_add_distrib]
    have : ∑ i ∈ range ((grid k n xmin xmax).N 1 t), edgX (grid k n xmin xmax) t A A' S1 S1' F j i = 0 := s1 _
    rw [this, zero_add]
  rw [e1]
  have e2 : ∀ l < (grid k' n' ymin ymax).N 1 (!t), ap ((grid k' n' ymin ymax).N 0 t) R0 (fun j => ∑ i ∈ range ((grid k n xmin xmax).N 1 t), lapY (grid k' n' ymin ymax) t B B' R1 R1' F j i) l
      = ∑ i ∈ range ((grid k n xmin xmax).N 1 t), cO ((grid k' n' ymin ymax).N 0 (!t)) B' (cO ((grid k' n' ymin ymax).N 1 t) R1 (cO ((grid k' n' ymin ymax).N 0 t) B F)) l i := fun l hl => by
    unfold ap
    simp only [mul_sum]
    rw [sum_comm]
    refine sum_congr rfl fun i _ => ?_
    have := (My.swap Sy).inv' (fun l => cO ((grid k' n' ymin ymax).N 0 (!t)) B' (cO ((grid k' n' ymin ymax).N 1 t) R1 (cO ((grid k' n' ymin ymax).N 0 t) B F)) l i) l hl
    rw [Bool.not_not] at this
    exact this
  rw [sum_congr rfl fun l hl => e2 l (mem_range.1 hl), sum_comm]
  exact sum_eq_zero fun i _ => s2 _

/-- The integral of a constant component. -/
theorem component_len (k k' : Kind) (n n' : ℕ) (hn : validSize k n) (hn' : validSize k' n') (h927' : k' = .chebyshev → n' ≤ 927) {xmin xmax ymin ymax : ℝ} (hx : xmin < xmax) (hy : ymin < ymax) (t : Bool)
    {B B' R0 R1 R0' R1' : ℕ → ℕ → ℝ} (My : Mats (grid k' n' ymin ymax) t B B' R0 R1 R0' R1') : ∃ r : ℝ, 0 < r ∧ ∀ c : ℝ,
    ∑ l ∈ range ((grid k' n' ymin ymax).N 1 (!t)), ap ((grid k' n' ymin ymax).N 0 t) R0 (fun j => ∑ i ∈ range ((grid k n xmin xmax).N 1 t), c * len (grid k n xmin xmax) t i) l = c * r := by
  have Fx := grid_factor k n hn xmin xmax
  have Fy := grid_factor k' n' hn' ymin ymax
  obtain ⟨r₀, q, -, hq, h⟩ := star_lengths' k' n' hn' h927' hy t
  have hX : 0 < ∑ i ∈ range ((grid k n xmin xmax).N 1 t), len (grid k n xmin xmax) t i := sum_pos (fun i hi => len_pos k n hn hx t i (mem_range.1 hi)) ⟨0, mem_range.2 (Fx.pos 1 t)⟩
  have hY : 0 < ∑ l ∈ range ((grid k' n' ymin ymax).N 1 (!t)), len (grid k' n' ymin ymax) (!t) l := sum_pos (fun i hi => len_pos k' n' hn' hy (!t) i (mem_range.1 hi)) ⟨0, mem_range.2 (Fy.pos 1 (!t))⟩
  refine ⟨(∑ i ∈ range ((grid k n xmin xmax).N 1 t), len (grid k n xmin xmax) t i) * (q * ∑ l ∈ range ((grid k' n' ymin ymax).N 1 (!t)), len (grid k' n' ymin ymax) (!t) l), by positivity, fun c => ?_⟩
  rw [← mul_sum]
  generalize (∑ i ∈ range ((grid k n xmin xmax).N 1 t), len (grid k n xmin xmax) t i) = X
  have e : ∀ l < (grid k' n' ymin ymax).N 1 (!t), ap ((grid k' n' ymin ymax).N 0 t) R0 (fun _ => c * X) l = c * X * q * len (grid k' n' ymin ymax) (!t) l := fun l hl => by
    have := (My.h0 _).symm.trans (h (c * X)).2
    rw [(grid_swap hn' ymin ymax t).1, Except.ok.injEq] at this
    rw [(grid_swap hn' ymin ymax t).1] at hl
    exact tab_inj.1 this l hl
  rw [sum_congr rfl fun l hl => e l (mem_range.1 hl), ← mul_sum]
  ring

section
variable (k k' : Kind) (n n' : ℕ) (hn : validSize k n) (hn' : validSize k' n') (h927 : k = .chebyshev → n ≤ 927) (h927' : k' = .chebyshev → n' ≤ 927) (xmin xmax ymin ymax : ℝ)
  (hx : xmin < xmax) (hy : ymin < ymax) (t : Bool)

local notation "gx" => grid k n xmin xmax
local notation "gy" => grid k' n' ymin ymax
local notation "𝔾" => product (grid k n xmin xmax) (grid k' n' ymin ymax)
local notation "𝔫" => count (grid k n xmin xmax) (grid k' n' ymin ymax)

include hn hn' h927 h927' hx hy

/-- **C117** (1-forms with Laplacian zero): on every product grid they are the constant 1-forms `c₁ dx + c₂ dy` — both coefficients arbitrary on a torus, only one on a cylinder, only zero on a rectangle. -/
theorem C117_kernel_one (α : List ℝ) (hα : (𝔾).N 1 t = .ok α.length) :
    (∃ L, lapOne 𝔾 t α = .ok L ∧ ∀ z ∈ L, z = 0) ↔
      ∃ c₁ c₂ : ℝ, (𝔾).P 1 t [fun _ _ => c₁, fun _ _ => c₂] = .ok α ∧ (c₁ = 0 ∨ (free k' t ∧ free k (!t))) ∧ (c₂ = 0 ∨ (free k t ∧ free k' (!t))) := by
  have Fx := grid_factor k n hn xmin xmax
  have Fy := grid_factor k' n' hn' ymin ymax
  have Sx := grid_stars k n hn h927 xmin xmax
  have Sy := grid_stars k' n' hn' h927' ymin ymax
  obtain ⟨A, A', S0, S1, S0', S1', Mx⟩ := exists_mats Fx Sx t
  obtain ⟨B, B', R0, R1, R0', R1', My⟩ := exists_mats Fy Sy t
  have la : α.length = 𝔫 1 t := by rw [N_eq Fx Fy] at hα; exact (Except.ok.inj hα).symm
  obtain ⟨X, Y, rfl⟩ := flat1 (show α.length = (gy).N 0 t * (gx).N 1 t + (gy).N 1 t * (gx).N 0 t from la)
  constructor
  · rintro ⟨L, h1, h2⟩
    rw [lapOne_m Fx Fy Mx My] at h1
    rw [← Except.ok.inj h1] at h2
    have hX := sylvester (diss_edge Sx Mx (grid_diss k n hn h927 xmin xmax hx (!t) (Mx.swap Sx))) (grid_diss k' n' hn' h927' ymin ymax hy t My) X fun j hj i hi => by
      rw [ap_L0, ap_L1]
      exact data_all_zero.1 (fun z hz => h2 z (List.mem_append_left _ hz)) j hj i hi
    have hY := sylvester (diss_edge Sy My (grid_diss k' n' hn' h927' ymin ymax hy (!t) (My.swap Sy))) (grid_diss k n hn h927 xmin xmax hx t Mx) (fun i j => Y j i) fun i hi j hj => by
      rw [ap_L0, ap_L1]
      have := data_all_zero.1 (fun z hz => h2 z (List.mem_append_right _ hz)) j hj i hi
      rw [add_comm] at this
      exact this
    obtain ⟨c₁, hc₁, e₁⟩ := component_ker k k' n n' hn hn' h927 hx hy t Sx Mx My X (fun j hj i hi => by have := hX.1 j hj i hi; rw [ap_mm] at this; exact this) hX.2
    obtain ⟨c₂, hc₂, e₂⟩ := component_ker k' k n' n hn' hn h927' hy hx t Sy My Mx (fun i j => Y j i) (fun j hj i hi => by have := hY.1 j hj i hi; rw [ap_mm] at this; exact this) hY.2
    refine ⟨c₁, c₂, ?_, hc₁, hc₂⟩
    rw [P1_constant k k' n n' xmin xmax ymin ymax t hn hn']
    exact congrArg _ (data_inj2.2 ⟨fun j hj i hi => (e₁ j hj i hi).symm, fun j hj i hi => (e₂ i hi j hj).symm⟩)
  · rintro ⟨c₁, c₂, e, h₁, h₂⟩
    rw [P1_constant k k' n n' xmin xmax ymin ymax t hn hn'] at e
    rw [← Except.ok.inj e]
    refine ⟨_, lapOne_m Fx Fy Mx My _ _, fun z hz => ?_⟩
    obtain ⟨z1, z2⟩ := component_const k k' n n' hn hn' h927 hx hy t Mx My c₁ h₁
    obtain ⟨z3, z4⟩ := component_const k' k n' n hn' hn h927' hy hx t My Mx c₂ h₂
    have sz : ∀ (m : ℕ) (K : ℕ → ℕ → ℝ) (f : ℕ → ℝ), (∀ i < m, f i = 0) → ap m K f = fun _ => 0 := fun m K f h => funext fun i => sum_eq_zero fun k hk => by rw [h k (mem_range.1 hk), mul_zero]
    rcases List.mem_append.1 hz with hz | hz
    · refine data_all_zero.2 (fun j hj i hi => ?_) z hz
      have a1 : edgX gx t A A' S1 S1' (fun _ i => c₁ * len gx t i) j i = 0 := by
        show ap _ A (ap _ S1' (ap _ A' (ap _ S1 fun i => c₁ * len gx t i))) i = 0
        rw [sz _ S1' _ z1, sz _ A _ fun _ _ => rfl]
      have a2 : lapY gy t B B' R1 R1' (fun _ i => c₁ * len gx t i) j i = 0 := by
        show ap _ R1' (ap _ B' (ap _ R1 (ap _ B fun _ => c₁ * len gx t i))) j = 0
        rw [sz _ R1 _ (z2 _), sz _ B' _ fun _ _ => rfl, sz _ R1' _ fun _ _ => rfl]
      rw [a1, a2, add_zero]
    · refine data_all_zero.2 (fun j hj i hi => ?_) z hz
      have a1 : edgY gy t B B' R1 R1' (fun j _ => c₂ * len gy t j) j i = 0 := by
        show ap _ B (ap _ R1' (ap _ B' (ap _ R1 fun j => c₂ * len gy t j))) j = 0
        rw [sz _ R1' _ z3, sz _ B _ fun _ _ => rfl]
      have a2 : lapX gx t A A' S1 S1' (fun j _ => c₂ * len gy t j) j i = 0 := by
        show ap _ S1' (ap _ A' (ap _ S1 (ap _ A fun _ => c₂ * len gy t j))) i = 0
        rw [sz _ S1 _ (z4 _), sz _ A' _ fun _ _ => rfl, sz _ S1' _ fun _ _ => rfl]
      rw [a1, a2, add_zero]

/-- The sums of a 1-form over its rows of x-edges. -/
def rowSums (w h : ℕ) (α : List ℝ) : List ℝ := (List.range h).map fun j => (line w α j).sum
/-- The sums of a 1-form over its columns of y-edges; the first `s` numbers are on x-edges. -/
def columnSums (s w h : ℕ) (α : List ℝ) : List ℝ := (List.range w).map fun i => (column w h (α.drop s) i).sum

omit hn hn' h927 h927' hx hy in
theorem rowSums_m {r c : ℕ} (X : ℕ → ℕ → ℝ) (l : List ℝ) : rowSums c r ((mtab r c X).data ++ l) = tab r fun j => ∑ i ∈ range c, X j i := by
  unfold rowSums
  refine List.map_congr_left fun j hj => ?_
  have hj := List.mem_range.1 hj
  have e : line c ((mtab r c X).data ++ l) j = line c (mtab r c X).data j := by
    unfold line
    have hl : j * c + c ≤ (mtab r c X).data.length := by
      rw [length_data]
      calc j * c + c = (j + 1) * c := by ring
        _ ≤ r * c := Nat.mul_le_mul_right _ hj
    rw [List.drop_append_of_le_length (by omega), List.take_append_of_le_length (by rw [List.length_drop]; omega)]
  rw [e, line_data X hj, sum_tab]

omit hn hn' h927 h927' hx hy in
theorem columnSums_m {r c s : ℕ} (Y : ℕ → ℕ → ℝ) (l : List ℝ) (hl : l.length = s) : columnSums s c r (l ++ (mtab r c Y).data) = tab c fun i => ∑ j ∈ range r, Y j i := by
  unfold columnSums
  refine List.map_congr_left fun i hi => ?_
  have hi := List.mem_range.1 hi
  rw [← hl, List.drop_left, column_data Y hi, sum_tab]

omit hn hn' h927 h927' hx hy in
theorem I_congr {a b c : ℕ} {R X X' : ℕ → ℕ → ℝ} (h : ∀ j < b, ∀ i < c, X j i = X' j i) : ∑ l ∈ range a, ap b R (fun j => ∑ i ∈ range c, X j i) l = ∑ l ∈ range a, ap b R (fun j => ∑ i ∈ range c, X' j i) l :=
  sum_congr rfl fun l _ => congrFun (ap_congr fun j hj => sum_congr rfl fun i hi => h j hj i (mem_range.1 hi)) l

omit hn hn' h927 h927' hx hy in
theorem I_add (a b c : ℕ) (R X X' : ℕ → ℕ → ℝ) : ∑ l ∈ range a, ap b R (fun j => ∑ i ∈ range c, (X j i + X' j i)) l = ∑ l ∈ range a, ap b R (fun j => ∑ i ∈ range c, X j i) l + ∑ l ∈ range a, ap b R (fun j => ∑ i ∈ range c, X' j i) l := by
  unfold ap
  simp only [sum_add_distrib, mul_add]

omit hn hn' h927 h927' hx hy in
theorem I_smul (a b c : ℕ) (R X : ℕ → ℕ → ℝ) (r : ℝ) : ∑ l ∈ range a, ap b R (fun j => ∑ i ∈ range c, r * X j i) l = r * ∑ l ∈ range a, ap b R (fun j => ∑ i ∈ range c, X j i) l := by
  unfold ap
  simp only [mul_sum]
  exact sum_congr rfl fun _ _ => sum_congr rfl fun _ _ => sum_congr rfl fun _ _ => by ring

/-- **C117** (Poisson problem for 1-forms): on every product grid `L1(α) = β` has a solution exactly when the integrals of the components of `β` vanish in the directions in which constant forms have Laplacian zero. -/
theorem C117_solvable_one (β : List ℝ) (hβ : (𝔾).N 1 t = .ok β.length) :
    (∃ α, (𝔾).N 1 t = .ok α.length ∧ lapOne 𝔾 t α = .ok β) ↔
      (free k' t ∧ free k (!t) → ∃ s, (gy).H 0 t (rowSums ((gx).N 1 t) ((gy).N 0 t) β) = .ok s ∧ s.sum = 0) ∧
      (free k t ∧ free k' (!t) → ∃ s, (gx).H 0 t (columnSums ((gy).N 0 t * (gx).N 1 t) ((gx).N 0 t) ((gy).N 1 t) β) = .ok s ∧ s.sum = 0) := by
  classical
  have Fx := grid_factor k n hn xmin xmax
  have Fy := grid_factor k' n' hn' ymin ymax
  have Sx := grid_stars k n hn h927 xmin xmax
  have Sy := grid_stars k' n' hn' h927' ymin ymax
  obtain ⟨A, A', S0, S1, S0', S1', Mx⟩ := exists_mats Fx Sx t
  obtain ⟨B, B', R0, R1, R0', R1', My⟩ := exists_mats Fy Sy t
  have ci := count_iff k k' n n' hn hn' xmin xmax ymin ymax
  obtain ⟨δ, η, C⟩ := exists_calc₀ k k' n n' hn hn' xmin xmax ymin ymax h927 h927'
  set Λ : List ℝ → List ℝ := fun α => vadd (δ 0 t (η 2 (!t) (δ 1 (!t) (η 1 t α)))) (η 1 (!t) (δ 0 (!t) (η 2 t (δ 1 t α)))) with hΛ
  have eΛ : ∀ a : List ℝ, a.length = 𝔫 1 t → lapOne 𝔾 t a = .ok (Λ a) := fun a la => C.lapOne t la
  set I₁ : (ℕ → ℕ → ℝ) → ℝ := fun X => ∑ l ∈ range ((gy).N 1 (!t)), ap ((gy).N 0 t) R0 (fun j => ∑ i ∈ range ((gx).N 1 t), X j i) l with hI₁
  set I₂ : (ℕ → ℕ → ℝ) → ℝ := fun Y => ∑ l ∈ range ((gx).N 1 (!t)), ap ((gx).N 0 t) S0 (fun i => ∑ j ∈ range ((gy).N 1 t), Y j i) l with hI₂
  obtain ⟨r₁, hr₁, hl₁⟩ := component_len k k' n n' hn hn' h927' hx hy t My
  obtain ⟨r₂, hr₂, hl₂⟩ := component_len k' k n' n hn' hn h927 hy hx t Mx
  set p₁ : ℝ := if free k' t ∧ free k (!t) then 1 else 0 with hp₁
  set p₂ : ℝ := if free k t ∧ free k' (!t) then 1 else 0 with hp₂
  have q₁ : p₁ = 0 ∨ (free k' t ∧ free k (!t)) := by rw [hp₁]; split_ifs with h; exact .inr h; exact .inl rfl
  have q₂ : p₂ = 0 ∨ (free k t ∧ free k' (!t)) := by rw [hp₂]; split_ifs with h; exact .inr h; exact .inl rfl
  set Ψ : List ℝ → List ℝ := fun α => (mtab ((gy).N 0 t) ((gx).N 1 t) fun _ i => p₁ * I₁ (fun j i => α.getD (j * (gx).N 1 t + i) 0) * len gx t i).data ++
    (mtab ((gy).N 1 t) ((gx).N 0 t) fun j _ => p₂ * I₂ (fun j i => α.getD ((gy).N 0 t * (gx).N 1 t + (j * (gx).N 0 t + i)) 0) * len gy t j).data with hΨ
  have eΨ : ∀ X Y : ℕ → ℕ → ℝ, Ψ ((mtab ((gy).N 0 t) ((gx).N 1 t) X).data ++ (mtab ((gy).N 1 t) ((gx).N 0 t) Y).data) = (mtab ((gy).N 0 t) ((gx).N 1 t) fun _ i => p₁ * I₁ X * len gx t i).data ++
      (mtab ((gy).N 1 t) ((gx).N 0 t) fun j _ => p₂ * I₂ Y * len gy t j).data := fun X Y => by
    have e1 : I₁ (fun j i => ((mtab ((gy).N 0 t) ((gx).N 1 t) X).data ++ (mtab ((gy).N 1 t) ((gx).N 0 t) Y).data).getD (j * (gx).N 1 t + i) 0) = I₁ X := I_congr fun j hj i hi => getD_fst hj hi
    have e2 : I₂ (fun j i => ((mtab ((gy).N 0 t) ((gx).N 1 t) X).data ++ (mtab ((gy).N 1 t) ((gx).N 0 t) Y).data).getD ((gy).N 0 t * (gx).N 1 t + (j * (gx).N 0 t + i)) 0) = I₂ Y :=
      I_congr (X := fun i j => ((mtab ((gy).N 0 t) ((gx).N 1 t) X).data ++ (mtab ((gy).N 1 t) ((gx).N 0 t) Y).data).getD ((gy).N 0 t * (gx).N 1 t + (j * (gx).N 0 t + i)) 0) (X' := fun i j => Y j i)
        fun i hi j hj => getD_snd hj hi
    simp only [hΨ, e1, e2]
  have lm : ∀ X Y : ℕ → ℕ → ℝ, ((mtab ((gy).N 0 t) ((gx).N 1 t) X).data ++ (mtab ((gy).N 1 t) ((gx).N 0 t) Y).data).length = 𝔫 1 t := fun X Y => by
    rw [List.length_append, length_data, length_data]; rfl
  have ex : ∀ a : List ℝ, a.length = 𝔫 1 t → ∃ X Y : ℕ → ℕ → ℝ, a = (mtab ((gy).N 0 t) ((gx).N 1 t) X).data ++ (mtab ((gy).N 1 t) ((gx).N 0 t) Y).data := fun a la =>
    flat1 (show a.length = (gy).N 0 t * (gx).N 1 t + (gy).N 1 t * (gx).N 0 t from la)
  have va : ∀ X Y X' Y' : ℕ → ℕ → ℝ, vadd ((mtab ((gy).N 0 t) ((gx).N 1 t) X).data ++ (mtab ((gy).N 1 t) ((gx).N 0 t) Y).data) ((mtab ((gy).N 0 t) ((gx).N 1 t) X').data ++ (mtab ((gy).N 1 t) ((gx).N 0 t) Y').data)
      = (mtab ((gy).N 0 t) ((gx).N 1 t) fun j i => X j i + X' j i).data ++ (mtab ((gy).N 1 t) ((gx).N 0 t) fun j i => Y j i + Y' j i).data := fun X Y X' Y' => by
    have h := List.zipWith_append (f := fun a b : ℝ => a + b) (l₁ := (mtab ((gy).N 0 t) ((gx).N 1 t) X).data) (l₂ := (mtab ((gy).N 0 t) ((gx).N 1 t) X').data) (l₁' := (mtab ((gy).N 1 t) ((gx).N 0 t) Y).data) (l₂' := (mtab ((gy).N 1 t) ((gx).N 0 t) Y').data) (by simp only [length_data])
    unfold vadd
    rw [h]
    exact congrArg₂ (· ++ ·) (vadd_data _ _ _ _) (vadd_data _ _ _ _)
  have ma : ∀ (c : ℝ) (X Y : ℕ → ℕ → ℝ), ((mtab ((gy).N 0 t) ((gx).N 1 t) X).data ++ (mtab ((gy).N 1 t) ((gx).N 0 t) Y).data).map (c • ·)
      = (mtab ((gy).N 0 t) ((gx).N 1 t) fun j i => c * X j i).data ++ (mtab ((gy).N 1 t) ((gx).N 0 t) fun j i => c * Y j i).data := fun c X Y => by
    rw [List.map_append]
    exact congrArg₂ (· ++ ·) (map_tab _ _ _) (map_tab _ _ _)
  have linΨ : Lin (𝔫 1 t) (𝔫 1 t) Ψ := by
    refine ⟨fun x hx => lm _ _, fun x y hx hy => ?_, fun c x hx => ?_⟩
    · obtain ⟨X, Y, rfl⟩ := ex x hx
      obtain ⟨X', Y', rfl⟩ := ex y hy
      rw [va, eΨ, eΨ, eΨ, va]
      have e1 : I₁ (fun j i => X j i + X' j i) = I₁ X + I₁ X' := I_add _ _ _ _ _ _
      have e2 : I₂ (fun j i => Y j i + Y' j i) = I₂ Y + I₂ Y' := I_add _ _ _ _ (fun i j => Y j i) (fun i j => Y' j i)
      rw [e1, e2]
      exact data_inj2.2 ⟨fun _ _ _ _ => by ring, fun _ _ _ _ => by ring⟩
    · obtain ⟨X, Y, rfl⟩ := ex x hx
      rw [ma, eΨ, eΨ, ma]
      have e1 : I₁ (fun j i => c * X j i) = c * I₁ X := I_smul _ _ _ _ _ _
      have e2 : I₂ (fun j i => c * Y j i) = c * I₂ Y := I_smul _ _ _ _ (fun i j => Y j i) _
      rw [e1, e2]
      exact data_inj2.2 ⟨fun _ _ _ _ => by ring, fun _ _ _ _ => by ring⟩
  have linE : Lin (𝔫 1 t) (𝔫 1 t) fun α => δ 0 t (η 2 (!t) (δ 1 (!t) (η 1 t α))) := by
    have h := (C.o.linH 2 (!t)).comp ((C.o.linD 1 (!t) (by decide)).comp (C.o.linH 1 t))
    rw [Bool.not_not] at h
    exact (C.o.linD 0 t (by decide)).comp h
  have linC : Lin (𝔫 1 t) (𝔫 1 t) fun α => η 1 (!t) (δ 0 (!t) (η 2 t (δ 1 t α))) := by
    have h := (C.o.linH 1 (!t)).comp ((C.o.linD 0 (!t) (by decide)).comp ((C.o.linH 2 t).comp (C.o.linD 1 t (by decide))))
    rwa [Bool.not_not] at h
  have linΛ : Lin (𝔫 1 t) (𝔫 1 t) Λ := linE.add_map linC
  have zeroΨ : ∀ X Y : ℕ → ℕ → ℝ, Ψ ((mtab ((gy).N 0 t) ((gx).N 1 t) X).data ++ (mtab ((gy).N 1 t) ((gx).N 0 t) Y).data) = List.replicate (𝔫 1 t) 0 ↔ p₁ * I₁ X = 0 ∧ p₂ * I₂ Y = 0 := fun X Y => by
    rw [eΨ, ← mem_zero (lm _ _)]
    constructor
    · intro h
      have h1 := data_all_zero.1 (fun z hz => h z (List.mem_append_left _ hz)) 0 (Fy.pos 0 t) 0 (Fx.pos 1 t)
      have h2 := data_all_zero.1 (fun z hz => h z (List.mem_append_right _ hz)) 0 (Fy.pos 1 t) 0 (Fx.pos 0 t)
      exact ⟨(mul_eq_zero.1 h1).resolve_right (len_pos k n hn hx t 0 (Fx.pos 1 t)).ne', (mul_eq_zero.1 h2).resolve_right (len_pos k' n' hn' hy t 0 (Fy.pos 1 t)).ne'⟩
    · rintro ⟨h1, h2⟩ z hz
      rcases List.mem_append.1 hz with hz | hz
      · exact data_all_zero.2 (fun _ _ _ _ => by rw [h1, zero_mul]) z hz
      · exact data_all_zero.2 (fun _ _ _ _ => by rw [h2, zero_mul]) z hz
  have J₁ : ∀ c : ℝ, I₁ (fun _ i => c * len gx t i) = c * r₁ := hl₁
  have J₂ : ∀ c : ℝ, I₂ (fun j _ => c * len gy t j) = c * r₂ := hl₂
  have main := Lin.range_of_kernel linΛ linΨ (fun a la => ?_) (fun a la h1 h2 => ?_) (fun a la h => ?_) β ((ci 1 t β).1 hβ)
  · obtain ⟨X, Y, rfl⟩ := ex β ((ci 1 t β).1 hβ)
    rw [rowSums_m, columnSums_m _ _ (length_data _ _ _)]
    have m' : (∃ α, (𝔾).N 1 t = .ok α.length ∧ lapOne 𝔾 t α = .ok ((mtab ((gy).N 0 t) ((gx).N 1 t) X).data ++ (mtab ((gy).N 1 t) ((gx).N 0 t) Y).data)) ↔ p₁ * I₁ X = 0 ∧ p₂ * I₂ Y = 0 := by
      rw [← zeroΨ, ← main]
      exact exists_congr fun a => ⟨fun ⟨h1, h2⟩ => ⟨(ci 1 t a).1 h1, by rw [eΛ a ((ci 1 t a).1 h1)] at h2; exact Except.ok.inj h2⟩, fun ⟨h1, h2⟩ => ⟨(ci 1 t a).2 h1, by rw [eΛ a h1, h2]⟩⟩
    rw [m', My.h0, Mx.h0]
    have f₁ : (∃ s, (Except.ok (tab ((gy).N 1 (!t)) fun l => ∑ j ∈ range ((gy).N 0 t), R0 l j * ∑ i ∈ range ((gx).N 1 t), X j i) : Except Err (List ℝ)) = .ok s ∧ s.sum = 0) ↔ I₁ X = 0 := by
      constructor
      · rintro ⟨s, h1, h2⟩; rw [← Except.ok.inj h1, sum_tab] at h2; exact h2
      · intro h; exact ⟨_, rfl, by rw [sum_tab]; exact h⟩
    have f₂ : (∃ s, (Except.ok (tab ((gx).N 1 (!t)) fun l => ∑ i ∈ range ((gx).N 0 t), S0 l i * ∑ j ∈ range ((gy).N 1 t), Y j i) : Except Err (List ℝ)) = .ok s ∧ s.sum = 0) ↔ I₂ Y = 0 := by
      constructor
      · rintro ⟨s, h1, h2⟩; rw [← Except.ok.inj h1, sum_tab] at h2; exact h2
      · intro h; exact ⟨_, rfl, by rw [sum_tab]; exact h⟩
    rw [f₁, f₂, hp₁, hp₂]
    refine and_congr ?_ ?_
    · split_ifs with h <;> simp [h]
    · split_ifs with h <;> simp [h]
  · obtain ⟨X, Y, rfl⟩ := ex a la
    have e := (eΛ _ la).symm.trans (lapOne_m Fx Fy Mx My X Y)
    rw [Except.ok.inj e, zeroΨ]
    constructor
    · rcases q₁ with h | h
      · rw [h, zero_mul]
      · refine mul_eq_zero_of_right _ ?_
        exact component_integral k k' n n' hn hn' hx hy t Sx Sy Mx My X h.1 h.2
    · rcases q₂ with h | h
      · rw [h, zero_mul]
      · refine mul_eq_zero_of_right _ ?_
        have := component_integral k' k n' n hn' hn hy hx t Sy Sx My Mx (fun i j => Y j i) h.1 h.2
        rw [← this]
        refine sum_congr rfl fun l _ => congrFun (ap_congr fun i _ => sum_congr rfl fun j _ => ?_) l
        rw [add_comm]; rfl
  · obtain ⟨c₁, c₂, e, hc₁, hc₂⟩ := (C117_kernel_one k k' n n' hn hn' h927 h927' xmin xmax ymin ymax hx hy t a ((ci 1 t a).2 la)).1 ⟨_, eΛ a la, by rw [h1]; intro z hz; exact (List.mem_replicate.1 hz).2⟩
    rw [P1_constant k k' n n' xmin xmax ymin ymax t hn hn'] at e
    obtain rfl := Except.ok.inj e
    rw [zeroΨ, J₁, J₂] at h2
    have z₁ : c₁ = 0 := by
      rcases hc₁ with h | h
      · exact h
      · have := h2.1
        rw [hp₁, if_pos h, one_mul] at this
        exact (mul_eq_zero.1 this).resolve_right hr₁.ne'
    have z₂ : c₂ = 0 := by
      rcases hc₂ with h | h
      · exact h
      · have := h2.2
        rw [hp₂, if_pos h, one_mul] at this
        exact (mul_eq_zero.1 this).resolve_right hr₂.ne'
    refine (mem_zero la).1 fun z hz => ?_
    rcases List.mem_append.1 hz with hz | hz
    · exact data_all_zero.2 (fun _ _ _ _ => by rw [z₁, zero_mul]) z hz
    · exact data_all_zero.2 (fun _ _ _ _ => by rw [z₂, zero_mul]) z hz
  · obtain ⟨X, Y, rfl⟩ := ex a la
    rw [zeroΨ]
    rw [eΨ X Y, zeroΨ (fun _ i => p₁ * I₁ X * len gx t i) (fun j _ => p₂ * I₂ Y * len gy t j), J₁, J₂] at h
    have i₁ : p₁ * p₁ = p₁ := by rw [hp₁]; split_ifs <;> simp
    have i₂ : p₂ * p₂ = p₂ := by rw [hp₂]; split_ifs <;> simp
    refine ⟨?_, ?_⟩
    · have : p₁ * (p₁ * I₁ X * r₁) = p₁ * I₁ X * r₁ := by rw [← mul_assoc, ← mul_assoc, i₁]
      rw [this] at h
      exact (mul_eq_zero.1 h.1).resolve_right hr₁.ne'
    · have : p₂ * (p₂ * I₂ Y * r₂) = p₂ * I₂ Y * r₂ := by rw [← mul_assoc, ← mul_assoc, i₂]
      rw [this] at h
      exact (mul_eq_zero.1 h.2).resolve_right hr₂.ne'

end

end Dec.Props
