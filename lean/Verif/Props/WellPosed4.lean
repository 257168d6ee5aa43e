import Verif.Props.WellPosed3

set_option linter.unusedSimpArgs false
set_option linter.unusedVariables false

/-!
# C117: unique solutions for 1-forms on rectangles, and stability of the Chebyshev Laplacians (`/repo/doc/plot/cheb/poisson_2d_example.py`)
-/

namespace Dec.Props

open Real Finset Dec.G2 Dec.Sp

section
variable (k k' : Kind) (n n' : ℕ) (hn : validSize k n) (hn' : validSize k' n') (h927 : k = .chebyshev → n ≤ 927) (h927' : k' = .chebyshev → n' ≤ 927) (xmin xmax ymin ymax : ℝ)
  (hx : xmin < xmax) (hy : ymin < ymax) (t : Bool)

local notation "gx" => grid k n xmin xmax
local notation "gy" => grid k' n' ymin ymax
local notation "𝔾" => product (grid k n xmin xmax) (grid k' n' ymin ymax)
local notation "𝔫" => count (grid k n xmin xmax) (grid k' n' ymin ymax)

include hn hn' h927 h927' in
/-- The 1-form Laplacian is a linear map. -/
theorem lapOne_lin : ∃ Λ : List ℝ → List ℝ, Lin (𝔫 1 t) (𝔫 1 t) Λ ∧ ∀ a : List ℝ, a.length = 𝔫 1 t → lapOne 𝔾 t a = .ok (Λ a) := by
  obtain ⟨δ, η, C⟩ := exists_calc₀ k k' n n' hn hn' xmin xmax ymin ymax h927 h927'
  have linE : Lin (𝔫 1 t) (𝔫 1 t) fun α => δ 0 t (η 2 (!t) (δ 1 (!t) (η 1 t α))) := by
    have h := (C.o.linH 2 (!t)).comp ((C.o.linD 1 (!t) (by decide)).comp (C.o.linH 1 t))
    rw [Bool.not_not] at h
    exact (C.o.linD 0 t (by decide)).comp h
  have linC : Lin (𝔫 1 t) (𝔫 1 t) fun α => η 1 (!t) (δ 0 (!t) (η 2 t (δ 1 t α))) := by
    have h := (C.o.linH 1 (!t)).comp ((C.o.linD 0 (!t) (by decide)).comp ((C.o.linH 2 t).comp (C.o.linD 1 t (by decide))))
    rwa [Bool.not_not] at h
  exact ⟨_, linE.add_map linC, fun a la => C.lapOne t la⟩

include hn hn' h927 h927' hx hy

/-- **C117** (1-forms on rectangles): when neither direction is periodic `L1(α) = β` has exactly one solution for every `β`, so the matrix of `L1` has an inverse. -/
theorem C117_rectangle (hk : k ≠ .periodic) (hk' : k' ≠ .periodic) (β : List ℝ) (hβ : (𝔾).N 1 t = .ok β.length) : ∃! α, (𝔾).N 1 t = .ok α.length ∧ lapOne 𝔾 t α = .ok β := by
  have ci := count_iff k k' n n' hn hn' xmin xmax ymin ymax
  have f1 : ¬ (free k' t ∧ free k (!t)) := fun h => by
    have h1 := h.1.resolve_left hk'
    have h2 := h.2.resolve_left hk
    rw [h1] at h2; cases h2
  have f2 : ¬ (free k t ∧ free k' (!t)) := fun h => by
    have h1 := h.1.resolve_left hk
    have h2 := h.2.resolve_left hk'
    rw [h1] at h2; cases h2
  obtain ⟨α, h1, h2⟩ := (C117_solvable_one k k' n n' hn hn' h927 h927' xmin xmax ymin ymax hx hy t β hβ).2 ⟨fun h => absurd h f1, fun h => absurd h f2⟩
  refine ⟨α, ⟨h1, h2⟩, fun α' ⟨h1', h2'⟩ => ?_⟩
  obtain ⟨Λ, hL, eL⟩ := lapOne_lin k k' n n' hn hn' h927 h927' xmin xmax ymin ymax t
  have la := (ci 1 t α).1 h1
  have la' := (ci 1 t α').1 h1'
  have e : Λ α' = Λ α := by
    rw [eL α la] at h2; rw [eL α' la'] at h2'
    exact (Except.ok.inj h2').trans (Except.ok.inj h2).symm
  have ld : (vsub α' α).length = 𝔫 1 t := by rw [eq_tab' la 0, eq_tab' la' 0, vsub_tab, length_tab]
  have z : Λ (vsub α' α) = List.replicate (𝔫 1 t) 0 := by
    rw [lin_sub hL la' la, e, eq_tab' (hL.len _ la) 0, vsub_tab, replicate_tab]
    exact tab_congr fun _ _ => sub_self _
  obtain ⟨c₁, c₂, ec, hc₁, hc₂⟩ := (C117_kernel_one k k' n n' hn hn' h927 h927' xmin xmax ymin ymax hx hy t (vsub α' α) ((ci 1 t _).2 ld)).1
    ⟨_, eL _ ld, by rw [z]; intro w hw; exact (List.mem_replicate.1 hw).2⟩
  have z1 := hc₁.resolve_right f1
  have z2 := hc₂.resolve_right f2
  rw [P1_constant k k' n n' xmin xmax ymin ymax t hn hn', z1, z2] at ec
  have zero : vsub α' α = List.replicate (𝔫 1 t) 0 := by
    refine (mem_zero ld).1 fun w hw => ?_
    rw [← Except.ok.inj ec] at hw
    rcases List.mem_append.1 hw with hw | hw
    · exact data_all_zero.2 (fun _ _ _ _ => by rw [zero_mul]) w hw
    · exact data_all_zero.2 (fun _ _ _ _ => by rw [zero_mul]) w hw
  rw [eq_tab' la 0, eq_tab' la' 0, vsub_tab, replicate_tab] at zero
  rw [eq_tab' la 0, eq_tab' la' 0]
  exact tab_congr fun i hi => sub_eq_zero.1 (tab_inj.1 zero i hi)

end

/-! ## Stability -/

/-- Cauchy–Schwarz for arrays. -/
theorem dot_cs {N : ℕ} {x y : List ℝ} (hx : x.length = N) (hy : y.length = N) : dot x y ^ 2 ≤ dot x x * dot y y := by
  rw [eq_tab' hx 0, eq_tab' hy 0, dot_tab, dot_tab, dot_tab]
  have := sum_mul_sq_le_sq_mul_sq (range N) (fun i => x.getD i 0) (fun i => y.getD i 0)
  simpa only [pow_two] using this

theorem dot_self_nonneg' {N : ℕ} {x : List ℝ} (hx : x.length = N) : 0 ≤ dot x x := by
  rw [eq_tab' hx 0, dot_tab]
  exact sum_nonneg fun i _ => mul_self_nonneg _

theorem norm_of_energy {N : ℕ} {m : ℝ} (hm : 0 < m) {z r : List ℝ} (hz : z.length = N) (hr : r.length = N) (h : dot z r ≤ -m * dot z z) : m ^ 2 * dot z z ≤ dot r r := by
  have h1 := dot_cs hz hr
  have h2 := dot_self_nonneg' hz
  have h3 := dot_self_nonneg' hr
  rcases h2.eq_or_lt with h0 | h0
  · rw [← h0, mul_zero]; exact h3
  have h4 : (m * dot z z) ^ 2 ≤ dot z r ^ 2 := by
    have : m * dot z z ≤ -dot z r := by linarith
    have h5 : 0 ≤ m * dot z z := by positivity
    nlinarith
  have : m ^ 2 * dot z z * dot z z ≤ dot r r * dot z z := by nlinarith
  exact le_of_mul_le_mul_right this h0

/-- The real part of an eigenvalue of an operator with this energy. -/
theorem eigenvalue_of_energy {N : ℕ} {m x y : ℝ} {L : List ℝ → Except Err (List ℝ)} (hL : ∀ z r : List ℝ, z.length = N → L z = .ok r → dot z r ≤ -m * dot z z)
    {u v : List ℝ} (hu : u.length = N) (hv : v.length = N) (hne : u ≠ List.replicate N 0 ∨ v ≠ List.replicate N 0)
    (eu : L u = .ok (vsub (u.map (x * ·)) (v.map (y * ·)))) (ev : L v = .ok (vadd (u.map (y * ·)) (v.map (x * ·)))) : x ≤ -m := by
  obtain ⟨f, rfl⟩ : ∃ f, u = tab N f := ⟨_, eq_tab' hu 0⟩
  obtain ⟨g, rfl⟩ : ∃ g, v = tab N g := ⟨_, eq_tab' hv 0⟩
  have h1 := hL _ _ hu eu
  have h2 := hL _ _ hv ev
  simp only [map_tab, vsub_tab, vadd_tab, dot_tab] at h1 h2
  have e : ∑ i ∈ range N, f i * (x * f i - y * g i) + ∑ i ∈ range N, g i * (y * f i + x * g i) = x * (∑ i ∈ range N, f i * f i + ∑ i ∈ range N, g i * g i) := by
    rw [← sum_add_distrib, ← sum_add_distrib, mul_sum]
    exact sum_congr rfl fun i _ => by ring
  have hp : 0 < ∑ i ∈ range N, f i * f i + ∑ i ∈ range N, g i * g i := by
    have n1 : 0 ≤ ∑ i ∈ range N, f i * f i := sum_nonneg fun i _ => mul_self_nonneg _
    have n2 : 0 ≤ ∑ i ∈ range N, g i * g i := sum_nonneg fun i _ => mul_self_nonneg _
    by_contra hc
    have z1 : ∑ i ∈ range N, f i * f i = 0 := by linarith
    have z2 : ∑ i ∈ range N, g i * g i = 0 := by linarith
    rw [sum_eq_zero_iff_of_nonneg fun i _ => mul_self_nonneg _] at z1 z2
    rcases hne with h | h
    · exact h (by rw [replicate_tab]; exact tab_congr fun i hi => mul_self_eq_zero.1 (z1 i (mem_range.2 hi)))
    · exact h (by rw [replicate_tab]; exact tab_congr fun i hi => mul_self_eq_zero.1 (z2 i (mem_range.2 hi)))
  have : x * (∑ i ∈ range N, f i * f i + ∑ i ∈ range N, g i * g i) ≤ -m * (∑ i ∈ range N, f i * f i + ∑ i ∈ range N, g i * g i) := by rw [← e]; linarith
  exact le_of_mul_le_mul_right this hp

/-- **C117** (energy): on the dual vertices of a Chebyshev grid the sum of `z · L0(z)` is at most `-1/2` times the sum of the squares of `z`. -/
theorem C117_energy (n : ℕ) (hn : 2 ≤ n) (h927 : n ≤ 927) (xmin xmax : ℝ) (z r : List ℝ) (hz : z.length = n - 1) (h : (Chebyshev.make n xmin xmax).laplacian false z = .ok r) :
    dot z r ≤ -(1 / 2) * dot z z ∧ dot z z ≤ 4 * dot r r := by
  obtain ⟨hr, e⟩ := cheb_dual_energy n hn h927 xmin xmax z r hz h
  refine ⟨e, ?_⟩
  have := norm_of_energy (by norm_num : (0 : ℝ) < 1 / 2) hz hr e
  nlinarith

/-- **C117** (eigenvalues): every eigenvalue `x + iy` of that Laplacian, with eigenvector `u + iv`, has real part at most `-1/2`, whatever the number of points. -/
theorem C117_eigenvalue (n : ℕ) (hn : 2 ≤ n) (h927 : n ≤ 927) (xmin xmax x y : ℝ) (u v : List ℝ) (hu : u.length = n - 1) (hv : v.length = n - 1) (hne : u ≠ List.replicate (n - 1) 0 ∨ v ≠ List.replicate (n - 1) 0)
    (eu : (Chebyshev.make n xmin xmax).laplacian false u = .ok (vsub (u.map (x * ·)) (v.map (y * ·)))) (ev : (Chebyshev.make n xmin xmax).laplacian false v = .ok (vadd (u.map (y * ·)) (v.map (x * ·)))) : x ≤ -(1 / 2) :=
  eigenvalue_of_energy (fun z r hz h => (C117_energy n hn h927 xmin xmax z r hz h).1) hu hv hne eu ev

section
variable (n n' : ℕ) (hn : 2 ≤ n) (hn' : 2 ≤ n') (h927 : n ≤ 927) (h927' : n' ≤ 927) (xmin xmax ymin ymax : ℝ)

local notation "𝔾" => product (Chebyshev.make n xmin xmax) (Chebyshev.make n' ymin ymax)

theorem cheb_mats_energy (n : ℕ) (hn : 2 ≤ n) (h927 : n ≤ 927) (a b : ℝ) {A A' S0 S1 S0' S1' : ℕ → ℕ → ℝ} (M : Mats (grid .chebyshev n a b) false A A' S0 S1 S0' S1') (f : ℕ → ℝ) :
    ∑ i ∈ range ((grid .chebyshev n a b).N 0 false), f i * ap ((grid .chebyshev n a b).N 0 false) (L0 (grid .chebyshev n a b) false A A' S1 S1') f i
      ≤ -(1 / 2) * ∑ i ∈ range ((grid .chebyshev n a b).N 0 false), f i * f i := by
  have hN : (grid .chebyshev n a b).N 0 false = n - 1 := (Chebyshev.isInterval hn a b).N00
  have h := (cheb_dual_energy n hn h927 a b _ _ (by rw [length_tab]; exact hN) (M.lap_ap f)).2
  rwa [dot_tab, dot_tab] at h

include hn hn' h927 h927'

/-- **C117** (energy in two dimensions): on the dual vertices of a product of Chebyshev grids the sum of `z · L0(z)` is at most `-1` times the sum of the squares of `z`. -/
theorem C117_energy_2d (z r : List ℝ) (hz : (𝔾).N 0 false = .ok z.length) (h : lap2 𝔾 false z = .ok r) : dot z r ≤ -dot z z ∧ dot z z ≤ dot r r := by
  have hv : validSize .chebyshev n := hn
  have hv' : validSize .chebyshev n' := hn'
  have Fx := grid_factor .chebyshev n hv xmin xmax
  have Fy := grid_factor .chebyshev n' hv' ymin ymax
  have Sx := grid_stars .chebyshev n hv (fun _ => h927) xmin xmax
  have Sy := grid_stars .chebyshev n' hv' (fun _ => h927') ymin ymax
  obtain ⟨A, A', S0, S1, S0', S1', Mx⟩ := exists_mats Fx Sx false
  obtain ⟨B, B', R0, R1, R0', R1', My⟩ := exists_mats Fy Sy false
  have lz : z.length = (grid .chebyshev n' ymin ymax).N 0 false * (grid .chebyshev n xmin xmax).N 0 false := by
    have : (product (grid .chebyshev n xmin xmax) (grid .chebyshev n' ymin ymax)).N 0 false = .ok z.length := hz
    rw [N_eq Fx Fy] at this; exact (Except.ok.inj this).symm
  obtain ⟨F, rfl⟩ := flat0 lz
  have h' := (lap2_m Fx Fy Mx My F).symm.trans h
  obtain rfl := Except.ok.inj h'
  have main : dot (mtab ((grid .chebyshev n' ymin ymax).N 0 false) ((grid .chebyshev n xmin xmax).N 0 false) F).data (mtab ((grid .chebyshev n' ymin ymax).N 0 false) ((grid .chebyshev n xmin xmax).N 0 false)
      fun j i => lapX (grid .chebyshev n xmin xmax) false A A' S1 S1' F j i + lapY (grid .chebyshev n' ymin ymax) false B B' R1 R1' F j i).data ≤ -1 *
      dot (mtab ((grid .chebyshev n' ymin ymax).N 0 false) ((grid .chebyshev n xmin xmax).N 0 false) F).data (mtab ((grid .chebyshev n' ymin ymax).N 0 false) ((grid .chebyshev n xmin xmax).N 0 false) F).data := by
    rw [dot_data, dot_data]
    unfold dot2
    have hX := sum_le_sum fun j (_ : j ∈ range ((grid .chebyshev n' ymin ymax).N 0 false)) => cheb_mats_energy n hn h927 xmin xmax Mx (F j)
    have hY := sum_le_sum fun i (_ : i ∈ range ((grid .chebyshev n xmin xmax).N 0 false)) => cheb_mats_energy n' hn' h927' ymin ymax My (fun j => F j i)
    rw [← mul_sum] at hX hY
    rw [sum_comm, sum_comm (s := range ((grid .chebyshev n xmin xmax).N 0 false)) (f := fun i j => F j i * F j i)] at hY
    have eX : ∀ j i, lapX (grid .chebyshev n xmin xmax) false A A' S1 S1' F j i = ap ((grid .chebyshev n xmin xmax).N 0 false) (L0 (grid .chebyshev n xmin xmax) false A A' S1 S1') (F j) i := fun j i => by rw [ap_L0]; rfl
    have eY : ∀ j i, lapY (grid .chebyshev n' ymin ymax) false B B' R1 R1' F j i = ap ((grid .chebyshev n' ymin ymax).N 0 false) (L0 (grid .chebyshev n' ymin ymax) false B B' R1 R1') (fun j => F j i) j := fun j i => by rw [ap_L0]; rfl
    simp only [eX, eY, mul_add, sum_add_distrib]
    linarith
  refine ⟨by linarith, ?_⟩
  have := norm_of_energy (N := (grid .chebyshev n' ymin ymax).N 0 false * (grid .chebyshev n xmin xmax).N 0 false) one_pos (length_data _ _ _) (length_data _ _ _) main
  linarith

/-- **C117** (eigenvalues in two dimensions): every eigenvalue `x + iy` of that Laplacian has real part at most `-1`. -/
theorem C117_eigenvalue_2d (x y : ℝ) (u v : List ℝ) (hu : (𝔾).N 0 false = .ok u.length) (hv : (𝔾).N 0 false = .ok v.length) (hne : (∃ a ∈ u, a ≠ 0) ∨ ∃ a ∈ v, a ≠ 0)
    (eu : lap2 𝔾 false u = .ok (vsub (u.map (x * ·)) (v.map (y * ·)))) (ev : lap2 𝔾 false v = .ok (vadd (u.map (y * ·)) (v.map (x * ·)))) : x ≤ -1 := by
  have hl : v.length = u.length := Except.ok.inj (hv.symm.trans hu)
  refine eigenvalue_of_energy (N := u.length) (L := lap2 𝔾 false) (fun z r hz h => ?_) rfl hl ?_ eu ev
  · have := (C117_energy_2d n n' hn hn' h927 h927' xmin xmax ymin ymax z r (by rw [hu, hz]) h).1
    linarith
  · rcases hne with ⟨a, h1, h2⟩ | ⟨a, h1, h2⟩
    · exact .inl fun h => h2 (by rw [h] at h1; exact (List.mem_replicate.1 h1).2)
    · exact .inr fun h => h2 (by rw [h] at h1; exact (List.mem_replicate.1 h1).2)

end

/-- The rectangle of the figure: on ten by ten Chebyshev points every primal 1-form, 180 numbers, is the Laplacian of exactly one. -/
example (β : List ℝ) (h : β.length = 180) : ∃! α, (product (Chebyshev.make 10) (Chebyshev.make 10)).N 1 true = .ok α.length ∧ lapOne (product (Chebyshev.make 10) (Chebyshev.make 10)) true α = .ok β :=
  C117_rectangle .chebyshev .chebyshev 10 10 (show 2 ≤ 10 by norm_num) (show 2 ≤ 10 by norm_num) (by norm_num) (by norm_num) (-1) 1 (-1) 1 (by norm_num) (by norm_num) true (by decide) (by decide) β (by
    have hv : validSize .chebyshev 10 := show 2 ≤ 10 by norm_num
    have := (count_iff .chebyshev .chebyshev 10 10 hv hv (-1) 1 (-1) 1 1 true β).2 (by rw [h]; rfl)
    exact this)

/-- The two points of the smallest grid: the Laplacian on its single dual vertex is a multiple by a number at most `-1/2`. -/
example : ∃ c : ℝ, (Chebyshev.make 2).laplacian false [1] = .ok [c] ∧ c ≤ -(1 / 2) := by
  have hv : validSize .chebyshev 2 := le_refl 2
  have hN : (grid .chebyshev 2 (-1) 1).N 0 false = 1 := (Chebyshev.isInterval hv (-1) 1).N00
  obtain ⟨L, hL, eL⟩ := lap_elin (grid_factor .chebyshev 2 hv (-1) 1) (grid_stars .chebyshev 2 hv (by norm_num) (-1) 1) false
  have e1 := eL [1] hN.symm
  have e0 := eL [0] hN.symm
  have z : L [0] = [0] := by
    have := G2.lin_zero hL
    rw [hN] at this
    exact this
  have l1 : (L [1]).length = 1 := by rw [hL.len [1] hN.symm, hN]
  obtain ⟨c, hc⟩ := List.length_eq_one_iff.1 l1
  rw [hc] at e1
  rw [z] at e0
  refine ⟨c, e1, C117_eigenvalue 2 (le_refl 2) (by norm_num) (-1) 1 c 0 [1] [0] rfl rfl (.inl (by simp)) ?_ ?_⟩
  · rw [show (Chebyshev.make 2 (-1) 1).laplacian false [1] = .ok [c] from e1]; simp [vsub]
  · rw [show (Chebyshev.make 2 (-1) 1).laplacian false [0] = .ok [0] from e0]; simp [vadd]

/-- A cylinder with Chebyshev points along its axis: the Neumann problem on the primal vertices can be solved for a right hand side of integral zero, here zero itself. -/
example : ∃ a, (product (Periodic.make 4) (Chebyshev.make 5)).N 0 true = .ok a.length ∧ lap2 (product (Periodic.make 4) (Chebyshev.make 5)) true a = .ok (List.replicate 20 0) ∧ a ≠ List.replicate 20 0 := by
  have hv : validSize .periodic 4 := show 1 ≤ 4 by norm_num
  have hv' : validSize .chebyshev 5 := show 2 ≤ 5 by norm_num
  have ha : (product (grid .periodic 4 0 (2 * π)) (grid .chebyshev 5 (-1) 1)).N 0 true = .ok (List.replicate 20 (1 : ℝ)).length := by
    rw [N_eq (grid_factor .periodic 4 hv 0 (2 * π)) (grid_factor .chebyshev 5 hv' (-1) 1)]; rfl
  obtain ⟨L, h1, h2⟩ := (C117_kernel .periodic .chebyshev 4 5 hv hv' (by simp) (by norm_num) 0 (2 * π) (-1) 1 (by positivity) (by norm_num) true (List.replicate 20 1) ha).2
    ⟨1, by simp, .inr ⟨.inl rfl, .inr rfl⟩⟩
  refine ⟨List.replicate 20 1, ha, ?_, by simp [List.replicate]⟩
  have hl : L.length = 20 := by
    obtain ⟨δ, η, o⟩ := exists_ops' (grid_factor .periodic 4 hv 0 (2 * π)) (grid_factor .chebyshev 5 hv' (-1) 1) (grid_stars .periodic 4 hv (by simp) 0 (2 * π)) (grid_stars .chebyshev 5 hv' (by norm_num) (-1) 1)
    obtain ⟨hM, eM⟩ := o.lap2 true
    rw [eM _ (by rfl)] at h1
    rw [← Except.ok.inj h1]
    exact hM.len _ (by rfl)
  rw [(mem_zero hl).1 h2] at h1
  exact h1

end Dec.Props
