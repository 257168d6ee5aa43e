import Verif.Lib.Exact2
import Verif.Props.Grid2Commute
import Verif.Props.PeriodicCalculus

set_option linter.unusedSimpArgs false
set_option linter.unusedVariables false

/-! # Calculus of interpolants on products of periodic grids -/

namespace Dec.G2

open Finset Real Sp Periodic Props

theorem space_res (n : ℕ) (φ : ℝ) : FnSpace (Res n φ) :=
  ⟨Res.zero n φ, fun _ _ h h' => h.add h', fun c _ h => h.const_mul c, fun _ h => h.continuous⟩

theorem per_refine {n : ℕ} (hn : 1 ≤ n) : RefExact (Periodic.make n) (fun d t => Res n (ph n d t)) (fun _ => IsTrig n) (2 * n) (fun j => id (0 + j * hh (2 * n))) where
  pos := by omega
  space d t := space_res _ _
  spaceQ d := ⟨IsTrig.zero _, fun _ _ h h' => h.add h', fun c _ h => h.const_mul c, fun _ h => h.continuous⟩
  sub d t f h := (isTrig_of_res h).mono (by omega)
  points := Periodic.points_samp n
  T d t f h := Periodic.T_exact d t h
  U d t f h := Periodic.U_exact h d t

/-! ## Trigonometric tensors -/

theorem _root_.Dec.IsTrig.contDiff {K : ℕ} {p : ℝ → ℝ} (h : IsTrig K p) : ContDiff ℝ 1 p := by
  obtain ⟨a, b, h⟩ := h
  have : p = fun θ => ∑ k ∈ range (K + 1), (a k * cos (k * θ) + b k * sin (k * θ)) := funext h
  rw [this]
  fun_prop

theorem tensor_smooth {K K' : ℕ} {f : ℝ → ℝ → ℝ} (h : Tensor (IsTrig K) (IsTrig K') f) : Smooth2 f := by
  obtain ⟨m, a, b, hab, he⟩ := h
  unfold Smooth2
  simp only [he]
  refine ContDiff.sum fun k hk => ?_
  have h1 := (hab k (mem_range.1 hk)).1.contDiff
  have h2 := (hab k (mem_range.1 hk)).2.contDiff
  exact (h1.comp contDiff_fst).mul (h2.comp contDiff_snd)

theorem space_trig' (K : ℕ) : FnSpace (IsTrig K) := ⟨IsTrig.zero K, fun _ _ h h' => h.add h', fun c _ h => h.const_mul c, fun _ h => h.continuous⟩

theorem tensor_periodic_x {K K' : ℕ} {f : ℝ → ℝ → ℝ} (h : Tensor (IsTrig K) (IsTrig K') f) (y : ℝ) : Function.Periodic (fun x => f x y) (2 * π - 0) := by
  rw [sub_zero]; exact (h.row (space_trig' K) y).periodic
theorem tensor_periodic_y {K K' : ℕ} {f : ℝ → ℝ → ℝ} (h : Tensor (IsTrig K) (IsTrig K') f) (x : ℝ) : Function.Periodic (fun y => f x y) (2 * π - 0) :=
  tensor_periodic_x h.swap x

theorem tensor_dX {V W V' : (ℝ → ℝ) → Prop} (hV : ∀ a, V a → ∃ a', V' a' ∧ ∀ x, HasDerivAt a (a' x) x) {f : ℝ → ℝ → ℝ} (h : Tensor V W f) : Tensor V' W (dX f) := by
  obtain ⟨m, a, b, hab, he⟩ := h
  have : ∀ k, ∃ a', k < m → V' a' ∧ ∀ x, HasDerivAt (a k) (a' x) x := fun k => by
    by_cases hk : k < m
    · obtain ⟨a', h1, h2⟩ := hV (a k) (hab k hk).1
      exact ⟨a', fun _ => ⟨h1, h2⟩⟩
    · exact ⟨fun _ => 0, fun h => absurd h hk⟩
  choose a' ha' using this
  refine ⟨m, a', b, fun k hk => ⟨(ha' k hk).1, (hab k hk).2⟩, fun x y => ?_⟩
  unfold dX
  simp only [he]
  exact (HasDerivAt.fun_sum fun k hk => ((ha' k (mem_range.1 hk)).2 x).mul_const (b k y)).deriv

theorem tensor_dY {V W W' : (ℝ → ℝ) → Prop} (hW : ∀ a, W a → ∃ a', W' a' ∧ ∀ x, HasDerivAt a (a' x) x) {f : ℝ → ℝ → ℝ} (h : Tensor V W f) : Tensor V W' (dY f) :=
  (tensor_dX hW h.swap).swap

theorem dForm_tensor {V W : Fin 2 → (ℝ → ℝ) → Prop} (sV : FnSpace (V 1)) (hV : ∀ a, V 0 a → ∃ a', V 1 a' ∧ ∀ x, HasDerivAt a (a' x) x)
    (hW : ∀ a, W 0 a → ∃ a', W 1 a' ∧ ∀ x, HasDerivAt a (a' x) x) {d : Fin 3} (hd : d ≠ 2) {σ : List (ℝ → ℝ → ℝ)} (h : TensorForm V W d σ) :
    TensorForm V W (d + 1) (dForm d σ) := by
  rcases TensorForm.cases h with ⟨rfl, f, rfl, hf⟩ | ⟨rfl, f, g, rfl, hf, hg⟩ | ⟨rfl, f, rfl, hf⟩
  · exact ⟨tensor_dX hV hf, tensor_dY hW hf⟩
  · have := (tensor_dX hV hg).add ((tensor_dY hW hf).neg sV)
    simp only [← sub_eq_add_neg] at this
    exact this
  · exact absurd rfl hd

/-! ## The derivative of a projection -/

variable {n n' : ℕ} (hn : 1 ≤ n) (hn' : 1 ≤ n')
include hn hn'

omit hn' in
theorem per_d0 (t : Bool) {F : ℝ → ℝ} (hF : Function.Periodic F (2 * π - 0)) :
    (Periodic.make n).d0 t (tab ((Periodic.make n).N 0 t) fun i => F (vx (Periodic.make n) t i))
      = .ok (tab ((Periodic.make n).N 1 t) fun i => F (hi (Periodic.make n) t i) - F (lo (Periodic.make n) t i)) := by
  have h2 : (0 : ℝ) < 2 * π := by positivity
  cases t
  · refine (grid_dual .periodic n hn h2 F fun _ => hF).trans (congrArg _ (tab_congr fun i hi => ?_))
    rw [show beta (grid .periodic n 0 (2 * π)) F i = 0 from periodic_beta hn h2 F hi, sub_zero]; rfl
  · exact grid_primal .periodic n hn h2 F fun _ => periodic_ends hF

theorem per_D0 {K K' : ℕ} {f : ℝ → ℝ → ℝ} (hf : Tensor (IsTrig K) (IsTrig K') f) (t : Bool) :
    ∃ a b, (product (Periodic.make n) (Periodic.make n')).P 0 t [f] = .ok a ∧ (product (Periodic.make n) (Periodic.make n')).D 0 t a = .ok b ∧
      (product (Periodic.make n) (Periodic.make n')).P 1 t [dX f, dY f] = .ok b := by
  have hx : Factor (Periodic.make n) := grid_factor .periodic n hn 0 (2 * π)
  have hy : Factor (Periodic.make n') := grid_factor .periodic n' hn' 0 (2 * π)
  have hs := tensor_smooth hf
  refine ⟨_, _, P0_mtab hx hy t f, D0_mtab hx hy t (fun j _ => per_d0 hn t (tensor_periodic_x hf _)) (fun i _ => per_d0 hn' t (tensor_periodic_y hf _)), ?_⟩
  rw [P1_mtab hx hy]
  simp only [ftc_x hs, ftc_y hs]

theorem per_D1 {K K' : ℕ} {f g : ℝ → ℝ → ℝ} (hf : Tensor (IsTrig K) (IsTrig K') f) (hg : Tensor (IsTrig K) (IsTrig K') g) (t : Bool) :
    ∃ a b, (product (Periodic.make n) (Periodic.make n')).P 1 t [f, g] = .ok a ∧ (product (Periodic.make n) (Periodic.make n')).D 1 t a = .ok b ∧
      (product (Periodic.make n) (Periodic.make n')).P 2 t [fun x y => dX g x y - dY f x y] = .ok b := by
  have hx : Factor (Periodic.make n) := grid_factor .periodic n hn 0 (2 * π)
  have hy : Factor (Periodic.make n') := grid_factor .periodic n' hn' 0 (2 * π)
  have hsf := tensor_smooth hf
  have hsg := tensor_smooth hg
  have s1 := space_trig' K
  have s2 := space_trig' K'
  have hF : ∀ u v, Function.Periodic (fun y => Integrate.P1x f u v y) (2 * π - 0) := fun u v => by
    rw [sub_zero]; exact (hf.intx s1 s2 u v).periodic
  have hG : ∀ u v, Function.Periodic (fun x => Integrate.P1y g x u v) (2 * π - 0) := fun u v => by
    rw [sub_zero]; exact (hg.inty s1 s2 u v).periodic
  refine ⟨_, _, P1_mtab hx hy t f g, D1_mtab hx hy t (fun i _ => per_d0 hn' t (hF _ _)) (fun j _ => per_d0 hn t (hG _ _)), ?_⟩
  rw [P2_mtab hx hy]
  simp only [green hsf hsg]

/-- The discrete derivative of the projection of a trigonometric form is the projection of its exterior derivative. -/
theorem per_D {K K' : ℕ} {d : Fin 3} (hd : d ≠ 2) {σ : List (ℝ → ℝ → ℝ)} (h : TensorForm (fun _ => IsTrig K) (fun _ => IsTrig K') d σ) (t : Bool) :
    ∃ a b, (product (Periodic.make n) (Periodic.make n')).P d t σ = .ok a ∧ (product (Periodic.make n) (Periodic.make n')).D d t a = .ok b ∧
      (product (Periodic.make n) (Periodic.make n')).P (d + 1) t (dForm d σ) = .ok b := by
  rcases TensorForm.cases h with ⟨rfl, f, rfl, hf⟩ | ⟨rfl, f, g, rfl, hf, hg⟩ | ⟨rfl, f, rfl, hf⟩
  · exact per_D0 hn hn' hf t
  · exact per_D1 hn hn' hf hg t
  · exact absurd rfl hd

/-! ## Every form is the projection of its interpolant -/

/-- The value of a projection in a position. -/
noncomputable def ev (g : Grid1) (d : Fin 2) (t : Bool) (i : ℕ) (f : ℝ → ℝ) : ℝ := if d = 0 then f (vx g t i) else ∫ x in (lo g t i)..(hi g t i), f x

omit hn hn' in
theorem ev_eq {g : Grid1} (h : Factor g) (d : Fin 2) (t : Bool) (f : ℝ → ℝ) : g.P d t f = tab (g.N d t) fun i => ev g d t i f := by
  obtain rfl | rfl : d = 0 ∨ d = 1 := by omega
  · exact P0_tab h t f
  · exact P1_tab h t f

omit hn hn' in
theorem ev_sum (g : Grid1) (d : Fin 2) (t : Bool) (i : ℕ) {m : ℕ} {a : ℕ → ℝ → ℝ} (ha : ∀ k < m, Continuous (a k)) (c : ℕ → ℝ) :
    ev g d t i (fun x => ∑ k ∈ range m, a k x * c k) = ∑ k ∈ range m, ev g d t i (a k) * c k := by
  unfold ev
  split_ifs
  · rfl
  · exact Tensor.integral_eq ha c _ _

omit hn' in
theorem ev_surj (d : Fin 2) (t : Bool) (x : ℕ → ℝ) : ∃ p, Res n (ph n d t) p ∧ ∀ i < n, ev (Periodic.make n) d t i p = x i := by
  have hx : Factor (Periodic.make n) := grid_factor .periodic n hn 0 (2 * π)
  obtain ⟨p, -, h2, h3⟩ := exists_rep (n := n) d t (a := tab n x) (by simp)
  refine ⟨p, h2, fun i hi => ?_⟩
  rw [ev_eq hx] at h3
  have := congrArg (·.getD i 0) h3
  rw [getD_tab hi, getD_tab (show i < (Periodic.make n).N d t from hi)] at this
  exact this.symm

/-- Every array is the array of the projections of a tensor of interpolants. -/
theorem ev2_surj (d d' : Fin 2) (t : Bool) (F : ℕ → ℕ → ℝ) : ∃ f, Tensor (Res n (ph n d t)) (Res n' (ph n' d' t)) f ∧
    ∀ j < n', ∀ i < n, ev (Periodic.make n) d t i (fun x => ev (Periodic.make n') d' t j fun y => f x y) = F j i := by
  choose p hp1 hp2 using fun j => ev_surj (n := n) hn d t (F j)
  choose q hq1 hq2 using fun j => ev_surj (n := n') hn' d' t fun j' => if j' = j then 1 else 0
  refine ⟨fun x y => ∑ k ∈ range n', p k x * q k y, ⟨n', p, q, fun k _ => ⟨hp1 k, hq1 k⟩, fun _ _ => rfl⟩, fun j hj i hi => ?_⟩
  have e1 : ∀ x, ev (Periodic.make n') d' t j (fun y => ∑ k ∈ range n', p k x * q k y) = p j x := fun x => by
    simp only [mul_comm (p _ x)]
    rw [ev_sum _ _ _ _ (fun k _ => (hq1 k).continuous) fun k => p k x]
    rw [sum_eq_single j]
    · rw [hq2 j j hj, if_pos rfl, one_mul]
    · intro k _ hk
      rw [hq2 k j hj, if_neg hk.symm, zero_mul]
    · intro h; exact absurd (mem_range.2 hj) h
  simp only [e1]
  exact hp2 j i hi

theorem exists_form (d : Fin 3) (t : Bool) (a : List ℝ) (ha : a.length = count (Periodic.make n) (Periodic.make n') d t) :
    ∃ σ, TensorForm (fun d => Res n (ph n d t)) (fun d => Res n' (ph n' d t)) d σ ∧ (product (Periodic.make n) (Periodic.make n')).P d t σ = .ok a := by
  have hx : Factor (Periodic.make n) := grid_factor .periodic n hn 0 (2 * π)
  have hy : Factor (Periodic.make n') := grid_factor .periodic n' hn' 0 (2 * π)
  have hN : ∀ m d t, (Periodic.make m).N d t = m := fun _ _ _ => rfl
  obtain rfl | rfl | rfl : d = 0 ∨ d = 1 ∨ d = 2 := by omega
  · obtain ⟨F, rfl⟩ := flat0 (f := a) (r := (Periodic.make n').N 0 t) (c := (Periodic.make n).N 0 t) ha
    obtain ⟨f, h1, h2⟩ := ev2_surj hn hn' 0 0 t F
    refine ⟨[f], h1, ?_⟩
    rw [P0_mtab hx hy]
    exact congrArg _ (congrArg Arr.data (mtab_congr fun j hj i hi => h2 j hj i hi))
  · obtain ⟨F, G, rfl⟩ := flat1 (f := a) (r := (Periodic.make n').N 0 t) (c := (Periodic.make n).N 1 t) (r' := (Periodic.make n').N 1 t) (c' := (Periodic.make n).N 0 t) ha
    obtain ⟨f, h1, h2⟩ := ev2_surj hn hn' 1 0 t F
    obtain ⟨g, h3, h4⟩ := ev2_surj hn hn' 0 1 t G
    refine ⟨[f, g], ⟨h1, h3⟩, ?_⟩
    rw [P1_mtab hx hy]
    exact congrArg _ (congrArg₂ (· ++ ·) (congrArg Arr.data (mtab_congr fun j hj i hi => h2 j hj i hi)) (congrArg Arr.data (mtab_congr fun j hj i hi => h4 j hj i hi)))
  · obtain ⟨F, rfl⟩ := flat0 (f := a) (r := (Periodic.make n').N 1 t) (c := (Periodic.make n).N 1 t) ha
    obtain ⟨f, h1, h2⟩ := ev2_surj hn hn' 1 1 t F
    refine ⟨[f], h1, ?_⟩
    rw [P2_mtab hx hy]
    exact congrArg _ (congrArg Arr.data (mtab_congr fun j hj i hi => h2 j hj i hi))

/-! ## Linearity of the projection -/

/-- `σ + c τ`. -/
def comb (c : ℝ) (σ τ : List (ℝ → ℝ → ℝ)) : List (ℝ → ℝ → ℝ) := List.zipWith (fun f g x y => f x y + c * g x y) σ τ

omit hn hn' in
theorem P_comb {gx gy : Grid1} (hx : Factor gx) (hy : Factor gy) {V W : Fin 2 → (ℝ → ℝ) → Prop} (sV : ∀ d, FnSpace (V d)) (sW : ∀ d, FnSpace (W d))
    {d : Fin 3} (t : Bool) {σ τ : List (ℝ → ℝ → ℝ)} (hσ : TensorForm V W d σ) (hτ : TensorForm V W d τ) (c : ℝ) {x y : List ℝ}
    (h1 : (product gx gy).P d t σ = .ok x) (h2 : (product gx gy).P d t τ = .ok y) :
    (product gx gy).P d t (comb c σ τ) = .ok (vadd x (y.map (c • ·))) := by
  have int : ∀ {f g : ℝ → ℝ} (hf : Continuous f) (hg : Continuous g) (u v : ℝ), ∫ s in u..v, (f s + c * g s) = (∫ s in u..v, f s) + c * ∫ s in u..v, g s := by
    intro f g hf hg u v
    have hcg : Continuous fun s => c * g s := continuous_const.mul hg
    rw [intervalIntegral.integral_add (hf.intervalIntegrable _ _) (hcg.intervalIntegrable _ _), intervalIntegral.integral_const_mul]
  rcases TensorForm.cases hσ with ⟨rfl, f, rfl, hf⟩ | ⟨rfl, f, g, rfl, hf, hg⟩ | ⟨rfl, f, rfl, hf⟩
  · rcases TensorForm.cases hτ with ⟨-, f', rfl, hf'⟩ | ⟨h, _⟩ | ⟨h, _⟩
    rotate_left
    · cases h
    · cases h
    rw [P0_mtab hx hy] at h1 h2
    rw [← Except.ok.inj h1, ← Except.ok.inj h2, ← smul_mtab, ← vadd_mtab]
    exact P0_mtab hx hy t _
  · rcases TensorForm.cases hτ with ⟨h, _⟩ | ⟨-, f', g', rfl, hf', hg'⟩ | ⟨h, _⟩
    · cases h
    rotate_left
    · cases h
    rw [P1_mtab hx hy] at h1 h2
    rw [← Except.ok.inj h1, ← Except.ok.inj h2, List.map_append]
    unfold vadd
    rw [List.zipWith_append (by rw [List.length_map, length_data, length_data])]
    refine (P1_mtab hx hy t _ _).trans (congrArg _ (congrArg₂ (· ++ ·) ?_ ?_))
    · rw [← smul_mtab]; refine Eq.trans ?_ (vadd_mtab _ _ _ _)
      refine congrArg Arr.data (mtab_congr fun j _ i _ => ?_)
      exact int ((sV 1).cont _ (hf.row (sV 1) _)) ((sV 1).cont _ (hf'.row (sV 1) _)) _ _
    · rw [← smul_mtab]; refine Eq.trans ?_ (vadd_mtab _ _ _ _)
      refine congrArg Arr.data (mtab_congr fun j _ i _ => ?_)
      exact int ((sW 1).cont _ (hg.col (sW 1) _)) ((sW 1).cont _ (hg'.col (sW 1) _)) _ _
  · rcases TensorForm.cases hτ with ⟨h, _⟩ | ⟨h, _⟩ | ⟨-, f', rfl, hf'⟩
    · cases h
    · cases h
    rw [P2_mtab hx hy] at h1 h2
    rw [← Except.ok.inj h1, ← Except.ok.inj h2, ← smul_mtab, ← vadd_mtab]
    refine (P2_mtab hx hy t _).trans (congrArg _ (congrArg Arr.data (mtab_congr fun j _ i _ => ?_)))
    unfold Integrate.P2r
    simp only [fun x => int ((sW 1).cont _ (hf.col (sW 1) x)) ((sW 1).cont _ (hf'.col (sW 1) x))]
    exact int ((sV 1).cont _ (hf.inty (sV 1) (sW 1) _ _)) ((sV 1).cont _ (hf'.inty (sV 1) (sW 1) _ _)) _ _

omit hn hn' in
/-- The Leibniz rule for smooth forms in the plane. -/
theorem dForm_wedge {K K' : ℕ} {d₀ d₁ : Fin 3} (hd : d₀.val + d₁.val ≤ 1) {α β : List (ℝ → ℝ → ℝ)}
    (hα : TensorForm (fun _ => IsTrig K) (fun _ => IsTrig K') d₀ α) (hβ : TensorForm (fun _ => IsTrig K) (fun _ => IsTrig K') d₁ β) :
    dForm (d₀.val + d₁.val) (wedgeForm d₀ d₁ α β) = comb ((-1) ^ d₀.val) (wedgeForm (d₀.val + 1) d₁ (dForm d₀ α) β) (wedgeForm d₀ (d₁.val + 1) α (dForm d₁ β)) := by
  have mx : ∀ {f g : ℝ → ℝ → ℝ}, Smooth2 f → Smooth2 g → ∀ x y, dX (fun x y => f x y * g x y) x y = dX f x y * g x y + f x y * dX g x y :=
    fun hf hg x y => ((hf.dX x y).mul (hg.dX x y)).deriv
  have my : ∀ {f g : ℝ → ℝ → ℝ}, Smooth2 f → Smooth2 g → ∀ x y, dY (fun x y => f x y * g x y) x y = dY f x y * g x y + f x y * dY g x y :=
    fun hf hg x y => ((hf.dY x y).mul (hg.dY x y)).deriv
  rcases TensorForm.cases hα with ⟨rfl, f, rfl, hf⟩ | ⟨rfl, f, g, rfl, hf, hg⟩ | ⟨rfl, f, rfl, hf⟩
  · rcases TensorForm.cases hβ with ⟨rfl, f', rfl, hf'⟩ | ⟨rfl, f', g', rfl, hf', hg'⟩ | ⟨rfl, f', rfl, hf'⟩
    · have h1 := tensor_smooth hf
      have h2 := tensor_smooth hf'
      show [_, _] = [_, _]
      refine congrArg₂ (fun u v => [u, v]) ?_ ?_ <;> funext x y
      · rw [mx h1 h2]; simp
      · rw [my h1 h2]; simp
    · have h1 := tensor_smooth hf
      have h2 := tensor_smooth hf'
      have h3 := tensor_smooth hg'
      show [_] = [_]
      refine congrArg (fun u => [u]) ?_
      funext x y
      rw [mx h1 h3, my h1 h2]; simp; ring
    · exact absurd hd (by decide)
  · rcases TensorForm.cases hβ with ⟨rfl, f', rfl, hf'⟩ | ⟨rfl, f', g', rfl, hf', hg'⟩ | ⟨rfl, f', rfl, hf'⟩
    · have h1 := tensor_smooth hf
      have h2 := tensor_smooth hg
      have h3 := tensor_smooth hf'
      show [_] = [_]
      refine congrArg (fun u => [u]) ?_
      funext x y
      rw [mx h2 h3, my h1 h3]; simp; ring
    · exact absurd hd (by decide)
    · exact absurd hd (by decide)
  · exact absurd hd (by show ¬ (2 + d₁.val ≤ 1); omega)

end Dec.G2
