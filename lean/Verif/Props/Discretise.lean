import Verif.Model.Discretise
import Verif.Props.DecformOps
import Verif.Props.Grid2Commute
import Verif.Props.Grid2Exact
import Verif.Props.Derivative
import Verif.Props.Wedge

set_option linter.unusedSimpArgs false
set_option linter.unusedVariables false

/-! # C66: discretising a symbolic form commutes with the operators -/

namespace Dec.Props

open Finset Real G2 Decform Discretise

/-! ## Two dimensions -/

/-- The function of two variables that an expression denotes. -/
noncomputable def fn2 (c : Smooth) : ℝ → ℝ → ℝ := fun x y => c.1 (x, y)

theorem fn2_smooth (c : Smooth) : Smooth2 (fn2 c) := by
  have h : ContDiff ℝ (⊤ : ℕ∞) c.1 := c.2
  exact h.of_le (by exact_mod_cast le_top)

theorem fn2_dx (c : Smooth) : dX (fn2 c) = fn2 (Smooth.dx c) := by
  funext x y; exact (fn2_smooth c).dX_eq x y
theorem fn2_dy (c : Smooth) : dY (fn2 c) = fn2 (Smooth.dy c) := by
  funext x y; exact (fn2_smooth c).dY_eq x y

theorem fn2_curl (u v : Smooth) : (fun x y => dX (fn2 v) x y - dY (fn2 u) x y) = fn2 (-Smooth.dy u + Smooth.dx v) := by
  rw [fn2_dx, fn2_dy]; funext x y
  show _ = -(Smooth.dy u).1 (x, y) + (Smooth.dx v).1 (x, y)
  unfold fn2; ring

/-- On a periodic axis, the components are periodic along this axis. -/
def PeriodicForm (k k' : Kind) (a b a' b' : ℝ) (f : Sym.Form Smooth) : Prop :=
  ∀ c ∈ fns2 f, PeriodicX k a b c ∧ PeriodicY k' a' b' c

theorem disc2 (g : Grid2) (addr : ℕ) (d : Fin 3) (i : ℕ) (c : List Smooth) (t : Bool) {u : List ℝ} (hu : g.P d t (c.map fn2) = .ok u) :
    to_discrete2 g addr ⟨d.val, ⟨i, 2⟩, c⟩ t = .ok ⟨d.val, t, addr, u⟩ := by
  unfold to_discrete2 P2
  rw [if_neg (by simp), key_ok d.2]
  simp only [Bind.bind, Except.bind]
  have : fns2 (⟨d.val, ⟨i, 2⟩, c⟩ : Sym.Form Smooth) = c.map fn2 := rfl
  rw [this, Fin.eta, hu]

theorem bc2 (g : Grid2) (addr : ℕ) (d e : Fin 3) (he : e.val = d.val + 1) (i : ℕ) (c : List Smooth) {u : List ℝ} (hu : g.BC e (c.map fn2) = .ok u) :
    BC2 g addr ⟨d.val, ⟨i, 2⟩, c⟩ = .ok ⟨d.val + 1, false, addr, u⟩ := by
  unfold BC2
  have h3 : d.val + 1 < 3 := by omega
  rw [key_ok h3]
  simp only [Bind.bind, Except.bind]
  have : fns2 (⟨d.val, ⟨i, 2⟩, c⟩ : Sym.Form Smooth) = c.map fn2 := rfl
  rw [this, show (⟨d.val + 1, h3⟩ : Fin 3) = e from Fin.ext he.symm, hu]

section
variable {h : Heap} {addr : ℕ} {g : Grid2} (hg : h addr = ops2 g)
include hg

theorem dec_D2 (d : Fin 3) (t : Bool) (u v : List ℝ) (hv : g.D d t u = .ok v) :
    Decform.D h ⟨d.val, t, addr, u⟩ = .ok (some ⟨d.val + 1, t, addr, v⟩) := by
  unfold Decform.D
  simp only [hg, ops2, key_ok d.2, Fin.eta, hv, Bind.bind, Except.bind]

theorem dec_H2 (d : Fin 3) (t : Bool) (u v : List ℝ) (hv : g.H d t u = .ok v) :
    Decform.H h ⟨d.val, t, addr, u⟩ = .ok ⟨2 - d.val, !t, addr, v⟩ := by
  unfold Decform.H
  simp only [hg, ops2, key_ok d.2, Fin.eta, hv, Bind.bind, Except.bind]

theorem dec_W2 (d e : Fin 3) (s t r : Bool) (u v w : List ℝ) (hv : g.wedge d s e t r u v = .ok w) :
    Decform.W h ⟨d.val, s, addr, u⟩ ⟨e.val, t, addr, v⟩ r = .ok ⟨d.val + e.val, r, addr, w⟩ := by
  unfold Decform.W
  rw [if_neg (by simp)]
  simp only [hg, ops2, key_ok d.2, key_ok e.2, Fin.eta, hv, Bind.bind, Except.bind]

theorem dec_C2 (e : Fin 3) (s t r : Bool) (u v w : List ℝ) (hv : g.contraction s e t r u v = .ok w) :
    Decform.C h ⟨1, s, addr, u⟩ ⟨e.val, t, addr, v⟩ r = .ok ⟨e.val - 1, r, addr, w⟩ := by
  unfold Decform.C
  rw [if_neg (by simp)]
  simp only [hg, ops2, key_ok e.2, Fin.eta, hv, Bind.bind, Except.bind]
end

theorem bind_ok {α β : Type} {x : Except Err α} {f : α → Except Err β} {b : β} (h : (x >>= f) = .ok b) : ∃ a, x = .ok a ∧ f a = .ok b := by
  cases x with
  | error e => cases h
  | ok a => exact ⟨a, rfl, h⟩

section
variable (h : Heap) (addr : ℕ) (k k' : Kind) (n n' : ℕ) (hn : validSize k n) (hn' : validSize k' n') (a b a' b' : ℝ) (hab : a < b) (hab' : a' < b')
  (hg : h addr = ops2 (product (grid k n a b) (grid k' n' a' b')))
include hn hn' hab hab' hg

/-- **C66**, two dimensions, primal forms: `f.P(g, True).D` is `f.D.P(g, True)`, for every symbolic form of degree 0 or 1. -/
theorem C66_2d_derivative_primal (f : Sym.Form Smooth) (hf : IsForm f) (hdim : f.grid.dim = 2) (hdeg : f.degree < 2) (hp : PeriodicForm k k' a b a' b' f) :
    ∃ df x y, Sym.D Smooth.dx Smooth.dy (.form f) = .ok (.form df) ∧
      to_discrete2 (product (grid k n a b) (grid k' n' a' b')) addr f true = .ok x ∧ Decform.D h x = .ok (some y) ∧
      to_discrete2 (product (grid k n a b) (grid k' n' a' b')) addr df true = .ok y := by
  have hx := grid_factor k n hn a b
  have hy := grid_factor k' n' hn' a' b'
  rcases hf.cases with ⟨i, c, rfl⟩ | ⟨i, c, rfl⟩ | ⟨i, c, rfl⟩ | ⟨i, c, e, rfl⟩ | ⟨i, c, rfl⟩
  · simp at hdim
  · simp at hdim
  · have hc := hp (fn2 c) (List.mem_cons_self ..)
    have key := C27_primal_0 k k' n n' hn hn' a b a' b' hab hab' (fn2 c) (fn2_smooth c) hc.1 hc.2
    rw [fn2_dx, fn2_dy] at key
    obtain ⟨v, hv⟩ : ∃ v, (product (grid k n a b) (grid k' n' a' b')).P 1 true [fn2 (Smooth.dx c), fn2 (Smooth.dy c)] = .ok v := ⟨_, P1_mtab hx hy ..⟩
    obtain ⟨u, h1, h2⟩ := bind_ok (key.trans hv)
    exact ⟨⟨1, ⟨i, 2⟩, [Smooth.dx c, Smooth.dy c]⟩, _, _, by sym_simp, disc2 _ addr 0 i [c] true h1, dec_D2 hg 0 true _ _ h2, disc2 _ addr 1 i [Smooth.dx c, Smooth.dy c] true hv⟩
  · have hc := hp (fn2 c) (List.mem_cons_self ..)
    have he := hp (fn2 e) (List.mem_cons_of_mem _ (List.mem_cons_self ..))
    have key := C27_primal_1 k k' n n' hn hn' a b a' b' hab hab' (fn2 c) (fn2 e) (fn2_smooth c) (fn2_smooth e) he.1 hc.2
    rw [fn2_curl] at key
    obtain ⟨v, hv⟩ : ∃ v, (product (grid k n a b) (grid k' n' a' b')).P 2 true [fn2 (-Smooth.dy c + Smooth.dx e)] = .ok v := ⟨_, P2_mtab hx hy ..⟩
    obtain ⟨u, h1, h2⟩ := bind_ok (key.trans hv)
    exact ⟨⟨2, ⟨i, 2⟩, [-Smooth.dy c + Smooth.dx e]⟩, _, _, by sym_simp, disc2 _ addr 1 i [c, e] true h1, dec_D2 hg 1 true _ _ h2,
      disc2 _ addr 2 i [-Smooth.dy c + Smooth.dx e] true hv⟩
  · simp at hdeg

/-- **C66**, two dimensions, dual forms: `f.P(g, False).D + g.BC(f)` is `f.D.P(g, False)`, for every symbolic form of degree 0 or 1. -/
theorem C66_2d_derivative_dual (f : Sym.Form Smooth) (hf : IsForm f) (hdim : f.grid.dim = 2) (hdeg : f.degree < 2) (hp : PeriodicForm k k' a b a' b' f) :
    ∃ df x y z w, Sym.D Smooth.dx Smooth.dy (.form f) = .ok (.form df) ∧
      to_discrete2 (product (grid k n a b) (grid k' n' a' b')) addr f false = .ok x ∧ Decform.D h x = .ok (some y) ∧
      BC2 (product (grid k n a b) (grid k' n' a' b')) addr f = .ok z ∧ binary .add y (.form z) = .ok w ∧
      to_discrete2 (product (grid k n a b) (grid k' n' a' b')) addr df false = .ok w := by
  have add : ∀ (d : ℕ) (u v : List ℝ), u.length = v.length → binary .add ⟨d, false, addr, u⟩ (.form ⟨d, false, addr, v⟩) = .ok ⟨d, false, addr, vadd u v⟩ := by
    intro d u v huv
    simp only [binary, ne_eq, not_true_eq_false, if_false, bop, if_pos huv, Bind.bind, Except.bind]
    rfl
  rcases hf.cases with ⟨i, c, rfl⟩ | ⟨i, c, rfl⟩ | ⟨i, c, rfl⟩ | ⟨i, c, e, rfl⟩ | ⟨i, c, rfl⟩
  · simp at hdim
  · simp at hdim
  · have hc := hp (fn2 c) (List.mem_cons_self ..)
    obtain ⟨u, v, h1, h2, h3, h4⟩ := C27_dual_0 k k' n n' hn hn' a b a' b' hab hab' (fn2 c) (fn2_smooth c) hc.1 hc.2
    rw [fn2_dx, fn2_dy] at h3
    obtain ⟨p, hp1, hp2⟩ := bind_ok h1
    exact ⟨⟨1, ⟨i, 2⟩, [Smooth.dx c, Smooth.dy c]⟩, _, _, _, _, by sym_simp, disc2 _ addr 0 i [c] false hp1, dec_D2 hg 0 false _ _ hp2,
      bc2 _ addr 0 1 rfl i [c] h2, add 1 _ _ h4, disc2 _ addr 1 i [Smooth.dx c, Smooth.dy c] false h3⟩
  · have hc := hp (fn2 c) (List.mem_cons_self ..)
    have he := hp (fn2 e) (List.mem_cons_of_mem _ (List.mem_cons_self ..))
    obtain ⟨u, v, h1, h2, h3, h4⟩ := C27_dual_1 k k' n n' hn hn' a b a' b' hab hab' (fn2 c) (fn2 e) (fn2_smooth c) (fn2_smooth e) he.1 hc.2
    rw [fn2_curl] at h3
    obtain ⟨p, hp1, hp2⟩ := bind_ok h1
    exact ⟨⟨2, ⟨i, 2⟩, [-Smooth.dy c + Smooth.dx e]⟩, _, _, _, _, by sym_simp, disc2 _ addr 1 i [c, e] false hp1, dec_D2 hg 1 false _ _ hp2,
      bc2 _ addr 1 2 rfl i [c, e] h2, add 2 _ _ h4, disc2 _ addr 2 i [-Smooth.dy c + Smooth.dx e] false h3⟩
  · simp at hdeg
end

theorem same {v : Except Err (Sym.Val Smooth)} {f g : Sym.Form Smooth} (hf : v = .ok (.form f)) (hg : v = .ok (.form g)) : f = g := by
  rw [hf] at hg; injection hg with hg; injection hg

section
variable (h : Heap) (addr : ℕ) {k k' : Kind} {n n' : ℕ} (hg : h addr = ops2 (product (grid₀ k n) (grid₀ k' n')))

/-- A symbolic form with resolved components. -/
def ResolvedForm (k k' : Kind) (n n' : ℕ) (t : Bool) (f : Sym.Form Smooth) : Prop :=
  TensorForm (fun d => Resolved k ((grid₀ k n).N d t)) (fun d => Resolved k' ((grid₀ k' n').N d t)) (Fin.ofNat 3 f.degree) (fns2 f)

include hg

/-- **C66**, two dimensions: `f.P(g, t).H` is `f.H.P(g, not t)`, for every resolved symbolic form. -/
theorem C66_2d_hodge (hn : validSize k n) (hn' : validSize k' n') (h9 : k = .chebyshev → n ≤ 927) (h9' : k' = .chebyshev → n' ≤ 927) (t : Bool)
    (f : Sym.Form Smooth) (hf : IsForm f) (hdim : f.grid.dim = 2) (hr : ResolvedForm k k' n n' t f) :
    ∃ sf x y, Sym.H (.form f) = .ok (.form sf) ∧ to_discrete2 (product (grid₀ k n) (grid₀ k' n')) addr f t = .ok x ∧ Decform.H h x = .ok y ∧
      to_discrete2 (product (grid₀ k n) (grid₀ k' n')) addr sf (!t) = .ok y := by
  rcases hf.cases with ⟨i, c, rfl⟩ | ⟨i, c, rfl⟩ | ⟨i, c, rfl⟩ | ⟨i, c, e, rfl⟩ | ⟨i, c, rfl⟩
  · simp at hdim
  · simp at hdim
  · obtain ⟨u, v, h1, h2, h3⟩ := (C58_hodge_exact k k' n n' hn hn' h9 h9' t (fn2 c) (fn2 c)).1 hr
    exact ⟨⟨2, ⟨i, 2⟩, [c]⟩, _, _, by sym_simp, disc2 _ addr 0 i [c] t h1, dec_H2 hg 0 t _ _ h2, disc2 _ addr 2 i [c] (!t) h3⟩
  · obtain ⟨r1, r2⟩ : Tensor _ _ (fn2 c) ∧ Tensor _ _ (fn2 e) := hr
    obtain ⟨u, v, h1, h2, h3⟩ := (C58_hodge_exact k k' n n' hn hn' h9 h9' t (fn2 c) (fn2 e)).2.1 r1 r2
    exact ⟨⟨1, ⟨i, 2⟩, [-e, c]⟩, _, _, by sym_simp, disc2 _ addr 1 i [c, e] t h1, dec_H2 hg 1 t _ _ h2, disc2 _ addr 1 i [-e, c] (!t) h3⟩
  · obtain ⟨u, v, h1, h2, h3⟩ := (C58_hodge_exact k k' n n' hn hn' h9 h9' t (fn2 c) (fn2 c)).2.2 hr
    exact ⟨⟨0, ⟨i, 2⟩, [c]⟩, _, _, by sym_simp, disc2 _ addr 2 i [c] t h1, dec_H2 hg 2 t _ _ h2, disc2 _ addr 0 i [c] (!t) h3⟩

/-- **C66**, two dimensions: `α.P(g, s).W(β.P(g, t), toprimal=u)` is `(α ^ β).P(g, u)`, for resolved symbolic forms whose product can be unrefined. -/
theorem C66_2d_wedge (hk : Refinable k n) (hk' : Refinable k' n') (s t u : Bool) (α β αβ : Sym.Form Smooth) (hα : IsForm α) (hβ : IsForm β)
    (hdim : α.grid.dim = 2) (hαβ : Sym.W (.form α) (.form β) = .ok (.form αβ)) (ra : ResolvedForm k k' n n' s α) (rb : ResolvedForm k k' n n' t β)
    (hp : TensorForm (Unrefined k n) (Unrefined k' n') (Fin.ofNat 3 αβ.degree) (fns2 αβ)) :
    ∃ x y z, to_discrete2 (product (grid₀ k n) (grid₀ k' n')) addr α s = .ok x ∧ to_discrete2 (product (grid₀ k n) (grid₀ k' n')) addr β t = .ok y ∧
      Decform.W h x y u = .ok z ∧ to_discrete2 (product (grid₀ k n) (grid₀ k' n')) addr αβ u = .ok z := by
  have main : ∀ (d₀ d₁ : Fin 3) (i : ℕ) (c e m : List Smooth), d₀.val + d₁.val ≤ 2 → α = ⟨d₀.val, ⟨i, 2⟩, c⟩ → β = ⟨d₁.val, ⟨i, 2⟩, e⟩ →
      αβ = ⟨(Fin.ofNat 3 (d₀.val + d₁.val)).val, ⟨i, 2⟩, m⟩ → wedgeForm d₀ d₁ (c.map fn2) (e.map fn2) = m.map fn2 →
      ∃ x y z, to_discrete2 (product (grid₀ k n) (grid₀ k' n')) addr α s = .ok x ∧ to_discrete2 (product (grid₀ k n) (grid₀ k' n')) addr β t = .ok y ∧
        Decform.W h x y u = .ok z ∧ to_discrete2 (product (grid₀ k n) (grid₀ k' n')) addr αβ u = .ok z := by
    rintro d₀ d₁ i c e m hd rfl rfl rfl hm
    have e0 : ∀ d : Fin 3, Fin.ofNat 3 d.val = d := fun d => Fin.ext (Nat.mod_eq_of_lt d.2)
    have ra' := ra; have rb' := rb; have hp' := hp
    unfold ResolvedForm at ra' rb'
    simp only [e0] at ra' rb' hp'
    obtain ⟨A, B, E, h1, h2, h3, h4⟩ := C60_wedge_exact hk hk' d₀ d₁ hd s t u (c.map fn2) (e.map fn2) ra' rb' (fun _ => by rw [hm]; exact hp')
    rw [hm] at h4
    refine ⟨_, _, _, disc2 _ addr d₀ i c s h1, disc2 _ addr d₁ i e t h2, dec_W2 hg d₀ d₁ s t u _ _ _ h3, ?_⟩
    have := disc2 _ addr _ i m u h4
    rw [this, show (Fin.ofNat 3 (d₀.val + d₁.val)).val = d₀.val + d₁.val from Nat.mod_eq_of_lt (by omega)]
  rcases hα.cases with ⟨i, c, rfl⟩ | ⟨i, c, rfl⟩ | ⟨i, c, rfl⟩ | ⟨i, c, c', rfl⟩ | ⟨i, c, rfl⟩
  · simp at hdim
  · simp at hdim
  all_goals rcases hβ.cases with ⟨j, e, rfl⟩ | ⟨j, e, rfl⟩ | ⟨j, e, rfl⟩ | ⟨j, e, e', rfl⟩ | ⟨j, e, rfl⟩
  all_goals have hij : i = j := by (by_contra hne; simp [Sym.W, Sym.Form.W, hne] at hαβ)
  all_goals subst hij
  all_goals try (simp [Sym.W, Sym.Form.W, Sym.Chart.W, Sym.wedge_2d, Sym.antisymmetrize, Sym.wedge_2d_base] at hαβ; done)
  · exact main 0 0 i [c] [e] [c * e] (by decide) rfl rfl (same hαβ (by sym_simp)) rfl
  · exact main 0 1 i [c] [e, e'] [c * e, c * e'] (by decide) rfl rfl (same hαβ (by sym_simp)) rfl
  · exact main 0 2 i [c] [e] [c * e] (by decide) rfl rfl (same hαβ (by sym_simp)) rfl
  · exact main 1 0 i [c, c'] [e] [e * c, e * c'] (by decide) rfl rfl (same hαβ (by sym_simp)) (by
      show [_, _] = [_, _]
      congr 1
      · funext x y; exact mul_comm _ _
      · congr 1; funext x y; exact mul_comm _ _)
  · exact main 1 1 i [c, c'] [e, e'] [c * e' - c' * e] (by decide) rfl rfl (same hαβ (by sym_simp)) rfl
  · exact main 2 0 i [c] [e] [e * c] (by decide) rfl rfl (same hαβ (by sym_simp)) (by
      show [_] = [_]
      congr 1
      funext x y; exact mul_comm _ _)

/-- **C66**, two dimensions: `X.P(g, s).C(β.P(g, t), toprimal=u)` is `X.C(β).P(g, u)`. -/
theorem C66_2d_contraction (hk : Refinable k n) (hk' : Refinable k' n') (s t u : Bool) (X β Xβ : Sym.Form Smooth) (hX : IsForm X) (hβ : IsForm β)
    (hdim : X.grid.dim = 2) (hXβ : Sym.C (.form X) (.form β) = .ok (.form Xβ)) (ra : ResolvedForm k k' n n' s X) (rb : ResolvedForm k k' n n' t β)
    (hp : TensorForm (Unrefined k n) (Unrefined k' n') (Fin.ofNat 3 Xβ.degree) (fns2 Xβ)) :
    ∃ x y z, to_discrete2 (product (grid₀ k n) (grid₀ k' n')) addr X s = .ok x ∧ to_discrete2 (product (grid₀ k n) (grid₀ k' n')) addr β t = .ok y ∧
      Decform.C h x y u = .ok z ∧ to_discrete2 (product (grid₀ k n) (grid₀ k' n')) addr Xβ u = .ok z := by
  have main : ∀ (d : Fin 3) (i : ℕ) (c e m : List Smooth), d ≠ 0 → X = ⟨1, ⟨i, 2⟩, c⟩ → β = ⟨d.val, ⟨i, 2⟩, e⟩ →
      Xβ = ⟨(d - 1).val, ⟨i, 2⟩, m⟩ → contractForm d (c.map fn2) (e.map fn2) = m.map fn2 →
      ∃ x y z, to_discrete2 (product (grid₀ k n) (grid₀ k' n')) addr X s = .ok x ∧ to_discrete2 (product (grid₀ k n) (grid₀ k' n')) addr β t = .ok y ∧
        Decform.C h x y u = .ok z ∧ to_discrete2 (product (grid₀ k n) (grid₀ k' n')) addr Xβ u = .ok z := by
    rintro d i c e m hd rfl rfl rfl hm
    have e0 : ∀ d : Fin 3, Fin.ofNat 3 d.val = d := fun d => Fin.ext (Nat.mod_eq_of_lt d.2)
    have ra' := ra; have rb' := rb; have hp' := hp
    unfold ResolvedForm at ra' rb'
    simp only [e0] at ra' rb' hp'
    obtain ⟨A, B, E, h1, h2, h3, h4⟩ := C61_contraction_exact hk hk' d hd s t u (c.map fn2) (e.map fn2) ra' rb' (by rw [hm]; exact hp')
    rw [hm] at h4
    refine ⟨_, _, _, disc2 _ addr 1 i c s h1, disc2 _ addr d i e t h2, dec_C2 hg d s t u _ _ _ h3, ?_⟩
    have := disc2 _ addr _ i m u h4
    rw [this, (by decide : ∀ d : Fin 3, d ≠ 0 → (d - 1).val = d.val - 1) d hd]
  rcases hX.cases with ⟨i, c, rfl⟩ | ⟨i, c, rfl⟩ | ⟨i, c, rfl⟩ | ⟨i, c, c', rfl⟩ | ⟨i, c, rfl⟩
  · simp at hdim
  · simp at hdim
  · simp [Sym.C, Sym.Form.C] at hXβ
  · rcases hβ.cases with ⟨j, e, rfl⟩ | ⟨j, e, rfl⟩ | ⟨j, e, rfl⟩ | ⟨j, e, e', rfl⟩ | ⟨j, e, rfl⟩
    all_goals have hij : i = j := by (by_contra hne; simp [Sym.C, Sym.Form.C, hne] at hXβ)
    all_goals subst hij
    all_goals try (simp [Sym.C, Sym.Form.C, Sym.Chart.C, Sym.contraction_2d] at hXβ; done)
    · exact main 1 i [c, c'] [e, e'] [c * e + c' * e'] (by decide) rfl rfl (same hXβ (by sym_simp)) rfl
    · exact main 2 i [c, c'] [e] [-c' * e, c * e] (by decide) rfl rfl (same hXβ (by sym_simp)) (by
        show [_, _] = [_, _]
        congr 1
        funext x y; exact (neg_mul _ _).symm)
  · simp [Sym.C, Sym.Form.C] at hXβ
end

/-! ## One dimension -/

theorem disc1 (g : Grid1) (addr : ℕ) (d : Fin 2) (i : ℕ) (c : Smooth1) (t : Bool) :
    to_discrete1 g addr true ⟨d.val, ⟨i, 1⟩, [c]⟩ t = .ok (.form ⟨d.val, t, addr, g.P d t c.1⟩) := by
  unfold to_discrete1
  rw [if_neg (by simp), key_ok d.2]
  obtain rfl | rfl : d = 0 ∨ d = 1 := by omega
  all_goals simp only [Bind.bind, Except.bind, Fin.eta]
  all_goals rfl

/-- **C66**, one dimension: where a coordinate occurs, `f.P(g, t)` is `g.P(f.degree, t, f.lambdify)`. -/
theorem C66_1d_projection (g : Grid1) (addr : ℕ) (f : Sym.Form Smooth1) (hf : IsForm f) (hdim : f.grid.dim = 1) (t : Bool) :
    ∃ (d : Fin 2) (c : Smooth1), f.degree = d.val ∧ f.comps = [c] ∧
      to_discrete1 g addr true f t = .ok (.form ⟨f.degree, t, addr, g.P d t c.1⟩) := by
  rcases hf.cases with ⟨i, c, rfl⟩ | ⟨i, c, rfl⟩ | ⟨i, c, rfl⟩ | ⟨i, c, c', rfl⟩ | ⟨i, c, rfl⟩
  · exact ⟨0, c, rfl, rfl, disc1 g addr 0 i c t⟩
  · exact ⟨1, c, rfl, rfl, disc1 g addr 1 i c t⟩
  all_goals simp at hdim

/-- **C66**, one dimension: where no coordinate occurs in the lambdified expression, `f.P(g, t)` holds one number instead of an array: `f.P` of a constant
0-form is not the projection. -/
theorem C66_1d_constant (g : Grid1) (addr : ℕ) (f : Sym.Form Smooth1) (hf : IsForm f) (hdim : f.grid.dim = 1) (t : Bool) :
    ∃ c, to_discrete1 g addr false f t = .ok (.scalar f.degree t addr c) := by
  rcases hf.cases with ⟨i, c, rfl⟩ | ⟨i, c, rfl⟩ | ⟨i, c, rfl⟩ | ⟨i, c, c', rfl⟩ | ⟨i, c, rfl⟩
  · exact ⟨_, rfl⟩
  · exact ⟨_, rfl⟩
  all_goals simp at hdim

/-- **C66**: a chart and a grid of different dimensions are rejected. -/
theorem C66_rejects (g : Grid1) (g₂ : Grid2) (addr : ℕ) (oc t : Bool) (f : Sym.Form Smooth1) (f₂ : Sym.Form Smooth) (hf : f.grid.dim ≠ 1) (hf₂ : f₂.grid.dim ≠ 2) :
    to_discrete1 g addr oc f t = .error .assertion ∧ to_discrete2 g₂ addr f₂ t = .error .assertion := ⟨if_pos hf, if_pos hf₂⟩

theorem smooth1_deriv (c : Smooth1) (s : ℝ) : HasDerivAt c.1 ((Smooth1.dx c).1 s) s := (Smooth1.diff c s).hasDerivAt
theorem smooth1_int (c : Smooth1) (a b : ℝ) : IntervalIntegrable c.1 MeasureTheory.volume a b := (Smooth1.diff c).continuous.intervalIntegrable a b

section
variable {h : Heap} {addr : ℕ} {g : Grid1} (hg : h addr = ops1 g)
include hg
theorem dec_D1 (d : Fin 2) (t : Bool) (u v : List ℝ) (hv : g.D d t u = some v) :
    Decform.D h ⟨d.val, t, addr, u⟩ = .ok (some ⟨d.val + 1, t, addr, v⟩) := by
  unfold Decform.D
  simp only [hg, ops1, key_ok d.2, Fin.eta, hv, Bind.bind, Except.bind]

theorem dec_H1 (d : Fin 2) (t : Bool) (u v : List ℝ) (hv : g.H d t u = .ok v) :
    Decform.H h ⟨d.val, t, addr, u⟩ = .ok ⟨1 - d.val, !t, addr, v⟩ := by
  unfold Decform.H
  simp only [hg, ops1, key_ok d.2, Fin.eta, hv, Bind.bind, Except.bind]

theorem dec_W1 (d e : Fin 2) (s t r : Bool) (u v w : List ℝ) (hv : g.wedge d s e t r u v = .ok w) :
    Decform.W h ⟨d.val, s, addr, u⟩ ⟨e.val, t, addr, v⟩ r = .ok ⟨d.val + e.val, r, addr, w⟩ := by
  unfold Decform.W
  rw [if_neg (by simp)]
  simp only [hg, ops1, key_ok d.2, key_ok e.2, Fin.eta, hv, Bind.bind, Except.bind]

theorem dec_C1 (e : Fin 2) (s t r : Bool) (u v w : List ℝ) (hv : g.contraction s e t r u v = .ok w) :
    Decform.C h ⟨1, s, addr, u⟩ ⟨e.val, t, addr, v⟩ r = .ok ⟨e.val - 1, r, addr, w⟩ := by
  unfold Decform.C
  rw [if_neg (by simp)]
  simp only [hg, ops1, key_ok e.2, Fin.eta, hv, Bind.bind, Except.bind]
end

/-- The derivation of the ring of expressions in one coordinate; there is no second coordinate. -/
noncomputable abbrev D1 : Sym.Val Smooth1 → Except Err (Sym.Val Smooth1) := Sym.D Smooth1.dx (fun _ => 0)

section
variable (h : Heap) (addr : ℕ) (a b : ℝ) (hab : a < b) (i : ℕ) (c : Smooth1)
include hab

/-- **C66**, one dimension, intervals: for a symbolic function `f`, `f.P(g, True).D` is `f.D.P(g, True)` and
`f.P(g, False).D + g.boundary_condition(f.lambdify)` is `f.D.P(g, False)`. -/
theorem C66_1d_derivative (k : IKind) (n : ℕ) (hn : 2 ≤ n) (hg : h addr = ops1 (intervalGrid k n a b)) :
    ∃ df, D1 (.form ⟨0, ⟨i, 1⟩, [c]⟩) = .ok (.form df) ∧
      (∃ x y, to_discrete1 (intervalGrid k n a b) addr true ⟨0, ⟨i, 1⟩, [c]⟩ true = .ok (.form x) ∧ Decform.D h x = .ok (some y) ∧
        to_discrete1 (intervalGrid k n a b) addr true df true = .ok (.form y)) ∧
      (∃ x y z, to_discrete1 (intervalGrid k n a b) addr true ⟨0, ⟨i, 1⟩, [c]⟩ false = .ok (.form x) ∧ Decform.D h x = .ok (some y) ∧
        binary .add y (.array ((intervalGrid k n a b).boundary_condition c.1)) = .ok z ∧
        to_discrete1 (intervalGrid k n a b) addr true df false = .ok (.form z)) := by
  have p1 := C07_interval k n hn a b hab c.1 (Smooth1.dx c).1 (fun s _ => smooth1_deriv c s) (smooth1_int _ _ _)
  have p2 := C08_interval k n hn a b hab c.1 (Smooth1.dx c).1 (fun s _ => smooth1_deriv c s) (smooth1_int _ _ _)
  obtain ⟨v, hv, hvl⟩ : ∃ v, (intervalGrid k n a b).D 0 false ((intervalGrid k n a b).P 0 false c.1) = some v ∧
      v.length = ((intervalGrid k n a b).boundary_condition c.1).length := by
    obtain ⟨v, w, hI, ho⟩ := exists_isInterval k hn hab
    exact ⟨_, hI.D0d _, by rw [hI.P0d, hI.boundary_condition, hI.diff_zero_pad, length_tab, length_tab]⟩
  rw [hv, Option.map_some] at p2
  injection p2 with p2
  refine ⟨⟨1, ⟨i, 1⟩, [Smooth1.dx c]⟩, by sym_simp, ⟨_, _, disc1 _ addr 0 i c true, dec_D1 hg 0 true _ _ p1, disc1 _ addr 1 i _ true⟩,
    _, _, _, disc1 _ addr 0 i c false, dec_D1 hg 0 false _ _ hv, ?_, disc1 _ addr 1 i _ false⟩
  simp only [binary, bop, if_pos hvl, Bind.bind, Except.bind]
  rw [← p2]; rfl

/-- **C66**, one dimension, periodic grids: `f.P(g, t).D` is `f.D.P(g, t)` for a function that has the period of the grid. -/
theorem C66_1d_derivative_periodic (n : ℕ) (hg : h addr = ops1 (Periodic.make n a b)) (hp : Function.Periodic c.1 (b - a)) (t : Bool) :
    ∃ df x y, D1 (.form ⟨0, ⟨i, 1⟩, [c]⟩) = .ok (.form df) ∧
      to_discrete1 (Periodic.make n a b) addr true ⟨0, ⟨i, 1⟩, [c]⟩ t = .ok (.form x) ∧ Decform.D h x = .ok (some y) ∧
      to_discrete1 (Periodic.make n a b) addr true df t = .ok (.form y) := by
  have p : (Periodic.make n a b).D 0 t ((Periodic.make n a b).P 0 t c.1) = some ((Periodic.make n a b).P 1 t (Smooth1.dx c).1) := by
    cases t
    · exact C08_periodic n a b hab c.1 _ (smooth1_deriv c) (smooth1_int _) hp
    · exact C07_periodic n a b hab c.1 _ (fun s _ => smooth1_deriv c s) (smooth1_int _ _ _) (by have := hp a; rwa [add_sub_cancel, eq_comm] at this)
  exact ⟨⟨1, ⟨i, 1⟩, [Smooth1.dx c]⟩, _, _, by sym_simp, disc1 _ addr 0 i c t, dec_D1 hg 0 t _ _ p, disc1 _ addr 1 i _ t⟩
end

section
variable (h : Heap) (addr : ℕ)

/-- **C66**, one dimension: `f.P(g, t).H` is `f.H.P(g, not t)` for every resolved symbolic form. -/
theorem C66_1d_hodge (k : Kind) (n : ℕ) (hn : validSize k n) (h9 : k = .chebyshev → n ≤ 927) (hg : h addr = ops1 (grid₀ k n)) (d : Fin 2) (t : Bool) (i : ℕ) (c : Smooth1)
    (hc : Resolved k ((grid₀ k n).N d t) c.1) :
    ∃ sf x y, Sym.H (.form ⟨d.val, ⟨i, 1⟩, [c]⟩) = .ok (.form sf) ∧ to_discrete1 (grid₀ k n) addr true ⟨d.val, ⟨i, 1⟩, [c]⟩ t = .ok (.form x) ∧
      Decform.H h x = .ok y ∧ to_discrete1 (grid₀ k n) addr true sf (!t) = .ok (.form y) := by
  have p := (grid₀_star k n hn h9).exact d t c.1 hc
  refine ⟨⟨1 - d.val, ⟨i, 1⟩, [c]⟩, _, _, ?_, disc1 _ addr d i c t, dec_H1 hg d t _ _ p, ?_⟩
  · obtain rfl | rfl : d = 0 ∨ d = 1 := by omega
    all_goals sym_simp
  · have := disc1 (grid₀ k n) addr (1 - d) i c (!t)
    rwa [(by decide : ∀ d : Fin 2, (1 - d).val = 1 - d.val) d] at this

theorem sym_W1 (d e : Fin 2) (hde : d.val + e.val ≤ 1) (i : ℕ) (c c' : Smooth1) :
    Sym.W (.form ⟨d.val, ⟨i, 1⟩, [c]⟩) (.form ⟨e.val, ⟨i, 1⟩, [c']⟩) = .ok (.form ⟨(Fin.ofNat 2 (d.val + e.val)).val, ⟨i, 1⟩, [c * c']⟩) := by
  obtain rfl | rfl : d = 0 ∨ d = 1 := by omega
  all_goals obtain rfl | rfl : e = 0 ∨ e = 1 := by omega
  · sym_simp
  · sym_simp
  · sym_simp; exact mul_comm _ _
  · simp at hde

theorem ofNat2 {d e : Fin 2} (hde : d.val + e.val ≤ 1) : (Fin.ofNat 2 (d.val + e.val)).val = d.val + e.val := Nat.mod_eq_of_lt (by omega)

/-- **C66**, one dimension, periodic grids: wedge products and contractions of resolved symbolic forms. -/
theorem C66_1d_wedge_periodic (n : ℕ) (hn : 1 ≤ n) (hg : h addr = ops1 (Periodic.make n)) (d e : Fin 2) (hde : d.val + e.val ≤ 1) (s t u : Bool) (i : ℕ)
    (c c' : Smooth1) (hc : IsTrig ((n - 1) / 2) c.1) (hc' : IsTrig ((n - 1) / 2) c'.1) :
    ∃ w x y z, Sym.W (.form ⟨d.val, ⟨i, 1⟩, [c]⟩) (.form ⟨e.val, ⟨i, 1⟩, [c']⟩) = .ok (.form w) ∧
      to_discrete1 (Periodic.make n) addr true ⟨d.val, ⟨i, 1⟩, [c]⟩ s = .ok (.form x) ∧ to_discrete1 (Periodic.make n) addr true ⟨e.val, ⟨i, 1⟩, [c']⟩ t = .ok (.form y) ∧
      Decform.W h x y u = .ok z ∧ to_discrete1 (Periodic.make n) addr true w u = .ok (.form z) := by
  have p := C21_periodic_wedge_exact n ((n - 1) / 2) ((n - 1) / 2) (by omega) (by omega) c.1 c'.1 hc hc' d e hde s t u
  refine ⟨_, _, _, _, sym_W1 d e hde i c c', disc1 _ addr d i c s, disc1 _ addr e i c' t, dec_W1 hg d e s t u _ _ _ p, ?_⟩
  have := disc1 (Periodic.make n) addr (Fin.ofNat 2 (d.val + e.val)) i (c * c') u
  rw [ofNat2 hde] at this ⊢
  exact this

theorem C66_1d_contraction_periodic (n : ℕ) (hn : 1 ≤ n) (hg : h addr = ops1 (Periodic.make n)) (s t u : Bool) (i : ℕ)
    (c c' : Smooth1) (hc : IsTrig ((n - 1) / 2) c.1) (hc' : IsTrig ((n - 1) / 2) c'.1) :
    ∃ w x y z, Sym.C (.form ⟨1, ⟨i, 1⟩, [c]⟩) (.form ⟨1, ⟨i, 1⟩, [c']⟩) = .ok (.form w) ∧
      to_discrete1 (Periodic.make n) addr true ⟨1, ⟨i, 1⟩, [c]⟩ s = .ok (.form x) ∧ to_discrete1 (Periodic.make n) addr true ⟨1, ⟨i, 1⟩, [c']⟩ t = .ok (.form y) ∧
      Decform.C h x y u = .ok z ∧ to_discrete1 (Periodic.make n) addr true w u = .ok (.form z) := by
  have p := C24_periodic_contraction_exact n ((n - 1) / 2) ((n - 1) / 2) (by omega) (by omega) c.1 c'.1 hc hc' s t u
  exact ⟨⟨0, ⟨i, 1⟩, [c * c']⟩, _, _, _, by sym_simp, disc1 _ addr 1 i c s, disc1 _ addr 1 i c' t, dec_C1 hg 1 s t u _ _ _ p, disc1 _ addr 0 i (c * c') u⟩

/-- **C66**, one dimension, Chebyshev grids: wedge products and contractions of polynomial forms. -/
theorem C66_1d_wedge_chebyshev (n : ℕ) (hn : 2 ≤ n) (hn9 : n ≤ 927) (hg : h addr = ops1 (Chebyshev.make n)) (d e : Fin 2) (hde : d.val + e.val ≤ 1) (s t u : Bool) (i : ℕ)
    (K L : ℕ) (hK : K ≤ (Chebyshev.make n).N d s) (hL : L ≤ (Chebyshev.make n).N e t) (hKL : d.val + e.val = 1 → K + L ≤ 2 * n - 1)
    (c c' : Smooth1) (hc : IsPoly K c.1) (hc' : IsPoly L c'.1) :
    ∃ w x y z, Sym.W (.form ⟨d.val, ⟨i, 1⟩, [c]⟩) (.form ⟨e.val, ⟨i, 1⟩, [c']⟩) = .ok (.form w) ∧
      to_discrete1 (Chebyshev.make n) addr true ⟨d.val, ⟨i, 1⟩, [c]⟩ s = .ok (.form x) ∧ to_discrete1 (Chebyshev.make n) addr true ⟨e.val, ⟨i, 1⟩, [c']⟩ t = .ok (.form y) ∧
      Decform.W h x y u = .ok z ∧ to_discrete1 (Chebyshev.make n) addr true w u = .ok (.form z) := by
  have p := C21_chebyshev_wedge_exact n hn d e hde s t u (fun _ _ => hn9) (fun _ _ => hn9) K L hK hL hKL c.1 c'.1 hc hc'
  refine ⟨_, _, _, _, sym_W1 d e hde i c c', disc1 _ addr d i c s, disc1 _ addr e i c' t, dec_W1 hg d e s t u _ _ _ p, ?_⟩
  have := disc1 (Chebyshev.make n) addr (Fin.ofNat 2 (d.val + e.val)) i (c * c') u
  rw [ofNat2 hde] at this ⊢
  exact this

theorem C66_1d_contraction_chebyshev (n : ℕ) (hn : 2 ≤ n) (hn9 : n ≤ 927) (hg : h addr = ops1 (Chebyshev.make n)) (s t u : Bool) (i : ℕ)
    (c c' : Smooth1) (hc : IsPoly ((Chebyshev.make n).N 1 s) c.1) (hc' : IsPoly ((Chebyshev.make n).N 1 t) c'.1) :
    ∃ w x y z, Sym.C (.form ⟨1, ⟨i, 1⟩, [c]⟩) (.form ⟨1, ⟨i, 1⟩, [c']⟩) = .ok (.form w) ∧
      to_discrete1 (Chebyshev.make n) addr true ⟨1, ⟨i, 1⟩, [c]⟩ s = .ok (.form x) ∧ to_discrete1 (Chebyshev.make n) addr true ⟨1, ⟨i, 1⟩, [c']⟩ t = .ok (.form y) ∧
      Decform.C h x y u = .ok z ∧ to_discrete1 (Chebyshev.make n) addr true w u = .ok (.form z) := by
  have p := C24_chebyshev_contraction_exact n hn s t u (fun _ => hn9) (fun _ => hn9) c.1 c'.1 hc hc'
  exact ⟨⟨0, ⟨i, 1⟩, [c * c']⟩, _, _, _, by sym_simp, disc1 _ addr 1 i c s, disc1 _ addr 1 i c' t, dec_C1 hg 1 s t u _ _ _ p, disc1 _ addr 0 i (c * c') u⟩
end

/-! ## Concrete cases -/

/-- `sin(x)` as an expression in one coordinate, resolved by the periodic grid with three vertices. -/
noncomputable def sin1 : Smooth1 := ⟨fun x => Real.sin ((1 : ℕ) * x), by
  show ContDiff ℝ (⊤ : ℕ∞) fun x => Real.sin ((1 : ℕ) * x)
  exact Real.contDiff_sin.comp (contDiff_const.mul contDiff_id)⟩
example : IsTrig ((3 - 1) / 2) sin1.1 ∧ (⟨0, ⟨7, 1⟩, [sin1]⟩ : Sym.Form Smooth1).grid.dim = 1 ∧ IsForm (⟨0, ⟨7, 1⟩, [sin1]⟩ : Sym.Form Smooth1) :=
  ⟨isTrig_sin_nat (by norm_num), rfl, (isForm_kinds 7 sin1 sin1).1⟩

/-- The 1-form `cos(x) dx + cos(y) dy` of the tests is periodic, and resolved by the periodic grid with 3 by 3 vertices. -/
example : IsForm (⟨1, ⟨0, 2⟩, [Smooth.cos Smooth.X, Smooth.cos Smooth.Y]⟩ : Sym.Form Smooth) ∧
    PeriodicForm .periodic .periodic 0 (2 * π) 0 (2 * π) ⟨1, ⟨0, 2⟩, [Smooth.cos Smooth.X, Smooth.cos Smooth.Y]⟩ ∧
    ResolvedForm .periodic .periodic 3 3 true ⟨1, ⟨0, 2⟩, [Smooth.cos Smooth.X, Smooth.cos Smooth.Y]⟩ := by
  refine ⟨(isForm_kinds 0 _ _).2.2.2.1, ?_, ?_⟩
  · intro c hc
    have h : c = (fun x _ => Real.cos x) ∨ c = (fun _ y => Real.cos y) := by simpa [fns2, Smooth.cos, Smooth.X, Smooth.Y] using hc
    rcases h with rfl | rfl
    · exact ⟨fun _ y x => by simp, fun _ x y => by simp⟩
    · exact ⟨fun _ y x => by simp, fun _ x y => by simp⟩
  · have h1 : IsTrig ((3 - 1) / 2) (fun x => Real.cos x) := by
      have := isTrig_cos_nat (K := (3 - 1) / 2) (m := 1) (by norm_num); simpa using this
    have h0 : IsTrig ((3 - 1) / 2) (fun _ => (1 : ℝ)) := by
      have := isTrig_cos_nat (K := (3 - 1) / 2) (m := 0) (by norm_num); simpa using this
    constructor
    · have := Tensor.single (V := IsTrig ((3 - 1) / 2)) (W := IsTrig ((3 - 1) / 2)) h1 h0
      refine cast (congrArg _ ?_) this
      funext x y; simp [Smooth.cos, Smooth.X]
    · have := Tensor.single (V := IsTrig ((3 - 1) / 2)) (W := IsTrig ((3 - 1) / 2)) h0 h1
      refine cast (congrArg _ ?_) this
      funext x y; simp [Smooth.cos, Smooth.Y]

end Dec.Props
