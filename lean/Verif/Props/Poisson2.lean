import Verif.Lib.Lin2
import Verif.Lib.Leibniz2
import Verif.Props.Poisson
import Verif.Props.Energy

set_option linter.unusedSimpArgs false
set_option linter.unusedVariables false

/-!
# C74: Poisson problems on product grids (`/repo/doc/plot/cheb/poisson2d_periodic.py`, `/repo/doc/plot/cheb/poisson2d_cheb.py`)
-/

namespace Dec.Props

open Real Finset Dec.G2

/-- The Laplacian of a 1-form on a product grid, `D0(H2(D1(H1 f))) + H1(D0(H2(D1 f)))`: what `L1` and `L1d` of doc/plot/cheb/poisson2d_cheb.py:21 and poisson2d_periodic.py:24 have to be for
the identities checked there (the repository calls `laplacian2` and does not define it). -/
noncomputable def lapOne (g : Grid2) (t : Bool) (f : List ℝ) : Except Err (List ℝ) := do
  let a ← g.H 1 t f
  let b ← g.D 1 (!t) a
  let c ← g.H 2 (!t) b
  let x ← g.D 0 t c
  let a' ← g.D 1 t f
  let b' ← g.H 2 t a'
  let c' ← g.D 0 (!t) b'
  let y ← g.H 1 (!t) c'
  pure (vadd x y)

/-! ## Resolved functions -/

/-- The functions that the 0-forms of a grid determine. -/
def R0 (k : Kind) (n : ℕ) (t : Bool) : (ℝ → ℝ) → Prop := Resolved k ((grid₀ k n).N 0 t)

theorem N1_eq (k : Kind) (n : ℕ) (hn : validSize k n) (t : Bool) : (grid₀ k n).N 1 t = (grid₀ k n).N 0 (!t) := by
  cases k
  · rfl
  · have hg := Regular.isInterval (n := n) hn 0 π
    cases t
    exacts [hg.N10.trans hg.N01.symm, hg.N11.trans hg.N00.symm]
  · have hg := Chebyshev.isInterval (n := n) hn (-1) 1
    cases t
    exacts [hg.N10.trans hg.N01.symm, hg.N11.trans hg.N00.symm]

theorem R0_deriv (k : Kind) (n : ℕ) (hk : k ≠ .regular) (hn : validSize k n) (t : Bool) (a : ℝ → ℝ) (h : R0 k n t a) :
    ∃ a', R0 k n (!t) a' ∧ ∀ x, HasDerivAt a (a' x) x := by
  unfold R0 at h ⊢
  cases k
  · exact IsTrig.deriv h
  · exact absurd rfl hk
  · have hg := Chebyshev.isInterval (n := n) hn (-1) 1
    obtain ⟨P, hP, e⟩ := IsPoly.exists_eval h
    obtain rfl : a = fun x => P.eval x := funext e
    have h1 : ∀ x, HasDerivAt (fun x => P.eval x) (P.derivative.eval x) x := fun x => P.hasDerivAt x
    refine ⟨_, isPoly_mono ?_ (isPoly_deriv h h1), h1⟩
    have e0 : (grid₀ .chebyshev n).N 0 false = n - 1 := hg.N00
    have e1 : (grid₀ .chebyshev n).N 0 true = n := hg.N01
    cases t <;> simp only [Bool.not_true, Bool.not_false, e0, e1] <;> omega

theorem R0_contDiff (k : Kind) (n : ℕ) (hk : k ≠ .regular) (t : Bool) (a : ℝ → ℝ) (h : R0 k n t a) : ContDiff ℝ 1 a := by
  unfold R0 at h
  cases k
  · exact IsTrig.contDiff h
  · exact absurd rfl hk
  · obtain ⟨c, e⟩ := h
    obtain rfl : a = _ := funext e
    fun_prop

theorem tensor_smooth' {V W : (ℝ → ℝ) → Prop} (hV : ∀ a, V a → ContDiff ℝ 1 a) (hW : ∀ a, W a → ContDiff ℝ 1 a) {f : ℝ → ℝ → ℝ} (h : Tensor V W f) : Smooth2 f := by
  obtain ⟨m, a, b, hab, he⟩ := h
  unfold Smooth2
  simp only [he]
  refine ContDiff.sum fun k hk => ?_
  have h1 := hV _ (hab k (mem_range.1 hk)).1
  have h2 := hW _ (hab k (mem_range.1 hk)).2
  exact (h1.comp contDiff_fst).mul (h2.comp contDiff_snd)

/-- The default interval of each kind. -/
theorem grid₀_eq' (k : Kind) (n : ℕ) : ∃ a b : ℝ, a < b ∧ grid₀ k n = grid k n a b ∧ (k = .periodic → b - a = 2 * π) := by
  cases k
  · exact ⟨0, 2 * π, by positivity, rfl, fun _ => by ring⟩
  · exact ⟨0, π, by positivity, rfl, by simp⟩
  · exact ⟨-1, 1, by norm_num, rfl, by simp⟩

section
variable {k k' : Kind} {n n' : ℕ} (hn : validSize k n) (hn' : validSize k' n') (hk : k ≠ .regular) (hk' : k' ≠ .regular)
  (h9 : k = .chebyshev → n ≤ 927) (h9' : k' = .chebyshev → n' ≤ 927)

local notation "𝔾" => product (grid₀ k n) (grid₀ k' n')
/-- `f` is a combination of products of functions resolved by the two factors: by the grid itself (`t`, `t'` true) or by its dual (false). -/
local notation "𝔗" => fun t t' => Tensor (R0 k n t) (R0 k' n' t')

include hk hk' in
theorem T_smooth {t t' : Bool} {f : ℝ → ℝ → ℝ} (h : (𝔗) t t' f) : Smooth2 f :=
  tensor_smooth' (fun a => R0_contDiff k n hk t a) (fun a => R0_contDiff k' n' hk' t' a) h
include hk hn in
theorem T_dX {t t' : Bool} {f : ℝ → ℝ → ℝ} (h : (𝔗) t t' f) : (𝔗) (!t) t' (dX f) := tensor_dX (R0_deriv k n hk hn t) h
include hk' hn' in
theorem T_dY {t t' : Bool} {f : ℝ → ℝ → ℝ} (h : (𝔗) t t' f) : (𝔗) t (!t') (dY f) := tensor_dY (R0_deriv k' n' hk' hn' t') h
theorem T_neg {t t' : Bool} {f : ℝ → ℝ → ℝ} (h : (𝔗) t t' f) : (𝔗) t t' (fun x y => -f x y) := h.neg (resolved_space k _)
theorem T_sub {t t' : Bool} {f g : ℝ → ℝ → ℝ} (h : (𝔗) t t' f) (h' : (𝔗) t t' g) : (𝔗) t t' (fun x y => f x y - g x y) := by
  have := h.add (T_neg h')
  simp only [← sub_eq_add_neg] at this
  exact this
theorem T_perX {t t' : Bool} {f : ℝ → ℝ → ℝ} (h : (𝔗) t t' f) {a b : ℝ} (e : k = .periodic → b - a = 2 * π) : PeriodicX k a b f := by
  rintro rfl y
  rw [e rfl]
  have := h.row (resolved_space .periodic _) y
  exact IsTrig.periodic this
theorem T_perY {t t' : Bool} {f : ℝ → ℝ → ℝ} (h : (𝔗) t t' f) {a b : ℝ} (e : k' = .periodic → b - a = 2 * π) : PeriodicY k' a b f := by
  rintro rfl x
  rw [e rfl]
  have := h.swap.row (resolved_space .periodic _) x
  exact IsTrig.periodic this

/-- The operators as linear maps on arrays. -/
structure Ops (δ : Fin 3 → Bool → List ℝ → List ℝ) (η : Fin 3 → Bool → List ℝ → List ℝ) (g : Grid2) (N : Fin 3 → Bool → ℕ) : Prop where
  linD : ∀ d t, d ≠ 2 → Lin (N d t) (N (d + 1) t) (δ d t)
  D : ∀ d t, d ≠ 2 → ∀ x : List ℝ, x.length = N d t → g.D d t x = .ok (δ d t x)
  linH : ∀ d t, Lin (N d t) (N (2 - d) (!t)) (η d t)
  H : ∀ d t, ∀ x : List ℝ, x.length = N d t → g.H d t x = .ok (η d t x)

theorem exists_ops' {gx gy : Grid1} (Fx : Factor gx) (Fy : Factor gy) (Sx : Stars gx) (Sy : Stars gy) : ∃ δ η, Ops δ η (product gx gy) (count gx gy) := by
  have h1 : ∀ (d : Fin 3) (t : Bool), ∃ L : List ℝ → List ℝ, d ≠ 2 → Lin (count gx gy d t) (count gx gy (d + 1) t) L ∧
      ∀ x : List ℝ, x.length = count gx gy d t → (product gx gy).D d t x = .ok (L x) := fun d t => by
    by_cases h : d = 2
    · exact ⟨id, fun h' => absurd h h'⟩
    · obtain ⟨L, l1, l2⟩ := elin2_D Fx Fy d h t
      exact ⟨L, fun _ => ⟨l1, l2⟩⟩
  choose δ hδ using h1
  have h2 := fun (d : Fin 3) (t : Bool) => elin2_H Fx Fy Sx Sy d t
  unfold ELin at h2
  choose η hη using h2
  exact ⟨δ, η, fun d t h => (hδ d t h).1, fun d t h => (hδ d t h).2, fun d t => (hη d t).1, fun d t => (hη d t).2⟩

theorem Ops.lap2 {gx gy : Grid1} {δ η : Fin 3 → Bool → List ℝ → List ℝ} (o : Ops δ η (product gx gy) (count gx gy)) (t : Bool) :
    Lin (count gx gy 0 t) (count gx gy 0 t) (fun x => η 2 (!t) (δ 1 (!t) (η 1 t (δ 0 t x)))) ∧
    ∀ x : List ℝ, x.length = count gx gy 0 t → Props.lap2 (product gx gy) t x = .ok (η 2 (!t) (δ 1 (!t) (η 1 t (δ 0 t x)))) := by
  have h1 : Lin (count gx gy 0 t) (count gx gy 1 t) (δ 0 t) := o.linD 0 t (by decide)
  have h2 : Lin (count gx gy 1 t) (count gx gy 1 (!t)) (η 1 t) := o.linH 1 t
  have h3 : Lin (count gx gy 1 (!t)) (count gx gy 2 (!t)) (δ 1 (!t)) := o.linD 1 (!t) (by decide)
  have h4 : Lin (count gx gy 2 (!t)) (count gx gy 0 t) (η 2 (!t)) := by have := o.linH 2 (!t); rw [Bool.not_not] at this; exact this
  refine ⟨h4.comp (h3.comp (h2.comp h1)), fun x hx => ?_⟩
  unfold Props.lap2
  rw [o.D 0 t (by decide) x hx]
  show ((product gx gy).H 1 t (δ 0 t x) >>= fun b => (product gx gy).D 1 (!t) b >>= fun c => (product gx gy).H 2 (!t) c) = _
  rw [o.H 1 t _ (h1.len x hx)]
  show ((product gx gy).D 1 (!t) (η 1 t (δ 0 t x)) >>= fun c => (product gx gy).H 2 (!t) c) = _
  rw [o.D 1 (!t) (by decide) _ (h2.len _ (h1.len x hx))]
  exact o.H 2 (!t) _ (h3.len _ (h2.len _ (h1.len x hx)))

theorem Ops.lapOne {gx gy : Grid1} {δ η : Fin 3 → Bool → List ℝ → List ℝ} (o : Ops δ η (product gx gy) (count gx gy)) (t : Bool) (x L : List ℝ) (hx : x.length = count gx gy 1 t)
    (h : Props.lapOne (product gx gy) t x = .ok L) : L.length = count gx gy 1 t := by
  have a1 : Lin (count gx gy 1 t) (count gx gy 1 (!t)) (η 1 t) := o.linH 1 t
  have a2 : Lin (count gx gy 1 (!t)) (count gx gy 2 (!t)) (δ 1 (!t)) := o.linD 1 (!t) (by decide)
  have a3 : Lin (count gx gy 2 (!t)) (count gx gy 0 t) (η 2 (!t)) := by have := o.linH 2 (!t); rw [Bool.not_not] at this; exact this
  have a4 : Lin (count gx gy 0 t) (count gx gy 1 t) (δ 0 t) := o.linD 0 t (by decide)
  have b1 : Lin (count gx gy 1 t) (count gx gy 2 t) (δ 1 t) := o.linD 1 t (by decide)
  have b2 : Lin (count gx gy 2 t) (count gx gy 0 (!t)) (η 2 t) := o.linH 2 t
  have b3 : Lin (count gx gy 0 (!t)) (count gx gy 1 (!t)) (δ 0 (!t)) := o.linD 0 (!t) (by decide)
  have b4 : Lin (count gx gy 1 (!t)) (count gx gy 1 t) (η 1 (!t)) := by have := o.linH 1 (!t); rw [Bool.not_not] at this; exact this
  unfold Props.lapOne at h
  simp only [Bind.bind, Except.bind, o.H 1 t x hx, o.D 1 (!t) (by decide) _ (a1.len x hx), o.H 2 (!t) _ (a2.len _ (a1.len x hx)),
    o.D 0 t (by decide) _ (a3.len _ (a2.len _ (a1.len x hx))), o.D 1 t (by decide) x hx, o.H 2 t _ (b1.len x hx), o.D 0 (!t) (by decide) _ (b2.len _ (b1.len x hx)),
    o.H 1 (!t) _ (b3.len _ (b2.len _ (b1.len x hx)))] at h
  rw [← Except.ok.inj h]
  unfold vadd
  rw [List.length_zipWith, a4.len _ (a3.len _ (a2.len _ (a1.len x hx))), b4.len _ (b3.len _ (b2.len _ (b1.len x hx))), min_self]

include hn hn' h9 h9' in
theorem exists_ops : ∃ δ η, Ops δ η 𝔾 (count (grid₀ k n) (grid₀ k' n')) := by
  obtain ⟨a, b, -, e, -⟩ := grid₀_eq' k n
  obtain ⟨a', b', -, e', -⟩ := grid₀_eq' k' n'
  exact exists_ops' (grid₀_factor k n hn) (grid₀_factor k' n' hn') (e ▸ grid_stars k n hn h9 a b) (e' ▸ grid_stars k' n' hn' h9' a' b')

include hn hn' in
theorem P0_len (t : Bool) (f : ℝ → ℝ → ℝ) : ∃ a, (𝔾).P 0 t [f] = .ok a ∧ a.length = count (grid₀ k n) (grid₀ k' n') 0 t :=
  ⟨_, P0_mtab (grid₀_factor k n hn) (grid₀_factor k' n' hn') t f, by rw [length_data]; rfl⟩
include hn hn' in
theorem P1_len (t : Bool) (f g : ℝ → ℝ → ℝ) : ∃ a, (𝔾).P 1 t [f, g] = .ok a ∧ a.length = count (grid₀ k n) (grid₀ k' n') 1 t :=
  ⟨_, P1_mtab (grid₀_factor k n hn) (grid₀_factor k' n' hn') t f g, by rw [List.length_append, length_data, length_data]; rfl⟩
include hn hn' in
theorem P2_len (t : Bool) (f : ℝ → ℝ → ℝ) : ∃ a, (𝔾).P 2 t [f] = .ok a ∧ a.length = count (grid₀ k n) (grid₀ k' n') 2 t :=
  ⟨_, P2_mtab (grid₀_factor k n hn) (grid₀_factor k' n' hn') t f, by rw [length_data]; rfl⟩
include hn hn' in
theorem BC1_len (f : ℝ → ℝ → ℝ) : ∃ a, (𝔾).BC 1 [f] = .ok a ∧ a.length = count (grid₀ k n) (grid₀ k' n') 1 false :=
  ⟨_, BC1_mtab (grid₀_factor k n hn) (grid₀_factor k' n' hn') f, by rw [List.length_append, length_data, length_data]; rfl⟩
include hn hn' in
theorem BC2_len (f g : ℝ → ℝ → ℝ) : ∃ a, (𝔾).BC 2 [f, g] = .ok a ∧ a.length = count (grid₀ k n) (grid₀ k' n') 2 false :=
  ⟨_, BC2_mtab (grid₀_factor k n hn) (grid₀_factor k' n' hn') f g, by rw [length_data]; rfl⟩

/-! ### The star and the derivative of projections -/

include hn hn' h9 h9' in
theorem star1 {t : Bool} {f g : ℝ → ℝ → ℝ} (hf : (𝔗) (!t) t f) (hg : (𝔗) t (!t) g) {a b : List ℝ} (ha : (𝔾).P 1 t [f, g] = .ok a)
    (hb : (𝔾).P 1 (!t) [fun x y => -g x y, f] = .ok b) : (𝔾).H 1 t a = .ok b := by
  obtain ⟨a', b', e1, e2, e3⟩ := (C58_hodge_exact k k' n n' hn hn' h9 h9' t f g).2.1 (by rw [N1_eq k n hn]; exact hf) (by rw [N1_eq k' n' hn']; exact hg)
  rw [ha] at e1; rw [hb] at e3
  rw [Except.ok.inj e1, Except.ok.inj e3]; exact e2

include hn hn' h9 h9' in
theorem star2 {t : Bool} {f : ℝ → ℝ → ℝ} (hf : (𝔗) (!t) (!t) f) {a b : List ℝ} (ha : (𝔾).P 2 t [f] = .ok a)
    (hb : (𝔾).P 0 (!t) [f] = .ok b) : (𝔾).H 2 t a = .ok b := by
  obtain ⟨a', b', e1, e2, e3⟩ := (C58_hodge_exact k k' n n' hn hn' h9 h9' t f f).2.2 (by rw [N1_eq k n hn, N1_eq k' n' hn']; exact hf)
  rw [ha] at e1; rw [hb] at e3
  rw [Except.ok.inj e1, Except.ok.inj e3]; exact e2

include hn hn' hk hk' in
theorem deriv0 {s s' : Bool} {f : ℝ → ℝ → ℝ} (hf : (𝔗) s s' f) {a b : List ℝ} (ha : (𝔾).P 0 true [f] = .ok a) (hb : (𝔾).P 1 true [dX f, dY f] = .ok b) :
    (𝔾).D 0 true a = .ok b := by
  obtain ⟨x, x', lx, e, ex⟩ := grid₀_eq' k n
  obtain ⟨y, y', ly, e', ey⟩ := grid₀_eq' k' n'
  have h := C27_primal_0 k k' n n' hn hn' x x' y y' lx ly f (T_smooth hk hk' hf) (T_perX hf ex) (T_perY hf ey)
  rw [← e, ← e', ha, hb] at h
  exact h

include hn hn' hk hk' in
theorem deriv1 {s s' r r' : Bool} {f g : ℝ → ℝ → ℝ} (hf : (𝔗) s s' f) (hg : (𝔗) r r' g) {a b : List ℝ} (ha : (𝔾).P 1 true [f, g] = .ok a)
    (hb : (𝔾).P 2 true [fun x y => dX g x y - dY f x y] = .ok b) : (𝔾).D 1 true a = .ok b := by
  obtain ⟨x, x', lx, e, ex⟩ := grid₀_eq' k n
  obtain ⟨y, y', ly, e', ey⟩ := grid₀_eq' k' n'
  have h := C27_primal_1 k k' n n' hn hn' x x' y y' lx ly f g (T_smooth hk hk' hf) (T_smooth hk hk' hg) (T_perX hg ex) (T_perY hf ey)
  rw [← e, ← e', ha, hb] at h
  exact h

include hn hn' hk hk' in
theorem deriv0d {s s' : Bool} {f : ℝ → ℝ → ℝ} (hf : (𝔗) s s' f) {a b v : List ℝ} (ha : (𝔾).P 0 false [f] = .ok a) (hv : (𝔾).BC 1 [f] = .ok v)
    (hb : (𝔾).P 1 false [dX f, dY f] = .ok b) : ∃ u, (𝔾).D 0 false a = .ok u ∧ b = vadd u v := by
  obtain ⟨x, x', lx, e, ex⟩ := grid₀_eq' k n
  obtain ⟨y, y', ly, e', ey⟩ := grid₀_eq' k' n'
  obtain ⟨u, w, h1, h2, h3, -⟩ := C27_dual_0 k k' n n' hn hn' x x' y y' lx ly f (T_smooth hk hk' hf) (T_perX hf ex) (T_perY hf ey)
  rw [← e, ← e', ha] at h1
  rw [← e, ← e', hv] at h2
  rw [← e, ← e', hb] at h3
  obtain rfl := Except.ok.inj h2
  exact ⟨u, h1, Except.ok.inj h3⟩

include hn hn' hk hk' in
theorem deriv1d {s s' r r' : Bool} {f g : ℝ → ℝ → ℝ} (hf : (𝔗) s s' f) (hg : (𝔗) r r' g) {a b v : List ℝ} (ha : (𝔾).P 1 false [f, g] = .ok a)
    (hv : (𝔾).BC 2 [f, g] = .ok v) (hb : (𝔾).P 2 false [fun x y => dX g x y - dY f x y] = .ok b) : ∃ u, (𝔾).D 1 false a = .ok u ∧ b = vadd u v := by
  obtain ⟨x, x', lx, e, ex⟩ := grid₀_eq' k n
  obtain ⟨y, y', ly, e', ey⟩ := grid₀_eq' k' n'
  obtain ⟨u, w, h1, h2, h3, -⟩ := C27_dual_1 k k' n n' hn hn' x x' y y' lx ly f g (T_smooth hk hk' hf) (T_smooth hk hk' hg) (T_perX hg ex) (T_perY hf ey)
  rw [← e, ← e', ha] at h1
  rw [← e, ← e', hv] at h2
  rw [← e, ← e', hb] at h3
  obtain rfl := Except.ok.inj h2
  exact ⟨u, h1, Except.ok.inj h3⟩

/-- The Laplacian of a function in the plane. -/
noncomputable def Δ (f : ℝ → ℝ → ℝ) (x y : ℝ) : ℝ := dX (dX f) x y + dY (dY f) x y

theorem dY_neg (f : ℝ → ℝ → ℝ) : dY (fun x y => -f x y) = fun x y => -dY f x y := by
  funext x y; unfold dY; exact deriv.fun_neg
theorem dX_neg (f : ℝ → ℝ → ℝ) : dX (fun x y => -f x y) = fun x y => -dX f x y := by
  funext x y; unfold dX; exact deriv.fun_neg

theorem Δ_eq (f : ℝ → ℝ → ℝ) : (fun x y => dX (dX f) x y - dY (fun x y => -dY f x y) x y) = Δ f := by
  rw [dY_neg]; funext x y; unfold Δ; ring

theorem not_chain {t : Bool} {f : ℝ → ℝ → ℝ} (h : (𝔗) (!(!t)) t f) : (𝔗) t t f := by rwa [Bool.not_not] at h

include hn hn' hk hk' in
theorem T_Δ {t t' : Bool} {f : ℝ → ℝ → ℝ} (hf : (𝔗) t t' f) : (𝔗) t t' (Δ f) := by
  have h1 := T_dX hn hk (T_dX hn hk hf)
  have h2 := T_dY hn' hk' (T_dY hn' hk' hf)
  rw [Bool.not_not] at h1 h2
  exact h1.add h2

include hn hn' hk hk' h9 h9' in
/-- **C74** (0-forms, normal derivatives on the boundary): for every function resolved by the grid, the Laplacian of its projection plus the star of the boundary term of
`*df = -f_y dx + f_x dy` is the projection of its Laplacian. -/
theorem C74_primal_0 (f : ℝ → ℝ → ℝ) (hf : Tensor (R0 k n true) (R0 k' n' true) f) :
    ∃ p L v w, (𝔾).P 0 true [f] = .ok p ∧ lap2 𝔾 true p = .ok L ∧ (𝔾).BC 2 [fun x y => -dY f x y, dX f] = .ok v ∧ (𝔾).H 2 false v = .ok w ∧
      (𝔾).P 0 true [Δ f] = .ok (vadd L w) := by
  obtain ⟨δ, η, o⟩ := exists_ops hn hn' h9 h9'
  have fx := T_dX hn hk hf
  have fy := T_dY hn' hk' hf
  obtain ⟨p, ep, lp⟩ := P0_len hn hn' true f
  obtain ⟨a, ea, la⟩ := P1_len hn hn' true (dX f) (dY f)
  obtain ⟨b, eb, lb⟩ := P1_len hn hn' false (fun x y => -dY f x y) (dX f)
  obtain ⟨v, ev, lv⟩ := BC2_len hn hn' (fun x y => -dY f x y) (dX f)
  obtain ⟨c, ec, lc⟩ := P2_len hn hn' false (fun x y => dX (dX f) x y - dY (fun x y => -dY f x y) x y)
  obtain ⟨q, eq, lq⟩ := P0_len hn hn' true (Δ f)
  have d1 := deriv0 hn hn' hk hk' hf ep ea
  have d2 := star1 hn hn' h9 h9' fx fy ea eb
  obtain ⟨u, d3, rfl⟩ := deriv1d hn hn' hk hk' (T_neg fy) fx eb ev ec
  have lu : u.length = _ := (congrArg List.length (Except.ok.inj (d3.symm.trans (o.D 1 false (by decide) b lb)))).trans ((o.linD 1 false (by decide)).len b lb)
  have d4 : (𝔾).H 2 false (vadd u v) = .ok q := star2 hn hn' h9 h9' (t := false) (T_Δ hn hn' hk hk' hf) (by rw [← Δ_eq]; exact ec) eq
  refine ⟨p, η 2 false u, v, _, ep, ?_, ev, o.H 2 false v lv, ?_⟩
  · unfold lap2
    rw [d1]
    show ((𝔾).H 1 true a >>= fun b => (𝔾).D 1 (!true) b >>= fun c => (𝔾).H 2 (!true) c) = _
    rw [d2]
    show ((𝔾).D 1 false b >>= fun c => (𝔾).H 2 false c) = _
    rw [d3]
    exact o.H 2 false u lu
  · rw [eq, ← (o.linH 2 false).add u v lu lv, ← d4]
    exact o.H 2 false _ lc

include hn hn' hk hk' h9 h9' in
/-- **C74** (0-forms, values on the boundary): for every function resolved by the dual grid, the Laplacian of its projection plus `H2(D1(H1d(BC f)))` is the projection of its Laplacian. -/
theorem C74_dual_0 (f : ℝ → ℝ → ℝ) (hf : Tensor (R0 k n false) (R0 k' n' false) f) :
    ∃ p L v w₁ w₂ w₃, (𝔾).P 0 false [f] = .ok p ∧ lap2 𝔾 false p = .ok L ∧ (𝔾).BC 1 [f] = .ok v ∧ (𝔾).H 1 false v = .ok w₁ ∧ (𝔾).D 1 true w₁ = .ok w₂ ∧
      (𝔾).H 2 true w₂ = .ok w₃ ∧ (𝔾).P 0 false [Δ f] = .ok (vadd L w₃) := by
  obtain ⟨δ, η, o⟩ := exists_ops hn hn' h9 h9'
  have fx := T_dX hn hk hf
  have fy := T_dY hn' hk' hf
  obtain ⟨p, ep, lp⟩ := P0_len hn hn' false f
  obtain ⟨v, ev, lv⟩ := BC1_len hn hn' f
  obtain ⟨a, ea, la⟩ := P1_len hn hn' false (dX f) (dY f)
  obtain ⟨b, eb, lb⟩ := P1_len hn hn' true (fun x y => -dY f x y) (dX f)
  obtain ⟨c, ec, lc⟩ := P2_len hn hn' true (fun x y => dX (dX f) x y - dY (fun x y => -dY f x y) x y)
  obtain ⟨q, eq, lq⟩ := P0_len hn hn' false (Δ f)
  obtain ⟨u, d1, rfl⟩ := deriv0d hn hn' hk hk' hf ep ev ea
  have lu : u.length = _ := (congrArg List.length (Except.ok.inj (d1.symm.trans (o.D 0 false (by decide) p lp)))).trans ((o.linD 0 false (by decide)).len p lp)
  have d2 := star1 hn hn' h9 h9' (t := false) fx fy ea eb
  have d3 := deriv1 hn hn' hk hk' (T_neg fy) fx eb ec
  have d4 : (𝔾).H 2 true c = .ok q := star2 hn hn' h9 h9' (t := true) (T_Δ hn hn' hk hk' hf) (by rw [← Δ_eq]; exact ec) eq
  have l1 : ∀ x : List ℝ, x.length = _ → (η 1 false x).length = count (grid₀ k n) (grid₀ k' n') 1 true := (o.linH 1 false).len
  have l2 : ∀ x : List ℝ, x.length = _ → (δ 1 true x).length = count (grid₀ k n) (grid₀ k' n') 2 true := (o.linD 1 true (by decide)).len
  have l3 : ∀ x : List ℝ, x.length = _ → (η 2 true x).length = count (grid₀ k n) (grid₀ k' n') 0 false := (o.linH 2 true).len
  refine ⟨p, η 2 true (δ 1 true (η 1 false u)), v, _, _, _, ep, ?_, ev, o.H 1 false v lv, o.D 1 true (by decide) _ (l1 _ lv), o.H 2 true _ (l2 _ (l1 _ lv)), ?_⟩
  · unfold lap2
    rw [d1]
    show ((𝔾).H 1 false u >>= fun b => (𝔾).D 1 true b >>= fun c => (𝔾).H 2 true c) = _
    rw [o.H 1 false u lu]
    show ((𝔾).D 1 true (η 1 false u) >>= fun c => (𝔾).H 2 true c) = _
    rw [o.D 1 true (by decide) _ (l1 _ lu)]
    exact o.H 2 true _ (l2 _ (l1 _ lu))
  · rw [eq, ← (o.linH 2 true).add _ _ (l2 _ (l1 _ lu)) (l2 _ (l1 _ lv)), ← (o.linD 1 true (by decide)).add _ _ (l1 _ lu) (l1 _ lv), ← (o.linH 1 false).add _ _ lu lv, ← d4]
    rw [o.H 1 false _ la] at d2
    rw [Except.ok.inj d2]
    rw [o.D 1 true (by decide) _ lb] at d3
    rw [Except.ok.inj d3]
    exact o.H 2 true _ lc

/-! ## 1-forms -/

include hn hn' hk hk' in
theorem T_mixed {t t' : Bool} {f : ℝ → ℝ → ℝ} (h : (𝔗) t t' f) : dX (dY f) = dY (dX f) := by
  obtain ⟨m, a, b, hab, he⟩ := h
  have h1 : ∀ j, ∃ a' : ℝ → ℝ, j < m → ∀ x, HasDerivAt (a j) (a' x) x := fun j => by
    by_cases hj : j < m
    · obtain ⟨a', -, h2⟩ := R0_deriv k n hk hn t (a j) (hab j hj).1
      exact ⟨a', fun _ => h2⟩
    · exact ⟨fun _ => 0, fun h => absurd h hj⟩
  have h2 : ∀ j, ∃ b' : ℝ → ℝ, j < m → ∀ x, HasDerivAt (b j) (b' x) x := fun j => by
    by_cases hj : j < m
    · obtain ⟨b', -, h2⟩ := R0_deriv k' n' hk' hn' t' (b j) (hab j hj).2
      exact ⟨b', fun _ => h2⟩
    · exact ⟨fun _ => 0, fun h => absurd h hj⟩
  choose a' ha' using h1
  choose b' hb' using h2
  have ex : dX f = fun x y => ∑ j ∈ range m, a' j x * b j y := by
    funext x y; unfold dX; simp only [he]
    exact (HasDerivAt.fun_sum fun j hj => (ha' j (mem_range.1 hj) x).mul_const (b j y)).deriv
  have ey : dY f = fun x y => ∑ j ∈ range m, a j x * b' j y := by
    funext x y; unfold dY; simp only [he]
    exact (HasDerivAt.fun_sum fun j hj => (hb' j (mem_range.1 hj) y).const_mul (a j x)).deriv
  rw [ex, ey]
  funext x y
  unfold dX dY
  beta_reduce
  rw [(HasDerivAt.fun_sum fun j hj => (ha' j (mem_range.1 hj) x).mul_const (b' j y)).deriv,
    (HasDerivAt.fun_sum fun j hj => (hb' j (mem_range.1 hj) y).const_mul (a' j x)).deriv]

theorem dX_add {f g : ℝ → ℝ → ℝ} (hf : Smooth2 f) (hg : Smooth2 g) : dX (fun x y => f x y + g x y) = fun x y => dX f x y + dX g x y := by
  funext x y; exact ((hf.dX x y).fun_add (hg.dX x y)).deriv
theorem dX_sub {f g : ℝ → ℝ → ℝ} (hf : Smooth2 f) (hg : Smooth2 g) : dX (fun x y => f x y - g x y) = fun x y => dX f x y - dX g x y := by
  funext x y; exact ((hf.dX x y).fun_sub (hg.dX x y)).deriv
theorem dY_add {f g : ℝ → ℝ → ℝ} (hf : Smooth2 f) (hg : Smooth2 g) : dY (fun x y => f x y + g x y) = fun x y => dY f x y + dY g x y := by
  funext x y; exact ((hf.dY x y).fun_add (hg.dY x y)).deriv
theorem dY_sub {f g : ℝ → ℝ → ℝ} (hf : Smooth2 f) (hg : Smooth2 g) : dY (fun x y => f x y - g x y) = fun x y => dY f x y - dY g x y := by
  funext x y; exact ((hf.dY x y).fun_sub (hg.dY x y)).deriv

/-- The divergence and the curl of `f dx + g dy`. -/
noncomputable def Div (f g : ℝ → ℝ → ℝ) (x y : ℝ) : ℝ := dX f x y + dY g x y
noncomputable def Curl (f g : ℝ → ℝ → ℝ) (x y : ℝ) : ℝ := dX g x y - dY f x y

include hn hn' hk hk' in
/-- `grad div - curl curl = Δ`. -/
theorem hodge_laplacian {t t' r r' : Bool} {f g : ℝ → ℝ → ℝ} (hf : (𝔗) t t' f) (hg : (𝔗) r r' g) (x y : ℝ) :
    dX (Div f g) x y + -dY (Curl f g) x y = Δ f x y ∧ dY (Div f g) x y + dX (Curl f g) x y = Δ g x y := by
  have s1 := T_smooth hk hk' (T_dX hn hk hf)
  have s2 := T_smooth hk hk' (T_dY hn' hk' hf)
  have s3 := T_smooth hk hk' (T_dX hn hk hg)
  have s4 := T_smooth hk hk' (T_dY hn' hk' hg)
  have e1 : dX (Div f g) = fun x y => dX (dX f) x y + dX (dY g) x y := dX_add s1 s4
  have e2 : dY (Div f g) = fun x y => dY (dX f) x y + dY (dY g) x y := dY_add s1 s4
  have e3 : dX (Curl f g) = fun x y => dX (dX g) x y - dX (dY f) x y := dX_sub s3 s2
  have e4 : dY (Curl f g) = fun x y => dY (dX g) x y - dY (dY f) x y := dY_sub s3 s2
  rw [e1, e2, e3, e4, T_mixed hn hn' hk hk' hf, T_mixed hn hn' hk hk' hg]
  unfold Δ
  constructor <;> ring

include hn hn' in
/-- Projection of 1-forms is additive. -/
theorem P1_add (t : Bool) {f g f' g' : ℝ → ℝ → ℝ} (hf : Smooth2 f) (hg : Smooth2 g) (hf' : Smooth2 f') (hg' : Smooth2 g') {a a' : List ℝ}
    (h : (𝔾).P 1 t [f, g] = .ok a) (h' : (𝔾).P 1 t [f', g'] = .ok a') :
    (𝔾).P 1 t [fun x y => f x y + f' x y, fun x y => g x y + g' x y] = .ok (vadd a a') := by
  have Fx := grid₀_factor k n hn
  have Fy := grid₀_factor k' n' hn'
  rw [P1_mtab Fx Fy] at h h' ⊢
  obtain rfl := Except.ok.inj h
  obtain rfl := Except.ok.inj h'
  unfold vadd
  rw [List.zipWith_append (by rw [length_data, length_data])]
  simp only [mtab, zipWith_tab]
  have c : ∀ {φ : ℝ → ℝ → ℝ}, Smooth2 φ → (Continuous fun p : ℝ × ℝ => φ p.1 p.2) := fun h => ContDiff.continuous h
  refine congrArg Except.ok (congrArg₂ (· ++ ·) (tab_congr fun i _ => ?_) (tab_congr fun i _ => ?_))
  · unfold Integrate.P1x
    exact intervalIntegral.integral_add ((cont_x (c hf) _).intervalIntegrable _ _) ((cont_x (c hf') _).intervalIntegrable _ _)
  · unfold Integrate.P1y
    exact intervalIntegral.integral_add ((cont_y (c hg) _).intervalIntegrable _ _) ((cont_y (c hg') _).intervalIntegrable _ _)

theorem vadd_swap (a b c d : List ℝ) : vadd (vadd a b) (vadd c d) = vadd (vadd a c) (vadd b d) := by
  unfold vadd
  refine List.ext_getElem (by simp only [List.length_zipWith]; omega) fun i h1 h2 => ?_
  simp only [List.getElem_zipWith]; ring

include hn hn' hk hk' in
theorem T_Div {t : Bool} {f g : ℝ → ℝ → ℝ} (hf : (𝔗) (!t) t f) (hg : (𝔗) t (!t) g) : (𝔗) t t (Div f g) := by
  have h1 := T_dX hn hk hf
  have h2 := T_dY hn' hk' hg
  rw [Bool.not_not] at h1 h2
  exact h1.add h2
include hn hn' hk hk' in
theorem T_Curl {t : Bool} {f g : ℝ → ℝ → ℝ} (hf : (𝔗) (!t) t f) (hg : (𝔗) t (!t) g) : (𝔗) (!t) (!t) (Curl f g) :=
  T_sub (T_dX hn hk hg) (T_dY hn' hk' hf)

theorem Div_eq (f g : ℝ → ℝ → ℝ) : (fun x y => dX f x y - dY (fun x y => -g x y) x y) = Div f g := by
  rw [dY_neg]; funext x y; unfold Div; ring

include hn hn' hk hk' in
/-- The two halves of the projected Laplacian. -/
theorem P1_Δ (t s s' r r' : Bool) {f g : ℝ → ℝ → ℝ} (hf : (𝔗) s s' f) (hg : (𝔗) r r' g) {a a' : List ℝ}
    (h : (𝔾).P 1 t [dX (Div f g), dY (Div f g)] = .ok a) (h' : (𝔾).P 1 t [fun x y => -dY (Curl f g) x y, dX (Curl f g)] = .ok a')
    (s1 : Smooth2 (dX (Div f g))) (s2 : Smooth2 (dY (Div f g))) (s3 : Smooth2 fun x y => -dY (Curl f g) x y) (s4 : Smooth2 (dX (Curl f g))) :
    (𝔾).P 1 t [Δ f, Δ g] = .ok (vadd a a') := by
  rw [← P1_add hn hn' t s1 s2 s3 s4 h h']
  have e1 : (fun x y => dX (Div f g) x y + -dY (Curl f g) x y) = Δ f := funext fun x => funext fun y => (hodge_laplacian hn hn' hk hk' hf hg x y).1
  have e2 : (fun x y => dY (Div f g) x y + dX (Curl f g) x y) = Δ g := funext fun x => funext fun y => (hodge_laplacian hn hn' hk hk' hf hg x y).2
  rw [e1, e2]

theorem lapOne_ok {g : Grid2} {t : Bool} {f a b c x a' b' c' y : List ℝ} (h1 : g.H 1 t f = .ok a) (h2 : g.D 1 (!t) a = .ok b) (h3 : g.H 2 (!t) b = .ok c)
    (h4 : g.D 0 t c = .ok x) (h5 : g.D 1 t f = .ok a') (h6 : g.H 2 t a' = .ok b') (h7 : g.D 0 (!t) b' = .ok c') (h8 : g.H 1 (!t) c' = .ok y) :
    lapOne g t f = .ok (vadd x y) := by
  unfold lapOne
  rw [h1]
  simp only [Bind.bind, Except.bind, h2, h3, h4, h5, h6, h7, h8]
  rfl

include hn hn' hk hk' h9 h9' in
/-- **C74** (primal 1-forms, normal component and curl on the boundary):
`L1(P1(f, g)) + H1d(BC(curl)) + D0(H2d(BC(-g, f)))` is the projection of the componentwise Laplacian. -/
theorem C74_primal_1 (f g : ℝ → ℝ → ℝ) (hf : Tensor (R0 k n false) (R0 k' n' true) f) (hg : Tensor (R0 k n true) (R0 k' n' false) g) :
    ∃ p L v v₁ w w₁ w₂, (𝔾).P 1 true [f, g] = .ok p ∧ lapOne 𝔾 true p = .ok L ∧
      (𝔾).BC 1 [Curl f g] = .ok v ∧ (𝔾).H 1 false v = .ok v₁ ∧
      (𝔾).BC 2 [fun x y => -g x y, f] = .ok w ∧ (𝔾).H 2 false w = .ok w₁ ∧ (𝔾).D 0 true w₁ = .ok w₂ ∧
      (𝔾).P 1 true [Δ f, Δ g] = .ok (vadd (vadd L v₁) w₂) := by
  obtain ⟨δ, η, o⟩ := exists_ops hn hn' h9 h9'
  have tD : (𝔗) true true (Div f g) := T_Div hn hn' hk hk' hf hg
  have tC : (𝔗) false false (Curl f g) := T_Curl hn hn' hk hk' (t := true) hf hg
  have tCx := T_dX hn hk tC
  have tCy := T_dY hn' hk' tC
  obtain ⟨p, ep, lp⟩ := P1_len hn hn' true f g
  -- grad div
  obtain ⟨a, ea, la⟩ := P1_len hn hn' false (fun x y => -g x y) f
  obtain ⟨w, ew, lw⟩ := BC2_len hn hn' (fun x y => -g x y) f
  obtain ⟨b, eb, lb⟩ := P2_len hn hn' false (Div f g)
  obtain ⟨c, ec, lc⟩ := P0_len hn hn' true (Div f g)
  obtain ⟨x, ex, lx⟩ := P1_len hn hn' true (dX (Div f g)) (dY (Div f g))
  have d1 := star1 hn hn' h9 h9' (t := true) hf hg ep ea
  obtain ⟨u, d2, rfl⟩ := deriv1d hn hn' hk hk' (T_neg hg) hf ea ew (by rw [Div_eq]; exact eb)
  have lu : u.length = count (grid₀ k n) (grid₀ k' n') 2 false :=
    (congrArg List.length (Except.ok.inj (d2.symm.trans (o.D 1 false (by decide) a la)))).trans ((o.linD 1 false (by decide)).len a la)
  have d3 := star2 hn hn' h9 h9' (t := false) tD eb ec
  have d4 := deriv0 hn hn' hk hk' tD ec ex
  have l3 : ∀ z : List ℝ, z.length = _ → (η 2 false z).length = count (grid₀ k n) (grid₀ k' n') 0 true := (o.linH 2 false).len
  have ex' : x = vadd (δ 0 true (η 2 false u)) (δ 0 true (η 2 false w)) := by
    rw [← (o.linD 0 true (by decide)).add _ _ (l3 _ lu) (l3 _ lw), ← (o.linH 2 false).add _ _ lu lw]
    rw [o.H 2 false _ lb] at d3
    rw [Except.ok.inj d3]
    rw [o.D 0 true (by decide) _ lc] at d4
    exact (Except.ok.inj d4).symm
  -- curl curl
  obtain ⟨a', ea', la'⟩ := P2_len hn hn' true (Curl f g)
  obtain ⟨b', eb', lb'⟩ := P0_len hn hn' false (Curl f g)
  obtain ⟨v, ev, lv⟩ := BC1_len hn hn' (Curl f g)
  obtain ⟨c', ec', lc'⟩ := P1_len hn hn' false (dX (Curl f g)) (dY (Curl f g))
  obtain ⟨y, ey, ly⟩ := P1_len hn hn' true (fun x y => -dY (Curl f g) x y) (dX (Curl f g))
  have d5 : (𝔾).D 1 true p = .ok a' := deriv1 hn hn' hk hk' hf hg ep ea'
  have d6 := star2 hn hn' h9 h9' (t := true) tC ea' eb'
  obtain ⟨u', d7, rfl⟩ := deriv0d hn hn' hk hk' tC eb' ev ec'
  have lu' : u'.length = count (grid₀ k n) (grid₀ k' n') 1 false :=
    (congrArg List.length (Except.ok.inj (d7.symm.trans (o.D 0 false (by decide) b' lb')))).trans ((o.linD 0 false (by decide)).len b' lb')
  have d8 := star1 hn hn' h9 h9' (t := false) tCx tCy ec' ey
  have ey' : y = vadd (η 1 false u') (η 1 false v) := by
    rw [← (o.linH 1 false).add _ _ lu' lv]
    rw [o.H 1 false _ lc'] at d8
    exact (Except.ok.inj d8).symm
  refine ⟨p, _, v, _, w, _, _, ep,
    lapOne_ok d1 d2 (o.H 2 false u lu) (o.D 0 true (by decide) _ (l3 _ lu)) d5 d6 d7 (o.H 1 false u' lu'),
    ev, o.H 1 false v lv, ew, o.H 2 false w lw, o.D 0 true (by decide) _ (l3 _ lw), ?_⟩
  rw [P1_Δ hn hn' hk hk' true _ _ _ _ hf hg ex ey (T_smooth hk hk' (T_dX hn hk tD)) (T_smooth hk hk' (T_dY hn' hk' tD)) (T_smooth hk hk' (T_neg tCy)) (T_smooth hk hk' tCx), ex', ey']
  congr 1
  unfold vadd
  refine List.ext_getElem (by simp only [List.length_zipWith]; omega) fun i h1 h2 => ?_
  simp only [List.getElem_zipWith]; ring

include hn hn' hk hk' h9 h9' in
/-- **C74** (dual 1-forms, tangential component and divergence on the boundary):
`L1d(P1d(f, g)) + H1(D0(H2d(BC(f, g)))) + BC(div)` is the projection of the componentwise Laplacian. -/
theorem C74_dual_1 (f g : ℝ → ℝ → ℝ) (hf : Tensor (R0 k n true) (R0 k' n' false) f) (hg : Tensor (R0 k n false) (R0 k' n' true) g) :
    ∃ p L v w w₁ w₂ w₃, (𝔾).P 1 false [f, g] = .ok p ∧ lapOne 𝔾 false p = .ok L ∧
      (𝔾).BC 2 [f, g] = .ok w ∧ (𝔾).H 2 false w = .ok w₁ ∧ (𝔾).D 0 true w₁ = .ok w₂ ∧ (𝔾).H 1 true w₂ = .ok w₃ ∧
      (𝔾).BC 1 [Div f g] = .ok v ∧
      (𝔾).P 1 false [Δ f, Δ g] = .ok (vadd (vadd L w₃) v) := by
  obtain ⟨δ, η, o⟩ := exists_ops hn hn' h9 h9'
  have tD : (𝔗) false false (Div f g) := T_Div hn hn' hk hk' (t := false) hf hg
  have tC : (𝔗) true true (Curl f g) := T_Curl hn hn' hk hk' (t := false) hf hg
  have tCx := T_dX hn hk tC
  have tCy := T_dY hn' hk' tC
  obtain ⟨p, ep, lp⟩ := P1_len hn hn' false f g
  -- grad div
  obtain ⟨a, ea, la⟩ := P1_len hn hn' true (fun x y => -g x y) f
  obtain ⟨b, eb, lb⟩ := P2_len hn hn' true (Div f g)
  obtain ⟨c, ec, lc⟩ := P0_len hn hn' false (Div f g)
  obtain ⟨v, ev, lv⟩ := BC1_len hn hn' (Div f g)
  obtain ⟨x, ex, lx⟩ := P1_len hn hn' false (dX (Div f g)) (dY (Div f g))
  have d1 := star1 hn hn' h9 h9' (t := false) hf hg ep ea
  have d2 : (𝔾).D 1 true a = .ok b := deriv1 hn hn' hk hk' (T_neg hg) hf ea (by rw [Div_eq]; exact eb)
  have d3 := star2 hn hn' h9 h9' (t := true) tD eb ec
  obtain ⟨u, d4, ex'⟩ := deriv0d hn hn' hk hk' tD ec ev ex
  -- curl curl
  obtain ⟨w, ew, lw⟩ := BC2_len hn hn' f g
  obtain ⟨a', ea', la'⟩ := P2_len hn hn' false (Curl f g)
  obtain ⟨b', eb', lb'⟩ := P0_len hn hn' true (Curl f g)
  obtain ⟨c', ec', lc'⟩ := P1_len hn hn' true (dX (Curl f g)) (dY (Curl f g))
  obtain ⟨y, ey, ly⟩ := P1_len hn hn' false (fun x y => -dY (Curl f g) x y) (dX (Curl f g))
  obtain ⟨u', d5, rfl⟩ := deriv1d hn hn' hk hk' hf hg ep ew ea'
  have lu' : u'.length = count (grid₀ k n) (grid₀ k' n') 2 false :=
    (congrArg List.length (Except.ok.inj (d5.symm.trans (o.D 1 false (by decide) p lp)))).trans ((o.linD 1 false (by decide)).len p lp)
  have d6 := star2 hn hn' h9 h9' (t := false) tC ea' eb'
  have d7 := deriv0 hn hn' hk hk' tC eb' ec'
  have d8 := star1 hn hn' h9 h9' (t := true) tCx tCy ec' ey
  have l1 : ∀ z : List ℝ, z.length = _ → (η 2 false z).length = count (grid₀ k n) (grid₀ k' n') 0 true := (o.linH 2 false).len
  have l2 : ∀ z : List ℝ, z.length = _ → (δ 0 true z).length = count (grid₀ k n) (grid₀ k' n') 1 true := (o.linD 0 true (by decide)).len
  have ey' : y = vadd (η 1 true (δ 0 true (η 2 false u'))) (η 1 true (δ 0 true (η 2 false w))) := by
    rw [← (o.linH 1 true).add _ _ (l2 _ (l1 _ lu')) (l2 _ (l1 _ lw)), ← (o.linD 0 true (by decide)).add _ _ (l1 _ lu') (l1 _ lw), ← (o.linH 2 false).add _ _ lu' lw]
    rw [o.H 2 false _ la'] at d6
    rw [Except.ok.inj d6]
    rw [o.D 0 true (by decide) _ lb'] at d7
    rw [Except.ok.inj d7]
    rw [o.H 1 true _ lc'] at d8
    exact (Except.ok.inj d8).symm
  refine ⟨p, _, v, w, _, _, _, ep,
    lapOne_ok d1 d2 d3 d4 d5 (o.H 2 false u' lu') (o.D 0 true (by decide) _ (l1 _ lu')) (o.H 1 true _ (l2 _ (l1 _ lu'))),
    ew, o.H 2 false w lw, o.D 0 true (by decide) _ (l1 _ lw), o.H 1 true _ (l2 _ (l1 _ lw)), ev, ?_⟩
  rw [P1_Δ hn hn' hk hk' false _ _ _ _ hf hg ex ey (T_smooth hk hk' (T_dX hn hk tD)) (T_smooth hk hk' (T_dY hn' hk' tD)) (T_smooth hk hk' (T_neg tCy)) (T_smooth hk hk' tCx), ex', ey']
  congr 1
  unfold vadd
  refine List.ext_getElem (by simp only [List.length_zipWith]; omega) fun i h1 h2 => ?_
  simp only [List.getElem_zipWith]; ring

end

/-! ## Periodic grids have no boundary terms -/

theorem zeros_eq {v : List ℝ} (h : ∀ z ∈ v, z = 0) : v = List.replicate v.length 0 := List.eq_replicate_iff.2 ⟨rfl, h⟩

theorem vadd_replicate (a : List ℝ) (m : ℕ) (h : a.length = m) : vadd a (List.replicate m 0) = a := by
  unfold vadd
  refine List.ext_getElem (by simp [h]) fun i h1 h2 => ?_
  simp

section
variable {n n' : ℕ} (hn : 1 ≤ n) (hn' : 1 ≤ n')
include hn hn'

local notation "𝔹" => product (Periodic.make n) (Periodic.make n')

theorem periodic_BC (f g : ℝ → ℝ → ℝ) :
    (𝔹).BC 1 [f] = .ok (List.replicate (count (Periodic.make n) (Periodic.make n') 1 false) 0) ∧
    (𝔹).BC 2 [f, g] = .ok (List.replicate (count (Periodic.make n) (Periodic.make n') 2 false) 0) := by
  have h2 : (0 : ℝ) < 2 * π := by positivity
  obtain ⟨v, w, e1, z1, e2, z2⟩ := C27_periodic_no_boundary n n' hn hn' 0 (2 * π) 0 (2 * π) h2 h2 f g
  obtain ⟨v', e1', l1⟩ := BC1_len (k := .periodic) (k' := .periodic) hn hn' f
  obtain ⟨w', e2', l2⟩ := BC2_len (k := .periodic) (k' := .periodic) hn hn' f g
  have e1 : (product (grid₀ .periodic n) (grid₀ .periodic n')).BC 1 [f] = .ok v := e1
  have e2 : (product (grid₀ .periodic n) (grid₀ .periodic n')).BC 2 [f, g] = .ok w := e2
  rw [e1] at e1'
  rw [e2] at e2'
  obtain rfl := Except.ok.inj e1'
  obtain rfl := Except.ok.inj e2'
  constructor
  · refine e1.trans ?_; rw [zeros_eq z1, l1]; rfl
  · refine e2.trans ?_; rw [zeros_eq z2, l2]; rfl

/-- **C74** (periodic grids, doc/plot/cheb/poisson2d_periodic.py): for trigonometric polynomials below the Nyquist frequencies of the two factors the Laplacian of the projection is the
projection of the Laplacian, for 0-forms and 1-forms, primal and dual. -/
theorem C74_periodic (t : Bool) (f g : ℝ → ℝ → ℝ) (hf : Tensor (IsTrig ((n - 1) / 2)) (IsTrig ((n' - 1) / 2)) f) (hg : Tensor (IsTrig ((n - 1) / 2)) (IsTrig ((n' - 1) / 2)) g) :
    ((𝔹).P 0 t [f] >>= lap2 𝔹 t) = (𝔹).P 0 t [Δ f] ∧ ((𝔹).P 1 t [f, g] >>= lapOne 𝔹 t) = (𝔹).P 1 t [Δ f, Δ g] := by
  have hp : (Kind.periodic : Kind) ≠ .regular := by decide
  obtain ⟨δ, η, o⟩ := exists_ops (k := .periodic) (k' := .periodic) hn hn' (by simp) (by simp)
  have bc := fun f g => periodic_BC hn hn' f g
  have o : Ops δ η 𝔹 (count (Periodic.make n) (Periodic.make n')) := o
  have pl0 : ∀ t f a, (𝔹).P 0 t [f] = .ok a → a.length = count (Periodic.make n) (Periodic.make n') 0 t := fun t f a h => by
    obtain ⟨a', e, l⟩ := P0_len (k := .periodic) (k' := .periodic) hn hn' t f
    rw [show (𝔹).P 0 t [f] = .ok a' from e] at h; rw [← Except.ok.inj h]; exact l
  have pl1 : ∀ t f g a, (𝔹).P 1 t [f, g] = .ok a → a.length = count (Periodic.make n) (Periodic.make n') 1 t := fun t f g a h => by
    obtain ⟨a', e, l⟩ := P1_len (k := .periodic) (k' := .periodic) hn hn' t f g
    rw [show (𝔹).P 1 t [f, g] = .ok a' from e] at h; rw [← Except.ok.inj h]; exact l
  have z2 : (𝔹).H 2 false (List.replicate (count (Periodic.make n) (Periodic.make n') 2 false) 0) = .ok (List.replicate (count (Periodic.make n) (Periodic.make n') 0 true) 0) := by
    rw [o.H 2 false _ (by simp), G2.lin_zero (o.linH 2 false)]; rfl
  have z1 : (𝔹).H 1 false (List.replicate (count (Periodic.make n) (Periodic.make n') 1 false) 0) = .ok (List.replicate (count (Periodic.make n) (Periodic.make n') 1 true) 0) := by
    rw [o.H 1 false _ (by simp), G2.lin_zero (o.linH 1 false)]; rfl
  have z3 : (𝔹).D 1 true (List.replicate (count (Periodic.make n) (Periodic.make n') 1 true) 0) = .ok (List.replicate (count (Periodic.make n) (Periodic.make n') 2 true) 0) := by
    rw [o.D 1 true (by decide) _ (by simp), G2.lin_zero (o.linD 1 true (by decide))]; rfl
  have z4 : (𝔹).H 2 true (List.replicate (count (Periodic.make n) (Periodic.make n') 2 true) 0) = .ok (List.replicate (count (Periodic.make n) (Periodic.make n') 0 false) 0) := by
    rw [o.H 2 true _ (by simp), G2.lin_zero (o.linH 2 true)]; rfl
  have z5 : (𝔹).D 0 true (List.replicate (count (Periodic.make n) (Periodic.make n') 0 true) 0) = .ok (List.replicate (count (Periodic.make n) (Periodic.make n') 1 true) 0) := by
    rw [o.D 0 true (by decide) _ (by simp), G2.lin_zero (o.linD 0 true (by decide))]; rfl
  have z6 : (𝔹).H 1 true (List.replicate (count (Periodic.make n) (Periodic.make n') 1 true) 0) = .ok (List.replicate (count (Periodic.make n) (Periodic.make n') 1 false) 0) := by
    rw [o.H 1 true _ (by simp), G2.lin_zero (o.linH 1 true)]; rfl
  cases t
  · constructor
    · obtain ⟨p, L, v, w₁, w₂, w₃, e1, e2, e3, e4, e5, e6, e7⟩ := C74_dual_0 (k := .periodic) (k' := .periodic) hn hn' hp hp (by simp) (by simp) f hf
      have e1 : (𝔹).P 0 false [f] = .ok p := e1
      have e2 : lap2 𝔹 false p = .ok L := e2
      obtain rfl := Except.ok.inj ((bc f g).1.symm.trans e3)
      obtain rfl := Except.ok.inj (z1.symm.trans e4)
      obtain rfl := Except.ok.inj (z3.symm.trans e5)
      obtain rfl := Except.ok.inj (z4.symm.trans e6)
      have lp := pl0 false f p e1
      have lL : L.length = count (Periodic.make n) (Periodic.make n') 0 false := by
        rw [(o.lap2 false).2 p lp] at e2; rw [← Except.ok.inj e2]; exact (o.lap2 false).1.len p lp
      rw [vadd_replicate L _ lL] at e7
      rw [e1]; exact e2.trans e7.symm
    · obtain ⟨p, L, v, w, w₁, w₂, w₃, e1, e2, e3, e4, e5, e6, e7, e8⟩ := C74_dual_1 (k := .periodic) (k' := .periodic) hn hn' hp hp (by simp) (by simp) f g hf hg
      have e1 : (𝔹).P 1 false [f, g] = .ok p := e1
      have e2 : lapOne 𝔹 false p = .ok L := e2
      obtain rfl := Except.ok.inj ((bc f g).2.symm.trans e3)
      obtain rfl := Except.ok.inj (z2.symm.trans e4)
      obtain rfl := Except.ok.inj (z5.symm.trans e5)
      obtain rfl := Except.ok.inj (z6.symm.trans e6)
      obtain rfl := Except.ok.inj ((bc (Div f g) g).1.symm.trans e7)
      have lL := o.lapOne false p L (pl1 false f g p e1) e2
      rw [vadd_replicate L _ lL, vadd_replicate L _ lL] at e8
      rw [e1]; exact e2.trans e8.symm
  · constructor
    · obtain ⟨p, L, v, w, e1, e2, e3, e4, e5⟩ := C74_primal_0 (k := .periodic) (k' := .periodic) hn hn' hp hp (by simp) (by simp) f hf
      have e1 : (𝔹).P 0 true [f] = .ok p := e1
      have e2 : lap2 𝔹 true p = .ok L := e2
      obtain rfl := Except.ok.inj ((bc (fun x y => -dY f x y) (dX f)).2.symm.trans e3)
      obtain rfl := Except.ok.inj (z2.symm.trans e4)
      have lp := pl0 true f p e1
      have lL : L.length = count (Periodic.make n) (Periodic.make n') 0 true := by
        rw [(o.lap2 true).2 p lp] at e2; rw [← Except.ok.inj e2]; exact (o.lap2 true).1.len p lp
      rw [vadd_replicate L _ lL] at e5
      rw [e1]; exact e2.trans e5.symm
    · obtain ⟨p, L, v, v₁, w, w₁, w₂, e1, e2, e3, e4, e5, e6, e7, e8⟩ := C74_primal_1 (k := .periodic) (k' := .periodic) hn hn' hp hp (by simp) (by simp) f g hf hg
      have e1 : (𝔹).P 1 true [f, g] = .ok p := e1
      have e2 : lapOne 𝔹 true p = .ok L := e2
      obtain rfl := Except.ok.inj ((bc (Curl f g) g).1.symm.trans e3)
      obtain rfl := Except.ok.inj (z1.symm.trans e4)
      obtain rfl := Except.ok.inj ((bc (fun x y => -g x y) f).2.symm.trans e5)
      obtain rfl := Except.ok.inj (z2.symm.trans e6)
      obtain rfl := Except.ok.inj (z5.symm.trans e7)
      have lL := o.lapOne true p L (pl1 true f g p e1) e2
      rw [vadd_replicate L _ lL, vadd_replicate L _ lL] at e8
      rw [e1]; exact e2.trans e8.symm
end

/-! ## Solvability on products of periodic and regular grids -/

section
variable (k k' : Kind) (n n' : ℕ) (hn : validSize k n) (hn' : validSize k' n') (hk : k ≠ .chebyshev) (hk' : k' ≠ .chebyshev) (xmin xmax ymin ymax : ℝ)
  (hx : xmin < xmax) (hy : ymin < ymax) (t : Bool)
include hn hn' hk hk' hx hy

local notation "𝔾" => product (grid k n xmin xmax) (grid k' n' ymin ymax)

/-- **C74** (kernel): on products of periodic and regular grids the 0-forms with Laplacian zero are the constants if both factors are free of imposed boundary values, and only zero otherwise. -/
theorem C74_kernel (a : List ℝ) (ha : (𝔾).N 0 t = .ok a.length) :
    (∃ L, lap2 𝔾 t a = .ok L ∧ ∀ z ∈ L, z = 0) ↔ ∃ c : ℝ, a = List.replicate a.length c ∧ (c = 0 ∨ (free k t ∧ free k' t)) := by
  have Fx := grid_factor k n hn xmin xmax
  have Fy := grid_factor k' n' hn' ymin ymax
  obtain ⟨δ, η, o⟩ := exists_ops' Fx Fy (grid_stars k n hn (fun h => absurd h hk) xmin xmax) (grid_stars k' n' hn' (fun h => absurd h hk') ymin ymax)
  have la : a.length = count (grid k n xmin xmax) (grid k' n' ymin ymax) 0 t := by
    rw [N_eq Fx Fy] at ha; exact (Except.ok.inj ha).symm
  rw [← C72_kernel k k' n n' hn hn' xmin xmax ymin ymax t a ha]
  obtain ⟨Lx, Ly, u, v, dx, e1, e2, e3, e4, e5, -, -, e6⟩ := C73_laplacian_product k k' n n' hn hn' hk hk' xmin xmax ymin ymax t hx hy a a ha ha
  have lL : Lx.length = count (grid k n xmin xmax) (grid k' n' ymin ymax) 0 t := by
    rw [(o.lap2 t).2 a la] at e1; rw [← Except.ok.inj e1]; exact (o.lap2 t).1.len a la
  have ld : dx.length = count (grid k n xmin xmax) (grid k' n' ymin ymax) 1 t := by
    rw [o.D 0 t (by decide) a la] at e5; rw [← Except.ok.inj e5]; exact (o.linD 0 t (by decide)).len a la
  constructor
  · rintro ⟨L, h1, h2⟩
    rw [e1] at h1
    obtain rfl := Except.ok.inj h1
    refine ⟨dx, e5, e6.1 ?_⟩
    rw [zeros_eq h2, lL, o.H 0 t _ (by simp), G2.lin_zero (o.linH 0 t)] at e3
    rw [← Except.ok.inj e3]
    unfold dot vmul
    refine List.sum_eq_zero fun z hz => ?_
    obtain ⟨i, hi, rfl⟩ := List.getElem_of_mem hz
    simp
  · rintro ⟨da, h1, h2⟩
    rw [o.D 0 t (by decide) a la] at h1 e5
    obtain rfl := Except.ok.inj h1
    have hl := Except.ok.inj e5
    refine ⟨_, (o.lap2 t).2 a la, ?_⟩
    rw [zeros_eq h2, hl, ld]
    have h3 : Lin (count (grid k n xmin xmax) (grid k' n' ymin ymax) 1 t) (count (grid k n xmin xmax) (grid k' n' ymin ymax) 1 (!t)) (η 1 t) := o.linH 1 t
    have h4 : Lin (count (grid k n xmin xmax) (grid k' n' ymin ymax) 1 (!t)) (count (grid k n xmin xmax) (grid k' n' ymin ymax) 2 (!t)) (δ 1 (!t)) := o.linD 1 (!t) (by decide)
    rw [G2.lin_zero h3, G2.lin_zero h4, G2.lin_zero (o.linH 2 (!t))]
    intro z hz
    exact (List.mem_replicate.1 hz).2

/-- **C74** (Dirichlet problem): if values are imposed on the boundary of at least one axis, every right-hand side has exactly one solution. -/
theorem C74_dirichlet (h : ¬ (free k t ∧ free k' t)) (b : List ℝ) (hb : (𝔾).N 0 t = .ok b.length) :
    ∃! a, (𝔾).N 0 t = .ok a.length ∧ lap2 𝔾 t a = .ok b := by
  have Fx := grid_factor k n hn xmin xmax
  have Fy := grid_factor k' n' hn' ymin ymax
  obtain ⟨δ, η, o⟩ := exists_ops' Fx Fy (grid_stars k n hn (fun h => absurd h hk) xmin xmax) (grid_stars k' n' hn' (fun h => absurd h hk') ymin ymax)
  obtain ⟨hL, eL⟩ := o.lap2 t
  have hN : ∀ a : List ℝ, (𝔾).N 0 t = .ok a.length ↔ a.length = count (grid k n xmin xmax) (grid k' n' ymin ymax) 0 t := fun a => by
    rw [N_eq Fx Fy, Except.ok.injEq, eq_comm]
  have hinj : ∀ a : List ℝ, a.length = count (grid k n xmin xmax) (grid k' n' ymin ymax) 0 t →
      η 2 (!t) (δ 1 (!t) (η 1 t (δ 0 t a))) = List.replicate (count (grid k n xmin xmax) (grid k' n' ymin ymax) 0 t) 0 →
      a = List.replicate (count (grid k n xmin xmax) (grid k' n' ymin ymax) 0 t) 0 := fun a la h0 => by
    obtain ⟨c, hc, hc'⟩ := (C74_kernel k k' n n' hn hn' hk hk' xmin xmax ymin ymax hx hy t a ((hN a).2 la)).1
      ⟨_, eL a la, by rw [h0]; intro z hz; exact (List.mem_replicate.1 hz).2⟩
    rw [hc'.resolve_right h, la] at hc
    exact hc
  have lb := (hN b).1 hb
  obtain ⟨a, la, hab⟩ := hL.surjective hinj b lb
  refine ⟨a, ⟨(hN a).2 la, by rw [eL a la, hab]⟩, ?_⟩
  rintro x ⟨hx1, hx2⟩
  have lx := (hN x).1 hx1
  rw [eL x lx, Except.ok.injEq] at hx2
  have h1 := lin_sub hL lx la
  beta_reduce at h1
  rw [hx2, hab, (vsub_zero_iff lb lb).2 rfl] at h1
  exact (vsub_zero_iff lx la).1 (hinj _ (by simp [lx, la]) h1)
end

/-! ## The hypotheses are satisfiable -/

/-- `f(x, y) = x² y` on a 4 × 3 Chebyshev grid. -/
example : ∃ f : ℝ → ℝ → ℝ, Tensor (R0 .chebyshev 4 true) (R0 .chebyshev 3 true) f ∧ Δ f 0 1 ≠ 0 ∧ validSize .chebyshev 4 ∧ validSize .chebyshev 3 := by
  refine ⟨fun x y => x ^ 2 * y, ⟨1, fun _ x => x ^ 2, fun _ y => y, fun _ _ => ⟨⟨fun j => if j = 2 then 1 else 0, fun x => ?_⟩, ⟨fun j => if j = 1 then 1 else 0, fun x => ?_⟩⟩, fun x y => by simp⟩, ?_,
    by norm_num [validSize], by norm_num [validSize]⟩
  · rw [show (grid₀ .chebyshev 4).N 0 true = 4 from rfl]; simp [sum_range_succ]
  · rw [show (grid₀ .chebyshev 3).N 0 true = 3 from rfl]; simp [sum_range_succ]
  · have h1 : dX (fun x y : ℝ => x ^ 2 * y) = fun x y => 2 * x * y := by
      funext x y; exact (((hasDerivAt_pow 2 x).mul_const y).congr_deriv (by norm_num)).deriv
    have h2 : dX (fun x y : ℝ => 2 * x * y) = fun x y => 2 * y := by
      funext x y; exact ((((hasDerivAt_id x).const_mul 2).mul_const y).congr_deriv (by norm_num)).deriv
    have h3 : dY (fun x y : ℝ => x ^ 2 * y) = fun x y => x ^ 2 := by
      funext x y; exact (((hasDerivAt_id y).const_mul (x ^ 2)).congr_deriv (by norm_num)).deriv
    have h4 : dY (fun x y : ℝ => x ^ 2) = fun x y => 0 := by
      funext x y; exact (hasDerivAt_const y (x ^ 2)).deriv
    unfold Δ
    rw [h1, h2, h3, h4]; norm_num

example : Tensor (R0 .chebyshev 4 false) (R0 .chebyshev 3 true) (fun x y => x * y) ∧ Tensor (R0 .chebyshev 4 true) (R0 .chebyshev 3 false) (fun x y => x ^ 3 * y) := by
  refine ⟨⟨1, fun _ x => x, fun _ y => y, fun _ _ => ⟨⟨fun j => if j = 1 then 1 else 0, fun x => ?_⟩, ⟨fun j => if j = 1 then 1 else 0, fun x => ?_⟩⟩, fun x y => by simp⟩,
    ⟨1, fun _ x => x ^ 3, fun _ y => y, fun _ _ => ⟨⟨fun j => if j = 3 then 1 else 0, fun x => ?_⟩, ⟨fun j => if j = 1 then 1 else 0, fun x => ?_⟩⟩, fun x y => by simp⟩⟩
  · rw [show (grid₀ .chebyshev 4).N 0 false = 3 from rfl]; simp [sum_range_succ]
  · rw [show (grid₀ .chebyshev 3).N 0 true = 3 from rfl]; simp [sum_range_succ]
  · rw [show (grid₀ .chebyshev 4).N 0 true = 4 from rfl]; simp [sum_range_succ]
  · rw [show (grid₀ .chebyshev 3).N 0 false = 2 from rfl]; simp [sum_range_succ]

example : Tensor (IsTrig ((5 - 1) / 2)) (IsTrig ((3 - 1) / 2)) (fun x y => cos (2 * x) * sin y) :=
  ⟨1, fun _ x => cos (2 * x), fun _ y => sin y, fun _ _ => ⟨⟨fun j => if j = 2 then 1 else 0, fun _ => 0, fun x => by simp [sum_range_succ]⟩,
    ⟨fun _ => 0, fun j => if j = 1 then 1 else 0, fun x => by simp [sum_range_succ]⟩⟩, fun x y => by simp⟩

example : ¬ (free .regular false ∧ free .periodic false) ∧ free .regular true ∧
    (product (grid .regular 3 0 1) (grid .periodic 2 0 1)).N 0 false = .ok ([1, 2, 3, 4] : List ℝ).length :=
  ⟨by simp [free], by simp [free], by rw [N_eq (grid_factor _ _ (by norm_num [validSize]) _ _) (grid_factor _ _ (by norm_num [validSize]) _ _)]; rfl⟩

end Dec.Props
