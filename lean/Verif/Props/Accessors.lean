import Verif.Model.Accessors
import Verif.Props.StarMatrix
import Verif.Props.Grid2Exact
import Verif.Props.Reconstruction
import Verif.Props.Derivative
import Verif.Props.Grid2Commute
import Verif.Props.Grid2Agree
import Verif.Props.Names

set_option linter.unusedSimpArgs false
set_option linter.unusedVariables false

/-! # C83: the operators as they are unpacked from a grid -/

namespace Dec.Props

open Finset Real G2

/-! ## One dimension -/

/-- **C83**: the four projections evaluate at `g.verts`, integrate over `g.edges`, evaluate at `g.verts_dual`, integrate over `g.edges_dual`. -/
theorem C83_projection (g : Grid1) (P0 P1 P0d P1d : (ℝ → ℝ) → List ℝ) (h : g.projection = (P0, P1, P0d, P1d)) (f : ℝ → ℝ) :
    P0 f = g.verts.map f ∧ P1 f = List.zipWith (fun x y => ∫ s in x..y, f s) g.edges.1 g.edges.2 ∧
    P0d f = g.verts_dual.map f ∧ P1d f = List.zipWith (fun x y => ∫ s in x..y, f s) g.edges_dual.1 g.edges_dual.2 := by
  unfold Grid1.projection at h
  simp only [Prod.mk.injEq] at h
  obtain ⟨rfl, rfl, rfl, rfl⟩ := h
  exact ⟨rfl, rfl, rfl, rfl⟩

/-- **C83**: `D0 (P0 f) = P1 f'` on intervals ... -/
theorem C83_derivative_interval (k : IKind) (n : ℕ) (hn : 2 ≤ n) (xmin xmax : ℝ) (hx : xmin < xmax) (f f' : ℝ → ℝ)
    (hd : ∀ s ∈ Set.Icc xmin xmax, HasDerivAt f (f' s) s) (hi : IntervalIntegrable f' MeasureTheory.volume xmin xmax)
    (P0 P1 P0d P1d : (ℝ → ℝ) → List ℝ) (D0 D0d : List ℝ → Option (List ℝ)) (hP : (intervalGrid k n xmin xmax).projection = (P0, P1, P0d, P1d))
    (hD : (intervalGrid k n xmin xmax).derivative = (D0, D0d)) :
    D0 (P0 f) = some (P1 f') ∧ (D0d (P0d f)).map (vadd · ((intervalGrid k n xmin xmax).boundary_condition f)) = some (P1d f') := by
  unfold Grid1.projection at hP
  unfold Grid1.derivative at hD
  simp only [Prod.mk.injEq] at hP hD
  obtain ⟨rfl, rfl, rfl, rfl⟩ := hP
  obtain ⟨rfl, rfl⟩ := hD
  exact ⟨C07_interval k n hn xmin xmax hx f f' hd hi, C08_interval k n hn xmin xmax hx f f' hd hi⟩

/-- **C83**: ... and the stars exchange primal and dual cells: `H0 (P0 f) = P1d f`, `H1 (P1 f) = P0d f`, `H0d (P0d f) = P1 f`, `H1d (P1d f) = P0 f`, for every function that the
coefficients determine. -/
theorem C83_hodge (k : Kind) (n : ℕ) (hn : validSize k n) (P0 P1 P0d P1d : (ℝ → ℝ) → List ℝ) (H0 H1 H0d H1d : List ℝ → Except Err (List ℝ))
    (hP : (grid₀ k n).projection = (P0, P1, P0d, P1d)) (hH : (grid₀ k n).hodge_star = (H0, H1, H0d, H1d)) (f : ℝ → ℝ) :
    (Determined k n 0 true f → H0 (P0 f) = .ok (P1d f)) ∧ (Determined k n 1 true f → (k = .chebyshev → n ≤ 927) → H1 (P1 f) = .ok (P0d f)) ∧
    (Determined k n 0 false f → H0d (P0d f) = .ok (P1 f)) ∧ (Determined k n 1 false f → H1d (P1d f) = .ok (P0 f)) := by
  unfold Grid1.projection at hP
  unfold Grid1.hodge_star at hH
  simp only [Prod.mk.injEq] at hP hH
  obtain ⟨rfl, rfl, rfl, rfl⟩ := hP
  obtain ⟨rfl, rfl, rfl, rfl⟩ := hH
  refine ⟨fun h => determined_star k n hn 0 true (fun _ h => absurd h (by decide)) f h, fun h h9 => determined_star k n hn 1 true (fun h _ _ => h9 h) f h,
    fun h => determined_star k n hn 0 false (fun _ h => absurd h (by decide)) f h, fun h => determined_star k n hn 1 false (fun _ _ h => absurd h (by decide)) f h⟩

theorem recon_R (g : Grid1) (d : Fin 2) (t : Bool) : Grid1.recon (tab (g.N d t) (g.B d t)) = g.R d t := by
  funext a x
  unfold Grid1.recon Grid1.R
  rw [length_tab]
  refine List.foldl_ext _ _ _ fun s i hi => ?_
  rw [getD_tab (List.mem_range.1 hi)]

/-- **C83**: the reconstructions undo the projections: `R0 (P0 f) = f` and so on, at every point of the interval. -/
theorem C83_reconstruction (k : Kind) (n : ℕ) (hn : validSize k n) (P0 P1 P0d P1d : (ℝ → ℝ) → List ℝ) (R0 R1 R0d R1d : List ℝ → ℝ → Option ℝ)
    (hP : (grid₀ k n).projection = (P0, P1, P0d, P1d)) (hR : (grid₀ k n).reconstruction = (R0, R1, R0d, R1d)) (f : ℝ → ℝ) (x : ℝ) :
    (Determined k n 0 true f → x ∈ Inside k 0 → R0 (P0 f) x = some (f x)) ∧ (Determined k n 1 true f → x ∈ Inside k 1 → R1 (P1 f) x = some (f x)) ∧
    (Determined k n 0 false f → x ∈ Inside k 0 → R0d (P0d f) x = some (f x)) ∧ (Determined k n 1 false f → x ∈ Inside k 1 → R1d (P1d f) x = some (f x)) := by
  unfold Grid1.projection at hP
  unfold Grid1.reconstruction Grid1.basis_fn at hR
  simp only [Prod.mk.injEq, recon_R] at hP hR
  obtain ⟨rfl, rfl, rfl, rfl⟩ := hP
  obtain ⟨rfl, rfl, rfl, rfl⟩ := hR
  exact ⟨fun h hx => C70_reconstruct k n hn 0 true f h x hx, fun h hx => C70_reconstruct k n hn 1 true f h x hx,
    fun h hx => C70_reconstruct k n hn 0 false f h x hx, fun h hx => C70_reconstruct k n hn 1 false f h x hx⟩

/-- **C83**: ... and on the circle, where no boundary term is needed. -/
theorem C83_derivative_periodic (n : ℕ) (xmin xmax : ℝ) (hx : xmin < xmax) (f f' : ℝ → ℝ)
    (hd : ∀ s, HasDerivAt f (f' s) s) (hi : ∀ a b, IntervalIntegrable f' MeasureTheory.volume a b) (hp : Function.Periodic f (xmax - xmin))
    (P0 P1 P0d P1d : (ℝ → ℝ) → List ℝ) (D0 D0d : List ℝ → Option (List ℝ)) (hP : (Periodic.make n xmin xmax).projection = (P0, P1, P0d, P1d))
    (hD : (Periodic.make n xmin xmax).derivative = (D0, D0d)) :
    D0 (P0 f) = some (P1 f') ∧ D0d (P0d f) = some (P1d f') := by
  unfold Grid1.projection at hP
  unfold Grid1.derivative at hD
  simp only [Prod.mk.injEq] at hP hD
  obtain ⟨rfl, rfl, rfl, rfl⟩ := hP
  obtain ⟨rfl, rfl⟩ := hD
  exact ⟨C07_periodic n xmin xmax hx f f' (fun s _ => hd s) (hi _ _) (periodic_ends hp), C08_periodic n xmin xmax hx f f' hd hi hp⟩

/-- **C83** (defect): a callable that returns a number for an array of points, like `lambda x: 1`, gives a number and not an array. -/
theorem C83_constant_callable (g : Grid1) (t : Bool) (f : ℝ → ℝ) :
    g.callP0 t true f = .array (g.P 0 t f) ∧ g.callP0 t false f = .scalar (f 0) := by
  refine ⟨?_, rfl⟩
  unfold Grid1.callP0
  rw [if_pos rfl]
  rfl

/-! ## Two dimensions -/

/-- **C83**: the six projections that `Grid_2D.projection` returns are those of the forms with these components: values, integrals along the edges, integrals over the rectangles. -/
theorem C83_projection_2d (k k' : Kind) (n n' : ℕ) (hn : validSize k n) (hn' : validSize k' n') (a b a' b' : ℝ)
    (P0 P1 P2 P0d P1d P2d : Fn → Except Err (List ℝ))
    (hP : (product (grid k n a b) (grid k' n' a' b')).projection = (P0, P1, P2, P0d, P1d, P2d)) (f g : ℝ → ℝ → ℝ) (hf : Continuous fun p : ℝ × ℝ => f p.1 p.2) :
    P0 (.scalar f) = (product (grid k n a b) (grid k' n' a' b')).P 0 true [f] ∧
    P1 (.pair fun x y => (f x y, g x y)) = (product (grid k n a b) (grid k' n' a' b')).P 1 true [f, g] ∧
    P2 (.scalar f) = (product (grid k n a b) (grid k' n' a' b')).P 2 true [f] ∧
    P0d (.scalar f) = (product (grid k n a b) (grid k' n' a' b')).P 0 false [f] ∧
    P1d (.pair fun x y => (f x y, g x y)) = (product (grid k n a b) (grid k' n' a' b')).P 1 false [f, g] ∧
    P2d (.scalar f) = (product (grid k n a b) (grid k' n' a' b')).P 2 false [f] := by
  unfold Grid2.projection at hP
  simp only [Prod.mk.injEq] at hP
  obtain ⟨rfl, rfl, rfl, rfl, rfl, rfl⟩ := hP
  exact ⟨(C55_projection_0 k k' n n' hn hn' a b a' b' true f).1, (C55_projection_1 k k' n n' hn hn' a b a' b' true f g).1,
    (C55_projection_2 k k' n n' hn hn' a b a' b' true f hf).1, (C55_projection_0 k k' n n' hn hn' a b a' b' false f).1,
    (C55_projection_1 k k' n n' hn hn' a b a' b' false f g).1, (C55_projection_2 k k' n n' hn hn' a b a' b' false f hf).1⟩

/-- **C83**: the cells of a two-dimensional grid. `P0, P1, P2` evaluate at the points of `g.verts`, integrate along the edges from the first to the second point of `g.edges`, and over the polygons with the four
corners of `g.faces`; `P0d, P1d, P2d` do the same with `g.verts_dual`, `g.edges_dual`, `g.faces_dual`. -/
theorem C83_cells_2d (k k' : Kind) (n n' : ℕ) (hn : validSize k n) (hn' : validSize k' n') (a b a' b' : ℝ)
    (G : Grid2) (hG : G = product (grid k n a b) (grid k' n' a' b')) (P0 P1 P2 P0d P1d P2d : Fn → Except Err (List ℝ)) (hP : G.projection = (P0, P1, P2, P0d, P1d, P2d))
    (f g : ℝ → ℝ → ℝ) (hf : Continuous fun p : ℝ × ℝ => f p.1 p.2) :
    let along (e : (List ℝ × List ℝ) × (List ℝ × List ℝ)) : List ℝ := List.zipWith (fun p q : ℝ × ℝ => Integrate.integrate_1form p q fun x y => (f x y, g x y)) (List.zip e.1.1 e.1.2) (List.zip e.2.1 e.2.2)
    let onto (c : (List ℝ × List ℝ) × (List ℝ × List ℝ) × (List ℝ × List ℝ) × (List ℝ × List ℝ)) : List (Except Err ℝ) :=
      List.zipWith (fun p q : (ℝ × ℝ) × (ℝ × ℝ) => Integrate.integrate_2form [p.1, p.2, q.1, q.2] f) (List.zip (List.zip c.1.1 c.1.2) (List.zip c.2.1.1 c.2.1.2)) (List.zip (List.zip c.2.2.1.1 c.2.2.1.2) (List.zip c.2.2.2.1 c.2.2.2.2))
    P0 (.scalar f) = .ok (List.zipWith f G.verts.1 G.verts.2) ∧ P0d (.scalar f) = .ok (List.zipWith f G.verts_dual.1 G.verts_dual.2) ∧
    P1 (.pair fun x y => (f x y, g x y)) = .ok (along G.edges) ∧ P1d (.pair fun x y => (f x y, g x y)) = .ok (along G.edges_dual) ∧
    (∃ v, P2 (.scalar f) = .ok v ∧ v.map Except.ok = onto G.faces) ∧ ∃ v, P2d (.scalar f) = .ok v ∧ v.map Except.ok = onto G.faces_dual := by
  subst hG
  obtain ⟨e1, e2, e3, e4, e5, e6⟩ := C83_projection_2d k k' n n' hn hn' a b a' b' P0 P1 P2 P0d P1d P2d hP f g hf
  refine ⟨e1.trans (C55_projection_0 k k' n n' hn hn' a b a' b' true f).2.symm, e4.trans (C55_projection_0 k k' n n' hn hn' a b a' b' false f).2.symm,
    e2.trans (C55_projection_1 k k' n n' hn hn' a b a' b' true f g).2.symm, e5.trans (C55_projection_1 k k' n n' hn hn' a b a' b' false f g).2.symm,
    ⟨_, e3.trans (C55_projection_2 k k' n n' hn hn' a b a' b' true f hf).2.symm, ?_⟩, ⟨_, e6.trans (C55_projection_2 k k' n n' hn hn' a b a' b' false f hf).2.symm, ?_⟩⟩
  all_goals
    rw [List.map_zipWith]
    rfl

theorem continuous_curl {f g : ℝ → ℝ → ℝ} (hf : Smooth2 f) (hg : Smooth2 g) : Continuous fun p : ℝ × ℝ => dX g p.1 p.2 - dY f p.1 p.2 :=
  hg.cont_dX.sub hf.cont_dY

/-- **C83**: the derivatives `D0, D1` and the projections of `Grid_2D` satisfy `D0 P0 f = P1 (∂x f, ∂y f)` and `D1 P1 (f, g) = P2 (∂x g - ∂y f)`. -/
theorem C83_derivative_2d (k k' : Kind) (n n' : ℕ) (hn : validSize k n) (hn' : validSize k' n') (a b a' b' : ℝ) (hab : a < b) (hab' : a' < b')
    (P0 P1 P2 P0d P1d P2d : Fn → Except Err (List ℝ)) (D0 D1 D0d D1d : List ℝ → Except Err (List ℝ))
    (hP : (product (grid k n a b) (grid k' n' a' b')).projection = (P0, P1, P2, P0d, P1d, P2d))
    (hD : (product (grid k n a b) (grid k' n' a' b')).derivative = (D0, D1, D0d, D1d))
    (f g : ℝ → ℝ → ℝ) (hf : Smooth2 f) (hg : Smooth2 g) (hp : PeriodicX k a b f ∧ PeriodicX k a b g) (hp' : PeriodicY k' a' b' f) :
    (P0 (.scalar f) >>= D0) = P1 (.pair fun x y => (dX f x y, dY f x y)) ∧
    (P1 (.pair fun x y => (f x y, g x y)) >>= D1) = P2 (.scalar fun x y => dX g x y - dY f x y) ∧
    (∃ u v, (P0d (.scalar f) >>= D0d) = .ok u ∧ (product (grid k n a b) (grid k' n' a' b')).BC 1 [f] = .ok v ∧
      P1d (.pair fun x y => (dX f x y, dY f x y)) = .ok (vadd u v) ∧ u.length = v.length) ∧
    (∃ u v, (P1d (.pair fun x y => (f x y, g x y)) >>= D1d) = .ok u ∧ (product (grid k n a b) (grid k' n' a' b')).BC 2 [f, g] = .ok v ∧
      P2d (.scalar fun x y => dX g x y - dY f x y) = .ok (vadd u v) ∧ u.length = v.length) := by
  have hc := continuous_curl hf hg
  have h1 := C83_projection_2d k k' n n' hn hn' a b a' b' _ _ _ _ _ _ hP f g hf.continuous
  have h2 := C83_projection_2d k k' n n' hn hn' a b a' b' _ _ _ _ _ _ hP (fun x y => dX g x y - dY f x y) g hc
  have h3 := C83_projection_2d k k' n n' hn hn' a b a' b' _ _ _ _ _ _ hP (dX f) (dY f) hf.cont_dX
  unfold Grid2.derivative at hD
  simp only [Prod.mk.injEq] at hD
  obtain ⟨rfl, rfl, rfl, rfl⟩ := hD
  rw [h1.1, h1.2.1, h1.2.2.2.1, h1.2.2.2.2.1, h2.2.2.1, h2.2.2.2.2.2, h3.2.1, h3.2.2.2.2.1]
  exact ⟨C27_primal_0 k k' n n' hn hn' a b a' b' hab hab' f hf hp.1 hp', C27_primal_1 k k' n n' hn hn' a b a' b' hab hab' f g hf hg hp.2 hp',
    C27_dual_0 k k' n n' hn hn' a b a' b' hab hab' f hf hp.1 hp', C27_dual_1 k k' n n' hn hn' a b a' b' hab hab' f g hf hg hp.2 hp'⟩

/-- **C83**: the stars of `Grid_2D`: `H0 P0 f = P2d f`, `H1 P1 (f, g) = P1d (-g, f)`, `H2 P2 f = P0d f`, and the same from dual to primal forms, for all resolved forms with continuous components. -/
theorem C83_hodge_2d (k k' : Kind) (n n' : ℕ) (hn : validSize k n) (hn' : validSize k' n') (h9 : k = .chebyshev → n ≤ 927) (h9' : k' = .chebyshev → n' ≤ 927)
    (P0 P1 P2 P0d P1d P2d : Fn → Except Err (List ℝ)) (H0 H1 H2 H0d H1d H2d : List ℝ → Except Err (List ℝ))
    (hP : (product (grid₀ k n) (grid₀ k' n')).projection = (P0, P1, P2, P0d, P1d, P2d))
    (hH : (product (grid₀ k n) (grid₀ k' n')).hodge_star = (H0, H1, H2, H0d, H1d, H2d))
    (f g : ℝ → ℝ → ℝ) (hf : Continuous fun p : ℝ × ℝ => f p.1 p.2) (hg : Continuous fun p : ℝ × ℝ => g p.1 p.2) :
    (Tensor (Resolved k ((grid₀ k n).N 0 true)) (Resolved k' ((grid₀ k' n').N 0 true)) f → (P0 (.scalar f) >>= H0) = P2d (.scalar f)) ∧
    (Tensor (Resolved k ((grid₀ k n).N 1 true)) (Resolved k' ((grid₀ k' n').N 0 true)) f →
      Tensor (Resolved k ((grid₀ k n).N 0 true)) (Resolved k' ((grid₀ k' n').N 1 true)) g →
      (P1 (.pair fun x y => (f x y, g x y)) >>= H1) = P1d (.pair fun x y => (-g x y, f x y))) ∧
    (Tensor (Resolved k ((grid₀ k n).N 1 true)) (Resolved k' ((grid₀ k' n').N 1 true)) f → (P2 (.scalar f) >>= H2) = P0d (.scalar f)) ∧
    (Tensor (Resolved k ((grid₀ k n).N 0 false)) (Resolved k' ((grid₀ k' n').N 0 false)) f → (P0d (.scalar f) >>= H0d) = P2 (.scalar f)) ∧
    (Tensor (Resolved k ((grid₀ k n).N 1 false)) (Resolved k' ((grid₀ k' n').N 0 false)) f →
      Tensor (Resolved k ((grid₀ k n).N 0 false)) (Resolved k' ((grid₀ k' n').N 1 false)) g →
      (P1d (.pair fun x y => (f x y, g x y)) >>= H1d) = P1 (.pair fun x y => (-g x y, f x y))) ∧
    (Tensor (Resolved k ((grid₀ k n).N 1 false)) (Resolved k' ((grid₀ k' n').N 1 false)) f → (P2d (.scalar f) >>= H2d) = P0 (.scalar f)) := by
  unfold Grid2.hodge_star at hH
  simp only [Prod.mk.injEq] at hH
  obtain ⟨rfl, rfl, rfl, rfl, rfl, rfl⟩ := hH
  obtain ⟨a, b, e⟩ := grid₀_eq k n
  obtain ⟨a', b', e'⟩ := grid₀_eq k' n'
  have HP := hP
  rw [e, e'] at HP
  have h1 := C83_projection_2d k k' n n' hn hn' a b a' b' P0 P1 P2 P0d P1d P2d HP f g hf
  have h2 := C83_projection_2d k k' n n' hn hn' a b a' b' P0 P1 P2 P0d P1d P2d HP (fun x y => -g x y) f hg.neg
  rw [← e, ← e'] at h1 h2
  rw [h1.1, h1.2.1, h1.2.2.1, h1.2.2.2.1, h1.2.2.2.2.1, h1.2.2.2.2.2, h2.2.1, h2.2.2.2.2.1]
  have hT := C58_hodge_exact k k' n n' hn hn' h9 h9' true f g
  have hF := C58_hodge_exact k k' n n' hn hn' h9 h9' false f g
  have fin : ∀ {p q : Except Err (List ℝ)} {S : List ℝ → Except Err (List ℝ)}, (∃ a b, p = .ok a ∧ S a = .ok b ∧ q = .ok b) → (p >>= S) = q := by
    rintro p q S ⟨a, b, rfl, hS, rfl⟩
    exact hS
  exact ⟨fun h => fin (hT.1 h), fun h h' => fin (hT.2.1 h h'), fun h => fin (hT.2.2 h), fun h => fin (hF.1 h), fun h h' => fin (hF.2.1 h h'), fun h => fin (hF.2.2 h)⟩

/-- **C83**: the reconstructions of `Grid_2D` give back the components of the form, at every point of the open rectangle. -/
theorem C83_reconstruction_2d (k k' : Kind) (n n' : ℕ) (hn : validSize k n) (hn' : validSize k' n')
    (R0 R1 R2 R0d R1d R2d : List ℝ → Except Err (ℝ → ℝ → List (Option ℝ)))
    (hR : (product (grid₀ k n) (grid₀ k' n')).reconstruction = (R0, R1, R2, R0d, R1d, R2d))
    (σ : List (ℝ → ℝ → ℝ)) (d : Fin 3) (t : Bool) (hσ : TensorForm (fun e => Determined k n e t) (fun e => Determined k' n' e t) d σ) :
    ∃ a r, (product (grid₀ k n) (grid₀ k' n')).P d t σ = .ok a ∧
      (if t then (if d = 0 then R0 else if d = 1 then R1 else R2) else (if d = 0 then R0d else if d = 1 then R1d else R2d)) a = .ok r ∧
      ∀ x ∈ Inside k (if d = 0 then 0 else 1), ∀ y ∈ Inside k' (if d = 0 then 0 else 1), r x y = σ.map fun f => some (f x y) := by
  unfold Grid2.reconstruction at hR
  simp only [Prod.mk.injEq] at hR
  obtain ⟨rfl, rfl, rfl, rfl, rfl, rfl⟩ := hR
  obtain ⟨a, r, h1, h2, h3⟩ := C70_reconstruct_2d k k' n n' hn hn' d t σ hσ
  refine ⟨a, r, h1, ?_, h3⟩
  obtain rfl | rfl | rfl : d = 0 ∨ d = 1 ∨ d = 2 := by omega
  all_goals cases t
  all_goals exact h2

/-! ## Numerical projection of forms and of constant callables -/

theorem lam_xy {e : Names.Expr} {φ : ℝ → ℝ → ℝ} (he : Denotes2 e φ) :
    ∃ f, Names.lam ["x", "y"] e = .ok f ∧ ∀ x y, f [x, y] = φ x y := by
  refine ⟨_, if_pos fun s hs => ?_, fun x y => ?_⟩
  · rcases he.1 s hs with rfl | rfl <;> simp
  · show e.val _ = _
    rw [he.2]
    simp [Names.env, List.lookup_cons]

/-- **C83** (defects): the numerical projection `Pn` of a symbolic form agrees with `P` for 1-forms and for 0-forms that are not constant; it raises an error for constant 0-forms and for
all 2-forms. -/
theorem C83_numeric_forms (k k' : Kind) (n n' : ℕ) (hn : validSize k n) (hn' : validSize k' n') (a b a' b' : ℝ) (t : Bool)
    (e e' : Names.Expr) (φ ψ : ℝ → ℝ → ℝ) (he : Denotes2 e φ) (he' : Denotes2 e' ψ) :
    (e.free ≠ [] → (product (grid k n a b) (grid k' n' a' b')).formPn 0 t [e] = (product (grid k n a b) (grid k' n' a' b')).P 0 t [φ]) ∧
    (e.free = [] → (product (grid k n a b) (grid k' n' a' b')).formPn 0 t [e] = .error .attributeError) ∧
    (product (grid k n a b) (grid k' n' a' b')).formPn 1 t [e, e'] = (product (grid k n a b) (grid k' n' a' b')).P 1 t [φ, ψ] ∧
    (product (grid k n a b) (grid k' n' a' b')).formPn 2 t [e] = .error .typeError := by
  obtain ⟨F, hF, eF⟩ := lam_xy he
  obtain ⟨F', hF', eF'⟩ := lam_xy he'
  refine ⟨fun h => ?_, fun h => ?_, ?_, ?_⟩
  · unfold Grid2.formPn
    simp only [hF, bind, Except.bind, if_neg h, eF]
    exact (C55_projection_0 k k' n n' hn hn' a b a' b' t φ).1
  · unfold Grid2.formPn
    simp only [hF, bind, Except.bind, if_pos h]
  · unfold Grid2.formPn
    simp only [hF, hF', bind, Except.bind, eF, eF']
    exact (C55_projection_1 k k' n n' hn hn' a b a' b' t φ ψ).1
  · unfold Grid2.formPn
    simp only [hF, bind, Except.bind]

/-- **C83** (defect): a callable that returns a number for arrays of points is rejected in two dimensions. -/
theorem C83_constant_callable_2d (k k' : Kind) (n n' : ℕ) (hn : validSize k n) (hn' : validSize k' n') (a b a' b' : ℝ) (t : Bool) (f : ℝ → ℝ → ℝ) :
    (product (grid k n a b) (grid k' n' a' b')).callP0 t true f = (product (grid k n a b) (grid k' n' a' b')).P 0 t [f] ∧
    (product (grid k n a b) (grid k' n' a' b')).callP0 t false f = .error .typeError := by
  unfold Grid2.callP0
  rw [if_pos rfl, if_neg (by decide)]
  exact ⟨(C55_projection_0 k k' n n' hn hn' a b a' b' t f).1, rfl⟩

/-- The vertices of a product when the vertices of the factors are tabulated. -/
theorem product_verts {gx gy : Grid1} {n m : ℕ} {u w : ℕ → ℝ} (hx : gx.cells.v true = tab n u) (hy : gy.cells.v true = tab m w) :
    (product gx gy).verts = ((List.range (n * m)).map (fun p => u (p % n)), (List.range (n * m)).map (fun p => w (p / n))) := by
  show ((meshgrid (gx.cells.v true) (gy.cells.v true)).1.data, (meshgrid (gx.cells.v true) (gy.cells.v true)).2.data) = _
  rw [hx, hy, meshgrid_tab]
  simp only [mtab, tab, Nat.mul_comm m n]

/-- **C83**: the three constructors of two-dimensional grids. `Grid_2D.periodic(N, M)` has the vertices `(2π i / N, 2π j / M)`, the first coordinate running fastest, on `[0, 2π]²`; ... -/
theorem C83_constructor_periodic (N M : ℕ) :
    (Grid2.periodic N M).verts = ((List.range (N * M)).map (fun p => 2 * π * (p % N : ℕ) / N), (List.range (N * M)).map (fun p => 2 * π * (p / N : ℕ) / M)) ∧
    ((Grid2.periodic N M).gx.xmin, (Grid2.periodic N M).gx.xmax, (Grid2.periodic N M).gy.xmin, (Grid2.periodic N M).gy.xmax) = (0, 2 * π, 0, 2 * π) := by
  refine ⟨product_verts (gx := Periodic.make N) (gy := Periodic.make M) (u := fun i => 2 * π * i / N) (w := fun i => 2 * π * i / M) ?_ ?_, rfl⟩
  all_goals
    show Periodic.verts _ 0 (2 * π) = _
    rw [Periodic.verts_tab]
    exact tab_congr fun i _ => by ring

/-- **C83**: ... `Grid_2D.regular(N, M)` has the vertices `(π i / (N - 1), π j / (M - 1))` on `[0, π]²`; ... -/
theorem C83_constructor_regular (N M : ℕ) (hN : 2 ≤ N) (hM : 2 ≤ M) :
    (Grid2.regular N M).verts = ((List.range (N * M)).map (fun p => π * (p % N : ℕ) / (N - 1)), (List.range (N * M)).map (fun p => π * (p / N : ℕ) / (M - 1))) ∧
    ((Grid2.regular N M).gx.xmin, (Grid2.regular N M).gx.xmax, (Grid2.regular N M).gy.xmin, (Grid2.regular N M).gy.xmax) = (0, π, 0, π) := by
  refine ⟨product_verts (gx := Regular.make N) (gy := Regular.make M) (u := fun i => π * i / (N - 1)) (w := fun i => π * i / (M - 1)) ?_ ?_, rfl⟩
  all_goals
    show Regular.verts _ 0 π = _
    rw [Regular.verts_tab, Nat.cast_sub (by omega), Nat.cast_one]
    exact tab_congr fun i _ => by ring

/-- **C83**: ... and `Grid_2D.chebyshev(N, M)` has the vertices `(- cos (π i / (N - 1)), - cos (π j / (M - 1)))` on `[-1, 1]²`. -/
theorem C83_constructor_chebyshev (N M : ℕ) (hN : 2 ≤ N) (hM : 2 ≤ M) :
    (Grid2.chebyshev N M).verts =
      ((List.range (N * M)).map (fun p => - cos (π * (p % N : ℕ) / (N - 1))), (List.range (N * M)).map (fun p => - cos (π * (p / N : ℕ) / (M - 1)))) ∧
    ((Grid2.chebyshev N M).gx.xmin, (Grid2.chebyshev N M).gx.xmax, (Grid2.chebyshev N M).gy.xmin, (Grid2.chebyshev N M).gy.xmax) = (-1, 1, -1, 1) := by
  refine ⟨product_verts (gx := Chebyshev.make N) (gy := Chebyshev.make M) (u := fun i => - cos (π * i / (N - 1))) (w := fun i => - cos (π * i / (M - 1))) ?_ ?_, rfl⟩
  all_goals
    show Chebyshev.verts _ (-1) 1 = _
    rw [Chebyshev.verts_tab (by assumption), Nat.cast_sub (by omega), Nat.cast_one]
    exact tab_congr fun i _ => by unfold Chebyshev.pt; rw [← mul_div_assoc, mul_comm (i : ℝ) π]; ring

/-! ## Non-vacuity -/

/-- The tuples exist, and the hypotheses on the functions can be met. -/
example : ∃ P0 P1 P0d P1d, (grid₀ .chebyshev 5).projection = (P0, P1, P0d, P1d) ∧ (P0 fun x => x).length = 5 ∧ (P1 fun x => x).length = 4 := by
  refine ⟨_, _, _, _, rfl, ?_, ?_⟩
  · show (List.map _ _).length = 5
    rw [List.length_map]; rfl
  · show (List.zipWith _ _ _).length = 4
    rw [List.length_zipWith]; rfl

example : Smooth2 fun x y => x * y := by unfold Smooth2; fun_prop

example : Denotes2 ⟨["x", "y"], fun σ => σ "x" + σ "y", fun σ τ h => by rw [h "x" (by simp), h "y" (by simp)]⟩ fun x y => x + y :=
  ⟨fun s hs => by simpa using hs, fun _ => rfl⟩

end Dec.Props
