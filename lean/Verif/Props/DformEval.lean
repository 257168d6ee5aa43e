import Verif.Model.DformEval
import Verif.Model.Misc
import Verif.Props.Reconstruction
import Verif.Props.Grid2Exact
import Verif.Props.Grid2Basis
import Verif.Props.Decform
import Verif.Props.Symmetry

/-!
# C93: evaluating and refining discrete forms

`x.R` for a discrete form `x` and its relation to `x.Rf`, on every grid and also for arrays of the wrong length, absent degrees and calls with the wrong number
of coordinates.
-/

namespace Dec.Props

open Dec.G2 Dec.Decform Dec.Sp

/-! ## The sum -/

theorem sum_terms (B : ℕ → Except Err (List (Option ℝ))) (b : ℕ → List (Option ℝ)) (m N : ℕ) (a : List ℝ)
    (hB : ∀ i < N, B i = .ok (b i)) (hb : ∀ i < N, (b i).length = m) (ha : N ≤ a.length) :
    (List.range N).foldlM (fun s i => addTerm B a s i) (List.replicate m (some 0)) =
      .ok (tab m fun c => (List.range N).foldl (fun s i => oadd s (((b i).getD c none).map (a.getD i 0 * ·))) (some 0)) := by
  induction N with
  | zero =>
    simp only [List.range_zero, List.foldlM_nil, List.foldl_nil]
    rw [replicate_tab]; rfl
  | succ N ih =>
    rw [List.range_succ, List.foldlM_append, ih (fun i hi => hB i (by omega)) (fun i hi => hb i (by omega)) (by omega)]
    simp only [Bind.bind, Except.bind, List.foldlM_cons, List.foldlM_nil, List.foldl_append, List.foldl_cons, List.foldl_nil]
    have hN : N < a.length := by omega
    unfold addTerm
    rw [List.getElem?_eq_getElem hN, hB N (by omega)]
    simp only [Bind.bind, Except.bind, pure, Except.pure]
    rw [eq_tab' (hb N (by omega)) none, zipWith_tab]
    congr 1
    refine tab_congr fun c hc => ?_
    rw [getD_tab hc]
    congr 3
    rw [List.getD_eq_getElem?_getD, List.getElem?_eq_getElem hN]; rfl

theorem sum_short (B : ℕ → Except Err (List (Option ℝ))) (b : ℕ → List (Option ℝ)) (m N : ℕ) (a : List ℝ)
    (hB : ∀ i < N, B i = .ok (b i)) (hb : ∀ i < N, (b i).length = m) (ha : a.length < N) :
    (List.range N).foldlM (fun s i => addTerm B a s i) (List.replicate m (some 0)) = .error .indexError := by
  obtain ⟨k, rfl⟩ : ∃ k, N = a.length + (k + 1) := ⟨N - a.length - 1, by omega⟩
  rw [List.range_add, List.foldlM_append, sum_terms B b m a.length a (fun i hi => hB i (by omega)) (fun i hi => hb i (by omega)) le_rfl]
  simp only [Bind.bind, Except.bind, List.range_succ_eq_map, List.map_cons, List.foldlM_cons, addTerm, add_zero, List.getElem?_eq_none le_rfl]

/-! ## One dimension -/

section one
variable (h : GHeap) (x : DForm) (g : Grid1) (hg : h x.grid = .one g) (d : Fin 2) (hd : x.degree = d.val)
include hg hd

theorem N_one : (h x.grid).ops.N x.degree x.isprimal = .ok (g.N d x.isprimal) := by
  simp only [hg, hd, AnyGrid.ops, ops1, key, d.isLt, dif_pos, Bind.bind, Except.bind]

theorem B_one (i : ℕ) (s : ℝ) : (h x.grid).B x.degree x.isprimal i [s] = .ok [g.B d x.isprimal i s] := by
  simp only [hg, hd, AnyGrid.B, key, d.isLt, dif_pos, Bind.bind, Except.bind]

/-- **C93**: on a one-dimensional grid `x.R(s)` is the sum over the cells of coefficient times basis function, which is what `g.reconstruction()` gives;
entries of the array beyond the number of cells are ignored. -/
theorem C93_evaluate (s : ℝ) (hl : g.N d x.isprimal ≤ x.array.length) :
    R h x [s] = .ok [g.R d x.isprimal x.array s] := by
  unfold Decform.R
  rw [N_one h x g hg d hd]
  simp only [Bind.bind, Except.bind]
  have := sum_terms (fun i => (h x.grid).B x.degree x.isprimal i [s]) (fun i => [g.B d x.isprimal i s]) 1 (g.N d x.isprimal) x.array
    (fun i _ => B_one h x g hg d hd i s) (fun _ _ => rfl) hl
  rw [show (h x.grid).comps x.degree = 1 by rw [hg]; rfl]
  rw [this]
  rfl

/-- **C93**: if the array is too short, evaluating raises `IndexError`. -/
theorem C93_short (s : ℝ) (hl : x.array.length < g.N d x.isprimal) : R h x [s] = .error .indexError := by
  unfold Decform.R
  rw [N_one h x g hg d hd]
  simp only [Bind.bind, Except.bind]
  rw [show (h x.grid).comps x.degree = 1 by rw [hg]; rfl]
  exact sum_short (fun i => (h x.grid).B x.degree x.isprimal i [s]) (fun i => [g.B d x.isprimal i s]) 1 (g.N d x.isprimal) x.array
    (fun i _ => B_one h x g hg d hd i s) (fun _ _ => rfl) hl

end one

/-- **C93**: projecting the function `x.R` of a form on a one-dimensional grid of any kind and size gives the array of the form back. -/
theorem C93_project_back (k : Kind) (n : ℕ) (hn : validSize k n) (h : GHeap) (x : DForm) (hg : h x.grid = .one (grid₀ k n)) (d : Fin 2)
    (hd : x.degree = d.val) (hl : x.array.length = (grid₀ k n).N d x.isprimal) :
    ∃ r : ℝ → Option ℝ, (∀ s, R h x [s] = .ok [r s]) ∧ oP (grid₀ k n).cells d x.isprimal r = x.array.map some := by
  refine ⟨_, fun s => C93_evaluate h x _ hg d hd s hl.ge, ?_⟩
  cases k
  · exact C16_projection_reconstruction .periodic n hn d x.isprimal x.array hl
  · exact C16_projection_reconstruction .regular n hn d x.isprimal x.array hl
  · exact C16_projection_reconstruction .chebyshev n hn d x.isprimal x.array hl

/-- **C93**: evaluating the projection of a function that the coefficients determine gives the function. -/
theorem C93_evaluate_projection (k : Kind) (n : ℕ) (hn : validSize k n) (h : GHeap) (x : DForm) (hg : h x.grid = .one (grid₀ k n)) (d : Fin 2)
    (hd : x.degree = d.val) (f : ℝ → ℝ) (hf : Determined k n d x.isprimal f) (hx : x.array = (grid₀ k n).P d x.isprimal f) (s : ℝ) (hs : s ∈ Inside k d) :
    R h x [s] = .ok [some (f s)] := by
  have hl : ((grid₀ k n).P d x.isprimal f).length = (grid₀ k n).N d x.isprimal := by
    obtain ⟨a, b, e⟩ := grid₀_eq k n
    rw [e, P_length k n hn, ← e]
  rw [C93_evaluate h x _ hg d hd s (by rw [hx, hl]), hx, C70_reconstruct k n hn d _ f hf s hs]

/-- **C93**: the function `x.R` of a form on a one-dimensional grid takes exactly one coordinate, if the form has any coefficients. -/
theorem C93_arity (h : GHeap) (x : DForm) (g : Grid1) (hg : h x.grid = .one g) (d : Fin 2) (hd : x.degree = d.val) (s : List ℝ) (hs : s.length ≠ 1)
    (hN : 0 < g.N d x.isprimal) (hl : x.array ≠ []) : R h x s = .error .typeError := by
  unfold Decform.R
  rw [N_one h x g hg d hd]
  obtain ⟨m, hm⟩ : ∃ m, g.N d x.isprimal = m + 1 := ⟨g.N d x.isprimal - 1, by omega⟩
  rw [hm]
  simp only [Bind.bind, Except.bind, List.range_succ_eq_map, List.foldlM_cons]
  obtain ⟨c, l, hc⟩ : ∃ c l, x.array = c :: l := List.exists_cons_of_ne_nil hl
  have e : (h x.grid).B x.degree x.isprimal 0 s = .error .typeError := by
    simp only [hg, hd, AnyGrid.B, key, d.isLt, dif_pos, Bind.bind, Except.bind]
    match s, hs with
    | [], _ => rfl
    | [_], hs => exact absurd rfl hs
    | _ :: _ :: _, _ => rfl
  simp only [addTerm, hc, List.getElem?_cons_zero, e, Bind.bind, Except.bind]

/-- **C93**: a degree that does not occur on the grid is a `KeyError`, both in evaluation and in refinement. -/
theorem C93_degree (h : GHeap) (x : DForm) (hd : (h x.grid).ops.dim < x.degree) (s : List ℝ) :
    R h x s = .error .keyError ∧ match h x.grid with
      | .one g => Rf1 g x = .error .keyError
      | .two g => Rf2 g x = .error .keyError := by
  unfold Decform.R
  cases hg : h x.grid with
  | one g =>
    rw [hg] at hd
    have hk : ¬ x.degree < 2 := by have : 1 < x.degree := hd; omega
    simp only [AnyGrid.ops, ops1, Rf1, key, dif_neg hk, Bind.bind, Except.bind, and_self]
  | two g =>
    rw [hg] at hd
    have hk : ¬ x.degree < 3 := by have : 2 < x.degree := hd; omega
    simp only [AnyGrid.ops, ops2, Rf2, key, dif_neg hk, Bind.bind, Except.bind, and_self]

/-! ## Refinement -/

theorem refine_determined {k : Kind} {n : ℕ} (hr : Refinable k n) (d : Fin 2) (t : Bool) (f : ℝ → ℝ) (hf : Determined k n d t f) :
    ∃ pts, (grid₀ k n).points = .ok pts ∧ (grid₀ k n).T d t ((grid₀ k n).P d t f) = .ok (pts.map f) := by
  obtain ⟨hn, hreg, h927⟩ := hr
  cases k
  · have hn : 1 ≤ n := hn
    refine ⟨_, Periodic.points_samp n, ?_⟩
    have e := Periodic.T_exact (n := n) (p := f) d t (by
      have := IsTrigAt.res hn hf
      have hh2 : hh n / 2 = Real.pi / n := by unfold hh; ring
      obtain rfl | rfl : d = 0 ∨ d = 1 := by omega
      all_goals cases t
      all_goals simpa [Periodic.ph, hh2] using this)
    refine e.trans (congrArg _ ?_)
    unfold samp; rw [map_tab]; rfl
  · exact absurd rfl hreg
  · have hn : 2 ≤ n := hn
    have hN : (grid₀ .chebyshev n).N d t = if (d = 0) = (t = true) then n else n - 1 := by
      have hg := Chebyshev.isInterval hn (-1) 1
      obtain rfl | rfl : d = 0 ∨ d = 1 := by omega
      all_goals cases t
      · exact hg.N00.trans (by simp; rfl)
      · exact hg.N01.trans (by simp; rfl)
      · exact hg.N10.trans (by simp; rfl)
      · exact hg.N11.trans (by simp; rfl)
    obtain ⟨pts, e1, e2, -⟩ := C19_chebyshev_refine_samples n hn d t (fun _ _ => h927 rfl) f (by
      have : IsPoly (if (d = 0) = (t = true) then n else n - 1) f := hf
      rw [← hN] at this; exact this)
    exact ⟨pts, e1, e2⟩

/-- **C93**: on a periodic or Chebyshev grid the refinement `x.Rf` of a form consists of the values `x.R(s)` at the points `s` of `g.points` (for Chebyshev
1-forms, at the points other than the ends of the interval, where `x.R` need not be defined), and the unrefinement takes it back to the array. -/
theorem C93_refine (k : Kind) (n : ℕ) (hr : Refinable k n) (h : GHeap) (x : DForm) (hg : h x.grid = .one (grid₀ k n)) (d : Fin 2)
    (hd : x.degree = d.val) (hl : x.array.length = (grid₀ k n).N d x.isprimal) :
    ∃ pts r, (grid₀ k n).points = .ok pts ∧ r.length = pts.length ∧ Rf1 (grid₀ k n) x = .ok r ∧
      (∀ i < pts.length, pts.getD i 0 ∈ Inside k d → R h x [pts.getD i 0] = .ok [some (r.getD i 0)]) ∧
      (grid₀ k n).U d x.isprimal r = .ok x.array := by
  obtain ⟨f, hf, e, hR⟩ := C70_reconstruction_determined k n hr.1 d x.isprimal x.array hl
  obtain ⟨pts, h1, h2⟩ := refine_determined hr d x.isprimal f hf
  rw [e] at h2
  refine ⟨pts, pts.map f, h1, by simp, ?_, fun i hi hin => ?_, ?_⟩
  · simp only [Rf1, hd, key, d.isLt, dif_pos, Bind.bind, Except.bind, h2]
  · rw [C93_evaluate h x _ hg d hd _ hl.ge, hR _ hin]
    rw [List.getD_eq_getElem?_getD, List.getD_eq_getElem?_getD, List.getElem?_map, List.getElem?_eq_getElem hi]; rfl
  · have key : ((grid₀ k n).T d x.isprimal x.array >>= (grid₀ k n).U d x.isprimal) = .ok x.array := by
      cases k
      · exact C18_periodic_unrefine_refine n 0 (2 * Real.pi) d x.isprimal x.array
      · exact absurd rfl hr.2.1
      · exact C18_chebyshev_unrefine_refine n hr.1 (-1) 1 d x.isprimal (fun _ _ => hr.2.2 rfl) x.array hl
    rw [h2] at key
    exact key

/-- **C93**: on a regular grid `x.Rf` raises `NotImplementedError`. -/
theorem C93_refine_regular (n : ℕ) (a b : ℝ) (x : DForm) (hd : x.degree ≤ 1) : Rf1 (Regular.make n a b) x = .error .notImplemented := by
  simp only [Rf1, key, dif_pos (show x.degree < 2 by omega), Bind.bind, Except.bind]
  rfl

/-! ## Two dimensions -/

section two
variable (k k' : Kind) (n n' : ℕ) (hn : validSize k n) (hn' : validSize k' n') (h : GHeap) (x : DForm)
  (hg : h x.grid = .two (product (grid₀ k n) (grid₀ k' n'))) (d : Fin 3) (hd : x.degree = d.val)
include hn hn' hg hd

theorem B_two (m : ℕ) (hm : m < count (grid₀ k n) (grid₀ k' n') d x.isprimal) (s r : ℝ) :
    (h x.grid).B x.degree x.isprimal m [s, r] = .ok (flatB (grid₀ k n) (grid₀ k' n') d x.isprimal m s r) := by
  have := B_flatB (grid₀_factor k n hn) (grid₀_factor k' n' hn') d x.isprimal hm
  simp only [hg, hd, AnyGrid.B, key, d.isLt, dif_pos, Bind.bind, Except.bind, this]

theorem N_two : (h x.grid).ops.N x.degree x.isprimal = .ok (count (grid₀ k n) (grid₀ k' n') d x.isprimal) := by
  have := N_eq (grid₀_factor k n hn) (grid₀_factor k' n' hn') d x.isprimal
  simp only [hg, hd, AnyGrid.ops, ops2, key, d.isLt, dif_pos, Bind.bind, Except.bind, this]

omit hn hn' hg hd in
theorem flatB_length (gx gy : Grid1) (t : Bool) (m : ℕ) (s r : ℝ) : (flatB gx gy d t m s r).length = Grid2.ncomp d := by
  obtain rfl | rfl | rfl : d = 0 ∨ d = 1 ∨ d = 2 := by omega
  · rfl
  · simp only [flatB]
    split_ifs <;> rfl
  · rfl

/-- **C93**, two dimensions: `x.R(s, r)` is the sum over the cells of coefficient times basis form, component by component; entries of the array beyond the
number of cells are ignored. -/
theorem C93_evaluate_2d (hl : count (grid₀ k n) (grid₀ k' n') d x.isprimal ≤ x.array.length) :
    ∃ f, (product (grid₀ k n) (grid₀ k' n')).R d x.isprimal x.array = .ok f ∧ ∀ s r, R h x [s, r] = .ok (f s r) := by
  refine ⟨_, R_flat (grid₀_factor k n hn) (grid₀_factor k' n' hn') d x.isprimal x.array, fun s r => ?_⟩
  unfold Decform.R
  rw [N_two k k' n n' hn hn' h x hg d hd]
  simp only [Bind.bind, Except.bind]
  rw [show (h x.grid).comps x.degree = Grid2.ncomp d by rw [hg, hd]; rfl]
  exact sum_terms (fun i => (h x.grid).B x.degree x.isprimal i [s, r]) (fun i => flatB (grid₀ k n) (grid₀ k' n') d x.isprimal i s r) (Grid2.ncomp d)
    (count (grid₀ k n) (grid₀ k' n') d x.isprimal) x.array (fun i hi => B_two k k' n n' hn hn' h x hg d hd i hi s r)
    (fun i _ => flatB_length d _ _ _ i s r) hl

/-- **C93**, two dimensions: an array that is too short is an `IndexError`. -/
theorem C93_short_2d (hl : x.array.length < count (grid₀ k n) (grid₀ k' n') d x.isprimal) (s r : ℝ) : R h x [s, r] = .error .indexError := by
  unfold Decform.R
  rw [N_two k k' n n' hn hn' h x hg d hd]
  simp only [Bind.bind, Except.bind]
  rw [show (h x.grid).comps x.degree = Grid2.ncomp d by rw [hg, hd]; rfl]
  exact sum_short (fun i => (h x.grid).B x.degree x.isprimal i [s, r]) (fun i => flatB (grid₀ k n) (grid₀ k' n') d x.isprimal i s r) (Grid2.ncomp d)
    (count (grid₀ k n) (grid₀ k' n') d x.isprimal) x.array (fun i hi => B_two k k' n n' hn hn' h x hg d hd i hi s r)
    (fun i _ => flatB_length d _ _ _ i s r) hl

/-- **C93**, two dimensions: the function `x.R` takes exactly two coordinates, if the form has any coefficients. -/
theorem C93_arity_2d (s : List ℝ) (hs : s.length ≠ 2) (hN : 0 < count (grid₀ k n) (grid₀ k' n') d x.isprimal) (hl : x.array ≠ []) : R h x s = .error .typeError := by
  unfold Decform.R
  rw [N_two k k' n n' hn hn' h x hg d hd]
  obtain ⟨m, hm⟩ : ∃ m, count (grid₀ k n) (grid₀ k' n') d x.isprimal = m + 1 := ⟨count (grid₀ k n) (grid₀ k' n') d x.isprimal - 1, by omega⟩
  rw [hm]
  simp only [Bind.bind, Except.bind, List.range_succ_eq_map, List.foldlM_cons]
  obtain ⟨c, l, hc⟩ : ∃ c l, x.array = c :: l := List.exists_cons_of_ne_nil hl
  have e : (h x.grid).B x.degree x.isprimal 0 s = .error .typeError := by
    have := B_flatB (grid₀_factor k n hn) (grid₀_factor k' n' hn') d x.isprimal hN
    simp only [hg, hd, AnyGrid.B, key, d.isLt, dif_pos, Bind.bind, Except.bind, this]
    match s, hs with
    | [], _ => rfl
    | [_], _ => rfl
    | [_, _], hs => exact absurd rfl hs
    | _ :: _ :: _ :: _, _ => rfl
  simp only [addTerm, hc, List.getElem?_cons_zero, e, Bind.bind, Except.bind]

/-- **C93**, two dimensions: projecting the function `x.R` gives the array of the form back. -/
theorem C93_project_back_2d (hl : (product (grid₀ k n) (grid₀ k' n')).N d x.isprimal = .ok x.array.length) :
    ∃ f, (∀ s r, R h x [s, r] = .ok (f s r)) ∧ (product (grid₀ k n) (grid₀ k' n')).oPn d x.isprimal f = .ok (x.array.map some) := by
  have hc := (length_of_N (grid₀_factor k n hn) (grid₀_factor k' n' hn')).1 hl
  obtain ⟨f, h1, h2⟩ := C93_evaluate_2d k k' n n' hn hn' h x hg d hd hc.ge
  have e : ∀ (k : Kind) (n : ℕ), standardGrid k n = grid₀ k n := fun k n => by cases k <;> rfl
  have := C53_projection_reconstruction k k' n n' hn hn' d x.isprimal x.array (by rw [e, e]; exact hl)
  rw [e, e] at this
  obtain ⟨f', h3, h4⟩ := this
  rw [h1] at h3
  cases h3
  exact ⟨f, h2, h4⟩

/-- **C93**, two dimensions: evaluating the projection of a form that the coefficients determine gives the form. -/
theorem C93_evaluate_projection_2d (σ : List (ℝ → ℝ → ℝ))
    (hσ : TensorForm (fun e => Determined k n e x.isprimal) (fun e => Determined k' n' e x.isprimal) d σ)
    (hx : (product (grid₀ k n) (grid₀ k' n')).P d x.isprimal σ = .ok x.array) (s r : ℝ)
    (hs : s ∈ Inside k (if d = 0 then 0 else 1)) (hr : r ∈ Inside k' (if d = 0 then 0 else 1)) :
    R h x [s, r] = .ok (σ.map fun f => some (f s r)) := by
  obtain ⟨a, f, h1, h2, h3⟩ := C70_reconstruct_2d k k' n n' hn hn' d x.isprimal σ hσ
  rw [hx] at h1
  cases h1
  have hX := grid₀_factor k n hn
  have hY := grid₀_factor k' n' hn'
  have hl : x.array.length = count (grid₀ k n) (grid₀ k' n') d x.isprimal := by
    obtain rfl | rfl | rfl : d = 0 ∨ d = 1 ∨ d = 2 := by omega
    · match σ, hσ with
      | [f], _ => rw [P0_mtab hX hY] at hx; rw [← Except.ok.inj hx]; exact length_data _ _ _
    · match σ, hσ with
      | [f, g], _ => rw [P1_mtab hX hY] at hx; rw [← Except.ok.inj hx, List.length_append, length_data, length_data]; rfl
    · match σ, hσ with
      | [f], _ => rw [P2_mtab hX hY] at hx; rw [← Except.ok.inj hx]; exact length_data _ _ _
  obtain ⟨f', h4, h5⟩ := C93_evaluate_2d k k' n n' hn hn' h x hg d hd hl.ge
  rw [h2] at h4
  cases h4
  rw [h5, h3 s hs r hr]

end two

/-- Non-vacuity: a primal 1-form on a Chebyshev grid of three vertices, at address 7. -/
example : ∃ (h : GHeap) (x : DForm), h x.grid = .one (grid₀ .chebyshev 3) ∧ x.degree = (1 : Fin 2).val ∧
    x.array.length = (grid₀ .chebyshev 3).N 1 x.isprimal ∧ Refinable .chebyshev 3 :=
  ⟨fun _ => .one (grid₀ .chebyshev 3), ⟨1, true, 7, [2, -1]⟩, rfl, rfl, rfl, by norm_num [validSize], by simp, fun _ => by norm_num⟩

/-- And a 1-form on a product, with `4*3 + 3*3` coefficients. -/
example : ∃ (h : GHeap) (x : DForm), h x.grid = .two (product (grid₀ .periodic 3) (grid₀ .chebyshev 4)) ∧ x.degree = (1 : Fin 3).val ∧
    (product (grid₀ .periodic 3) (grid₀ .chebyshev 4)).N 1 x.isprimal = .ok x.array.length :=
  ⟨fun _ => .two (product (grid₀ .periodic 3) (grid₀ .chebyshev 4)), ⟨1, true, 7, List.replicate 21 5⟩, rfl, rfl, by
    rw [N_eq (grid₀_factor .periodic 3 (by norm_num [validSize])) (grid₀_factor .chebyshev 4 (by norm_num [validSize]))]; rfl⟩

end Dec.Props
