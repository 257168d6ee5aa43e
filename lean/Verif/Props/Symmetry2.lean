import Verif.Lib.Symmetry2Act
import Verif.Props.Symmetry
import Verif.Props.Energy
import Verif.Props.Grid2Wedge
import Verif.Lib.Triangle

set_option linter.unusedSimpArgs false
set_option linter.unusedVariables false

/-! # C87: the operators of product grids respect the symmetries of the grids -/

namespace Dec.Props

open Finset Real G2 Sp

/-! ## Specification -/

/-- What to do along one axis: nothing, reflect the interval, or rotate the circle by `j` cells. -/
inductive Move
  | stay
  | reflect
  | turn (j : ℕ)

/-- The action on a discrete `d`-form (`t`: primal) of a one-dimensional grid. -/
def Move.on (k : Kind) (u : Move) (d : Fin 2) (t : Bool) (a : List ℝ) : List ℝ :=
  match u with
  | .stay => a
  | .reflect => mirror k d t a
  | .turn j => a.rotate j

/-- Only circles are rotated. -/
def Move.Ok (k : Kind) : Move → Prop
  | .turn _ => k = .periodic
  | _ => True

/-- `1` for the moves that keep the orientation, `-1` for reflections. -/
def Move.sign : Move → ℝ
  | .reflect => -1
  | _ => 1

/-- The transpose of an array of `r` rows with `c` entries, stored row after row. -/
def transposeFlat (r c : ℕ) (a : List ℝ) : List ℝ := (List.range (c * r)).map fun k => a.getD ((k % r) * c + k / r) 0

/-- Apply `m` to every row of an array of `r` rows with `c` entries. -/
def onRows (r c : ℕ) (m : List ℝ → List ℝ) (a : List ℝ) : List ℝ := ((List.range r).map fun j => m ((a.drop (j * c)).take c)).flatten

/-- Apply `m` to every column. -/
def onCols (r c : ℕ) (m : List ℝ → List ℝ) (a : List ℝ) : List ℝ := transposeFlat c r (onRows c r m (transposeFlat r c a))

/-- Move one block of coefficients along the two axes; `dx`, `dy` are the degrees of its cells in the two directions. -/
def moveBlock (kx ky : Kind) (gx gy : Grid1) (u v : Move) (dx dy : Fin 2) (t : Bool) (a : List ℝ) : List ℝ :=
  onCols (gy.N dy t) (gx.N dx t) (v.on ky dy t) (onRows (gy.N dy t) (gx.N dx t) (u.on kx dx t) a)

/-- Move the coefficients of a `d`-form of the product grid: `u` along `x` and `v` along `y`. The coefficients of a 1-form are those of the horizontal edges, then those of
the vertical edges. -/
def moveForm (kx ky : Kind) (gx gy : Grid1) (u v : Move) (d : Fin 3) (t : Bool) (a : List ℝ) : List ℝ :=
  if d = 0 then moveBlock kx ky gx gy u v 0 0 t a
  else if d = 1 then
    moveBlock kx ky gx gy u v 1 0 t (a.take (gy.N 0 t * gx.N 1 t)) ++ moveBlock kx ky gx gy u v 0 1 t (a.drop (gy.N 0 t * gx.N 1 t))
  else moveBlock kx ky gx gy u v 1 1 t a

/-- Exchange the axes: from the grid `gx × gy` to the grid `gy × gx`. The vertical edges become horizontal; faces change their orientation. -/
def swapForm (gx gy : Grid1) (d : Fin 3) (t : Bool) (a : List ℝ) : List ℝ :=
  if d = 0 then transposeFlat (gy.N 0 t) (gx.N 0 t) a
  else if d = 1 then
    transposeFlat (gy.N 1 t) (gx.N 0 t) (a.drop (gy.N 0 t * gx.N 1 t)) ++ transposeFlat (gy.N 0 t) (gx.N 1 t) (a.take (gy.N 0 t * gx.N 1 t))
  else (transposeFlat (gy.N 1 t) (gx.N 1 t) a).map (-·)

/-! ## Normal forms -/

theorem transposeFlat_mtab (r c : ℕ) (F : ℕ → ℕ → ℝ) : transposeFlat r c (mtab r c F).data = (mtab c r fun j i => F i j).data := by
  show tab (c * r) _ = tab (c * r) _
  refine tab_congr fun k hk => ?_
  have hr : 0 < r := by rcases Nat.eq_zero_or_pos r with h | h; · subst h; omega
                        · exact h
  have h1 : k / r < c := Nat.div_lt_of_lt_mul (by rwa [Nat.mul_comm])
  have h2 : k % r < r := Nat.mod_lt _ hr
  show (tab (r * c) _).getD _ 0 = _
  rw [getD_tab (idx_lt h2 h1), idx_div h1, idx_mod h1]

theorem onRows_mtab {r c : ℕ} {m : List ℝ → List ℝ} {F G : ℕ → ℕ → ℝ} (h : ∀ j < r, m (tab c (F j)) = tab c (G j)) : onRows r c m (mtab r c F).data = (mtab r c G).data := by
  have e := rows_mtab r c F
  unfold Arr.rows at e
  have e2 : onRows r c m (mtab r c F).data = (((List.range r).map fun i => ((mtab r c F).data.drop (i * c)).take c).map m).flatten := by
    unfold onRows; rw [List.map_map]; rfl
  rw [e2]
  have e3 : ((List.range r).map fun i => ((mtab r c F).data.drop (i * c)).take c) = tab r fun i => tab c (F i) := e
  rw [e3, map_tab]
  have e4 : (tab r fun i => m (tab c (F i))) = tab r fun i => tab c (G i) := tab_congr h
  rw [e4, flatten_tab]; rfl

theorem onCols_mtab {r c : ℕ} {m : List ℝ → List ℝ} {F G : ℕ → ℕ → ℝ} (h : ∀ i < c, m (tab r fun j => F j i) = tab r fun j => G j i) : onCols r c m (mtab r c F).data = (mtab r c G).data := by
  unfold onCols
  rw [transposeFlat_mtab, onRows_mtab (G := fun i j => G j i) h, transposeFlat_mtab]

theorem take_data (r c r' c' : ℕ) (F G : ℕ → ℕ → ℝ) : ((mtab r c F).data ++ (mtab r' c' G).data).take (r * c) = (mtab r c F).data := by
  rw [List.take_left' (length_data r c F)]
theorem drop_data (r c r' c' : ℕ) (F G : ℕ → ℕ → ℝ) : ((mtab r c F).data ++ (mtab r' c' G).data).drop (r * c) = (mtab r' c' G).data := by
  rw [List.drop_left' (length_data r c F)]

theorem swapAct (gx gy : Grid1) : SwapAct gx gy (swapForm gx gy) where
  f0 t F := transposeFlat_mtab _ _ F
  f1 t F G := by
    show transposeFlat _ _ (List.drop _ _) ++ transposeFlat _ _ (List.take _ _) = _
    rw [take_data, drop_data, transposeFlat_mtab, transposeFlat_mtab]
  f2 t F := by
    show (transposeFlat _ _ _).map _ = _
    rw [transposeFlat_mtab]
    unfold mtab; rw [map_tab]

/-! ## The moves of the one-dimensional grids -/

theorem sign_sq (u : Move) : u.sign * u.sign = 1 := by cases u <;> norm_num [Move.sign]

/-- Where the cells go. -/
noncomputable def Move.idx (k : Kind) (n : ℕ) (u : Move) (d : Fin 2) (t : Bool) (i : ℕ) : ℕ :=
  match u with
  | .stay => i
  | .reflect => mirrorIdx k n d t i
  | .turn j => (i + j) % n

/-- Where the points of the refined grid go. -/
noncomputable def Move.pts (k : Kind) (n : ℕ) (u : Move) (i : ℕ) : ℕ :=
  match u with
  | .stay => i
  | .reflect => refIdx k n i
  | .turn j => (i + 2 * j) % (2 * n)

theorem Move.idx_lt {k : Kind} {n : ℕ} (hn : validSize k n) {u : Move} (hu : u.Ok k) (d : Fin 2) (t : Bool) (i : ℕ) (hi : i < (grid₀ k n).N d t) : u.idx k n d t i < (grid₀ k n).N d t := by
  cases u with
  | stay => exact hi
  | reflect => exact grid₀_N_lt k n hn d t i hi
  | turn j => cases hu; exact (shift_isometry hn j).lt d t i hi

theorem Move.pts_lt {k : Kind} {n : ℕ} (hn : validSize k n) {u : Move} (hu : u.Ok k) (i : ℕ) (hi : i < refPts k n) : u.pts k n i < refPts k n := by
  cases u with
  | stay => exact hi
  | reflect => exact refIdx_lt k hi
  | turn j => cases hu; exact shift_pts_lt hn j i hi

theorem moveArr_id {N : ℕ} (a : List ℝ) (ha : a.length = N) : moveArr N 1 (fun i => i) a = a := by
  unfold moveArr
  conv_rhs => rw [eq_tab' ha 0]
  exact tab_congr fun i _ => one_mul _

theorem Move.on_move {k : Kind} {n : ℕ} {u : Move} (hu : u.Ok k) (d : Fin 2) (t : Bool) (a : List ℝ) (ha : a.length = (grid₀ k n).N d t) :
    u.on k d t a = moveArr ((grid₀ k n).N d t) (sgn u.sign d) (u.idx k n d t) a := by
  cases u with
  | stay =>
    have e : sgn (Move.sign .stay) d = 1 := sgn_one d
    rw [e]; exact (moveArr_id a ha).symm
  | reflect => exact mirror_move k n d t a ha
  | turn j =>
    cases hu
    have e : sgn (Move.sign (.turn j)) d = 1 := sgn_one d
    rw [e]; exact rotate_move j a ha

theorem Move.on_tab {k : Kind} {n : ℕ} (hn : validSize k n) {u : Move} (hu : u.Ok k) (d : Fin 2) (t : Bool) (f : ℕ → ℝ) :
    u.on k d t (tab ((grid₀ k n).N d t) f) = tab ((grid₀ k n).N d t) fun i => sgn u.sign d * f (u.idx k n d t i) := by
  rw [Move.on_move hu d t _ (length_tab _ _)]
  unfold moveArr
  exact tab_congr fun i hi => by rw [getD_tab (Move.idx_lt hn hu d t i hi)]

theorem except_map_id {α : Type*} (x : Except Err α) {f : α → α} (h : ∀ a, x = .ok a → f a = a) : x.map f = x := by
  cases x with
  | error e => rfl
  | ok a => show Except.ok (f a) = _; rw [h a rfl]

section
variable {k : Kind} {n : ℕ} (hn : validSize k n) {u : Move} (hu : u.Ok k) (a b : ℝ)
include hn hu

theorem Move.on_D (t : Bool) (x : List ℝ) (hx : x.length = (grid k n a b).N 0 t) : (grid k n a b).d0 t (u.on k 0 t x) = ((grid k n a b).d0 t x).map (u.on k 1 t) := by
  have key : ∀ f : List ℝ → List ℝ, (grid k n a b).D 0 t (u.on k 0 t x) = ((grid k n a b).D 0 t x).map f → (grid k n a b).d0 t (u.on k 0 t x) = ((grid k n a b).d0 t x).map f := by
    intro f h
    obtain ⟨y, hy, e⟩ := D_some k n hn t x (by rw [← grid_N k n a b]; exact hx)
    rw [← grid_D k n a b] at e
    rw [e] at h
    rw [d0_eq h, d0_eq e]; rfl
  refine key _ ?_
  cases u with
  | stay =>
    show _ = Option.map id _
    rw [Option.map_id]; rfl
  | reflect => exact C81_mirror_derivative k n hn a b t x hx
  | turn j => cases hu; exact C81_rotate_derivative n hn a b j t x hx

theorem Move.on_H (d : Fin 2) (t : Bool) (h927 : k = .chebyshev → d = 1 → t = true → n ≤ 927) (x : List ℝ) (hx : x.length = (grid k n a b).N d t) :
    (grid k n a b).H d t (u.on k d t x) = ((grid k n a b).H d t x).map fun y => (u.on k (1 - d) (!t) y).map (u.sign * ·) := by
  cases u with
  | stay =>
    refine (except_map_id _ fun y _ => ?_).symm
    show y.map (1 * ·) = y
    simp
  | reflect =>
    refine (C81_mirror_star k n hn a b d t h927 x hx).trans ?_
    congr 1
    funext y
    show _ = (mirror k (1 - d) (!t) y).map (-1 * ·)
    simp only [neg_one_mul]
  | turn j =>
    cases hu
    refine (C81_rotate_star n hn a b j d t x hx).trans ?_
    congr 1
    funext y
    show _ = (y.rotate j).map (1 * ·)
    simp

end

theorem _root_.Dec.G2.HasMat.some {n m : ℕ} {h : List ℝ → Except Err (List ℝ)} {A : ℕ → ℕ → ℝ} (hA : HasMat n m h A) {x : List ℝ} (hx : x.length = n) :
    ∃ y : List ℝ, y.length = m ∧ h x = .ok y := by
  rw [eq_tab' hx 0]
  exact ⟨_, length_tab _ _, hA _⟩

theorem sgn_prod (u : Move) (d : Fin 2) : sgn u.sign d * (u.sign * sgn u.sign (1 - d)) = 1 := by
  obtain rfl | rfl : d = 0 ∨ d = 1 := by omega
  · rw [show (1 - 0 : Fin 2) = 1 from rfl]
    unfold sgn; simp only [if_true, one_ne_zero, if_false, one_mul]; exact sign_sq u
  · rw [show (1 - 1 : Fin 2) = 0 from rfl]
    unfold sgn; simp only [if_true, one_ne_zero, if_false, mul_one]; exact sign_sq u

theorem sgn_sq (u : Move) (d : Fin 2) : sgn u.sign d * sgn u.sign d = 1 := by
  unfold sgn; split_ifs
  · norm_num
  · exact sign_sq u

theorem map_smul_move (N : ℕ) (r s : ℝ) (ι : ℕ → ℕ) (a : List ℝ) : (moveArr N s ι a).map (r * ·) = moveArr N (r * s) ι a := by
  unfold moveArr
  rw [map_tab]
  exact tab_congr fun i _ => by ring

section
variable {k : Kind} {n : ℕ} (hn : validSize k n) {u : Move} (hu : u.Ok k) (a b : ℝ)
include hn hu

theorem move1_grid : Move1 (grid k n a b) u.sign (u.idx k n) where
  sign := sign_sq u
  lt d t i hi := by rw [grid_N] at hi ⊢; exact Move.idx_lt hn hu d t i hi
  D t A hA := by
    rw [grid_N, grid_N] at *
    have := hA.inter (s := 1) (r := u.sign) (ι := u.idx k n 0 t) (ι' := u.idx k n 1 t) (by norm_num) (Move.idx_lt hn hu 0 t) (Move.idx_lt hn hu 1 t) fun x hx => by
      have h := Move.on_D hn hu a b t x (by rw [grid_N]; exact hx)
      rw [Move.on_move hu 0 t x hx] at h
      obtain ⟨y, hy, e⟩ := hA.some hx
      refine h.trans ?_
      rw [e]
      show Except.ok _ = Except.ok _
      rw [Move.on_move hu 1 t y hy]; rfl
    rw [one_mul] at this
    exact this
  H d t A hA := by
    rw [grid_N, grid_N] at *
    have h927 : k = .chebyshev → d = 1 → t = true → n ≤ 927 := by
      rintro rfl rfl rfl
      by_contra hc
      obtain ⟨y, _, e⟩ := hA.some (x := tab ((grid₀ .chebyshev n).N 1 true) fun _ => 0) (length_tab _ _)
      have h1 := C05_chebyshev_hodge_rejects n (by omega) a b (tab ((grid₀ .chebyshev n).N 1 true) fun _ => 0) (length_tab _ _)
      have h2 := h1.symm.trans e
      cases h2
    have := hA.inter (s := sgn u.sign d) (r := u.sign * sgn u.sign (1 - d)) (ι := u.idx k n d t) (ι' := u.idx k n (1 - d) (!t)) (sgn_sq u d)
        (Move.idx_lt hn hu d t) (Move.idx_lt hn hu (1 - d) (!t)) fun x hx => by
      have h := Move.on_H hn hu a b d t h927 x (by rw [grid_N]; exact hx)
      rw [Move.on_move hu d t x hx] at h
      obtain ⟨y, hy, e⟩ := hA.some hx
      refine h.trans ?_
      rw [e]
      show Except.ok _ = Except.ok _
      beta_reduce
      rw [Move.on_move hu (1 - d) (!t) y hy, map_smul_move]
    rw [sgn_prod] at this
    exact this

end

theorem grid_refined' {k : Kind} {n : ℕ} (h : Refinable k n) (a b : ℝ) : Refined (grid k n a b) (refPts k n) := by
  obtain ⟨h1, h2, h3⟩ := h
  cases k
  · have h1 : 1 ≤ n := h1
    exact { Periodic.refining n a b with pos := by show 0 < 2 * n; omega, inv := fun d t x _ => C18_periodic_unrefine_refine n a b d t x }
  · exact absurd rfl h2
  · have h1 : 2 ≤ n := h1
    exact { Chebyshev.refining h1 (h3 rfl) a b with
      pos := by show 0 < 2 * n - 1; omega, inv := fun d t x hx => C18_chebyshev_unrefine_refine n h1 a b d t (fun _ _ => h3 rfl) x hx }

section
variable {k : Kind} {n : ℕ} (hn : Refinable k n) {u : Move} (hu : u.Ok k) (a b : ℝ)
include hn hu

theorem Move.movesT (d : Fin 2) (t : Bool) : MovesT (grid k n a b).T (grid k n a b).N u.sign (u.idx k n) (refPts k n) (u.pts k n) d t := by
  have h0 : MovesT (grid₀ k n).T (grid₀ k n).N u.sign (u.idx k n) (refPts k n) (u.pts k n) d t → MovesT (grid k n a b).T (grid k n a b).N u.sign (u.idx k n) (refPts k n) (u.pts k n) d t := by
    intro h x hx
    rw [grid_N] at *
    rw [grid_T]
    exact h x hx
  cases u with
  | stay =>
    intro x hx
    obtain ⟨L, hL, e⟩ := (grid_refined' hn a b).T d t
    have l := hL.len x hx
    have e1 : sgn (Move.sign .stay) d = 1 := sgn_one d
    have e2 : moveArr ((grid k n a b).N d t) 1 (Move.idx k n .stay d t) x = x := moveArr_id x hx
    have e3 : moveArr (refPts k n) 1 (Move.pts k n .stay) (L x) = L x := moveArr_id _ l
    refine ⟨L x, l, e x hx, ?_⟩
    rw [e1, e2, e3, e x hx]
  | reflect => exact h0 (mirror_T k hn.2.1 n hn.1 d t fun h _ _ => hn.2.2 h)
  | turn j => cases hu; exact h0 (rotate_T n hn.1 j d t)

theorem Move.movesU (d : Fin 2) (t : Bool) : MovesU (grid k n a b).U (grid k n a b).N u.sign (u.idx k n) (refPts k n) (u.pts k n) d t := by
  have h0 : MovesU (grid₀ k n).U (grid₀ k n).N u.sign (u.idx k n) (refPts k n) (u.pts k n) d t → MovesU (grid k n a b).U (grid k n a b).N u.sign (u.idx k n) (refPts k n) (u.pts k n) d t := by
    intro h x hx
    rw [grid_N] at *
    rw [grid_U]
    exact h x hx
  cases u with
  | stay =>
    intro x hx
    obtain ⟨L, hL, e⟩ := (grid_refined' hn a b).U d t
    have l := hL.len x hx
    have e1 : sgn (Move.sign .stay) d = 1 := sgn_one d
    have e2 : moveArr (refPts k n) 1 (Move.pts k n .stay) x = x := moveArr_id x hx
    have e3 : moveArr ((grid k n a b).N d t) 1 (Move.idx k n .stay d t) (L x) = L x := moveArr_id _ l
    refine ⟨L x, l, e x hx, ?_⟩
    rw [e1, e2, e3, e x hx]
  | reflect => exact h0 (mirror_U k hn.2.1 n hn.1 d t)
  | turn j => cases hu; exact h0 (rotate_U n hn.1 j d t)

theorem moveT_grid : MoveT (grid k n a b) (refPts k n) (u.idx k n) (u.pts k n) where
  lt := Move.pts_lt hn.1 hu
  T d t A hA := by
    have := hA.inter (s := sgn u.sign d) (r := sgn u.sign d) (ι := u.idx k n d t) (ι' := u.pts k n) (sgn_sq u d)
        (fun i hi => by rw [grid_N] at *; exact Move.idx_lt hn.1 hu d t i hi) (Move.pts_lt hn.1 hu) fun x hx => by
      obtain ⟨y, _, e1, e2⟩ := Move.movesT hn hu a b d t x hx
      rw [e2, e1]; rfl
    rw [sgn_sq] at this
    exact this
  U d t A hA := by
    have := hA.inter (s := sgn u.sign d) (r := sgn u.sign d) (ι := u.pts k n) (ι' := u.idx k n d t) (sgn_sq u d)
        (Move.pts_lt hn.1 hu) (fun i hi => by rw [grid_N] at *; exact Move.idx_lt hn.1 hu d t i hi) fun x hx => by
      obtain ⟨y, _, e1, e2⟩ := Move.movesU hn hu a b d t x hx
      rw [e2, e1]; rfl
    rw [sgn_sq] at this
    exact this

end

/-! ## Laplacian -/

theorem elin_smul {n m : ℕ} {F : List ℝ → Except Err (List ℝ)} (h : ELin n m F) (s : ℝ) {x y : List ℝ} (hx : x.length = n) (e : F x = .ok y) : F (x.map (s * ·)) = .ok (y.map (s * ·)) := by
  obtain ⟨L, hL, hF⟩ := h
  have e1 : L x = y := by have := (hF x hx).symm.trans e; exact Except.ok.inj this
  rw [hF _ (by simpa using hx)]
  have := hL.smul s x hx
  simp only [smul_eq_mul] at this
  rw [this, e1]

theorem lap2_act {gx gy gx' gy' : Grid1} (Fx' : Factor gx') (Fy' : Factor gy') (sx' : Stars gx') (sy' : Stars gy') {act : Fin 3 → Bool → List ℝ → List ℝ} {s : ℝ} (hs : s * s = 1)
    (len : ∀ d t (a : List ℝ), a.length = count gx gy d t → (act d t a).length = count gx' gy' d t)
    (hD : ∀ (d : Fin 3), d ≠ 2 → ∀ t (a : List ℝ), a.length = count gx gy d t →
      ∃ b : List ℝ, b.length = count gx gy (d + 1) t ∧ (product gx gy).D d t a = .ok b ∧ (product gx' gy').D d t (act d t a) = .ok (act (d + 1) t b))
    (hH : ∀ (d : Fin 3) t (a : List ℝ), a.length = count gx gy d t →
      ∃ b : List ℝ, b.length = count gx gy (2 - d) (!t) ∧ (product gx gy).H d t a = .ok b ∧ (product gx' gy').H d t (act d t a) = .ok ((act (2 - d) (!t) b).map (s * ·)))
    (t : Bool) (a : List ℝ) (ha : a.length = count gx gy 0 t) : ∃ b : List ℝ, lap2 (product gx gy) t a = .ok b ∧ lap2 (product gx' gy') t (act 0 t a) = .ok (act 0 t b) := by
  obtain ⟨b1, l1, e1, f1⟩ := hD 0 (by decide) t a ha
  have l1 : b1.length = count gx gy 1 t := l1
  have f1 : (product gx' gy').D 0 t (act 0 t a) = .ok (act 1 t b1) := f1
  obtain ⟨b2, l2, e2, f2⟩ := hH 1 t b1 l1
  have l2 : b2.length = count gx gy 1 (!t) := l2
  have f2 : (product gx' gy').H 1 t (act 1 t b1) = .ok ((act 1 (!t) b2).map (s * ·)) := f2
  obtain ⟨b3, l3, e3, f3⟩ := hD 1 (by decide) (!t) b2 l2
  have l3 : b3.length = count gx gy 2 (!t) := l3
  have f3 : (product gx' gy').D 1 (!t) (act 1 (!t) b2) = .ok (act 2 (!t) b3) := f3
  obtain ⟨b4, l4, e4, f4⟩ := hH 2 (!t) b3 l3
  rw [Bool.not_not] at f4
  have f4 : (product gx' gy').H 2 (!t) (act 2 (!t) b3) = .ok ((act 0 t b4).map (s * ·)) := f4
  have g3 := elin_smul (elin2_D1 Fx' Fy' (!t)) s (len 1 (!t) b2 l2) f3
  have g4 := elin_smul (elin2_H2 Fx' Fy' sx' sy' (!t)) s (len 2 (!t) b3 l3) f4
  have step : ∀ (g : Grid2) (x a b c d : List ℝ), g.D 0 t x = .ok a → g.H 1 t a = .ok b → g.D 1 (!t) b = .ok c → g.H 2 (!t) c = .ok d → lap2 g t x = .ok d := by
    intro g x a b c d h1 h2 h3 h4
    unfold lap2
    simp only [h1, h2, h3, h4, bind, Except.bind]
  refine ⟨b4, step _ _ _ _ _ _ e1 e2 e3 e4, ?_⟩
  · refine (step _ _ _ _ _ _ f1 f2 g3 g4).trans ?_
    rw [List.map_map]
    congr 1
    have : ((s * ·) ∘ (s * ·) : ℝ → ℝ) = id := by
      funext x
      show s * (s * x) = x
      rw [← mul_assoc, hs, one_mul]
    rw [this, List.map_id]

/-! ## Moves of the product grid -/

section
variable (kx ky : Kind) (nx ny : ℕ) (hnx : validSize kx nx) (hny : validSize ky ny) (ax bx ay «by» : ℝ) (u v : Move) (hu : u.Ok kx) (hv : v.Ok ky)

local notation "𝔾x" => grid kx nx ax bx
local notation "𝔾y" => grid ky ny ay «by»

include hnx hny hu hv

theorem moveBlock_mtab (dx dy : Fin 2) (t : Bool) (F : ℕ → ℕ → ℝ) : moveBlock kx ky 𝔾x 𝔾y u v dx dy t (mtab ((𝔾y).N dy t) ((𝔾x).N dx t) F).data
    = (mtab ((𝔾y).N dy t) ((𝔾x).N dx t) (mv u.sign v.sign (u.idx kx nx) (v.idx ky ny) dx dy t F)).data := by
  unfold moveBlock
  have h1 : ∀ j < (𝔾y).N dy t, u.on kx dx t (tab ((𝔾x).N dx t) (F j)) = tab ((𝔾x).N dx t) fun i => sgn u.sign dx * F j (u.idx kx nx dx t i) := fun j _ => by
    rw [grid_N]; exact Move.on_tab hnx hu dx t (F j)
  rw [onRows_mtab h1]
  refine onCols_mtab fun i _ => ?_
  have h2 := Move.on_tab hny hv dy t fun j => sgn u.sign dx * F j (u.idx kx nx dx t i)
  rw [← grid_N ky ny ay «by»] at h2
  rw [h2]
  exact tab_congr fun j _ => by unfold mv; ring

theorem moveAct_grid : MoveAct 𝔾x 𝔾y u.sign v.sign (u.idx kx nx) (v.idx ky ny) (moveForm kx ky 𝔾x 𝔾y u v) where
  f0 t F := moveBlock_mtab kx ky nx ny hnx hny ax bx ay «by» u v hu hv 0 0 t F
  f1 t F G := by
    show moveBlock _ _ _ _ _ _ _ _ _ (List.take _ _) ++ moveBlock _ _ _ _ _ _ _ _ _ (List.drop _ _) = _
    rw [take_data, drop_data, moveBlock_mtab kx ky nx ny hnx hny ax bx ay «by» u v hu hv, moveBlock_mtab kx ky nx ny hnx hny ax bx ay «by» u v hu hv]
  f2 t F := moveBlock_mtab kx ky nx ny hnx hny ax bx ay «by» u v hu hv 1 1 t F

/-- **C87**: the derivative of a form moved along the axes is its derivative, moved: any combination of reflections and, on periodic axes, rotations. -/
theorem C87_move_derivative (d : Fin 3) (hd : d ≠ 2) (t : Bool) (a : List ℝ) (ha : (product 𝔾x 𝔾y).N d t = .ok a.length) :
    (product 𝔾x 𝔾y).D d t (moveForm kx ky 𝔾x 𝔾y u v d t a) = ((product 𝔾x 𝔾y).D d t a).map (moveForm kx ky 𝔾x 𝔾y u v (d + 1) t) := by
  have Fx := G2.grid_factor kx nx hnx ax bx
  have Fy := G2.grid_factor ky ny hny ay «by»
  obtain ⟨b, _, e1, e2⟩ := (moveAct_grid kx ky nx ny hnx hny ax bx ay «by» u v hu hv).D Fx Fy (move1_grid hnx hu ax bx) (move1_grid hny hv ay «by») d hd t a ((length_of_N Fx Fy).1 ha)
  rw [e1, e2]; rfl

variable (h9 : kx = .chebyshev → nx ≤ 927) (h9' : ky = .chebyshev → ny ≤ 927)
include h9 h9'

/-- **C87**: the star of a moved form is its star, moved; with a minus sign if the moves together reverse the orientation of the plane. -/
theorem C87_move_star (d : Fin 3) (t : Bool) (a : List ℝ) (ha : (product 𝔾x 𝔾y).N d t = .ok a.length) :
    (product 𝔾x 𝔾y).H d t (moveForm kx ky 𝔾x 𝔾y u v d t a) = ((product 𝔾x 𝔾y).H d t a).map fun b => (moveForm kx ky 𝔾x 𝔾y u v (2 - d) (!t) b).map (u.sign * v.sign * ·) := by
  have Fx := G2.grid_factor kx nx hnx ax bx
  have Fy := G2.grid_factor ky ny hny ay «by»
  obtain ⟨b, _, e1, e2⟩ := (moveAct_grid kx ky nx ny hnx hny ax bx ay «by» u v hu hv).H Fx Fy (grid_stars kx nx hnx h9 ax bx) (grid_stars ky ny hny h9' ay «by»)
    (move1_grid hnx hu ax bx) (move1_grid hny hv ay «by») d t a ((length_of_N Fx Fy).1 ha)
  rw [e1, e2]; rfl

/-- **C87**: the Laplacian of functions commutes with all moves. -/
theorem C87_move_laplacian (t : Bool) (a : List ℝ) (ha : (product 𝔾x 𝔾y).N 0 t = .ok a.length) :
    lap2 (product 𝔾x 𝔾y) t (moveForm kx ky 𝔾x 𝔾y u v 0 t a) = (lap2 (product 𝔾x 𝔾y) t a).map (moveForm kx ky 𝔾x 𝔾y u v 0 t) := by
  have Fx := G2.grid_factor kx nx hnx ax bx
  have Fy := G2.grid_factor ky ny hny ay «by»
  have sx := grid_stars kx nx hnx h9 ax bx
  have sy := grid_stars ky ny hny h9' ay «by»
  have hm := moveAct_grid kx ky nx ny hnx hny ax bx ay «by» u v hu hv
  have hs : u.sign * v.sign * (u.sign * v.sign) = 1 := by
    have h1 := sign_sq u
    have h2 := sign_sq v
    linear_combination (v.sign * v.sign) * h1 + h2
  obtain ⟨b, e1, e2⟩ := lap2_act Fx Fy sx sy hs hm.len (hm.D Fx Fy (move1_grid hnx hu ax bx) (move1_grid hny hv ay «by»))
    (hm.H Fx Fy sx sy (move1_grid hnx hu ax bx) (move1_grid hny hv ay «by»)) t a ((length_of_N Fx Fy).1 ha)
  rw [e1, e2]; rfl

end

section
variable (kx ky : Kind) (nx ny : ℕ) (hx : Refinable kx nx) (hy : Refinable ky ny) (ax bx ay «by» : ℝ) (u v : Move) (hu : u.Ok kx) (hv : v.Ok ky)

local notation "𝔾x" => grid kx nx ax bx
local notation "𝔾y" => grid ky ny ay «by»
include hx hy hu hv

theorem act2_grid : Act2 𝔾x 𝔾y 𝔾x 𝔾y (refPts kx nx) (refPts ky ny) (refPts kx nx) (refPts ky ny) (moveForm kx ky 𝔾x 𝔾y u v) (Smove u.sign v.sign)
    (fun j i => (v.pts ky ny j, u.pts kx nx i)) :=
  act2_move (G2.grid_factor kx nx hx.1 ax bx) (G2.grid_factor ky ny hy.1 ay «by») (grid_refined' hx ax bx) (grid_refined' hy ay «by») (sign_sq u) (sign_sq v)
    (moveT_grid hx hu ax bx) (moveT_grid hy hv ay «by») (moveAct_grid kx ky nx ny hx.1 hy.1 ax bx ay «by» u v hu hv)

/-- **C87**: the wedge product of moved forms is the wedge product, moved. -/
theorem C87_move_wedge (p q : Fin 3) (hpq : p.val + q.val ≤ 2) (r s t : Bool) (a b : List ℝ)
    (ha : (product 𝔾x 𝔾y).N p r = .ok a.length) (hb : (product 𝔾x 𝔾y).N q s = .ok b.length) :
    ∃ c, (product 𝔾x 𝔾y).wedge p r q s t a b = .ok c ∧
      (product 𝔾x 𝔾y).wedge p r q s t (moveForm kx ky 𝔾x 𝔾y u v p r a) (moveForm kx ky 𝔾x 𝔾y u v q s b) = .ok (moveForm kx ky 𝔾x 𝔾y u v (p + q) t c) := by
  have Fx := G2.grid_factor kx nx hx.1 ax bx
  have Fy := G2.grid_factor ky ny hy.1 ay «by»
  have e : deg2 p q = p + q := (by decide : ∀ p q : Fin 3, Fin.ofNat 3 (p.val + q.val) = p + q) p q
  rw [← e]
  exact (act2_grid kx ky nx ny hx hy ax bx ay «by» u v hu hv).wedge p q hpq r s t a b ((length_of_N Fx Fy).1 ha) ((length_of_N Fx Fy).1 hb)

/-- **C87**: ... and the contraction with a moved vector field of a moved form is the contraction, moved. -/
theorem C87_move_contraction (q : Fin 3) (hq : q ≠ 0) (r s t : Bool) (a b : List ℝ)
    (ha : (product 𝔾x 𝔾y).N 1 r = .ok a.length) (hb : (product 𝔾x 𝔾y).N q s = .ok b.length) :
    ∃ c, (product 𝔾x 𝔾y).contraction r q s t a b = .ok c ∧
      (product 𝔾x 𝔾y).contraction r q s t (moveForm kx ky 𝔾x 𝔾y u v 1 r a) (moveForm kx ky 𝔾x 𝔾y u v q s b) = .ok (moveForm kx ky 𝔾x 𝔾y u v (q - 1) t c) := by
  have Fx := G2.grid_factor kx nx hx.1 ax bx
  have Fy := G2.grid_factor ky ny hy.1 ay «by»
  exact (act2_grid kx ky nx ny hx hy ax bx ay «by» u v hu hv).contraction q hq r s t a b ((length_of_N Fx Fy).1 ha) ((length_of_N Fx Fy).1 hb)

end

/-! ## Exchange of the axes -/

section
variable (kx ky : Kind) (nx ny : ℕ) (hnx : validSize kx nx) (hny : validSize ky ny) (ax bx ay «by» : ℝ)

local notation "𝔾x" => grid kx nx ax bx
local notation "𝔾y" => grid ky ny ay «by»

include hnx hny

/-- **C87**: the derivative on the grid with exchanged axes. -/
theorem C87_swap_derivative (d : Fin 3) (hd : d ≠ 2) (t : Bool) (a : List ℝ) (ha : (product 𝔾x 𝔾y).N d t = .ok a.length) :
    (product 𝔾y 𝔾x).D d t (swapForm 𝔾x 𝔾y d t a) = ((product 𝔾x 𝔾y).D d t a).map (swapForm 𝔾x 𝔾y (d + 1) t) := by
  have Fx := G2.grid_factor kx nx hnx ax bx
  have Fy := G2.grid_factor ky ny hny ay «by»
  obtain ⟨b, _, e1, e2⟩ := (swapAct 𝔾x 𝔾y).D Fx Fy d hd t a ((length_of_N Fx Fy).1 ha)
  rw [e1, e2]; rfl

/-- **C87**: a form of the grid with exchanged axes has the right number of coefficients, and exchanging the axes twice changes nothing. -/
theorem C87_swap_twice (d : Fin 3) (t : Bool) (a : List ℝ) (ha : (product 𝔾x 𝔾y).N d t = .ok a.length) :
    (product 𝔾y 𝔾x).N d t = .ok (swapForm 𝔾x 𝔾y d t a).length ∧ swapForm 𝔾y 𝔾x d t (swapForm 𝔾x 𝔾y d t a) = a := by
  have Fx := G2.grid_factor kx nx hnx ax bx
  have Fy := G2.grid_factor ky ny hny ay «by»
  have hl := (length_of_N Fx Fy).1 ha
  refine ⟨(length_of_N Fy Fx).2 ((swapAct 𝔾x 𝔾y).len d t a hl), ?_⟩
  obtain rfl | rfl | rfl : d = 0 ∨ d = 1 ∨ d = 2 := by omega
  · obtain ⟨F, rfl⟩ := form0 hl
    rw [(swapAct 𝔾x 𝔾y).f0, (swapAct 𝔾y 𝔾x).f0]
  · obtain ⟨F, G, rfl⟩ := form1 hl
    rw [(swapAct 𝔾x 𝔾y).f1, (swapAct 𝔾y 𝔾x).f1]
  · obtain ⟨F, rfl⟩ := form2 hl
    rw [(swapAct 𝔾x 𝔾y).f2, (swapAct 𝔾y 𝔾x).f2]
    simp only [neg_neg]

variable (h9 : kx = .chebyshev → nx ≤ 927) (h9' : ky = .chebyshev → ny ≤ 927)
include h9 h9'

/-- **C87**: the star on the grid with exchanged axes: the orientation of the plane is reversed. -/
theorem C87_swap_star (d : Fin 3) (t : Bool) (a : List ℝ) (ha : (product 𝔾x 𝔾y).N d t = .ok a.length) :
    (product 𝔾y 𝔾x).H d t (swapForm 𝔾x 𝔾y d t a) = ((product 𝔾x 𝔾y).H d t a).map fun b => (swapForm 𝔾x 𝔾y (2 - d) (!t) b).map (-1 * ·) := by
  have Fx := G2.grid_factor kx nx hnx ax bx
  have Fy := G2.grid_factor ky ny hny ay «by»
  obtain ⟨b, _, e1, e2⟩ := (swapAct 𝔾x 𝔾y).H Fx Fy (grid_stars kx nx hnx h9 ax bx) (grid_stars ky ny hny h9' ay «by») d t a ((length_of_N Fx Fy).1 ha)
  rw [e1, e2]; rfl

/-- **C87**: the Laplacian does not depend on which axis is called `x`. -/
theorem C87_swap_laplacian (t : Bool) (a : List ℝ) (ha : (product 𝔾x 𝔾y).N 0 t = .ok a.length) :
    lap2 (product 𝔾y 𝔾x) t (swapForm 𝔾x 𝔾y 0 t a) = (lap2 (product 𝔾x 𝔾y) t a).map (swapForm 𝔾x 𝔾y 0 t) := by
  have Fx := G2.grid_factor kx nx hnx ax bx
  have Fy := G2.grid_factor ky ny hny ay «by»
  have sx := grid_stars kx nx hnx h9 ax bx
  have sy := grid_stars ky ny hny h9' ay «by»
  have hm := swapAct 𝔾x 𝔾y
  obtain ⟨b, e1, e2⟩ := lap2_act Fy Fx sy sx (s := -1) (by norm_num) hm.len (hm.D Fx Fy) (hm.H Fx Fy sx sy) t a ((length_of_N Fx Fy).1 ha)
  rw [e1, e2]; rfl

end

section
variable (kx ky : Kind) (nx ny : ℕ) (hx : Refinable kx nx) (hy : Refinable ky ny) (ax bx ay «by» : ℝ)

local notation "𝔾x" => grid kx nx ax bx
local notation "𝔾y" => grid ky ny ay «by»
include hx hy

/-- **C87**: the wedge product on the grid with exchanged axes. -/
theorem C87_swap_wedge (p q : Fin 3) (hpq : p.val + q.val ≤ 2) (r s t : Bool) (a b : List ℝ)
    (ha : (product 𝔾x 𝔾y).N p r = .ok a.length) (hb : (product 𝔾x 𝔾y).N q s = .ok b.length) :
    ∃ c, (product 𝔾x 𝔾y).wedge p r q s t a b = .ok c ∧
      (product 𝔾y 𝔾x).wedge p r q s t (swapForm 𝔾x 𝔾y p r a) (swapForm 𝔾x 𝔾y q s b) = .ok (swapForm 𝔾x 𝔾y (p + q) t c) := by
  have Fx := G2.grid_factor kx nx hx.1 ax bx
  have Fy := G2.grid_factor ky ny hy.1 ay «by»
  have e : deg2 p q = p + q := (by decide : ∀ p q : Fin 3, Fin.ofNat 3 (p.val + q.val) = p + q) p q
  rw [← e]
  exact (act2_swap Fx Fy (grid_refined' hx ax bx) (grid_refined' hy ay «by») (swapAct 𝔾x 𝔾y)).wedge p q hpq r s t a b ((length_of_N Fx Fy).1 ha) ((length_of_N Fx Fy).1 hb)

/-- **C87**: ... and the contraction. -/
theorem C87_swap_contraction (q : Fin 3) (hq : q ≠ 0) (r s t : Bool) (a b : List ℝ)
    (ha : (product 𝔾x 𝔾y).N 1 r = .ok a.length) (hb : (product 𝔾x 𝔾y).N q s = .ok b.length) :
    ∃ c, (product 𝔾x 𝔾y).contraction r q s t a b = .ok c ∧
      (product 𝔾y 𝔾x).contraction r q s t (swapForm 𝔾x 𝔾y 1 r a) (swapForm 𝔾x 𝔾y q s b) = .ok (swapForm 𝔾x 𝔾y (q - 1) t c) := by
  have Fx := G2.grid_factor kx nx hx.1 ax bx
  have Fy := G2.grid_factor ky ny hy.1 ay «by»
  exact (act2_swap Fx Fy (grid_refined' hx ax bx) (grid_refined' hy ay «by») (swapAct 𝔾x 𝔾y)).contraction q hq r s t a b ((length_of_N Fx Fy).1 ha) ((length_of_N Fx Fy).1 hb)

end

/-! ## Projection -/

/-- The map of the axis that belongs to a move. -/
noncomputable def Move.point (n : ℕ) (xmin xmax : ℝ) (u : Move) (x : ℝ) : ℝ :=
  match u with
  | .stay => x
  | .reflect => xmin + xmax - x
  | .turn j => x + j * ((xmax - xmin) / n)

/-- The pull-back of a form, given by its components, along the two maps. -/
noncomputable def pulled (φ ψ : ℝ → ℝ) (σ τ : ℝ) (d : Fin 3) (ω : List (ℝ → ℝ → ℝ)) : List (ℝ → ℝ → ℝ) :=
  if d = 0 then ω.map fun f x y => f (φ x) (ψ y)
  else if d = 1 then List.zipWith (fun (s : ℝ) (f : ℝ → ℝ → ℝ) x y => s * f (φ x) (ψ y)) [σ, τ] ω
  else ω.map fun f x y => σ * τ * f (φ x) (ψ y)

/-- On a periodic axis the components are periodic. -/
def Wraps2 (kx ky : Kind) (Lx Ly : ℝ) (f : ℝ → ℝ → ℝ) : Prop :=
  (kx = .periodic → ∀ x y, f (x + Lx) y = f x y) ∧ (ky = .periodic → ∀ x y, f x (y + Ly) = f x y)

theorem Move.point_cells {k : Kind} {n : ℕ} (hn : validSize k n) {a b : ℝ} (hab : a < b) {u : Move} (hu : u.Ok k) (F : ℝ → ℝ) (hF : k = .periodic → Function.Periodic F (b - a)) (t : Bool) :
    (∀ i < (grid k n a b).N 0 t, F (u.point n a b (vx (grid k n a b) t i)) = F (vx (grid k n a b) t (u.idx k n 0 t i))) ∧
    (∀ i < (grid k n a b).N 1 t, (∫ x in (lo (grid k n a b) t i)..(hi (grid k n a b) t i), F (u.point n a b x))
      = ∫ x in (lo (grid k n a b) t (u.idx k n 1 t i))..(hi (grid k n a b) t (u.idx k n 1 t i)), F x) := by
  cases u with
  | stay => exact ⟨fun i _ => rfl, fun i _ => rfl⟩
  | reflect =>
    have h := mirror_isometry' k hn hab (V := fun _ _ _ => False) (fun _ _ _ h => h.elim) fun _ _ _ h => h.elim
    have e : ∀ x, Move.point n a b .reflect x = a + b + -1 * x := fun x => by
      show a + b - x = _; ring
    simp only [e]
    exact ⟨fun i hi => h.v F hF t i hi, fun i hi => h.e F hF t i hi⟩
  | turn j =>
    cases hu
    have h := Periodic.isometry_shift (V := fun _ _ _ => False) hn hab j (fun _ _ _ h => h.elim) fun _ _ _ h => h.elim
    have e : ∀ x, Move.point n a b (.turn j) x = j * ((b - a) / n) + 1 * x := fun x => by
      show x + _ = _; ring
    simp only [e]
    exact ⟨fun i hi => h.v F (hF rfl) t i hi, fun i hi => h.e F (hF rfl) t i hi⟩

section
variable (kx ky : Kind) (nx ny : ℕ) (hnx : validSize kx nx) (hny : validSize ky ny) (ax bx ay «by» : ℝ) (hx : ax < bx) (hy : ay < «by») (u v : Move) (hu : u.Ok kx) (hv : v.Ok ky)

local notation "𝔾x" => grid kx nx ax bx
local notation "𝔾y" => grid ky ny ay «by»
include hnx hny hx hy hu hv

/-- **C87**: the coefficients of a form pulled back along the maps of the axes are its coefficients, moved. -/
theorem C87_move_projection (d : Fin 3) (t : Bool) (ω : List (ℝ → ℝ → ℝ)) (hω : ∀ f ∈ ω, Wraps2 kx ky (bx - ax) («by» - ay) f) (hl : ω.length = if d = 1 then 2 else 1) :
    ∃ a, (product 𝔾x 𝔾y).P d t ω = .ok a ∧
      (product 𝔾x 𝔾y).P d t (pulled (u.point nx ax bx) (v.point ny ay «by») u.sign v.sign d ω) = .ok (moveForm kx ky 𝔾x 𝔾y u v d t a) := by
  have Fx := G2.grid_factor kx nx hnx ax bx
  have Fy := G2.grid_factor ky ny hny ay «by»
  have hm := moveAct_grid kx ky nx ny hnx hny ax bx ay «by» u v hu hv
  have px := fun F hF => Move.point_cells (u := u) hnx hx hu F hF t
  have py := fun F hF => Move.point_cells (u := v) hny hy hv F hF t
  have wx : ∀ f, Wraps2 kx ky (bx - ax) («by» - ay) f → ∀ y, kx = .periodic → Function.Periodic (fun x => f x y) (bx - ax) := fun f hf y hk x => hf.1 hk x y
  have wy : ∀ f, Wraps2 kx ky (bx - ax) («by» - ay) f → ∀ x, ky = .periodic → Function.Periodic (fun y => f x y) («by» - ay) := fun f hf x hk y => hf.2 hk x y
  obtain rfl | rfl | rfl : d = 0 ∨ d = 1 ∨ d = 2 := by omega
  · obtain ⟨f, rfl⟩ := List.length_eq_one_iff.1 hl
    have hf := hω f (by simp)
    refine ⟨_, P0_mtab Fx Fy t f, ?_⟩
    show (product 𝔾x 𝔾y).P 0 t [fun x y => f (u.point nx ax bx x) (v.point ny ay «by» y)] = _
    rw [P0_mtab Fx Fy, hm.f0]
    refine congrArg Except.ok (congrArg Arr.data (mtab_congr fun j hj i hi => ?_))
    have h1 := (px (fun x => f x (v.point ny ay «by» (vx 𝔾y t j))) (wx f hf _)).1 i hi
    have h2 := (py (fun y => f (vx 𝔾x t (u.idx kx nx 0 t i)) y) (wy f hf _)).1 j hj
    unfold mv
    simp only [sgn, if_true, one_mul]
    exact h1.trans h2
  · obtain ⟨f, g, rfl⟩ := List.length_eq_two.1 hl
    have hf := hω f (by simp)
    have hg := hω g (by simp)
    refine ⟨_, P1_mtab Fx Fy t f g, ?_⟩
    show (product 𝔾x 𝔾y).P 1 t [fun x y => u.sign * f (u.point nx ax bx x) (v.point ny ay «by» y), fun x y => v.sign * g (u.point nx ax bx x) (v.point ny ay «by» y)] = _
    rw [P1_mtab Fx Fy, hm.f1]
    refine congrArg Except.ok (congrArg₂ (· ++ ·) (congrArg Arr.data (mtab_congr fun j hj i hi => ?_)) (congrArg Arr.data (mtab_congr fun j hj i hi => ?_)))
    · have h1 := (px (fun x => f x (v.point ny ay «by» (vx 𝔾y t j))) (wx f hf _)).2 i hi
      have h2 := (py (fun y => ∫ x in (lo 𝔾x t (u.idx kx nx 1 t i))..(G2.hi 𝔾x t (u.idx kx nx 1 t i)), f x y)
        (fun hk y => by show (∫ x in _.._, f x (y + _)) = _; simp only [hf.2 hk])).1 j hj
      unfold mv
      unfold Integrate.P1x
      simp only [sgn, if_true, one_mul, mul_one, one_ne_zero, if_false, intervalIntegral.integral_const_mul]
      exact congrArg (u.sign * ·) (h1.trans h2)
    · have h1 := (py (fun y => g (u.point nx ax bx (vx 𝔾x t i)) y) (wy g hg _)).2 j hj
      have h2 := (px (fun x => ∫ y in (lo 𝔾y t (v.idx ky ny 1 t j))..(G2.hi 𝔾y t (v.idx ky ny 1 t j)), g x y)
        (fun hk x => by show (∫ y in _.._, g (x + _) y) = _; simp only [hg.1 hk])).1 i hi
      unfold mv
      unfold Integrate.P1y
      simp only [sgn, if_true, one_mul, mul_one, one_ne_zero, if_false, intervalIntegral.integral_const_mul]
      exact congrArg (v.sign * ·) (h1.trans h2)
  · obtain ⟨f, rfl⟩ := List.length_eq_one_iff.1 hl
    have hf := hω f (by simp)
    refine ⟨_, P2_mtab Fx Fy t f, ?_⟩
    show (product 𝔾x 𝔾y).P 2 t [fun x y => u.sign * v.sign * f (u.point nx ax bx x) (v.point ny ay «by» y)] = _
    rw [P2_mtab Fx Fy, hm.f2]
    refine congrArg Except.ok (congrArg Arr.data (mtab_congr fun j hj i hi => ?_))
    have h1 : ∀ x, (∫ y in (lo 𝔾y t j)..(G2.hi 𝔾y t j), f (u.point nx ax bx x) (v.point ny ay «by» y))
        = ∫ y in (lo 𝔾y t (v.idx ky ny 1 t j))..(G2.hi 𝔾y t (v.idx ky ny 1 t j)), f (u.point nx ax bx x) y := fun x =>
      (py (fun y => f (u.point nx ax bx x) y) (wy f hf _)).2 j hj
    have h2 := (px (fun x => ∫ y in (lo 𝔾y t (v.idx ky ny 1 t j))..(G2.hi 𝔾y t (v.idx ky ny 1 t j)), f x y)
        (fun hk x => by show (∫ y in _.._, f (x + _) y) = _; simp only [hf.1 hk])).2 i hi
    unfold mv
    unfold Integrate.P2r
    simp only [sgn, if_true, one_mul, mul_one, one_ne_zero, if_false, intervalIntegral.integral_const_mul, h1]
    exact congrArg (u.sign * v.sign * ·) h2

end

/-- **C87**: the projections onto the grid with exchanged axes (2-forms with continuous coefficient). -/
theorem C87_swap_projection (kx ky : Kind) (nx ny : ℕ) (hnx : validSize kx nx) (hny : validSize ky ny) (ax bx ay «by» : ℝ) (t : Bool) (f g : ℝ → ℝ → ℝ) :
    (product (grid ky ny ay «by») (grid kx nx ax bx)).P 0 t [fun x y => f y x]
      = ((product (grid kx nx ax bx) (grid ky ny ay «by»)).P 0 t [f]).map (swapForm (grid kx nx ax bx) (grid ky ny ay «by») 0 t) ∧
    (product (grid ky ny ay «by») (grid kx nx ax bx)).P 1 t [fun x y => g y x, fun x y => f y x]
      = ((product (grid kx nx ax bx) (grid ky ny ay «by»)).P 1 t [f, g]).map (swapForm (grid kx nx ax bx) (grid ky ny ay «by») 1 t) ∧
    (Continuous (Function.uncurry f) → (product (grid ky ny ay «by») (grid kx nx ax bx)).P 2 t [fun x y => -f y x]
      = ((product (grid kx nx ax bx) (grid ky ny ay «by»)).P 2 t [f]).map (swapForm (grid kx nx ax bx) (grid ky ny ay «by») 2 t)) := by
  have Fx := G2.grid_factor kx nx hnx ax bx
  have Fy := G2.grid_factor ky ny hny ay «by»
  have hs := swapAct (grid kx nx ax bx) (grid ky ny ay «by»)
  refine ⟨?_, ?_, fun hc => ?_⟩
  · rw [P0_mtab Fx Fy, P0_mtab Fy Fx]
    exact congrArg Except.ok (hs.f0 t _).symm
  · rw [P1_mtab Fx Fy, P1_mtab Fy Fx]
    exact congrArg Except.ok (hs.f1 t _ _).symm
  · rw [P2_mtab Fx Fy, P2_mtab Fy Fx]
    refine congrArg Except.ok (Eq.trans ?_ (hs.f2 t _).symm)
    refine congrArg Arr.data (mtab_congr fun j hj i hi => ?_)
    unfold Integrate.P2r
    simp only [intervalIntegral.integral_neg]
    refine congrArg Neg.neg ?_
    exact (Triangle.rect_swap f _ _ _ _ hc).symm

/-! ## Non-vacuity -/

/-- Two rows of three entries: the transpose, both reflections of a periodic 0-form (vertex 0 stays), and a half turn of the rows. -/
example : transposeFlat 2 3 [1, 2, 3, 4, 5, 6] = [1, 4, 2, 5, 3, 6] ∧
    onRows 2 3 (Move.on .periodic .reflect 0 true) [1, 2, 3, 4, 5, 6] = [1, 3, 2, 4, 6, 5] ∧
    onCols 2 3 (Move.on .chebyshev .reflect 1 true) [1, 2, 3, 4, 5, 6] = [-4, -5, -6, -1, -2, -3] ∧
    onRows 2 3 (Move.on .periodic (.turn 1) 0 true) [1, 2, 3, 4, 5, 6] = [2, 3, 1, 5, 6, 4] := by
  refine ⟨by simp [transposeFlat, List.range_succ], by simp [onRows, Move.on, mirror, List.range_succ], ?_, by simp [onRows, Move.on, List.range_succ]⟩
  simp [onCols, onRows, transposeFlat, Move.on, mirror, List.range_succ]

/-- The hypotheses are met: a periodic grid with 3 vertices times a Chebyshev grid with 2, a 1-form with its `3 * 2 + 3 * 1` coefficients, a rotation along `x` and a reflection
along `y`; a 2-form periodic in `x`. -/
example : validSize .periodic 3 ∧ validSize .chebyshev 2 ∧ Refinable .periodic 3 ∧ Refinable .chebyshev 2 ∧ (Move.turn 2).Ok .periodic ∧ Move.reflect.Ok .chebyshev ∧
    (product (grid .periodic 3 0 1) (grid .chebyshev 2 0 1)).N 1 true = .ok ([1, 2, 3, 4, 5, 6, 7, 8, 9] : List ℝ).length ∧
    Wraps2 .periodic .chebyshev (1 - 0) (1 - 0) (fun x y => sin (2 * π * x) * y) := by
  refine ⟨by norm_num [validSize], by norm_num [validSize], ⟨by norm_num [validSize], by decide, fun h => by cases h⟩, ⟨by norm_num [validSize], by decide, fun _ => by norm_num⟩,
    rfl, trivial, ?_, fun _ x y => ?_, fun h => by cases h⟩
  · rw [N_eq (G2.grid_factor _ _ (by norm_num [validSize]) _ _) (G2.grid_factor _ _ (by norm_num [validSize]) _ _)]; rfl
  · show sin (2 * π * (x + (1 - 0))) * y = _
    rw [show 2 * π * (x + (1 - 0)) = 2 * π * x + 2 * π by ring, sin_add_two_pi]

end Dec.Props
