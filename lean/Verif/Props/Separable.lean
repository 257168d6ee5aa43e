import Verif.Props.LaplaceOne

set_option linter.unusedSimpArgs false
set_option linter.unusedVariables false

/-!
# C110: the Laplacians of a product grid act line by line (`/repo/doc/plot/cheb/poisson2d_cheb.py`, `/repo/doc/plot/cheb/poisson2d_periodic.py`)
-/

namespace Dec.Props

open Real Finset Dec.G2 Dec.Sp

/-- Row `j` of an array of rows of length `w`. -/
def line (w : ℕ) (x : List ℝ) (j : ℕ) : List ℝ := (x.drop (j * w)).take w
/-- Column `i` of an array of `h` rows of length `w`. -/
def column (w h : ℕ) (x : List ℝ) (i : ℕ) : List ℝ := (List.range h).map fun j => x.getD (j * w + i) 0

/-- The Laplacian of a 1-form on a line, `D0(H1(D0(H1 a)))`. -/
noncomputable def lapEdge (g : Grid1) (t : Bool) (a : List ℝ) : Except Err (List ℝ) := do
  let b ← g.H 1 t a
  let c ← g.d0 (!t) b
  let d ← g.H 1 (!t) c
  g.d0 t d

/-! ## Operators on rows and columns -/

/-- A matrix applied to every row. -/
def rO (n : ℕ) (A F : ℕ → ℕ → ℝ) (j i : ℕ) : ℝ := ∑ k ∈ range n, A i k * F j k
/-- A matrix applied to every column. -/
def cO (m : ℕ) (B F : ℕ → ℕ → ℝ) (j i : ℕ) : ℝ := ∑ l ∈ range m, B j l * F l i

theorem rO_cO (n m : ℕ) (A B F : ℕ → ℕ → ℝ) : rO n A (cO m B F) = cO m B (rO n A F) := by
  funext j i
  unfold rO cO
  simp only [mul_sum]
  rw [sum_comm]
  exact sum_congr rfl fun _ _ => sum_congr rfl fun _ _ => by ring

theorem rO_add (n : ℕ) (A F G : ℕ → ℕ → ℝ) : rO n A (fun j i => F j i + G j i) = fun j i => rO n A F j i + rO n A G j i := by
  funext j i; unfold rO; rw [← sum_add_distrib]; exact sum_congr rfl fun _ _ => by ring
theorem cO_add (n : ℕ) (A F G : ℕ → ℕ → ℝ) : cO n A (fun j i => F j i + G j i) = fun j i => cO n A F j i + cO n A G j i := by
  funext j i; unfold cO; rw [← sum_add_distrib]; exact sum_congr rfl fun _ _ => by ring
theorem rO_neg (n : ℕ) (A F : ℕ → ℕ → ℝ) : rO n A (fun j i => -F j i) = fun j i => -rO n A F j i := by
  funext j i; unfold rO; rw [← sum_neg_distrib]; exact sum_congr rfl fun _ _ => by ring
theorem cO_neg (n : ℕ) (A F : ℕ → ℕ → ℝ) : cO n A (fun j i => -F j i) = fun j i => -cO n A F j i := by
  funext j i; unfold cO; rw [← sum_neg_distrib]; exact sum_congr rfl fun _ _ => by ring
theorem rO_congr {n : ℕ} {A F G : ℕ → ℕ → ℝ} {j i : ℕ} (h : ∀ k < n, F j k = G j k) : rO n A F j i = rO n A G j i :=
  sum_congr rfl fun k hk => by rw [h k (mem_range.1 hk)]
theorem cO_congr {n : ℕ} {A F G : ℕ → ℕ → ℝ} {j i : ℕ} (h : ∀ k < n, F k i = G k i) : cO n A F j i = cO n A G j i :=
  sum_congr rfl fun k hk => by rw [h k (mem_range.1 hk)]

/-- The four matrices of a factor that the Laplacians use. -/
structure Mats (g : Grid1) (t : Bool) (A A' S0 S1 S0' S1' : ℕ → ℕ → ℝ) : Prop where
  d : HasMat (g.N 0 t) (g.N 1 t) (g.d0 t) A
  d' : HasMat (g.N 0 (!t)) (g.N 1 (!t)) (g.d0 (!t)) A'
  h0 : HasMat (g.N 0 t) (g.N 1 (!t)) (g.H 0 t) S0
  h1 : HasMat (g.N 1 t) (g.N 0 (!t)) (g.H 1 t) S1
  h0' : HasMat (g.N 0 (!t)) (g.N 1 t) (g.H 0 (!t)) S0'
  h1' : HasMat (g.N 1 (!t)) (g.N 0 t) (g.H 1 (!t)) S1'
  inv : ∀ f : ℕ → ℝ, ∀ i < g.N 0 t, ∑ k ∈ range (g.N 1 (!t)), S1' i k * ∑ l ∈ range (g.N 0 t), S0 k l * f l = f i
  inv' : ∀ f : ℕ → ℝ, ∀ i < g.N 1 t, ∑ k ∈ range (g.N 0 (!t)), S0' i k * ∑ l ∈ range (g.N 1 t), S1 k l * f l = f i

theorem exists_mats {g : Grid1} (F : Factor g) (S : Stars g) (t : Bool) : ∃ A A' S0 S1 S0' S1', Mats g t A A' S0 S1 S0' S1' := by
  obtain ⟨A, hA⟩ := (F.d t).exists_mat
  obtain ⟨A', hA'⟩ := (F.d (!t)).exists_mat
  obtain ⟨S0, h0⟩ := (S.lin 0 t).exists_mat
  obtain ⟨S1, h1⟩ := (S.lin 1 t).exists_mat
  obtain ⟨S0', h0'⟩ := (S.lin 0 (!t)).exists_mat
  obtain ⟨S1', h1'⟩ := (S.lin 1 (!t)).exists_mat
  have z : (1 : Fin 2) - 0 = 1 := rfl
  have o : (1 : Fin 2) - 1 = 0 := rfl
  rw [z] at h0 h0'
  rw [o] at h1 h1'
  rw [Bool.not_not] at h0' h1'
  refine ⟨A, A', S0, S1, S0', S1', hA, hA', h0, h1, h0', h1', fun f i hi => ?_, fun f i hi => ?_⟩
  · have := S.inv 0 t (tab (g.N 0 t) f) (length_tab _ _)
    rw [h0 f] at this
    have h := (h1' _).symm.trans this
    rw [Except.ok.injEq, tab_inj] at h
    exact h i hi
  · have := S.inv 1 t (tab (g.N 1 t) f) (length_tab _ _)
    rw [h1 f] at this
    have h := (h0' _).symm.trans this
    rw [Except.ok.injEq, tab_inj] at h
    exact h i hi

section
variable {gx gy : Grid1} {t : Bool} {A A' S0 S1 S0' S1' B B' R0 R1 R0' R1' : ℕ → ℕ → ℝ}

/-- The 0-form Laplacian of the first factor on every row. -/
def lapX (gx : Grid1) (t : Bool) (A A' S1 S1' F : ℕ → ℕ → ℝ) : ℕ → ℕ → ℝ := rO (gx.N 1 (!t)) S1' (rO (gx.N 0 (!t)) A' (rO (gx.N 1 t) S1 (rO (gx.N 0 t) A F)))
/-- The 0-form Laplacian of the second factor on every column. -/
def lapY (gy : Grid1) (t : Bool) (B B' R1 R1' F : ℕ → ℕ → ℝ) : ℕ → ℕ → ℝ := cO (gy.N 1 (!t)) R1' (cO (gy.N 0 (!t)) B' (cO (gy.N 1 t) R1 (cO (gy.N 0 t) B F)))
/-- The 1-form Laplacian of the first factor on every row. -/
def edgX (gx : Grid1) (t : Bool) (A A' S1 S1' F : ℕ → ℕ → ℝ) : ℕ → ℕ → ℝ := rO (gx.N 0 t) A (rO (gx.N 1 (!t)) S1' (rO (gx.N 0 (!t)) A' (rO (gx.N 1 t) S1 F)))
/-- The 1-form Laplacian of the second factor on every column. -/
def edgY (gy : Grid1) (t : Bool) (B B' R1 R1' F : ℕ → ℕ → ℝ) : ℕ → ℕ → ℝ := cO (gy.N 0 t) B (cO (gy.N 1 (!t)) R1' (cO (gy.N 0 (!t)) B' (cO (gy.N 1 t) R1 F)))

theorem Mats.lap (M : Mats gx t A A' S0 S1 S0' S1') (f : ℕ → ℝ) :
    gx.laplacian t (tab (gx.N 0 t) f) = .ok (tab (gx.N 0 t) (lapX gx t A A' S1 S1' (fun _ => f) 0)) := by
  unfold Grid1.laplacian
  rw [M.d]; simp only [bind, Except.bind]
  rw [M.h1]; simp only []
  rw [M.d']; simp only []
  rw [M.h1']; rfl

theorem Mats.lap' (M : Mats gy t B B' R0 R1 R0' R1') (f : ℕ → ℝ) :
    gy.laplacian t (tab (gy.N 0 t) f) = .ok (tab (gy.N 0 t) fun j => lapY gy t B B' R1 R1' (fun j _ => f j) j 0) := M.lap f

theorem Mats.edge (M : Mats gx t A A' S0 S1 S0' S1') (f : ℕ → ℝ) :
    lapEdge gx t (tab (gx.N 1 t) f) = .ok (tab (gx.N 1 t) (edgX gx t A A' S1 S1' (fun _ => f) 0)) := by
  unfold lapEdge
  rw [M.h1]; simp only [bind, Except.bind]
  rw [M.d']; simp only []
  rw [M.h1']; simp only []
  rw [M.d]; rfl

variable (Fx : Factor gx) (Fy : Factor gy) (Mx : Mats gx t A A' S0 S1 S0' S1') (My : Mats gy t B B' R0 R1 R0' R1')
include Fx Fy Mx My

theorem D0_m (F : ℕ → ℕ → ℝ) : (product gx gy).D 0 t (mtab (gy.N 0 t) (gx.N 0 t) F).data
    = .ok ((mtab (gy.N 0 t) (gx.N 1 t) (rO (gx.N 0 t) A F)).data ++ (mtab (gy.N 1 t) (gx.N 0 t) (cO (gy.N 0 t) B F)).data) :=
  D0_mtab Fx Fy t (fun j _ => Mx.d (F j)) (fun i _ => My.d fun j => F j i)

theorem D0_m' (F : ℕ → ℕ → ℝ) : (product gx gy).D 0 (!t) (mtab (gy.N 0 (!t)) (gx.N 0 (!t)) F).data
    = .ok ((mtab (gy.N 0 (!t)) (gx.N 1 (!t)) (rO (gx.N 0 (!t)) A' F)).data ++ (mtab (gy.N 1 (!t)) (gx.N 0 (!t)) (cO (gy.N 0 (!t)) B' F)).data) :=
  D0_mtab Fx Fy (!t) (fun j _ => Mx.d' (F j)) (fun i _ => My.d' fun j => F j i)

theorem D1_m (F G : ℕ → ℕ → ℝ) : (product gx gy).D 1 t ((mtab (gy.N 0 t) (gx.N 1 t) F).data ++ (mtab (gy.N 1 t) (gx.N 0 t) G).data)
    = .ok (mtab (gy.N 1 t) (gx.N 1 t) fun j i => -cO (gy.N 0 t) B F j i + rO (gx.N 0 t) A G j i).data :=
  D1_mtab Fx Fy t (fun i _ => My.d fun j => F j i) (fun j _ => Mx.d (G j))

theorem D1_m' (F G : ℕ → ℕ → ℝ) : (product gx gy).D 1 (!t) ((mtab (gy.N 0 (!t)) (gx.N 1 (!t)) F).data ++ (mtab (gy.N 1 (!t)) (gx.N 0 (!t)) G).data)
    = .ok (mtab (gy.N 1 (!t)) (gx.N 1 (!t)) fun j i => -cO (gy.N 0 (!t)) B' F j i + rO (gx.N 0 (!t)) A' G j i).data :=
  D1_mtab Fx Fy (!t) (fun i _ => My.d' fun j => F j i) (fun j _ => Mx.d' (G j))

theorem H1_m (F G : ℕ → ℕ → ℝ) : (product gx gy).H 1 t ((mtab (gy.N 0 t) (gx.N 1 t) F).data ++ (mtab (gy.N 1 t) (gx.N 0 t) G).data)
    = .ok ((mtab (gy.N 0 (!t)) (gx.N 1 (!t)) fun j i => -rO (gx.N 0 t) S0 (cO (gy.N 1 t) R1 G) j i).data ++ (mtab (gy.N 1 (!t)) (gx.N 0 (!t)) (cO (gy.N 0 t) R0 (rO (gx.N 1 t) S1 F))).data) :=
  H1_mtab Fx Fy t (Fy.pos 0 (!t)) (Fx.pos 0 (!t)) (fun i _ => My.h1 fun j => G j i) (fun j _ => Mx.h0 _) (fun j _ => Mx.h1 (F j)) (fun i _ => My.h0 _)

theorem H1_m' (F G : ℕ → ℕ → ℝ) : (product gx gy).H 1 (!t) ((mtab (gy.N 0 (!t)) (gx.N 1 (!t)) F).data ++ (mtab (gy.N 1 (!t)) (gx.N 0 (!t)) G).data)
    = .ok ((mtab (gy.N 0 t) (gx.N 1 t) fun j i => -rO (gx.N 0 (!t)) S0' (cO (gy.N 1 (!t)) R1' G) j i).data ++ (mtab (gy.N 1 t) (gx.N 0 t) (cO (gy.N 0 (!t)) R0' (rO (gx.N 1 (!t)) S1' F))).data) :=
  H1_mtab Fx Fy (!t) (Fy.pos 0 t) (Fx.pos 0 t) (fun i _ => My.h1' fun j => G j i) (fun j _ => Mx.h0' _) (fun j _ => Mx.h1' (F j)) (fun i _ => My.h0' _)

theorem H2_m (F : ℕ → ℕ → ℝ) : (product gx gy).H 2 t (mtab (gy.N 1 t) (gx.N 1 t) F).data
    = .ok (mtab (gy.N 0 (!t)) (gx.N 0 (!t)) (rO (gx.N 1 t) S1 (cO (gy.N 1 t) R1 F))).data :=
  H2_mtab Fx Fy t (Fy.pos 0 (!t)) (fun i _ => My.h1 fun j => F j i) (fun j _ => Mx.h1 _)

theorem H2_m' (F : ℕ → ℕ → ℝ) : (product gx gy).H 2 (!t) (mtab (gy.N 1 (!t)) (gx.N 1 (!t)) F).data
    = .ok (mtab (gy.N 0 t) (gx.N 0 t) (rO (gx.N 1 (!t)) S1' (cO (gy.N 1 (!t)) R1' F))).data :=
  H2_mtab Fx Fy (!t) (Fy.pos 0 t) (fun i _ => My.h1' fun j => F j i) (fun j _ => Mx.h1' _)

omit Fx Fy My in
theorem rinv (F : ℕ → ℕ → ℝ) (j : ℕ) {i : ℕ} (hi : i < gx.N 0 t) : rO (gx.N 1 (!t)) S1' (rO (gx.N 0 t) S0 F) j i = F j i := Mx.inv (F j) i hi
omit Fx Fy My in
theorem rinv' (F : ℕ → ℕ → ℝ) (j : ℕ) {i : ℕ} (hi : i < gx.N 1 t) : rO (gx.N 0 (!t)) S0' (rO (gx.N 1 t) S1 F) j i = F j i := Mx.inv' (F j) i hi
omit Fx Fy Mx in
theorem cinv (F : ℕ → ℕ → ℝ) {j : ℕ} (i : ℕ) (hj : j < gy.N 0 t) : cO (gy.N 1 (!t)) R1' (cO (gy.N 0 t) R0 F) j i = F j i := My.inv (fun l => F l i) j hj
omit Fx Fy Mx in
theorem cinv' (F : ℕ → ℕ → ℝ) {j : ℕ} (i : ℕ) (hj : j < gy.N 1 t) : cO (gy.N 0 (!t)) R0' (cO (gy.N 1 t) R1 F) j i = F j i := My.inv' (fun l => F l i) j hj

theorem lap2_m (F : ℕ → ℕ → ℝ) : lap2 (product gx gy) t (mtab (gy.N 0 t) (gx.N 0 t) F).data
    = .ok (mtab (gy.N 0 t) (gx.N 0 t) fun j i => lapX gx t A A' S1 S1' F j i + lapY gy t B B' R1 R1' F j i).data := by
  unfold lap2
  rw [D0_m Fx Fy Mx My]; simp only [bind, Except.bind]
  rw [H1_m Fx Fy Mx My]; simp only []
  rw [D1_m' Fx Fy Mx My]; simp only []
  rw [H2_m' Fx Fy Mx My]
  refine congrArg _ (congrArg Arr.data (mtab_congr fun j hj i hi => ?_))
  simp only [cO_neg, neg_neg, cO_add, rO_add]
  rw [add_comm]
  refine congrArg₂ (· + ·) ?_ ?_
  · simp only [rO_cO]
    rw [cinv My _ _ hj]; rfl
  · simp only [← rO_cO]
    rw [rinv Mx _ _ hi]; rfl

theorem lapOne_m (F G : ℕ → ℕ → ℝ) : lapOne (product gx gy) t ((mtab (gy.N 0 t) (gx.N 1 t) F).data ++ (mtab (gy.N 1 t) (gx.N 0 t) G).data)
    = .ok ((mtab (gy.N 0 t) (gx.N 1 t) fun j i => edgX gx t A A' S1 S1' F j i + lapY gy t B B' R1 R1' F j i).data
      ++ (mtab (gy.N 1 t) (gx.N 0 t) fun j i => lapX gx t A A' S1 S1' G j i + edgY gy t B B' R1 R1' G j i).data) := by
  have e := lapOne_ok (H1_m Fx Fy Mx My F G) (D1_m' Fx Fy Mx My _ _) (H2_m' Fx Fy Mx My _) (D0_m Fx Fy Mx My _) (D1_m Fx Fy Mx My F G) (H2_m Fx Fy Mx My _) (D0_m' Fx Fy Mx My _) (H1_m' Fx Fy Mx My _ _)
  rw [e]
  have va : ∀ (r c : ℕ) (K K' : ℕ → ℕ → ℝ), List.zipWith (· + ·) (mtab r c K).data (mtab r c K').data = (mtab r c fun j i => K j i + K' j i).data := fun r c K K' => zipWith_tab _ _ _ _
  unfold vadd
  rw [List.zipWith_append (by simp only [length_data]), va, va]
  refine congrArg _ (congrArg₂ (· ++ ·) (congrArg Arr.data (mtab_congr fun j hj i hi => ?_)) (congrArg Arr.data (mtab_congr fun j hj i hi => ?_)))
  · simp only [cO_neg, rO_neg, neg_neg, cO_add, rO_add]
    have e1 : rO (gx.N 0 t) A (rO (gx.N 1 (!t)) S1' (cO (gy.N 1 (!t)) R1' (cO (gy.N 0 (!t)) B' (rO (gx.N 0 t) S0 (cO (gy.N 1 t) R1 G))))) j i
        = rO (gx.N 0 t) A (cO (gy.N 1 (!t)) R1' (cO (gy.N 0 (!t)) B' (cO (gy.N 1 t) R1 G))) j i := by
      refine rO_congr fun k hk => ?_
      simp only [← rO_cO]
      exact rinv Mx _ _ hk
    have e2 : rO (gx.N 0 t) A (rO (gx.N 1 (!t)) S1' (cO (gy.N 1 (!t)) R1' (rO (gx.N 0 (!t)) A' (cO (gy.N 0 t) R0 (rO (gx.N 1 t) S1 F))))) j i = edgX gx t A A' S1 S1' F j i := by
      simp only [rO_cO]
      rw [cinv My _ _ hj]; rfl
    have e3 : ∀ K, rO (gx.N 0 (!t)) S0' (cO (gy.N 1 (!t)) R1' (cO (gy.N 0 (!t)) B' (rO (gx.N 1 t) S1 K))) j i = cO (gy.N 1 (!t)) R1' (cO (gy.N 0 (!t)) B' K) j i := fun K => by
      simp only [← rO_cO]
      exact rinv' Mx _ _ hi
    rw [e1, e2, e3, e3]
    unfold lapY
    rw [rO_cO, rO_cO, rO_cO]
    ring
  · simp only [cO_neg, rO_neg, neg_neg, cO_add, rO_add]
    have e1 : cO (gy.N 0 t) B (rO (gx.N 1 (!t)) S1' (cO (gy.N 1 (!t)) R1' (rO (gx.N 0 (!t)) A' (cO (gy.N 0 t) R0 (rO (gx.N 1 t) S1 F))))) j i
        = cO (gy.N 0 t) B (rO (gx.N 1 (!t)) S1' (rO (gx.N 0 (!t)) A' (rO (gx.N 1 t) S1 F))) j i := by
      refine cO_congr fun k hk => ?_
      simp only [rO_cO]
      exact cinv My _ _ hk
    have e2 : cO (gy.N 0 t) B (rO (gx.N 1 (!t)) S1' (cO (gy.N 1 (!t)) R1' (cO (gy.N 0 (!t)) B' (rO (gx.N 0 t) S0 (cO (gy.N 1 t) R1 G))))) j i = edgY gy t B B' R1 R1' G j i := by
      simp only [← rO_cO]
      rw [rinv Mx _ _ hi]; rfl
    have e3 : ∀ K, cO (gy.N 0 (!t)) R0' (rO (gx.N 1 (!t)) S1' (rO (gx.N 0 (!t)) A' (cO (gy.N 1 t) R1 K))) j i = rO (gx.N 1 (!t)) S1' (rO (gx.N 0 (!t)) A' K) j i := fun K => by
      simp only [rO_cO]
      exact cinv' My _ _ hj
    have e4 : ∀ K, cO (gy.N 0 (!t)) R0' (rO (gx.N 1 (!t)) S1' (rO (gx.N 0 (!t)) A' (rO (gx.N 1 t) S1 (cO (gy.N 1 t) R1 K)))) j i
        = rO (gx.N 1 (!t)) S1' (rO (gx.N 0 (!t)) A' (rO (gx.N 1 t) S1 K)) j i := fun K => by
      rw [rO_cO]; exact e3 _
    rw [e1, e2, e4, e4]
    unfold lapX
    rw [← rO_cO, ← rO_cO, ← rO_cO]
    ring

end

/-! ## Rows and columns of arrays -/

theorem line_data {r c : ℕ} (F : ℕ → ℕ → ℝ) {j : ℕ} (hj : j < r) : line c (mtab r c F).data j = tab c (F j) := by
  unfold line
  have hl := length_data r c F
  have h1 : j * c + c ≤ r * c := by nlinarith
  refine List.ext_getElem (by simp only [List.length_take, List.length_drop, hl, length_tab]; omega) fun i h2 h3 => ?_
  rw [length_tab] at h3
  rw [List.getElem_take, List.getElem_drop]
  have := getD_tab (f := fun k => F (k / c) (k % c)) (d := 0) (show j * c + i < r * c by omega)
  rw [idx_div h3, idx_mod h3] at this
  have e1 : (mtab r c F).data.getD (j * c + i) 0 = F j i := this
  have e2 : (tab c (F j)).getD i 0 = F j i := getD_tab h3 0
  rw [List.getD_eq_getElem?_getD, List.getElem?_eq_getElem (by omega), Option.getD_some] at e1
  rw [List.getD_eq_getElem?_getD, List.getElem?_eq_getElem (by rw [length_tab]; exact h3), Option.getD_some] at e2
  rw [e1, e2]

theorem column_data {r c : ℕ} (F : ℕ → ℕ → ℝ) {i : ℕ} (hi : i < c) : column c r (mtab r c F).data i = tab r fun j => F j i := by
  unfold column tab
  refine List.map_congr_left fun j hj => ?_
  have hj := List.mem_range.1 hj
  have := getD_tab (f := fun k => F (k / c) (k % c)) (d := 0) (idx_lt hj hi)
  rw [idx_div hi, idx_mod hi] at this
  exact this

/-! ## The Laplacians, line by line -/

section
variable {gx gy : Grid1} (Fx : Factor gx) (Fy : Factor gy) (Sx : Stars gx) (Sy : Stars gy) (t : Bool)
include Fx Fy Sx Sy

theorem lines_0 (x : List ℝ) (hx : (product gx gy).N 0 t = .ok x.length) :
    ∃ z, lap2 (product gx gy) t x = .ok z ∧ z.length = x.length ∧
      ∀ j < gy.N 0 t, ∀ i < gx.N 0 t, ∃ u v, gx.laplacian t (line (gx.N 0 t) x j) = .ok u ∧ gy.laplacian t (column (gx.N 0 t) (gy.N 0 t) x i) = .ok v ∧
        z.getD (j * gx.N 0 t + i) 0 = u.getD i 0 + v.getD j 0 := by
  rw [N_eq Fx Fy, Except.ok.injEq] at hx
  obtain ⟨F, rfl⟩ := flat0 (show x.length = gy.N 0 t * gx.N 0 t from hx.symm)
  obtain ⟨A, A', S0, S1, S0', S1', Mx⟩ := exists_mats Fx Sx t
  obtain ⟨B, B', R0, R1, R0', R1', My⟩ := exists_mats Fy Sy t
  refine ⟨_, lap2_m Fx Fy Mx My F, by rw [length_data, length_data], fun j hj i hi => ?_⟩
  rw [line_data F hj, column_data F hi]
  refine ⟨_, _, Mx.lap (F j), My.lap' fun j => F j i, ?_⟩
  rw [getD_data hj hi, getD_tab hi, getD_tab hj]
  rfl

theorem lines_1 (x : List ℝ) (hx : (product gx gy).N 1 t = .ok x.length) :
    ∃ z, lapOne (product gx gy) t x = .ok z ∧ z.length = x.length ∧
      (∀ j < gy.N 0 t, ∀ i < gx.N 1 t, ∃ u v, lapEdge gx t (line (gx.N 1 t) (x.take (gy.N 0 t * gx.N 1 t)) j) = .ok u ∧
        gy.laplacian t (column (gx.N 1 t) (gy.N 0 t) (x.take (gy.N 0 t * gx.N 1 t)) i) = .ok v ∧
        (z.take (gy.N 0 t * gx.N 1 t)).getD (j * gx.N 1 t + i) 0 = u.getD i 0 + v.getD j 0) ∧
      (∀ j < gy.N 1 t, ∀ i < gx.N 0 t, ∃ u v, gx.laplacian t (line (gx.N 0 t) (x.drop (gy.N 0 t * gx.N 1 t)) j) = .ok u ∧
        lapEdge gy t (column (gx.N 0 t) (gy.N 1 t) (x.drop (gy.N 0 t * gx.N 1 t)) i) = .ok v ∧
        (z.drop (gy.N 0 t * gx.N 1 t)).getD (j * gx.N 0 t + i) 0 = u.getD i 0 + v.getD j 0) := by
  rw [N_eq Fx Fy, Except.ok.injEq] at hx
  obtain ⟨F, G, rfl⟩ := flat1 (show x.length = gy.N 0 t * gx.N 1 t + gy.N 1 t * gx.N 0 t from hx.symm)
  obtain ⟨A, A', S0, S1, S0', S1', Mx⟩ := exists_mats Fx Sx t
  obtain ⟨B, B', R0, R1, R0', R1', My⟩ := exists_mats Fy Sy t
  refine ⟨_, lapOne_m Fx Fy Mx My F G, by simp only [List.length_append, length_data], fun j hj i hi => ?_, fun j hj i hi => ?_⟩
  · rw [List.take_left' (length_data _ _ _), List.take_left' (length_data _ _ _), line_data F hj, column_data F hi]
    refine ⟨_, _, Mx.edge (F j), My.lap' fun j => F j i, ?_⟩
    rw [getD_data hj hi, getD_tab hi, getD_tab hj]
    rfl
  · rw [List.drop_left' (length_data _ _ _), List.drop_left' (length_data _ _ _), line_data G hj, column_data G hi]
    refine ⟨_, _, Mx.lap (G j), My.edge fun j => G j i, ?_⟩
    rw [getD_data hj hi, getD_tab hi, getD_tab hj]
    rfl

end

section
variable (k k' : Kind) (n n' : ℕ) (hn : validSize k n) (hn' : validSize k' n') (h927 : k = .chebyshev → n ≤ 927) (h927' : k' = .chebyshev → n' ≤ 927) (xmin xmax ymin ymax : ℝ) (t : Bool)
local notation "gx" => grid k n xmin xmax
local notation "gy" => grid k' n' ymin ymax
include hn hn' h927 h927'

/-- **C110** (0-forms): the value of `H2(D1(H1(D0 x)))` at a vertex of a product grid is the value of the one-dimensional Laplacian of the row of `x` through that vertex plus that of the
one-dimensional Laplacian of the column through it: for all kinds and sizes, primal and dual. -/
theorem C110_lines_0 (x : List ℝ) (hx : (product gx gy).N 0 t = .ok x.length) :
    ∃ z, lap2 (product gx gy) t x = .ok z ∧ z.length = x.length ∧
      ∀ j < (gy).N 0 t, ∀ i < (gx).N 0 t, ∃ u v, (gx).laplacian t (line ((gx).N 0 t) x j) = .ok u ∧ (gy).laplacian t (column ((gx).N 0 t) ((gy).N 0 t) x i) = .ok v ∧
        z.getD (j * (gx).N 0 t + i) 0 = u.getD i 0 + v.getD j 0 :=
  lines_0 (grid_factor k n hn xmin xmax) (grid_factor k' n' hn' ymin ymax) (grid_stars k n hn h927 xmin xmax) (grid_stars k' n' hn' h927' ymin ymax) t x hx

/-- **C110** (1-forms): the two components of the Laplacian of a 1-form do not mix: on each edge in the first direction it is the Laplacian `D0(H1(D0(H1 ·)))` of the 1-forms of the first factor
along the row plus the Laplacian of the 0-forms of the second factor along the column, and likewise in the second direction. -/
theorem C110_lines_1 (x : List ℝ) (hx : (product gx gy).N 1 t = .ok x.length) :
    ∃ z, lapOne (product gx gy) t x = .ok z ∧ z.length = x.length ∧
      (∀ j < (gy).N 0 t, ∀ i < (gx).N 1 t, ∃ u v, lapEdge gx t (line ((gx).N 1 t) (x.take ((gy).N 0 t * (gx).N 1 t)) j) = .ok u ∧
        (gy).laplacian t (column ((gx).N 1 t) ((gy).N 0 t) (x.take ((gy).N 0 t * (gx).N 1 t)) i) = .ok v ∧
        (z.take ((gy).N 0 t * (gx).N 1 t)).getD (j * (gx).N 1 t + i) 0 = u.getD i 0 + v.getD j 0) ∧
      (∀ j < (gy).N 1 t, ∀ i < (gx).N 0 t, ∃ u v, (gx).laplacian t (line ((gx).N 0 t) (x.drop ((gy).N 0 t * (gx).N 1 t)) j) = .ok u ∧
        lapEdge gy t (column ((gx).N 0 t) ((gy).N 1 t) (x.drop ((gy).N 0 t * (gx).N 1 t)) i) = .ok v ∧
        (z.drop ((gy).N 0 t * (gx).N 1 t)).getD (j * (gx).N 0 t + i) 0 = u.getD i 0 + v.getD j 0) :=
  lines_1 (grid_factor k n hn xmin xmax) (grid_factor k' n' hn' ymin ymax) (grid_stars k n hn h927 xmin xmax) (grid_stars k' n' hn' h927' ymin ymax) t x hx

end

end Dec.Props
