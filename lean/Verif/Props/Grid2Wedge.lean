import Verif.Lib.Wedge2
import Verif.Props.Grid2
import Verif.Props.Wedge

set_option linter.unusedSimpArgs false
set_option linter.unusedVariables false

/-! # C20 and C24 in two dimensions, C29, C54: refinement, wedge product, contraction and lengths on product grids -/

namespace Dec.Props

open Finset Real Dec.G2

/-- The one-dimensional grids with a refinement: periodic grids, and Chebyshev grids with 2 to 927 vertices. -/
def Refinable (k : Kind) (n : ℕ) : Prop := validSize k n ∧ k ≠ .regular ∧ (k = .chebyshev → n ≤ 927)

theorem grid_refined {k : Kind} {n : ℕ} (h : Refinable k n) (a b : ℝ) : ∃ M, Refined (grid k n a b) M := by
  obtain ⟨h1, h2, h3⟩ := h
  cases k
  · have h1 : 1 ≤ n := h1
    exact ⟨2 * n, { Periodic.refining n a b with pos := by omega, inv := fun d t x _ => C18_periodic_unrefine_refine n a b d t x }⟩
  · exact absurd rfl h2
  · have h1 : 2 ≤ n := h1
    exact ⟨2 * n - 1, { Chebyshev.refining h1 (h3 rfl) a b with
      pos := by omega, inv := fun d t x hx => C18_chebyshev_unrefine_refine n h1 a b d t (fun _ _ => h3 rfl) x hx }⟩

theorem length_of_N {gx gy : Grid1} (hx : Factor gx) (hy : Factor gy) {d : Fin 3} {t : Bool} {l : ℕ} : (product gx gy).N d t = .ok l ↔ l = count gx gy d t := by
  rw [N_eq hx hy]
  exact ⟨fun h => (ok_inj h).symm, fun h => by rw [h]⟩

/-! ## C54 -/

section
variable {n m n' m' : ℕ} {hx hx' hy hy' : List ℝ → Except Err (List ℝ)} {A A' B B' : ℕ → ℕ → ℝ}

theorem cols_rows_inv' (hA : HasMat n m hx A) (hA' : HasMat m n hx' A') (hB : HasMat n' m' hy B) (hB' : HasMat m' n' hy' B')
    (iA : ∀ a : List ℝ, a.length = n → (hx a >>= hx') = .ok a) (iB : ∀ a : List ℝ, a.length = n' → (hy a >>= hy') = .ok a)
    (F : ℕ → ℕ → ℝ) {j i : ℕ} (hj : j < n') (hi : i < n) :
    ∑ q ∈ range m', B' j q * ∑ p ∈ range m, A' i p * ∑ s ∈ range n', B q s * ∑ r ∈ range n, A p r * F s r = F j i := by
  rw [mat_comm A' B' (fun q p => ∑ s ∈ range n', B q s * ∑ r ∈ range n, A p r * F s r)]
  exact rows_cols_inv' hA hA' hB hB' iA iB F hj hi
end

theorem U_T {gx gy : Grid1} {mx my : ℕ} (hx : Factor gx) (hy : Factor gy) (rx : Refined gx mx) (ry : Refined gy my) (d : Fin 3) (t : Bool) (f : List ℝ)
    (hf : f.length = count gx gy d t) : ((product gx gy).T d t f >>= (product gx gy).U d t) = .ok f := by
  choose A hA using fun d t => (rx.T d t).exists_mat
  choose B hB using fun d t => (ry.T d t).exists_mat
  choose A' hA' using fun d t => (rx.U d t).exists_mat
  choose B' hB' using fun d t => (ry.U d t).exists_mat
  obtain rfl | rfl | rfl : d = 0 ∨ d = 1 ∨ d = 2 := by omega
  · obtain ⟨F, rfl⟩ := flat0 (f := f) (r := gy.N 0 t) (c := gx.N 0 t) hf
    rw [T0_mtab hx hy t rx.pos (fun j _ => hA 0 t _) (fun i _ => hB 0 t _)]
    simp only [Bind.bind, Except.bind]
    rw [U0_mtab t ry.pos (hx.pos 0 t) (fun j _ => hA' 0 t _) (fun i _ => hB' 0 t _)]
    exact congrArg _ (congrArg Arr.data (mtab_congr fun j hj i hi => cols_rows_inv' (hA 0 t) (hA' 0 t) (hB 0 t) (hB' 0 t) (rx.inv 0 t) (ry.inv 0 t) F hj hi))
  · obtain ⟨F, G, rfl⟩ := flat1 (f := f) (r := gy.N 0 t) (c := gx.N 1 t) (r' := gy.N 1 t) (c' := gx.N 0 t) hf
    rw [T1_mtab hx hy t rx.pos rx.pos (fun j _ => hA 1 t _) (fun i _ => hB 0 t _) (fun j _ => hA 0 t _) (fun i _ => hB 1 t _)]
    simp only [Bind.bind, Except.bind]
    rw [U1_mtab t ry.pos ry.pos (hx.pos 1 t) (hx.pos 0 t) (fun j _ => hA' 1 t _) (fun i _ => hB' 0 t _) (fun j _ => hA' 0 t _) (fun i _ => hB' 1 t _)]
    exact congrArg _ (congrArg₂ (· ++ ·)
      (congrArg Arr.data (mtab_congr fun j hj i hi => cols_rows_inv' (hA 1 t) (hA' 1 t) (hB 0 t) (hB' 0 t) (rx.inv 1 t) (ry.inv 0 t) F hj hi))
      (congrArg Arr.data (mtab_congr fun j hj i hi => cols_rows_inv' (hA 0 t) (hA' 0 t) (hB 1 t) (hB' 1 t) (rx.inv 0 t) (ry.inv 1 t) G hj hi)))
  · obtain ⟨F, rfl⟩ := flat0 (f := f) (r := gy.N 1 t) (c := gx.N 1 t) hf
    rw [T2_mtab hx hy t rx.pos (fun j _ => hA 1 t _) (fun i _ => hB 1 t _)]
    simp only [Bind.bind, Except.bind]
    rw [U2_mtab t ry.pos (hx.pos 1 t) (fun j _ => hA' 1 t _) (fun i _ => hB' 1 t _)]
    exact congrArg _ (congrArg Arr.data (mtab_congr fun j hj i hi => cols_rows_inv' (hA 1 t) (hA' 1 t) (hB 1 t) (hB' 1 t) (rx.inv 1 t) (ry.inv 1 t) F hj hi))

section
variable (k k' : Kind) (n n' : ℕ) (hk : Refinable k n) (hk' : Refinable k' n') (a b a' b' : ℝ)
include hk hk'

/-- **C54**: unrefining a refined form gives the form back, in all degrees and dualities. -/
theorem C54_unrefine_refine (d : Fin 3) (t : Bool) (f : List ℝ) (hf : (product (grid k n a b) (grid k' n' a' b')).N d t = .ok f.length) :
    ((product (grid k n a b) (grid k' n' a' b')).T d t f >>= (product (grid k n a b) (grid k' n' a' b')).U d t) = .ok f := by
  obtain ⟨M, rx⟩ := grid_refined hk a b
  obtain ⟨M', ry⟩ := grid_refined hk' a' b'
  have hx := grid_factor k n hk.1 a b
  have hy := grid_factor k' n' hk'.1 a' b'
  exact U_T hx hy rx ry d t f ((length_of_N hx hy).mp hf)

/-! ## C20 in two dimensions -/

/-- **C20** in two dimensions: `a ∧ b = (-1)^(k l) b ∧ a`. -/
theorem C20_2d_graded_commutative (d0 d1 : Fin 3) (hd : d0.val + d1.val ≤ 2) (s t u : Bool) (f g : List ℝ)
    (hf : (product (grid k n a b) (grid k' n' a' b')).N d0 s = .ok f.length) (hg : (product (grid k n a b) (grid k' n' a' b')).N d1 t = .ok g.length) :
    ∃ v w, (product (grid k n a b) (grid k' n' a' b')).wedge d0 s d1 t u f g = .ok v ∧
      (product (grid k n a b) (grid k' n' a' b')).wedge d1 t d0 s u g f = .ok w ∧ v = smul ((-1) ^ (d0.val * d1.val)) w := by
  obtain ⟨M, rx⟩ := grid_refined hk a b
  obtain ⟨M', ry⟩ := grid_refined hk' a' b'
  have hx := grid_factor k n hk.1 a b
  have hy := grid_factor k' n' hk'.1 a' b'
  obtain ⟨B, hB, e1, e2⟩ := wedge_form hx hy rx ry d0 d1 hd s t u
  rw [length_of_N hx hy] at hf hg
  refine ⟨_, _, e1 f g hf hg, e2 f g hf hg, ?_⟩
  rw [smul_eq_map, List.map_map]
  conv_lhs => rw [← List.map_id (B f g)]
  refine List.map_congr_left fun z _ => ?_
  simp only [id, Function.comp, smul_eq_mul, ← mul_assoc, ← pow_add, ← two_mul]
  rw [pow_mul]; norm_num

/-- Products of too high degree are missing from the table. -/
theorem C20_2d_key_error (d0 d1 : Fin 3) (hd : 2 < d0.val + d1.val) (s t u : Bool) (f g : List ℝ) :
    (product (grid k n a b) (grid k' n' a' b')).wedge d0 s d1 t u f g = .error .keyError := by
  unfold Grid2.wedge; rw [if_pos (by omega)]

/-- **C20** in two dimensions: linearity in the first argument. -/
theorem C20_2d_bilinear_left (d0 d1 : Fin 3) (hd : d0.val + d1.val ≤ 2) (s t u : Bool) (r : ℝ) (f f' g : List ℝ)
    (hf : (product (grid k n a b) (grid k' n' a' b')).N d0 s = .ok f.length) (hf' : f'.length = f.length)
    (hg : (product (grid k n a b) (grid k' n' a' b')).N d1 t = .ok g.length) :
    ∃ v v', (product (grid k n a b) (grid k' n' a' b')).wedge d0 s d1 t u f g = .ok v ∧ (product (grid k n a b) (grid k' n' a' b')).wedge d0 s d1 t u f' g = .ok v' ∧
      (product (grid k n a b) (grid k' n' a' b')).wedge d0 s d1 t u (vadd (smul r f) f') g = .ok (vadd (smul r v) v') := by
  obtain ⟨M, rx⟩ := grid_refined hk a b
  obtain ⟨M', ry⟩ := grid_refined hk' a' b'
  have hx := grid_factor k n hk.1 a b
  have hy := grid_factor k' n' hk'.1 a' b'
  obtain ⟨B, hB, e1, e2⟩ := wedge_form hx hy rx ry d0 d1 hd s t u
  rw [length_of_N hx hy] at hf hg
  rw [hf] at hf'
  have hr : (smul r f).length = count (grid k n a b) (grid k' n' a' b') d0 s := by simp [smul, hf]
  refine ⟨_, _, e1 f g hf hg, e1 f' g hf' hg, ?_⟩
  rw [e1 _ g (by simp [hr, hf']) hg, (hB.left g hg).add _ _ hr hf', smul_eq_map, (hB.left g hg).smul r f hf]; rfl

/-- **C20** in two dimensions: linearity in the second argument. -/
theorem C20_2d_bilinear_right (d0 d1 : Fin 3) (hd : d0.val + d1.val ≤ 2) (s t u : Bool) (r : ℝ) (f g g' : List ℝ)
    (hf : (product (grid k n a b) (grid k' n' a' b')).N d0 s = .ok f.length)
    (hg : (product (grid k n a b) (grid k' n' a' b')).N d1 t = .ok g.length) (hg' : g'.length = g.length) :
    ∃ v v', (product (grid k n a b) (grid k' n' a' b')).wedge d0 s d1 t u f g = .ok v ∧ (product (grid k n a b) (grid k' n' a' b')).wedge d0 s d1 t u f g' = .ok v' ∧
      (product (grid k n a b) (grid k' n' a' b')).wedge d0 s d1 t u f (vadd (smul r g) g') = .ok (vadd (smul r v) v') := by
  obtain ⟨M, rx⟩ := grid_refined hk a b
  obtain ⟨M', ry⟩ := grid_refined hk' a' b'
  have hx := grid_factor k n hk.1 a b
  have hy := grid_factor k' n' hk'.1 a' b'
  obtain ⟨B, hB, e1, e2⟩ := wedge_form hx hy rx ry d0 d1 hd s t u
  rw [length_of_N hx hy] at hf hg
  rw [hg] at hg'
  have hr : (smul r g).length = count (grid k n a b) (grid k' n' a' b') d1 t := by simp [smul, hg]
  refine ⟨_, _, e1 f g hf hg, e1 f g' hf hg', ?_⟩
  rw [e1 f _ hf (by simp [hr, hg']), (hB.right f hf).add _ _ hr hg', smul_eq_map, (hB.right f hf).smul r g hg]; rfl

/-- **C24** in two dimensions: contraction is linear in both arguments. -/
theorem C24_2d_bilinear (d : Fin 3) (hd : d ≠ 0) (s t u : Bool) (r : ℝ) (X X' f f' : List ℝ)
    (hX : (product (grid k n a b) (grid k' n' a' b')).N 1 s = .ok X.length) (hX' : X'.length = X.length)
    (hf : (product (grid k n a b) (grid k' n' a' b')).N d t = .ok f.length) (hf' : f'.length = f.length) :
    ∃ c₁ c₂ c₃, (product (grid k n a b) (grid k' n' a' b')).contraction s d t u X f = .ok c₁ ∧
      (product (grid k n a b) (grid k' n' a' b')).contraction s d t u X' f = .ok c₂ ∧ (product (grid k n a b) (grid k' n' a' b')).contraction s d t u X f' = .ok c₃ ∧
      (product (grid k n a b) (grid k' n' a' b')).contraction s d t u (vadd (smul r X) X') f = .ok (vadd (smul r c₁) c₂) ∧
      (product (grid k n a b) (grid k' n' a' b')).contraction s d t u X (vadd (smul r f) f') = .ok (vadd (smul r c₁) c₃) := by
  obtain ⟨M, rx⟩ := grid_refined hk a b
  obtain ⟨M', ry⟩ := grid_refined hk' a' b'
  have hx := grid_factor k n hk.1 a b
  have hy := grid_factor k' n' hk'.1 a' b'
  obtain ⟨B, hB, e⟩ := contraction_form hx hy rx ry d hd s t u
  rw [length_of_N hx hy] at hX hf
  rw [hX] at hX'
  rw [hf] at hf'
  have hr : (smul r X).length = count (grid k n a b) (grid k' n' a' b') 1 s := by simp [smul, hX]
  have hr' : (smul r f).length = count (grid k n a b) (grid k' n' a' b') d t := by simp [smul, hf]
  refine ⟨_, _, _, e _ _ hX hf, e _ _ hX' hf, e _ _ hX hf', ?_, ?_⟩
  · rw [e _ _ (by simp [hr, hX']) hf, (hB.left f hf).add _ _ hr hX', smul_eq_map, (hB.left f hf).smul r X hX]; rfl
  · rw [e _ _ hX (by simp [hr', hf']), (hB.right X hX).add _ _ hr' hf', smul_eq_map, (hB.right X hX).smul r f hf]; rfl

/-! ## C29 -/

/-- **C29**, products: the wedge product and the contraction have the length of the table. -/
theorem C29_products (d0 d1 : Fin 3) (s t u : Bool) (f g : List ℝ)
    (hf : (product (grid k n a b) (grid k' n' a' b')).N d0 s = .ok f.length) (hg : (product (grid k n a b) (grid k' n' a' b')).N d1 t = .ok g.length) :
    (∀ h : d0.val + d1.val ≤ 2, ∃ v, (product (grid k n a b) (grid k' n' a' b')).wedge d0 s d1 t u f g = .ok v ∧
      (product (grid k n a b) (grid k' n' a' b')).N ⟨d0.val + d1.val, by omega⟩ u = .ok v.length) ∧
    (d0 = 1 → ∀ h : d1 ≠ 0, ∃ v, (product (grid k n a b) (grid k' n' a' b')).contraction s d1 t u f g = .ok v ∧
      (product (grid k n a b) (grid k' n' a' b')).N ⟨d1.val - 1, by omega⟩ u = .ok v.length) := by
  obtain ⟨M, rx⟩ := grid_refined hk a b
  obtain ⟨M', ry⟩ := grid_refined hk' a' b'
  have hx := grid_factor k n hk.1 a b
  have hy := grid_factor k' n' hk'.1 a' b'
  rw [length_of_N hx hy] at hf hg
  refine ⟨fun h => ?_, fun h0 h => ?_⟩
  · obtain ⟨B, hB, e1, _⟩ := wedge_form hx hy rx ry d0 d1 h s t u
    refine ⟨_, e1 f g hf hg, ?_⟩
    rw [length_of_N hx hy, (hB.left g hg).len f hf]
    exact congrArg (fun d => count _ _ d u) (Fin.ext (deg2_val h))
  · subst h0
    obtain ⟨B, hB, e⟩ := contraction_form hx hy rx ry d1 h s t u
    refine ⟨_, e f g hf hg, ?_⟩
    rw [length_of_N hx hy, (hB.left g hg).len f hf]
    refine congrArg (fun d => count _ _ d u) ?_
    have hd' : d1 = 1 ∨ d1 = 2 := by omega
    rcases hd' with rfl | rfl <;> rfl
end

/-- A periodic grid with one vertex times a Chebyshev grid with three is refinable. -/
example : Refinable .periodic 1 ∧ Refinable .chebyshev 3 := by simp [Refinable, validSize]

end Dec.Props
