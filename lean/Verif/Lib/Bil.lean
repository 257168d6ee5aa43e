import Verif.Lib.ELin
import Verif.Model.Grids

set_option linter.unusedSimpArgs false
set_option linter.unusedVariables false

/-! Bilinear operators that may raise, and the wedge product and contraction built from linear refinement tables. -/

namespace Dec

open Finset Real Dec.Sp

/-- `B` is bilinear on arrays of lengths `n` and `m`, with results of length `k`. -/
structure Bil (n m k : ℕ) (B : List ℝ → List ℝ → List ℝ) : Prop where
  left : ∀ b : List ℝ, b.length = m → Lin n k (fun a => B a b)
  right : ∀ a : List ℝ, a.length = n → Lin m k (fun b => B a b)

theorem Bil.comp {n m k n' m' k' : ℕ} {B : List ℝ → List ℝ → List ℝ} {F G H : List ℝ → List ℝ} (hB : Bil n m k B) (hF : Lin n' n F) (hG : Lin m' m G)
    (hH : Lin k k' H) : Bil n' m' k' (fun a b => H (B (F a) (G b))) where
  left b hb := hH.comp ((hB.left _ (hG.len b hb)).comp hF)
  right a ha := hH.comp ((hB.right _ (hF.len a ha)).comp hG)

theorem vmul_comm' (x y : List ℝ) : vmul x y = vmul y x := by
  unfold vmul; rw [List.zipWith_comm]; congr 1; funext a b; ring

theorem bil_vmul (n : ℕ) : Bil n n n vmul where
  left b hb := lin_vmul_real b hb
  right a ha := (lin_vmul_real a ha).congr fun b _ => vmul_comm' a b

/-- `F` returns on all pairs of arrays of lengths `n` and `m`, with a bilinear result of length `k`. -/
def EBil (n m k : ℕ) (F : List ℝ → List ℝ → Except Err (List ℝ)) : Prop :=
  ∃ B : List ℝ → List ℝ → List ℝ, Bil n m k B ∧ ∀ a b : List ℝ, a.length = n → b.length = m → F a b = .ok (B a b)

theorem bop_mul {n : ℕ} {op : ℝ → ℝ → ℝ} (hop : ∀ x y, op x y = x * y) {a b : List ℝ} (ha : a.length = n) (hb : b.length = n) : bop op a b = .ok (vmul a b) := by
  unfold bop; rw [if_pos (by rw [ha, hb])]
  have : op = (· * ·) := by funext x y; exact hop x y
  rw [this]; rfl

/-- Tables of refinements to `M` points and back. -/
structure Refining (N : Fin 2 → Bool → ℕ) (M : ℕ) (T U : Table) : Prop where
  T : ∀ d t, ELin (N d t) M (T d t)
  U : ∀ d t, ELin M (N d t) (U d t)

theorem sym_wedge {k l : Fin 2} (hkl : k.val + l.val ≤ 1) :
    ∃ w : List ℝ → List ℝ → List ℝ, Sym.wedge_1d k.val l.val = some w ∧ ∀ x y : ℝ, (w [x] [y]).getD 0 0 = x * y := by
  obtain rfl | rfl : k = 0 ∨ k = 1 := by omega
  all_goals obtain rfl | rfl : l = 0 ∨ l = 1 := by omega
  all_goals simp [Sym.wedge_1d, Sym.antisymmetrize, Sym.wedge_1d_base] at hkl ⊢
  intro x y; ring

theorem Refining.wedge {N : Fin 2 → Bool → ℕ} {M : ℕ} {T U : Table} (h : Refining N M T U) (k l : Fin 2) (hkl : k.val + l.val ≤ 1) (s t u : Bool) :
    ∃ B : List ℝ → List ℝ → List ℝ, Bil (N k s) (N l t) (N (Fin.ofNat 2 (k.val + l.val)) u) B ∧
      (∀ a b : List ℝ, a.length = N k s → b.length = N l t → wedge1 T U k s l t u a b = .ok (B a b)) ∧
      (∀ a b : List ℝ, a.length = N k s → b.length = N l t → wedge1 T U l t k s u b a = .ok (B a b)) := by
  by_cases hc : s = t ∧ t = u ∧ k = 0 ∧ l = 0
  · obtain ⟨rfl, rfl, rfl, rfl⟩ := hc
    refine ⟨vmul, bil_vmul _, fun a b ha hb => ?_, fun a b ha hb => ?_⟩
    · unfold wedge1; rw [if_neg (by decide), if_pos (by simp)]
      exact bop_mul (fun _ _ => rfl) ha hb
    · unfold wedge1; rw [if_neg (by decide), if_pos (by simp), vmul_comm']
      exact bop_mul (fun _ _ => rfl) hb ha
  · obtain ⟨F, hF, eF⟩ := h.T k s
    obtain ⟨G, hG, eG⟩ := h.T l t
    obtain ⟨H, hH, eH⟩ := h.U (Fin.ofNat 2 (k.val + l.val)) u
    refine ⟨fun a b => H (vmul (F a) (G b)), (bil_vmul M).comp hF hG hH, fun a b ha hb => ?_, fun a b ha hb => ?_⟩
    · obtain ⟨w, hw1, hw2⟩ := sym_wedge hkl
      unfold wedge1
      rw [if_neg (by omega), if_neg hc, eF a ha, eG b hb]
      simp only [bind, Except.bind, hw1]
      rw [bop_mul hw2 (hF.len a ha) (hG.len b hb)]
      exact eH _ (by simp [hF.len a ha, hG.len b hb])
    · obtain ⟨w, hw1, hw2⟩ := sym_wedge (k := l) (l := k) (by omega)
      have hc' : ¬ (t = s ∧ s = u ∧ l = 0 ∧ k = 0) := by
        rintro ⟨rfl, rfl, rfl, rfl⟩; exact hc ⟨rfl, rfl, rfl, rfl⟩
      unfold wedge1
      rw [if_neg (by omega), if_neg hc', eF a ha, eG b hb]
      simp only [bind, Except.bind, hw1]
      rw [bop_mul hw2 (hG.len b hb) (hF.len a ha), vmul_comm' (G b) (F a)]
      rw [show l.val + k.val = k.val + l.val from Nat.add_comm _ _]
      exact eH _ (by simp [hF.len a ha, hG.len b hb])

theorem Refining.contraction {N : Fin 2 → Bool → ℕ} {M : ℕ} {T U : Table} (h : Refining N M T U) (s t u : Bool) :
    EBil (N 1 s) (N 1 t) (N 0 u) (contraction1 T U s 1 t u) := by
  obtain ⟨F, hF, eF⟩ := h.T 1 s
  obtain ⟨G, hG, eG⟩ := h.T 1 t
  obtain ⟨H, hH, eH⟩ := h.U 0 u
  refine ⟨fun a b => H (vmul (F a) (G b)), (bil_vmul M).comp hF hG hH, fun a b ha hb => ?_⟩
  unfold contraction1
  rw [if_neg (by decide), eF a ha, eG b hb]
  simp only [bind, Except.bind, Sym.contraction_1d]
  simp only [Option.getD_some, List.getD_cons_zero]
  rw [bop_mul (fun _ _ => rfl) (hF.len a ha) (hG.len b hb)]
  exact eH _ (by simp [hF.len a ha, hG.len b hb])

theorem Periodic.refining (n : ℕ) (a b : ℝ) : Refining (make n a b).N (2 * n) (make n a b).T (make n a b).U :=
  ⟨fun d t => elin_T n d t, fun d t => elin_U n d t⟩

theorem Chebyshev.refining {n : ℕ} (hn : 2 ≤ n) (h : n ≤ 927) (a b : ℝ) : Refining (make n a b).N (2 * n - 1) (make n a b).T (make n a b).U :=
  ⟨fun d t => elin_T hn d t (fun _ _ => h), fun d t => elin_U hn d t⟩

/-- The one-dimensional grids whose wedge product and contraction work: every periodic grid, and the Chebyshev grids whose
Hodge star on primal 1-forms is not rejected (C05). -/
def WedgeGrid (g : Grid1) : Prop :=
  (∃ n a b, g = Periodic.make n a b) ∨ (∃ n a b, 2 ≤ n ∧ n ≤ 927 ∧ g = Chebyshev.make n a b)

theorem WedgeGrid.refining {g : Grid1} (h : WedgeGrid g) :
    (∃ M, Refining g.N M g.T g.U ∧ (∀ pts, g.points = .ok pts → pts.length = M)) ∧ g.W = some (wedge1 g.T g.U) ∧ g.C = some (contraction1 g.T g.U) := by
  rcases h with ⟨n, a, b, rfl⟩ | ⟨n, a, b, h1, h2, rfl⟩
  · refine ⟨⟨2 * n, Periodic.refining n a b, fun pts hp => ?_⟩, rfl, rfl⟩
    unfold Grid1.points interweave at hp
    split_ifs at hp with h
    injection hp with hp
    have hv : ((Periodic.make n a b).cells.v true).length = n := by
      simp [Periodic.make, Periodic.cells, Periodic.verts, Periodic.pnts, linspace]
    have hw : ((Periodic.make n a b).cells.v false).length = n := by
      simp [Periodic.make, Periodic.cells, Periodic.verts_dual, Periodic.verts, Periodic.pnts, Periodic.delta, linspace, diff, vadd, smul]
    rw [← hp, weave_eq_tab (M := 2 * n) (by rw [hv]; omega) (by rw [hw]; omega), length_tab]
  · refine ⟨⟨2 * n - 1, Chebyshev.refining h1 h2 a b, fun pts hp => ?_⟩, rfl, rfl⟩
    unfold Grid1.points interweave at hp
    split_ifs at hp with h
    injection hp with hp
    have hl : (Chebyshev.pnts n a b).length = 2 * n - 1 := by simp [Chebyshev.pnts, linspace]
    have hv : ((Chebyshev.make n a b).cells.v true).length = n := by
      show (stride2 (Chebyshev.pnts n a b)).length = n
      rw [(lin_stride2 _).len _ hl]; omega
    have hw : ((Chebyshev.make n a b).cells.v false).length = n - 1 := by
      show (stride2' (Chebyshev.pnts n a b)).length = n - 1
      rw [(lin_stride2' _).len _ hl]; omega
    rw [← hp, weave_eq_tab (M := 2 * n - 1) (by rw [hv]; omega) (by rw [hw]; omega), length_tab]

end Dec
