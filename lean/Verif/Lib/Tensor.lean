import Verif.Spec
import Verif.Lib.Proj2

set_option linter.unusedSimpArgs false
set_option linter.unusedVariables false

/-! # Functions of two variables that are sums of products -/

namespace Dec

open Finset Real

/-- A linear space of continuous functions. -/
structure FnSpace (V : (ℝ → ℝ) → Prop) : Prop where
  zero : V fun _ => 0
  add : ∀ f g, V f → V g → V fun x => f x + g x
  smul : ∀ (c : ℝ) f, V f → V fun x => c * f x
  cont : ∀ f, V f → Continuous f

theorem FnSpace.sum {V : (ℝ → ℝ) → Prop} (h : FnSpace V) (m : ℕ) (f : ℕ → ℝ → ℝ) (hf : ∀ k < m, V (f k)) : V fun x => ∑ k ∈ range m, f k x := by
  induction m with
  | zero => simpa using h.zero
  | succ m ih =>
    have := h.add _ _ (ih fun k hk => hf k (by omega)) (hf m (by omega))
    simpa [sum_range_succ] using this

namespace Tensor

variable {V W : (ℝ → ℝ) → Prop} {f : ℝ → ℝ → ℝ}

theorem row (hV : FnSpace V) (h : Tensor V W f) (y : ℝ) : V fun x => f x y := by
  obtain ⟨m, a, b, hab, he⟩ := h
  have : (fun x => f x y) = fun x => ∑ k ∈ range m, b k y * a k x := by funext x; rw [he]; exact sum_congr rfl fun k _ => mul_comm _ _
  rw [this]
  exact hV.sum m (fun k x => b k y * a k x) fun k hk => hV.smul _ _ (hab k hk).1

theorem swap (h : Tensor V W f) : Tensor W V fun y x => f x y := by
  obtain ⟨m, a, b, hab, he⟩ := h
  exact ⟨m, b, a, fun k hk => ⟨(hab k hk).2, (hab k hk).1⟩, fun y x => by beta_reduce; rw [he]; exact sum_congr rfl fun k _ => mul_comm _ _⟩

theorem col (hW : FnSpace W) (h : Tensor V W f) (x : ℝ) : W fun y => f x y := h.swap.row hW x

theorem integral_eq {m : ℕ} {a : ℕ → ℝ → ℝ} (ha : ∀ k < m, Continuous (a k)) (c : ℕ → ℝ) (u v : ℝ) :
    ∫ x in u..v, ∑ k ∈ range m, a k x * c k = ∑ k ∈ range m, (∫ x in u..v, a k x) * c k := by
  rw [intervalIntegral.integral_finset_sum]
  · exact sum_congr rfl fun k _ => intervalIntegral.integral_mul_const _ _
  · intro k hk
    exact ((ha k (mem_range.1 hk)).mul continuous_const).intervalIntegrable _ _

theorem intx (hV : FnSpace V) (hW : FnSpace W) (h : Tensor V W f) (u v : ℝ) : W fun y => ∫ x in u..v, f x y := by
  obtain ⟨m, a, b, hab, he⟩ := h
  have : (fun y => ∫ x in u..v, f x y) = fun y => ∑ k ∈ range m, (∫ x in u..v, a k x) * b k y := by
    funext y
    simp only [he]
    exact integral_eq (fun k hk => hV.cont _ (hab k hk).1) (fun k => b k y) u v
  rw [this]
  exact hW.sum m (fun k y => (∫ x in u..v, a k x) * b k y) fun k hk => hW.smul _ _ (hab k hk).2

theorem inty (hV : FnSpace V) (hW : FnSpace W) (h : Tensor V W f) (u v : ℝ) : V fun x => ∫ y in u..v, f x y := h.swap.intx hW hV u v

theorem fubini (hV : FnSpace V) (hW : FnSpace W) (h : Tensor V W f) (u v u' v' : ℝ) :
    ∫ y in u'..v', ∫ x in u..v, f x y = ∫ x in u..v, ∫ y in u'..v', f x y := by
  obtain ⟨m, a, b, hab, he⟩ := h
  simp only [he]
  have h1 : ∀ y, ∫ x in u..v, ∑ k ∈ range m, a k x * b k y = ∑ k ∈ range m, b k y * ∫ x in u..v, a k x := fun y => by
    rw [integral_eq (fun k hk => hV.cont _ (hab k hk).1) (fun k => b k y) u v]; exact sum_congr rfl fun k _ => mul_comm _ _
  have h2 : ∀ x, ∫ y in u'..v', ∑ k ∈ range m, a k x * b k y = ∑ k ∈ range m, a k x * ∫ y in u'..v', b k y := fun x => by
    have := integral_eq (fun k hk => hW.cont _ (hab k hk).2) (fun k => a k x) u' v'
    simp only [mul_comm] at this ⊢
    exact this
  simp only [h1, h2]
  rw [integral_eq (fun k hk => hW.cont _ (hab k hk).2) _ u' v', integral_eq (fun k hk => hV.cont _ (hab k hk).1) _ u v]
  exact sum_congr rfl fun k _ => mul_comm _ _

theorem neg (hV : FnSpace V) (h : Tensor V W f) : Tensor V W fun x y => -f x y := by
  obtain ⟨m, a, b, hab, he⟩ := h
  exact ⟨m, fun k x => -1 * a k x, b, fun k hk => ⟨hV.smul _ _ (hab k hk).1, (hab k hk).2⟩, fun x y => by simp [he]⟩

theorem single {a b : ℝ → ℝ} (ha : V a) (hb : W b) : Tensor V W fun x y => a x * b y :=
  ⟨1, fun _ => a, fun _ => b, fun _ _ => ⟨ha, hb⟩, fun x y => by simp⟩

theorem add {g : ℝ → ℝ → ℝ} (h : Tensor V W f) (h' : Tensor V W g) : Tensor V W fun x y => f x y + g x y := by
  obtain ⟨m, a, b, hab, he⟩ := h
  obtain ⟨m', a', b', hab', he'⟩ := h'
  refine ⟨m + m', fun k => if k < m then a k else a' (k - m), fun k => if k < m then b k else b' (k - m), fun k hk => ?_, fun x y => ?_⟩
  · by_cases hkm : k < m
    · simpa only [if_pos hkm] using hab k hkm
    · simpa only [if_neg hkm] using hab' (k - m) (by omega)
  · beta_reduce
    rw [sum_range_add, he, he']
    congr 1
    · exact sum_congr rfl fun k hk => by rw [if_pos (mem_range.1 hk), if_pos (mem_range.1 hk)]
    · exact sum_congr rfl fun k hk => by rw [if_neg (by omega), if_neg (by omega), Nat.add_sub_cancel_left]

theorem mono {V' W' : (ℝ → ℝ) → Prop} (hV : ∀ f, V f → V' f) (hW : ∀ f, W f → W' f) (h : Tensor V W f) : Tensor V' W' f := by
  obtain ⟨m, a, b, hab, he⟩ := h
  exact ⟨m, a, b, fun k hk => ⟨hV _ (hab k hk).1, hW _ (hab k hk).2⟩, he⟩

theorem sum {g : ℕ → ℝ → ℝ → ℝ} {m : ℕ} (h : ∀ k < m, Tensor V W (g k)) : Tensor V W fun x y => ∑ k ∈ range m, g k x y := by
  induction m with
  | zero => exact ⟨0, fun _ => 0, fun _ => 0, fun k hk => by omega, fun x y => by simp⟩
  | succ m ih => simpa only [sum_range_succ] using (ih fun k hk => h k (by omega)).add (h m (by omega))

theorem mul {V' W' V'' W'' : (ℝ → ℝ) → Prop} {g : ℝ → ℝ → ℝ}
    (hV : ∀ a a', V a → V' a' → V'' fun x => a x * a' x) (hW : ∀ a a', W a → W' a' → W'' fun x => a x * a' x)
    (h : Tensor V W f) (h' : Tensor V' W' g) : Tensor V'' W'' fun x y => f x y * g x y := by
  obtain ⟨m, a, b, hab, he⟩ := h
  obtain ⟨m', a', b', hab', he'⟩ := h'
  have : (fun x y => f x y * g x y) = fun x y => ∑ k ∈ range m, ∑ l ∈ range m', (a k x * a' l x) * (b k y * b' l y) := by
    funext x y
    rw [he, he', sum_mul_sum]
    exact sum_congr rfl fun k _ => sum_congr rfl fun l _ => by ring
  rw [this]
  exact Tensor.sum (g := fun k x y => ∑ l ∈ range m', (a k x * a' l x) * (b k y * b' l y)) fun k hk =>
    Tensor.sum (g := fun l x y => (a k x * a' l x) * (b k y * b' l y)) fun l hl =>
      single (hV _ _ (hab k hk).1 (hab' l hl).1) (hW _ _ (hab k hk).2 (hab' l hl).2)

end Tensor

namespace G2

theorem P0_tab {g : Grid1} (h : Factor g) (t : Bool) (f : ℝ → ℝ) : g.P 0 t f = tab (g.N 0 t) fun i => f (vx g t i) := by
  simp only [Grid1.P, Dec.P]; rw [h.v_tab, map_tab]

theorem P1_tab {g : Grid1} (h : Factor g) (t : Bool) (f : ℝ → ℝ) : g.P 1 t f = tab (g.N 1 t) fun i => ∫ x in (lo g t i)..(hi g t i), f x := by
  simp only [Grid1.P, Dec.P, slow_integration]; rw [h.e1_tab, h.e2_tab, zipWith_tab]

/-- The star of a factor is exact on the functions of `V d t`. -/
structure StarExact (g : Grid1) (V : Fin 2 → Bool → (ℝ → ℝ) → Prop) : Prop where
  space : ∀ d t, FnSpace (V d t)
  exact : ∀ d t f, V d t f → g.H d t (g.P d t f) = .ok (g.P (1 - d) (!t) f)

variable {gx gy : Grid1} {V W : Fin 2 → Bool → (ℝ → ℝ) → Prop}

theorem StarExact.exact0 {g : Grid1} {V : Fin 2 → Bool → (ℝ → ℝ) → Prop} (s : StarExact g V) (h : Factor g) (t : Bool) {f : ℝ → ℝ} (hf : V 0 t f) :
    g.H 0 t (tab (g.N 0 t) fun i => f (vx g t i)) = .ok (tab (g.N 1 (!t)) fun i => ∫ x in (lo g (!t) i)..(hi g (!t) i), f x) := by
  have := s.exact 0 t f hf
  rw [P0_tab h, show (1 - 0 : Fin 2) = 1 from rfl, P1_tab h] at this
  exact this

theorem StarExact.exact1 {g : Grid1} {V : Fin 2 → Bool → (ℝ → ℝ) → Prop} (s : StarExact g V) (h : Factor g) (t : Bool) {f : ℝ → ℝ} (hf : V 1 t f) :
    g.H 1 t (tab (g.N 1 t) fun i => ∫ x in (lo g t i)..(hi g t i), f x) = .ok (tab (g.N 0 (!t)) fun i => f (vx g (!t) i)) := by
  have := s.exact 1 t f hf
  rw [P1_tab h, show (1 - 1 : Fin 2) = 0 from rfl, P0_tab h] at this
  exact this

theorem star0_exact (hx : Factor gx) (hy : Factor gy) (sx : StarExact gx V) (sy : StarExact gy W) (t : Bool) {f : ℝ → ℝ → ℝ} (hf : Tensor (V 0 t) (W 0 t) f) :
    ∃ a b, (product gx gy).P 0 t [f] = .ok a ∧ (product gx gy).H 0 t a = .ok b ∧ (product gx gy).P 2 (!t) [f] = .ok b := by
  refine ⟨_, _, P0_mtab hx hy t f, H0_mtab (m := gy.N 1 (!t)) (m' := gx.N 1 (!t)) (F := fun j i => f (vx gx t i) (vx gy t j))
    (G := fun j i => ∫ y in (lo gy (!t) j)..(hi gy (!t) j), f (vx gx t i) y)
    (K := fun j i => Integrate.P2r f (lo gx (!t) i) (lo gy (!t) j) (hi gx (!t) i) (hi gy (!t) j)) hx hy t (hy.pos 1 (!t)) (fun i hi => ?_) (fun j hj => ?_), P2_mtab hx hy (!t) f⟩
  · exact sy.exact0 hy t (hf.col (sy.space 0 t) _)
  · exact sx.exact0 hx t (hf.inty (sx.space 0 t) (sy.space 0 t) _ _)

theorem star2_exact (hx : Factor gx) (hy : Factor gy) (sx : StarExact gx V) (sy : StarExact gy W) (t : Bool) {f : ℝ → ℝ → ℝ} (hf : Tensor (V 1 t) (W 1 t) f) :
    ∃ a b, (product gx gy).P 2 t [f] = .ok a ∧ (product gx gy).H 2 t a = .ok b ∧ (product gx gy).P 0 (!t) [f] = .ok b := by
  refine ⟨_, _, P2_mtab hx hy t f, H2_mtab (m := gy.N 0 (!t)) (m' := gx.N 0 (!t))
    (F := fun j i => Integrate.P2r f (lo gx t i) (lo gy t j) (hi gx t i) (hi gy t j))
    (G := fun j i => ∫ x in (lo gx t i)..(hi gx t i), f x (vx gy (!t) j))
    (K := fun j i => f (vx gx (!t) i) (vx gy (!t) j)) hx hy t (hy.pos 0 (!t)) (fun i hi => ?_) (fun j hj => ?_), P0_mtab hx hy (!t) f⟩
  · simp only [Integrate.P2r]
    simp only [← hf.fubini (sx.space 1 t) (sy.space 1 t)]
    exact sy.exact1 hy t (hf.intx (sx.space 1 t) (sy.space 1 t) _ _)
  · exact sx.exact1 hx t (hf.row (sx.space 1 t) _)

theorem star1_exact (hx : Factor gx) (hy : Factor gy) (sx : StarExact gx V) (sy : StarExact gy W) (t : Bool) {f g : ℝ → ℝ → ℝ}
    (hf : Tensor (V 1 t) (W 0 t) f) (hg : Tensor (V 0 t) (W 1 t) g) :
    ∃ a b, (product gx gy).P 1 t [f, g] = .ok a ∧ (product gx gy).H 1 t a = .ok b ∧ (product gx gy).P 1 (!t) [fun x y => -g x y, f] = .ok b := by
  refine ⟨_, _, P1_mtab hx hy t f g, H1_mtab (m := gy.N 0 (!t)) (m' := gx.N 1 (!t)) (p := gy.N 1 (!t)) (p' := gx.N 0 (!t))
    (F := fun j i => Integrate.P1x f (lo gx t i) (hi gx t i) (vx gy t j)) (G := fun j i => Integrate.P1y g (vx gx t i) (lo gy t j) (hi gy t j))
    (G' := fun j i => g (vx gx t i) (vx gy (!t) j)) (G'' := fun j i => ∫ x in (lo gx (!t) i)..(hi gx (!t) i), g x (vx gy (!t) j))
    (F' := fun j i => f (vx gx (!t) i) (vx gy t j)) (F'' := fun j i => ∫ y in (lo gy (!t) j)..(hi gy (!t) j), f (vx gx (!t) i) y)
    hx hy t (hy.pos 0 (!t)) (hx.pos 0 (!t)) (fun i hi => ?_) (fun j hj => ?_) (fun j hj => ?_) (fun i hi => ?_), ?_⟩
  · exact sy.exact1 hy t (hg.col (sy.space 1 t) _)
  · exact sx.exact0 hx t (hg.row (sx.space 0 t) _)
  · exact sx.exact1 hx t (hf.row (sx.space 1 t) _)
  · exact sy.exact0 hy t (hf.col (sy.space 0 t) _)
  · rw [P1_mtab hx hy]
    simp only [Integrate.P1x, Integrate.P1y, intervalIntegral.integral_neg]

end G2

end Dec
