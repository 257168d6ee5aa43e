import Verif.Lib.Tensor
import Verif.Lib.Wedge2

set_option linter.unusedSimpArgs false
set_option linter.unusedVariables false

/-! # Sampling and exact products on product grids -/

namespace Dec.G2

open Finset Real

/-- The refinement of a factor samples the functions of `V d t` at `M` points `p`; unrefinement projects the functions of `Q d`. -/
structure RefExact (g : Grid1) (V : Fin 2 → Bool → (ℝ → ℝ) → Prop) (Q : Fin 2 → (ℝ → ℝ) → Prop) (M : ℕ) (p : ℕ → ℝ) : Prop where
  pos : 0 < M
  space : ∀ d t, FnSpace (V d t)
  spaceQ : ∀ d, FnSpace (Q d)
  sub : ∀ d t f, V d t f → Q d f
  points : g.points = .ok (tab M p)
  T : ∀ d t f, V d t f → g.T d t (g.P d t f) = .ok (tab M fun i => f (p i))
  U : ∀ d t f, Q d f → g.U d t (tab M fun i => f (p i)) = .ok (g.P d t f)

/-- The values of `f` at all points of a product, as an array. -/
def sample (M M' : ℕ) (p p' : ℕ → ℝ) (f : ℝ → ℝ → ℝ) : Arr ℝ := mtab M' M fun j i => f (p i) (p' j)

section
variable {g : Grid1} {V : Fin 2 → Bool → (ℝ → ℝ) → Prop} {Q : Fin 2 → (ℝ → ℝ) → Prop} {M : ℕ} {p : ℕ → ℝ} (h : RefExact g V Q M p) (hF : Factor g)
include h hF

theorem RefExact.T0 (t : Bool) {f : ℝ → ℝ} (hf : V 0 t f) : g.T 0 t (tab (g.N 0 t) fun i => f (vx g t i)) = .ok (tab M fun i => f (p i)) := by
  rw [← P0_tab hF]; exact h.T 0 t f hf
theorem RefExact.T1 (t : Bool) {f : ℝ → ℝ} (hf : V 1 t f) : g.T 1 t (tab (g.N 1 t) fun i => ∫ x in (lo g t i)..(hi g t i), f x) = .ok (tab M fun i => f (p i)) := by
  rw [← P1_tab hF]; exact h.T 1 t f hf
theorem RefExact.U0 (t : Bool) {f : ℝ → ℝ} (hf : Q 0 f) : g.U 0 t (tab M fun i => f (p i)) = .ok (tab (g.N 0 t) fun i => f (vx g t i)) := by
  rw [← P0_tab hF]; exact h.U 0 t f hf
theorem RefExact.U1 (t : Bool) {f : ℝ → ℝ} (hf : Q 1 f) : g.U 1 t (tab M fun i => f (p i)) = .ok (tab (g.N 1 t) fun i => ∫ x in (lo g t i)..(hi g t i), f x) := by
  rw [← P1_tab hF]; exact h.U 1 t f hf
end

variable {gx gy : Grid1} {V W : Fin 2 → Bool → (ℝ → ℝ) → Prop} {Q R : Fin 2 → (ℝ → ℝ) → Prop} {M M' : ℕ} {p p' : ℕ → ℝ}
  (hx : Factor gx) (hy : Factor gy) (rx : RefExact gx V Q M p) (ry : RefExact gy W R M' p')

theorem TensorForm.cases {V W : Fin 2 → (ℝ → ℝ) → Prop} {d : Fin 3} {σ : List (ℝ → ℝ → ℝ)} (h : TensorForm V W d σ) :
    (d = 0 ∧ ∃ f, σ = [f] ∧ Tensor (V 0) (W 0) f) ∨ (d = 1 ∧ ∃ f g, σ = [f, g] ∧ Tensor (V 1) (W 0) f ∧ Tensor (V 0) (W 1) g) ∨
    (d = 2 ∧ ∃ f, σ = [f] ∧ Tensor (V 1) (W 1) f) := by
  obtain rfl | rfl | rfl : d = 0 ∨ d = 1 ∨ d = 2 := by omega
  · match σ, h with
    | [f], h => exact .inl ⟨rfl, f, rfl, h⟩
  · match σ, h with
    | [f, g], h => exact .inr (.inl ⟨rfl, f, g, rfl, h⟩)
  · match σ, h with
    | [f], h => exact .inr (.inr ⟨rfl, f, rfl, h⟩)

theorem TensorForm.len {V W : Fin 2 → (ℝ → ℝ) → Prop} {d : Fin 3} {σ : List (ℝ → ℝ → ℝ)} (h : TensorForm V W d σ) : σ.length = Grid2.ncomp d.val := by
  rcases TensorForm.cases h with ⟨rfl, f, rfl, hf⟩ | ⟨rfl, f, g, rfl, hf, hg⟩ | ⟨rfl, f, rfl, hf⟩ <;> rfl

include hx hy rx ry

theorem points_mtab : (product gx gy).points = .ok (sample M M' p p' fun x _ => x, sample M M' p p' fun _ y => y) := by
  unfold Grid2.points
  rw [show (product gx gy).gx.points = .ok (tab M p) from rx.points, show (product gx gy).gy.points = .ok (tab M' p') from ry.points]
  simp only [Bind.bind, Except.bind]
  rw [meshgrid_tab]; rfl

theorem T_sample (d : Fin 3) (t : Bool) (σ : List (ℝ → ℝ → ℝ)) (hσ : TensorForm (V · t) (W · t) d σ) :
    ∃ a, (product gx gy).P d t σ = .ok a ∧ (product gx gy).T d t a = .ok (σ.map (sample M M' p p')) := by
  rcases TensorForm.cases hσ with ⟨rfl, f, rfl, hf⟩ | ⟨rfl, f, g, rfl, hf, hg⟩ | ⟨rfl, f, rfl, hf⟩
  · refine ⟨_, P0_mtab hx hy t f, T0_mtab (G := fun j i => f (p i) (vx gy t j)) (K := fun j i => f (p i) (p' j)) hx hy t rx.pos (fun j _ => ?_) (fun i _ => ?_)⟩
    · exact rx.T0 hx t (hf.row (rx.space 0 t) _)
    · exact ry.T0 hy t (hf.col (ry.space 0 t) _)
  · refine ⟨_, P1_mtab hx hy t f g, T1_mtab (F' := fun j i => f (p i) (vx gy t j)) (F'' := fun j i => f (p i) (p' j))
      (G' := fun j i => ∫ y in (lo gy t j)..(hi gy t j), g (p i) y) (G'' := fun j i => g (p i) (p' j)) hx hy t rx.pos rx.pos
      (fun j _ => ?_) (fun i _ => ?_) (fun j _ => ?_) (fun i _ => ?_)⟩
    · exact rx.T1 hx t (hf.row (rx.space 1 t) _)
    · exact ry.T0 hy t (hf.col (ry.space 0 t) _)
    · exact rx.T0 hx t (hg.inty (rx.space 0 t) (ry.space 1 t) _ _)
    · exact ry.T1 hy t (hg.col (ry.space 1 t) _)
  · refine ⟨_, P2_mtab hx hy t f, T2_mtab (G := fun j i => ∫ y in (lo gy t j)..(hi gy t j), f (p i) y) (K := fun j i => f (p i) (p' j))
      hx hy t rx.pos (fun j _ => ?_) (fun i _ => ?_)⟩
    · exact rx.T1 hx t (hf.inty (rx.space 1 t) (ry.space 1 t) _ _)
    · exact ry.T1 hy t (hf.col (ry.space 1 t) _)

theorem U_sample (d : Fin 3) (t : Bool) (σ : List (ℝ → ℝ → ℝ)) (hσ : TensorForm Q R d σ) :
    ∃ a, (product gx gy).P d t σ = .ok a ∧ (product gx gy).U d t (σ.map (sample M M' p p')) = .ok a := by
  rcases TensorForm.cases hσ with ⟨rfl, f, rfl, hf⟩ | ⟨rfl, f, g, rfl, hf, hg⟩ | ⟨rfl, f, rfl, hf⟩
  · refine ⟨_, P0_mtab hx hy t f, U0_mtab (F := fun j i => f (p i) (p' j)) (G := fun j i => f (vx gx t i) (p' j)) t ry.pos (hx.pos 0 t) (fun j _ => ?_) (fun i _ => ?_)⟩
    · exact rx.U0 hx t (hf.row (rx.spaceQ 0) _)
    · exact ry.U0 hy t (hf.col (ry.spaceQ 0) _)
  · refine ⟨_, P1_mtab hx hy t f g, U1_mtab (F := fun j i => f (p i) (p' j)) (G := fun j i => g (p i) (p' j))
      (F' := fun j i => ∫ x in (lo gx t i)..(hi gx t i), f x (p' j)) (G' := fun j i => g (vx gx t i) (p' j)) t ry.pos ry.pos (hx.pos 1 t) (hx.pos 0 t)
      (fun j _ => ?_) (fun i _ => ?_) (fun j _ => ?_) (fun i _ => ?_)⟩
    · exact rx.U1 hx t (hf.row (rx.spaceQ 1) _)
    · exact ry.U0 hy t (hf.intx (rx.spaceQ 1) (ry.spaceQ 0) _ _)
    · exact rx.U0 hx t (hg.row (rx.spaceQ 0) _)
    · exact ry.U1 hy t (hg.col (ry.spaceQ 1) _)
  · refine ⟨_, P2_mtab hx hy t f, U2_mtab (F := fun j i => f (p i) (p' j)) (G := fun j i => ∫ x in (lo gx t i)..(hi gx t i), f x (p' j)) t ry.pos (hx.pos 1 t)
      (fun j _ => ?_) (fun i _ => ?_)⟩
    · exact rx.U1 hx t (hf.row (rx.spaceQ 1) _)
    · simp only [Integrate.P2r]
      simp only [← hf.fubini (rx.spaceQ 1) (ry.spaceQ 1)]
      exact ry.U1 hy t (hf.intx (rx.spaceQ 1) (ry.spaceQ 1) _ _)

omit hx hy rx ry in
theorem map_sample (σ : List (ℝ → ℝ → ℝ)) : σ.map (sample M M' p p') = tab σ.length fun k => mtab M' M fun j i => σ.getD k 0 (p i) (p' j) := by
  refine List.ext_getElem (by simp [tab]) fun k h1 h2 => ?_
  simp only [List.length_map] at h1
  simp only [List.getElem_map, tab, List.getElem_range, sample]
  rw [List.getD_eq_getElem?_getD, List.getElem?_eq_getElem h1]; rfl

omit hx hy rx ry in
theorem TensorForm.cases' {V W : Fin 2 → (ℝ → ℝ) → Prop} {d : Fin 3} {σ : List (ℝ → ℝ → ℝ)} (h : TensorForm V W d σ) :
    (d = 0 ∧ ∃ f, σ = [f]) ∨ (d = 1 ∧ ∃ f g, σ = [f, g]) ∨ (d = 2 ∧ ∃ f, σ = [f]) := by
  rcases TensorForm.cases h with ⟨h, f, h', _⟩ | ⟨h, f, g, h', _⟩ | ⟨h, f, h', _⟩
  exacts [.inl ⟨h, f, h'⟩, .inr (.inl ⟨h, f, g, h'⟩), .inr (.inr ⟨h, f, h'⟩)]

theorem wedge_exact (d0 d1 : Fin 3) (hd : d0.val + d1.val ≤ 2) (s t u : Bool) (α β : List (ℝ → ℝ → ℝ))
    (hα : TensorForm (V · s) (W · s) d0 α) (hβ : TensorForm (V · t) (W · t) d1 β)
    (hp : ¬ (s = t ∧ t = u ∧ d0 = 0 ∧ d1 = 0) → TensorForm Q R (deg2 d0 d1) (wedgeForm d0 d1 α β)) :
    ∃ a b c, (product gx gy).P d0 s α = .ok a ∧ (product gx gy).P d1 t β = .ok b ∧ (product gx gy).wedge d0 s d1 t u a b = .ok c ∧
      (product gx gy).P (deg2 d0 d1) u (wedgeForm d0 d1 α β) = .ok c := by
  by_cases hc : s = t ∧ t = u ∧ d0 = 0 ∧ d1 = 0
  · obtain ⟨rfl, rfl, rfl, rfl⟩ := hc
    rcases TensorForm.cases hα with ⟨-, f, rfl, hf⟩ | ⟨h, _⟩ | ⟨h, _⟩
    rotate_left
    · cases h
    · cases h
    rcases TensorForm.cases hβ with ⟨-, g, rfl, hg⟩ | ⟨h, _⟩ | ⟨h, _⟩
    rotate_left
    · cases h
    · cases h
    refine ⟨_, _, _, P0_mtab hx hy s f, P0_mtab hx hy s g, ?_, P0_mtab hx hy s _⟩
    unfold Grid2.wedge
    rw [if_neg (by decide), if_pos (by simp), bop_mul (fun _ _ => rfl) (length_data _ _ _) (length_data _ _ _)]
    unfold mtab vmul; rw [zipWith_tab]
  · obtain ⟨a, ha, ha'⟩ := T_sample hx hy rx ry d0 s α hα
    obtain ⟨b, hb, hb'⟩ := T_sample hx hy rx ry d1 t β hβ
    obtain ⟨c, h, h'⟩ := U_sample hx hy rx ry (deg2 d0 d1) u _ (hp hc)
    refine ⟨a, b, c, ha, hb, ?_, h⟩
    obtain ⟨w, hw1, hw2⟩ := wedge_2d_comp hd
    unfold Grid2.wedge
    rw [if_neg (by omega), if_neg hc, ha', hb']
    simp only [bind, Except.bind, hw1]
    rw [map_sample, map_sample, TensorForm.len hα, TensorForm.len hβ]
    rw [entrywise_mtab (ncomp_pos _) w _ _ (fun k j i => om d0 d1 k (fun c => α.getD c 0 (p i) (p' j)) (fun c => β.getD c 0 (p i) (p' j))) fun k hk j i => hw2 _ _ k hk]
    rw [map_sample, TensorForm.len (hp hc), deg2_val hd] at h'
    rw [← h', show Fin.ofNat 3 (d0.val + d1.val) = deg2 d0 d1 from rfl]
    refine congrArg ((product gx gy).U (deg2 d0 d1) u) (tab_congr fun k hk => mtab_congr fun j _ i _ => ?_)
    rcases (TensorForm.cases' hα) with ⟨rfl, f, rfl⟩ | ⟨rfl, f, g, rfl⟩ | ⟨rfl, f, rfl⟩ <;>
    rcases (TensorForm.cases' hβ) with ⟨rfl, f', rfl⟩ | ⟨rfl, f', g', rfl⟩ | ⟨rfl, f', rfl⟩ <;>
    first
    | (exfalso; revert hd; decide)
    | (have hk2 : k = 0 ∨ k = 1 := by simp [Grid2.ncomp] at hk; omega
       rcases hk2 with rfl | rfl <;> simp [om, Grid2.ncomp, wedgeForm] at hk ⊢)

theorem contraction_exact (d : Fin 3) (hd : d ≠ 0) (s t u : Bool) (X β : List (ℝ → ℝ → ℝ))
    (hX : TensorForm (V · s) (W · s) 1 X) (hβ : TensorForm (V · t) (W · t) d β) (hp : TensorForm Q R (d - 1) (contractForm d X β)) :
    ∃ a b c, (product gx gy).P 1 s X = .ok a ∧ (product gx gy).P d t β = .ok b ∧ (product gx gy).contraction s d t u a b = .ok c ∧
      (product gx gy).P (d - 1) u (contractForm d X β) = .ok c := by
  obtain ⟨a, ha, ha'⟩ := T_sample hx hy rx ry 1 s X hX
  obtain ⟨b, hb, hb'⟩ := T_sample hx hy rx ry d t β hβ
  obtain ⟨c, h, h'⟩ := U_sample hx hy rx ry (d - 1) u _ hp
  have hd' : d = 1 ∨ d = 2 := by omega
  have hv : (d - 1).val = d.val - 1 := by rcases hd' with rfl | rfl <;> rfl
  have hv' : (Fin.ofNat 3 (d.val - 1)) = d - 1 := by rcases hd' with rfl | rfl <;> rfl
  have hv2 : d.val = 1 ∨ d.val = 2 := by rcases hd' with rfl | rfl <;> simp
  refine ⟨a, b, c, ha, hb, ?_, h⟩
  unfold Grid2.contraction
  rw [if_neg hd, ha', hb']
  simp only [bind, Except.bind]
  rw [map_sample, map_sample, TensorForm.len hX, TensorForm.len hβ]
  rw [show Grid2.ncomp (1 : Fin 3).val = 2 from rfl, entrywise_mtab (by norm_num) _ _ _ (fun k j i => cn d k (fun c => X.getD c 0 (p i) (p' j)) (fun c => β.getD c 0 (p i) (p' j))) fun k hk j i => cn_comp hv2 hk _ _]
  rw [map_sample, TensorForm.len hp, hv] at h'
  rw [← h', hv']
  refine congrArg ((product gx gy).U (d - 1) u) (tab_congr fun k hk => mtab_congr fun j _ i _ => ?_)
  rcases (TensorForm.cases' hX) with ⟨h0, _⟩ | ⟨-, X, Y, rfl⟩ | ⟨h0, _⟩
  · cases h0
  rotate_left
  · cases h0
  rcases (TensorForm.cases' hβ) with ⟨rfl, f', rfl⟩ | ⟨rfl, f', g', rfl⟩ | ⟨rfl, f', rfl⟩
  · exact absurd rfl hd
  all_goals
    have hk2 : k = 0 ∨ k = 1 := by simp [Grid2.ncomp] at hk; omega
    rcases hk2 with rfl | rfl <;> simp [cn, Grid2.ncomp, contractForm] at hk ⊢

end Dec.G2
