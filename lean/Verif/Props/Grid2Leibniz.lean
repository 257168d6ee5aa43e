import Verif.Lib.Leibniz2
import Verif.Props.Grid2Exact

set_option linter.unusedSimpArgs false
set_option linter.unusedVariables false

/-! # The Leibniz rule on products of periodic grids: C62 -/

namespace Dec.Props

open Finset Real G2 Sp Periodic

theorem tensorForm_mono {V W V' W' : Fin 2 → (ℝ → ℝ) → Prop} (hV : ∀ d f, V d f → V' d f) (hW : ∀ d f, W d f → W' d f) {d : Fin 3} {σ : List (ℝ → ℝ → ℝ)}
    (h : TensorForm V W d σ) : TensorForm V' W' d σ := by
  rcases TensorForm.cases h with ⟨rfl, f, rfl, hf⟩ | ⟨rfl, f, g, rfl, hf, hg⟩ | ⟨rfl, f, rfl, hf⟩
  · exact hf.mono (hV _) (hW _)
  · exact ⟨hf.mono (hV _) (hW _), hg.mono (hV _) (hW _)⟩
  · exact hf.mono (hV _) (hW _)

/-- **C62.** On a product of periodic grids, for all discrete forms `a`, `b` of degrees with sum at most one, on any sides, and any side of the result,
`d(a ∧ b) = da ∧ b + (-1)^deg(a) a ∧ db`, exactly. -/
theorem C62_leibniz (n n' : ℕ) (hn : 1 ≤ n) (hn' : 1 ≤ n') (d₀ d₁ : Fin 3) (hd : d₀.val + d₁.val ≤ 1) (s t u : Bool) (a b : List ℝ)
    (ha : (product (Periodic.make n) (Periodic.make n')).N d₀ s = .ok a.length) (hb : (product (Periodic.make n) (Periodic.make n')).N d₁ t = .ok b.length) :
    ∃ ab dab da db x y, (product (Periodic.make n) (Periodic.make n')).wedge d₀ s d₁ t u a b = .ok ab ∧
      (product (Periodic.make n) (Periodic.make n')).D (d₀ + d₁) u ab = .ok dab ∧
      (product (Periodic.make n) (Periodic.make n')).D d₀ s a = .ok da ∧ (product (Periodic.make n) (Periodic.make n')).D d₁ t b = .ok db ∧
      (product (Periodic.make n) (Periodic.make n')).wedge (d₀ + 1) s d₁ t u da b = .ok x ∧
      (product (Periodic.make n) (Periodic.make n')).wedge d₀ s (d₁ + 1) t u a db = .ok y ∧
      dab = vadd x (y.map ((-1 : ℝ) ^ d₀.val * ·)) := by
  have hx : Factor (Periodic.make n) := grid_factor .periodic n hn 0 (2 * π)
  have hy : Factor (Periodic.make n') := grid_factor .periodic n' hn' 0 (2 * π)
  have rx := per_refine hn
  have ry := per_refine hn'
  rw [N_eq hx hy] at ha hb
  obtain ⟨α, hα, pα⟩ := exists_form hn hn' d₀ s a (Except.ok.inj ha).symm
  obtain ⟨β, hβ, pβ⟩ := exists_form hn hn' d₁ t b (Except.ok.inj hb).symm
  have toT : ∀ {m : ℕ} {φ : ℝ} (f : ℝ → ℝ), Res m φ f → IsTrig (m / 2) f := fun f h => isTrig_of_res h
  have prod : ∀ {m : ℕ} {φ ψ : ℝ} {f g : ℝ → ℝ}, Res m φ f → Res m ψ g → IsTrig m fun x => f x * g x := fun hf hg =>
    ((isTrig_of_res hf).mul (isTrig_of_res hg)).mono (by omega)
  have st : ∀ {m : ℕ} (d : Fin 2), FnSpace ((fun _ => IsTrig m : Fin 2 → (ℝ → ℝ) → Prop) d) := fun d => space_trig _
  have wt := fun {e₀ e₁ : Fin 3} (he : e₀.val + e₁.val ≤ 2) {α β : List (ℝ → ℝ → ℝ)} =>
    wedgeForm_tensor (V := fun d => Res n (ph n d s)) (W := fun d => Res n' (ph n' d s)) (V' := fun d => Res n (ph n d t)) (W' := fun d => Res n' (ph n' d t))
      (Q := fun _ => IsTrig n) (R := fun _ => IsTrig n') st (fun d d' e a b => prod) (fun d d' e a b => prod) he (α := α) (β := β)
  have h0 : d₀ ≠ 2 := by rintro rfl; exact absurd hd (by show ¬ (2 + d₁.val ≤ 1); omega)
  have h1 : d₁ ≠ 2 := by rintro rfl; exact absurd hd (by show ¬ (d₀.val + 2 ≤ 1); omega)
  have v0 : (d₀ + 1).val = d₀.val + 1 := (by decide : ∀ d : Fin 3, d ≠ 2 → (d + 1).val = d.val + 1) d₀ h0
  have v1 : (d₁ + 1).val = d₁.val + 1 := (by decide : ∀ d : Fin 3, d ≠ 2 → (d + 1).val = d.val + 1) d₁ h1
  have dα := dForm_tensor (V := fun d => Res n (ph n d s)) (W := fun d => Res n' (ph n' d s)) (space_res _ _) (fun a h => res_deriv s h) (fun a h => res_deriv s h) h0 hα
  have dβ := dForm_tensor (V := fun d => Res n (ph n d t)) (W := fun d => Res n' (ph n' d t)) (space_res _ _) (fun a h => res_deriv t h) (fun a h => res_deriv t h) h1 hβ
  obtain ⟨_, _, ab, e1, e2, e3, e4⟩ := wedge_exact hx hy rx ry d₀ d₁ (by omega) s t u α β hα hβ fun _ => wt (by omega) hα hβ
  rw [pα] at e1; cases e1
  rw [pβ] at e2; cases e2
  have hdd : deg2 d₀ d₁ ≠ 2 := (by decide : ∀ d e : Fin 3, d.val + e.val ≤ 1 → deg2 d e ≠ 2) d₀ d₁ hd
  have vd : (deg2 d₀ d₁).val = d₀.val + d₁.val := (by decide : ∀ d e : Fin 3, d.val + e.val ≤ 1 → (deg2 d e).val = d.val + e.val) d₀ d₁ hd
  have ed : d₀ + d₁ = deg2 d₀ d₁ := (by decide : ∀ d e : Fin 3, d.val + e.val ≤ 1 → d + e = deg2 d e) d₀ d₁ hd
  have ex : deg2 (d₀ + 1) d₁ = deg2 d₀ d₁ + 1 := (by decide : ∀ d e : Fin 3, d.val + e.val ≤ 1 → deg2 (d + 1) e = deg2 d e + 1) d₀ d₁ hd
  have ey : deg2 d₀ (d₁ + 1) = deg2 d₀ d₁ + 1 := (by decide : ∀ d e : Fin 3, d.val + e.val ≤ 1 → deg2 d (e + 1) = deg2 d e + 1) d₀ d₁ hd
  obtain ⟨_, dab, f1, f2, f3⟩ := per_D hn hn' hdd (wt (by omega) hα hβ) u
  rw [e4] at f1; cases f1
  have tα : TensorForm (fun _ => IsTrig (n / 2)) (fun _ => IsTrig (n' / 2)) d₀ α := tensorForm_mono (fun d f h => toT f h) (fun d f h => toT f h) hα
  have tβ : TensorForm (fun _ => IsTrig (n / 2)) (fun _ => IsTrig (n' / 2)) d₁ β := tensorForm_mono (fun d f h => toT f h) (fun d f h => toT f h) hβ
  obtain ⟨_, da, g1, g2, g3⟩ := per_D hn hn' h0 tα s
  rw [pα] at g1; cases g1
  obtain ⟨_, db, k1, k2, k3⟩ := per_D hn hn' h1 tβ t
  rw [pβ] at k1; cases k1
  have wx := wt (e₀ := d₀ + 1) (e₁ := d₁) (by omega) dα hβ
  have wy := wt (e₀ := d₀) (e₁ := d₁ + 1) (by omega) hα dβ
  obtain ⟨_, _, x, x1, x2, x3, x4⟩ := wedge_exact hx hy rx ry (d₀ + 1) d₁ (by omega) s t u _ β dα hβ fun _ => wx
  rw [g3] at x1; cases x1
  rw [pβ] at x2; cases x2
  obtain ⟨_, _, y, y1, y2, y3, y4⟩ := wedge_exact hx hy rx ry d₀ (d₁ + 1) (by omega) s t u α _ hα dβ fun _ => wy
  rw [pα] at y1; cases y1
  rw [k3] at y2; cases y2
  refine ⟨ab, dab, da, db, x, y, e3, ed ▸ f2, g2, k2, x3, y3, ?_⟩
  rw [show Fin.ofNat 3 ((d₀ + 1).val + d₁.val) = deg2 d₀ d₁ + 1 from ex] at wx
  rw [show Fin.ofNat 3 (d₀.val + (d₁ + 1).val) = deg2 d₀ d₁ + 1 from ey] at wy
  rw [ex] at x4
  rw [ey] at y4
  have := P_comb hx hy st st u wx wy ((-1) ^ d₀.val) x4 y4
  rw [v0, v1, ← dForm_wedge hd tα tβ, ← vd, f3] at this
  exact Except.ok.inj this

/-- A concrete case: a primal 0-form and a dual 1-form on the product of a periodic grid with 2 and one with 3 vertices. -/
example : (product (Periodic.make 2) (Periodic.make 3)).N 0 true = .ok [1, -2, 3, 0, 5, 7].length ∧
    (product (Periodic.make 2) (Periodic.make 3)).N 1 false = .ok [1, -2, 3, 0, 5, 7, 0, 0, 2, 1, 1, 4].length :=
  ⟨N_eq (grid_factor .periodic 2 (by norm_num [validSize]) 0 (2 * π)) (grid_factor .periodic 3 (by norm_num [validSize]) 0 (2 * π)) 0 true,
    N_eq (grid_factor .periodic 2 (by norm_num [validSize]) 0 (2 * π)) (grid_factor .periodic 3 (by norm_num [validSize]) 0 (2 * π)) 1 false⟩

end Dec.Props
