import Verif.Props.Reconstruction2
import Verif.Props.BasisDerivative
import Verif.Props.ExprExact

set_option linter.unusedSimpArgs false
set_option linter.unusedVariables false

/-! # C101: the calculus of reconstructed forms -/

namespace Dec.Props

open Finset Real G2 Sp

/-- The Hodge star of forms in the plane: `*f = f dx∧dy`, `*(f dx + g dy) = -g dx + f dy`, `*(f dx∧dy) = f`. -/
def starComponents : List (ℝ → ℝ → ℝ) → List (ℝ → ℝ → ℝ)
  | [f, g] => [fun x y => -g x y, f]
  | σ => σ

theorem determined_contDiff (k : Kind) (hk : k ≠ .regular) (n : ℕ) (hn : validSize k n) (t : Bool) {f : ℝ → ℝ} (d : Fin 2) (hf : Determined k n d t f) : ContDiff ℝ 1 f := by
  have key : ∀ f f' : ℝ → ℝ, Continuous f' → (∀ x, HasDerivAt f (f' x) x) → ContDiff ℝ 1 f := fun f f' hc hd => by
    obtain rfl : deriv f = f' := funext fun x => (hd x).deriv
    exact contDiff_one_iff_deriv.2 ⟨fun x => (hd x).differentiableAt, hc⟩
  obtain ⟨s, hs⟩ : ∃ s, Determined k n d t f ↔ Determined k n 0 s f := by
    obtain rfl | rfl : d = 0 ∨ d = 1 := by omega
    · exact ⟨t, Iff.rfl⟩
    · exact ⟨!t, by cases k <;> cases t <;> simp [Determined]⟩
  obtain ⟨f', hf', hd⟩ := determined_deriv k hk n hn s (hs.1 hf)
  exact key f f' (((spans' k n hn).space 1 s).cont f' hf') hd

theorem determined_smooth (k k' : Kind) (hk : k ≠ .regular) (hk' : k' ≠ .regular) (n n' : ℕ) (hn : validSize k n) (hn' : validSize k' n') (t : Bool) (d d' : Fin 2) {f : ℝ → ℝ → ℝ}
    (h : Tensor (Determined k n d t) (Determined k' n' d' t) f) : Smooth2 f := by
  obtain ⟨m, a, b, hab, he⟩ := h
  unfold Smooth2
  simp only [he]
  refine ContDiff.sum fun j hj => ?_
  have h1 := determined_contDiff k hk n hn t d (hab j (mem_range.1 hj)).1
  have h2 := determined_contDiff k' hk' n' hn' t d' (hab j (mem_range.1 hj)).2
  exact (h1.comp contDiff_fst).mul (h2.comp contDiff_snd)

theorem determined_periodic (n n' : ℕ) (k' : Kind) (t : Bool) (d d' : Fin 2) {f : ℝ → ℝ → ℝ} (h : Tensor (Determined .periodic n d t) (Determined k' n' d' t) f) (y : ℝ) :
    Function.Periodic (fun x => f x y) (2 * π) := by
  obtain ⟨m, a, b, hab, he⟩ := h
  intro x
  simp only [he]
  refine sum_congr rfl fun j hj => ?_
  rw [IsTrigAt.periodic (hab j (mem_range.1 hj)).1 x]

theorem inside_mono (k : Kind) (d : Fin 3) {z : ℝ} (hz : z ∈ Inside k 1) : z ∈ Inside k (if d = 0 then 0 else 1) := by
  by_cases h0 : d = 0
  · rw [if_pos h0]
    cases k
    · exact hz
    · exact hz
    · exact Set.Ioo_subset_Icc_self hz
  · rw [if_neg h0]; exact hz

section
variable (k k' : Kind) (hk : k ≠ .regular) (hk' : k' ≠ .regular) (n n' : ℕ) (hn : validSize k n) (hn' : validSize k' n')
include hk hk' hn hn'

/-- **C101**: on a product of periodic and Chebyshev grids of any sizes, every array of coefficients of a primal 0- or 1-form reconstructs to a smooth form, and
the array of its discrete derivative reconstructs to the exterior derivative of that form. -/
theorem C101_derivative_primal (d : Fin 3) (hd : d ≠ 2) (a : List ℝ) (ha : (product (grid₀ k n) (grid₀ k' n')).N d true = .ok a.length) :
    ∃ σ r da r', (∀ f ∈ σ, Smooth2 f) ∧ (product (grid₀ k n) (grid₀ k' n')).R d true a = .ok r ∧
      (∀ x ∈ Inside k (if d = 0 then 0 else 1), ∀ y ∈ Inside k' (if d = 0 then 0 else 1), r x y = σ.map fun f => some (f x y)) ∧
      (product (grid₀ k n) (grid₀ k' n')).D d true a = .ok da ∧ (product (grid₀ k n) (grid₀ k' n')).R (d + 1) true da = .ok r' ∧
      ∀ x ∈ Inside k 1, ∀ y ∈ Inside k' 1, r' x y = (dForm d σ).map fun f => some (f x y) := by
  obtain ⟨σ, r, hσ, hP, hR, hr⟩ := C70_reconstruction_determined_2d k k' n n' hn hn' d true a ha
  have hd1 : d + 1 ≠ 0 := by obtain rfl | rfl | rfl : d = 0 ∨ d = 1 ∨ d = 2 := by omega
                             · decide
                             · decide
                             · exact absurd rfl hd
  have hσ' := dForm_tensor ((spans' k n hn).space 1 true) (fun f hf => determined_deriv k hk n hn true hf) (fun f hf => determined_deriv k' hk' n' hn' true hf) hd hσ
  obtain ⟨da, r', h1, h2, h3⟩ := C70_reconstruct_2d k k' n n' hn hn' (d + 1) true (dForm d σ) hσ'
  rw [if_neg hd1] at h3
  obtain ⟨x0, x1, hlt, hper, e⟩ := grid₀_ends k n
  obtain ⟨y0, y1, hlt', hper', e'⟩ := grid₀_ends k' n'
  have px : ∀ {e e' : Fin 2} {f : ℝ → ℝ → ℝ}, Tensor (Determined k n e true) (Determined k' n' e' true) f → PeriodicX k x0 x1 f := fun hf hk y => by
    subst hk; rw [hper rfl]; exact determined_periodic _ _ _ _ _ _ hf y
  have py : ∀ {e e' : Fin 2} {f : ℝ → ℝ → ℝ}, Tensor (Determined k n e true) (Determined k' n' e' true) f → PeriodicY k' y0 y1 f := fun hf hk x => by
    subst hk; rw [hper' rfl]; exact determined_periodic _ _ _ _ _ _ hf.swap x
  refine ⟨σ, r, da, r', ?_, hR, hr, ?_, h2, h3⟩
  · rcases TensorForm.cases hσ with ⟨rfl, f, rfl, hf⟩ | ⟨rfl, f, g, rfl, hf, hg⟩ | ⟨rfl, f, rfl, hf⟩
    · simpa using determined_smooth k k' hk hk' n n' hn hn' true _ _ hf
    · simpa using ⟨determined_smooth k k' hk hk' n n' hn hn' true _ _ hf, determined_smooth k k' hk hk' n n' hn hn' true _ _ hg⟩
    · exact absurd rfl hd
  · rw [e, e'] at hP h1 ⊢
    rcases TensorForm.cases hσ with ⟨rfl, f, rfl, hf⟩ | ⟨rfl, f, g, rfl, hf, hg⟩ | ⟨rfl, f, rfl, hf⟩
    · have h4 := C27_primal_0 k k' n n' hn hn' x0 x1 y0 y1 hlt hlt' f (determined_smooth k k' hk hk' n n' hn hn' true _ _ hf) (px hf) (py hf)
      rw [hP] at h4
      exact h4.trans h1
    · have h4 := C27_primal_1 k k' n n' hn hn' x0 x1 y0 y1 hlt hlt' f g (determined_smooth k k' hk hk' n n' hn hn' true _ _ hf)
        (determined_smooth k k' hk hk' n n' hn hn' true _ _ hg) (px hg) (py hf)
      rw [hP] at h4
      exact h4.trans h1
    · exact absurd rfl hd

/-- **C101**: for dual forms the discrete derivative needs the boundary condition made of the reconstructed form. -/
theorem C101_derivative_dual (d : Fin 3) (hd : d ≠ 2) (a : List ℝ) (ha : (product (grid₀ k n) (grid₀ k' n')).N d false = .ok a.length) :
    ∃ σ r da v r', (∀ f ∈ σ, Smooth2 f) ∧ (product (grid₀ k n) (grid₀ k' n')).R d false a = .ok r ∧
      (∀ x ∈ Inside k (if d = 0 then 0 else 1), ∀ y ∈ Inside k' (if d = 0 then 0 else 1), r x y = σ.map fun f => some (f x y)) ∧
      (product (grid₀ k n) (grid₀ k' n')).D d false a = .ok da ∧ (product (grid₀ k n) (grid₀ k' n')).BC (d + 1) σ = .ok v ∧ da.length = v.length ∧
      (product (grid₀ k n) (grid₀ k' n')).R (d + 1) false (vadd da v) = .ok r' ∧
      ∀ x ∈ Inside k 1, ∀ y ∈ Inside k' 1, r' x y = (dForm d σ).map fun f => some (f x y) := by
  obtain ⟨σ, r, hσ, hP, hR, hr⟩ := C70_reconstruction_determined_2d k k' n n' hn hn' d false a ha
  have hd1 : d + 1 ≠ 0 := by obtain rfl | rfl | rfl : d = 0 ∨ d = 1 ∨ d = 2 := by omega
                             · decide
                             · decide
                             · exact absurd rfl hd
  have hσ' := dForm_tensor ((spans' k n hn).space 1 false) (fun f hf => determined_deriv k hk n hn false hf) (fun f hf => determined_deriv k' hk' n' hn' false hf) hd hσ
  obtain ⟨da, r', h1, h2, h3⟩ := C70_reconstruct_2d k k' n n' hn hn' (d + 1) false (dForm d σ) hσ'
  rw [if_neg hd1] at h3
  obtain ⟨x0, x1, hlt, hper, e⟩ := grid₀_ends k n
  obtain ⟨y0, y1, hlt', hper', e'⟩ := grid₀_ends k' n'
  have px : ∀ {e e' : Fin 2} {f : ℝ → ℝ → ℝ}, Tensor (Determined k n e false) (Determined k' n' e' false) f → PeriodicX k x0 x1 f := fun hf hk y => by
    subst hk; rw [hper rfl]; exact determined_periodic _ _ _ _ _ _ hf y
  have py : ∀ {e e' : Fin 2} {f : ℝ → ℝ → ℝ}, Tensor (Determined k n e false) (Determined k' n' e' false) f → PeriodicY k' y0 y1 f := fun hf hk x => by
    subst hk; rw [hper' rfl]; exact determined_periodic _ _ _ _ _ _ hf.swap x
  have hsm : ∀ f ∈ σ, Smooth2 f := by
    rcases TensorForm.cases hσ with ⟨rfl, f, rfl, hf⟩ | ⟨rfl, f, g, rfl, hf, hg⟩ | ⟨rfl, f, rfl, hf⟩
    · simpa using determined_smooth k k' hk hk' n n' hn hn' false _ _ hf
    · simpa using ⟨determined_smooth k k' hk hk' n n' hn hn' false _ _ hf, determined_smooth k k' hk hk' n n' hn hn' false _ _ hg⟩
    · exact absurd rfl hd
  have key : ∃ u v, (product (grid₀ k n) (grid₀ k' n')).D d false a = .ok u ∧ (product (grid₀ k n) (grid₀ k' n')).BC (d + 1) σ = .ok v ∧
      (product (grid₀ k n) (grid₀ k' n')).P (d + 1) false (dForm d σ) = .ok (vadd u v) ∧ u.length = v.length := by
    rw [e, e'] at hP ⊢
    rcases TensorForm.cases hσ with ⟨rfl, f, rfl, hf⟩ | ⟨rfl, f, g, rfl, hf, hg⟩ | ⟨rfl, f, rfl, hf⟩
    · obtain ⟨u, v, h4, h5, h6, h7⟩ := C27_dual_0 k k' n n' hn hn' x0 x1 y0 y1 hlt hlt' f (hsm f (by simp)) (px hf) (py hf)
      rw [hP] at h4
      exact ⟨u, v, h4, h5, h6, h7⟩
    · obtain ⟨u, v, h4, h5, h6, h7⟩ := C27_dual_1 k k' n n' hn hn' x0 x1 y0 y1 hlt hlt' f g (hsm f (by simp)) (hsm g (by simp)) (px hg) (py hf)
      rw [hP] at h4
      exact ⟨u, v, h4, h5, h6, h7⟩
    · exact absurd rfl hd
  obtain ⟨u, v, h4, h5, h6, h7⟩ := key
  obtain rfl : da = vadd u v := Except.ok.inj (h1.symm.trans h6)
  exact ⟨σ, r, u, v, r', hsm, hR, hr, h4, h5, h7, h2, h3⟩
end

/-! ## The star -/

/-- **C101**, one dimension: the star of an array reconstructs to the same function, read as a form of the other degree. -/
theorem C101_star_1d (k : Kind) (n : ℕ) (hn : validSize k n) (h927 : k = .chebyshev → n ≤ 927) (d : Fin 2) (t : Bool) (a : List ℝ) (ha : a.length = (grid₀ k n).N d t) :
    ∃ f sa, Continuous f ∧ (∀ x ∈ Inside k d, (grid₀ k n).R d t a x = some (f x)) ∧ (grid₀ k n).H d t a = .ok sa ∧
      ∀ x ∈ Inside k (1 - d), (grid₀ k n).R (1 - d) (!t) sa x = some (f x) := by
  obtain ⟨f, hf, hP, hR⟩ := C70_reconstruction_determined k n hn d t a ha
  have h := determined_star k n hn d t (fun h _ _ => h927 h) f hf
  rw [hP] at h
  refine ⟨f, _, ((spans' k n hn).space d t).cont f hf, hR, h, fun x hx => C70_reconstruct k n hn (1 - d) (!t) f ?_ x hx⟩
  obtain rfl | rfl : d = 0 ∨ d = 1 := by omega
  all_goals cases k <;> cases t <;> simpa [Determined] using hf

theorem grid₀_star_determined (k : Kind) (n : ℕ) (hn : validSize k n) (h927 : k = .chebyshev → n ≤ 927) : StarExact (grid₀ k n) (Determined k n) where
  space := (spans' k n hn).space
  exact d t f hf := determined_star k n hn d t (fun h _ _ => h927 h) f hf

/-- **C101**, two dimensions, every product of grids: the star of an array reconstructs to the Hodge star of the reconstructed form. -/
theorem C101_star (k k' : Kind) (n n' : ℕ) (hn : validSize k n) (hn' : validSize k' n') (h927 : k = .chebyshev → n ≤ 927) (h927' : k' = .chebyshev → n' ≤ 927) (d : Fin 3) (t : Bool)
    (a : List ℝ) (ha : (product (grid₀ k n) (grid₀ k' n')).N d t = .ok a.length) :
    ∃ σ r sa r', (∀ f ∈ σ, Continuous fun p : ℝ × ℝ => f p.1 p.2) ∧ (product (grid₀ k n) (grid₀ k' n')).R d t a = .ok r ∧
      (∀ x ∈ Inside k (if d = 0 then 0 else 1), ∀ y ∈ Inside k' (if d = 0 then 0 else 1), r x y = σ.map fun f => some (f x y)) ∧
      (product (grid₀ k n) (grid₀ k' n')).H d t a = .ok sa ∧ (product (grid₀ k n) (grid₀ k' n')).R (2 - d) (!t) sa = .ok r' ∧
      ∀ x ∈ Inside k 1, ∀ y ∈ Inside k' 1, r' x y = (starComponents σ).map fun f => some (f x y) := by
  obtain ⟨σ, r, hσ, hP, hR, hr⟩ := C70_reconstruction_determined_2d k k' n n' hn hn' d t a ha
  have hx := grid₀_factor k n hn
  have hy := grid₀_factor k' n' hn'
  have sx := grid₀_star_determined k n hn h927
  have sy := grid₀_star_determined k' n' hn' h927'
  have cont : ∀ {e e' : Fin 2} {f : ℝ → ℝ → ℝ}, Tensor (Determined k n e t) (Determined k' n' e' t) f → Continuous fun p : ℝ × ℝ => f p.1 p.2 := fun {e e' f} hf => by
    obtain ⟨m, a, b, hab, he⟩ := hf
    simp only [he]
    exact continuous_finsetSum _ fun j hj => (((sx.space e t).cont _ (hab j (mem_range.1 hj)).1).comp continuous_fst).mul (((sy.space e' t).cont _ (hab j (mem_range.1 hj)).2).comp continuous_snd)
  have flip : ∀ (k : Kind) (n : ℕ) (e : Fin 2) (f : ℝ → ℝ), Determined k n e t f → Determined k n (1 - e) (!t) f := fun k n e f hf => by
    obtain rfl | rfl : e = 0 ∨ e = 1 := by omega
    all_goals cases k <;> cases t <;> simpa [Determined] using hf
  have mono : ∀ {V V' W W' : (ℝ → ℝ) → Prop} {f : ℝ → ℝ → ℝ}, (∀ u, V u → V' u) → (∀ u, W u → W' u) → Tensor V W f → Tensor V' W' f := fun hV hW ⟨m, a, b, hab, he⟩ =>
    ⟨m, a, b, fun j hj => ⟨hV _ (hab j hj).1, hW _ (hab j hj).2⟩, he⟩
  have hσ' : TensorForm (fun e => Determined k n e (!t)) (fun e => Determined k' n' e (!t)) (2 - d) (starComponents σ) := by
    rcases TensorForm.cases hσ with ⟨rfl, f, rfl, hf⟩ | ⟨rfl, f, g, rfl, hf, hg⟩ | ⟨rfl, f, rfl, hf⟩
    · exact mono (flip k n 0) (flip k' n' 0) hf
    · exact ⟨(mono (flip k n 0) (flip k' n' 1) hg).neg ((spans' k n hn).space 1 (!t)), mono (flip k n 1) (flip k' n' 0) hf⟩
    · exact mono (flip k n 1) (flip k' n' 1) hf
  obtain ⟨sa, r', h1, h2, h3⟩ := C70_reconstruct_2d k k' n n' hn hn' (2 - d) (!t) (starComponents σ) hσ'
  refine ⟨σ, r, sa, r', ?_, hR, hr, ?_, h2, fun x hx y hy => h3 x (inside_mono k _ hx) y (inside_mono k' _ hy)⟩
  · rcases TensorForm.cases hσ with ⟨rfl, f, rfl, hf⟩ | ⟨rfl, f, g, rfl, hf, hg⟩ | ⟨rfl, f, rfl, hf⟩
    · simpa using cont hf
    · simpa using ⟨cont hf, cont hg⟩
    · simpa using cont hf
  · rcases TensorForm.cases hσ with ⟨rfl, f, rfl, hf⟩ | ⟨rfl, f, g, rfl, hf, hg⟩ | ⟨rfl, f, rfl, hf⟩
    · obtain ⟨a', b, e1, e2, e3⟩ := star0_exact hx hy sx sy t hf
      obtain rfl : a' = a := Except.ok.inj (e1.symm.trans hP)
      exact e2.trans (e3.symm.trans h1)
    · obtain ⟨a', b, e1, e2, e3⟩ := star1_exact hx hy sx sy t hf hg
      obtain rfl : a' = a := Except.ok.inj (e1.symm.trans hP)
      exact e2.trans (e3.symm.trans h1)
    · obtain ⟨a', b, e1, e2, e3⟩ := star2_exact hx hy sx sy t hf
      obtain rfl : a' = a := Except.ok.inj (e1.symm.trans hP)
      exact e2.trans (e3.symm.trans h1)

/-- The hypotheses hold for the 15 coefficients of a 1-form on the product of three points of the circle and three Chebyshev vertices, and for the 8 of a dual one on
two squares by two. -/
example : (product (grid₀ .periodic 3) (grid₀ .chebyshev 3)).N 1 true = .ok (List.replicate 15 (1 : ℝ)).length ∧
    (product (grid₀ .periodic 2) (grid₀ .periodic 2)).N 1 false = .ok (List.replicate 8 (1 : ℝ)).length := by
  rw [length_of_N (grid₀_factor .periodic 3 (show 1 ≤ 3 by norm_num)) (grid₀_factor .chebyshev 3 (show 2 ≤ 3 by norm_num)),
    length_of_N (grid₀_factor .periodic 2 (show 1 ≤ 2 by norm_num)) (grid₀_factor .periodic 2 (show 1 ≤ 2 by norm_num))]
  have N01 : (grid₀ .chebyshev 3).N 0 true = 3 := (Chebyshev.isInterval (n := 3) (by norm_num) (-1) 1).N01
  have N11 : (grid₀ .chebyshev 3).N 1 true = 2 := (Chebyshev.isInterval (n := 3) (by norm_num) (-1) 1).N11
  constructor
  · show _ = (grid₀ .chebyshev 3).N 0 true * (grid₀ .periodic 3).N 1 true + (grid₀ .chebyshev 3).N 1 true * (grid₀ .periodic 3).N 0 true
    rw [N01, N11]; rfl
  · rfl

end Dec.Props
