import Verif.Props.ReconstructCalculus

set_option linter.unusedSimpArgs false
set_option linter.unusedVariables false

/-! # C101, continued: any sequence of derivatives and stars -/

namespace Dec.Props

open Finset Real G2 Sp

/-- The two operators of the calculus. -/
inductive CalcOp
  | D
  | H
deriving DecidableEq

/-- Applying them in turn to the coefficients `a` of a form of degree `d` (`t`: primal): `f.D.H.…` -/
noncomputable def runWord (g : Grid2) : List CalcOp → Fin 3 → Bool → List ℝ → Except Err (Fin 3 × Bool × List ℝ)
  | [], d, t, a => .ok (d, t, a)
  | .D :: w, d, t, a => do
    let b ← g.D d t a
    runWord g w (d + 1) t b
  | .H :: w, d, t, a => do
    let b ← g.H d t a
    runWord g w (2 - d) (!t) b

/-- The exterior derivatives and Hodge stars of a form in the plane. -/
noncomputable def formWord : List CalcOp → Fin 3 → List (ℝ → ℝ → ℝ) → List (ℝ → ℝ → ℝ)
  | [], _, σ => σ
  | .D :: w, d, σ => formWord w (d + 1) (dForm d σ)
  | .H :: w, d, σ => formWord w (2 - d) (starComponents σ)

/-- A derivative is taken of forms of degree 0 and 1 only, and of dual ones only if `torus`. -/
def allowedWord (torus : Bool) : List CalcOp → Fin 3 → Bool → Prop
  | [], _, _ => True
  | .D :: w, d, t => d ≠ 2 ∧ (t = false → torus = true) ∧ allowedWord torus w (d + 1) t
  | .H :: w, d, t => allowedWord torus w (2 - d) (!t)

/-- The degree and duality of the result. -/
def wordType : List CalcOp → Fin 3 → Bool → Fin 3 × Bool
  | [], d, t => (d, t)
  | .D :: w, d, t => wordType w (d + 1) t
  | .H :: w, d, t => wordType w (2 - d) (!t)

theorem word_D (k k' : Kind) (hk : k ≠ .regular) (hk' : k' ≠ .regular) (n n' : ℕ) (hn : validSize k n) (hn' : validSize k' n') (d : Fin 3) (hd : d ≠ 2) (t : Bool)
    (ht : t = false → k = .periodic ∧ k' = .periodic) {σ : List (ℝ → ℝ → ℝ)} (hσ : TensorForm (fun e => Determined k n e t) (fun e => Determined k' n' e t) d σ) {a : List ℝ}
    (hP : (product (grid₀ k n) (grid₀ k' n')).P d t σ = .ok a) :
    TensorForm (fun e => Determined k n e t) (fun e => Determined k' n' e t) (d + 1) (dForm d σ) ∧
      ∃ b, (product (grid₀ k n) (grid₀ k' n')).D d t a = .ok b ∧ (product (grid₀ k n) (grid₀ k' n')).P (d + 1) t (dForm d σ) = .ok b := by
  have hσ' := dForm_tensor ((spans' k n hn).space 1 t) (fun f hf => determined_deriv k hk n hn t hf) (fun f hf => determined_deriv k' hk' n' hn' t hf) hd hσ
  refine ⟨hσ', ?_⟩
  obtain ⟨b, r', h1, -, -⟩ := C70_reconstruct_2d k k' n n' hn hn' (d + 1) t (dForm d σ) hσ'
  obtain ⟨x0, x1, hlt, hper, e⟩ := grid₀_ends k n
  obtain ⟨y0, y1, hlt', hper', e'⟩ := grid₀_ends k' n'
  have px : ∀ {e e' : Fin 2} {f : ℝ → ℝ → ℝ}, Tensor (Determined k n e t) (Determined k' n' e' t) f → PeriodicX k x0 x1 f := fun hf hk y => by
    subst hk; rw [hper rfl]; exact determined_periodic _ _ _ _ _ _ hf y
  have py : ∀ {e e' : Fin 2} {f : ℝ → ℝ → ℝ}, Tensor (Determined k n e t) (Determined k' n' e' t) f → PeriodicY k' y0 y1 f := fun hf hk x => by
    subst hk; rw [hper' rfl]; exact determined_periodic _ _ _ _ _ _ hf.swap x
  have sm : ∀ {e e' : Fin 2} {f : ℝ → ℝ → ℝ}, Tensor (Determined k n e t) (Determined k' n' e' t) f → Smooth2 f := fun hf => determined_smooth k k' hk hk' n n' hn hn' t _ _ hf
  refine ⟨b, ?_, h1⟩
  have v0 : ∀ u v : List ℝ, u.length = v.length → (∀ z ∈ v, z = 0) → vadd u v = u := fun u v => by
    unfold vadd
    induction u generalizing v with
    | nil => intro h _; simp
    | cons x u ih =>
      cases v with
      | nil => simp
      | cons z v =>
        intro h hz
        rw [List.zipWith_cons_cons, ih v (by simpa using h) fun z' hz' => hz z' (List.mem_cons_of_mem _ hz'), hz z List.mem_cons_self, add_zero]
  rw [e, e'] at hP h1 ⊢
  cases t
  · obtain ⟨rfl, rfl⟩ := ht rfl
    rcases TensorForm.cases hσ with ⟨rfl, f, rfl, hf⟩ | ⟨rfl, f, g, rfl, hf, hg⟩ | ⟨rfl, f, rfl, hf⟩
    · obtain ⟨u, v, h4, h5, h6, h7⟩ := C27_dual_0 .periodic .periodic n n' hn hn' x0 x1 y0 y1 hlt hlt' f (sm hf) (px hf) (py hf)
      obtain ⟨v', w', h8, h9, -, -⟩ := C27_periodic_no_boundary n n' hn hn' x0 x1 y0 y1 hlt hlt' f f
      obtain rfl : v' = v := Except.ok.inj (h8.symm.trans h5)
      rw [v0 u v' h7 h9] at h6
      rw [hP] at h4
      exact h4.trans (h6.symm.trans h1)
    · obtain ⟨u, v, h4, h5, h6, h7⟩ := C27_dual_1 .periodic .periodic n n' hn hn' x0 x1 y0 y1 hlt hlt' f g (sm hf) (sm hg) (px hg) (py hf)
      obtain ⟨v', w', -, -, h8, h9⟩ := C27_periodic_no_boundary n n' hn hn' x0 x1 y0 y1 hlt hlt' f g
      obtain rfl : w' = v := Except.ok.inj (h8.symm.trans h5)
      rw [v0 u w' h7 h9] at h6
      rw [hP] at h4
      exact h4.trans (h6.symm.trans h1)
    · exact absurd rfl hd
  · rcases TensorForm.cases hσ with ⟨rfl, f, rfl, hf⟩ | ⟨rfl, f, g, rfl, hf, hg⟩ | ⟨rfl, f, rfl, hf⟩
    · have h4 := C27_primal_0 k k' n n' hn hn' x0 x1 y0 y1 hlt hlt' f (sm hf) (px hf) (py hf)
      rw [hP] at h4
      exact h4.trans h1
    · have h4 := C27_primal_1 k k' n n' hn hn' x0 x1 y0 y1 hlt hlt' f g (sm hf) (sm hg) (px hg) (py hf)
      rw [hP] at h4
      exact h4.trans h1
    · exact absurd rfl hd

theorem word_H (k k' : Kind) (n n' : ℕ) (hn : validSize k n) (hn' : validSize k' n') (h927 : k = .chebyshev → n ≤ 927) (h927' : k' = .chebyshev → n' ≤ 927) (d : Fin 3) (t : Bool)
    {σ : List (ℝ → ℝ → ℝ)} (hσ : TensorForm (fun e => Determined k n e t) (fun e => Determined k' n' e t) d σ) {a : List ℝ}
    (hP : (product (grid₀ k n) (grid₀ k' n')).P d t σ = .ok a) :
    TensorForm (fun e => Determined k n e (!t)) (fun e => Determined k' n' e (!t)) (2 - d) (starComponents σ) ∧
      ∃ b, (product (grid₀ k n) (grid₀ k' n')).H d t a = .ok b ∧ (product (grid₀ k n) (grid₀ k' n')).P (2 - d) (!t) (starComponents σ) = .ok b := by
  have hx := grid₀_factor k n hn
  have hy := grid₀_factor k' n' hn'
  have sx := grid₀_star_determined k n hn h927
  have sy := grid₀_star_determined k' n' hn' h927'
  have flip : ∀ (k : Kind) (n : ℕ) (e : Fin 2) (f : ℝ → ℝ), Determined k n e t f → Determined k n (1 - e) (!t) f := fun k n e f hf => by
    obtain rfl | rfl : e = 0 ∨ e = 1 := by omega
    all_goals cases k <;> cases t <;> simpa [Determined] using hf
  have mono : ∀ {V V' W W' : (ℝ → ℝ) → Prop} {f : ℝ → ℝ → ℝ}, (∀ u, V u → V' u) → (∀ u, W u → W' u) → Tensor V W f → Tensor V' W' f := fun hV hW ⟨m, a, b, hab, he⟩ =>
    ⟨m, a, b, fun j hj => ⟨hV _ (hab j hj).1, hW _ (hab j hj).2⟩, he⟩
  rcases TensorForm.cases hσ with ⟨rfl, f, rfl, hf⟩ | ⟨rfl, f, g, rfl, hf, hg⟩ | ⟨rfl, f, rfl, hf⟩
  · refine ⟨mono (flip k n 0) (flip k' n' 0) hf, ?_⟩
    obtain ⟨a', b, e1, e2, e3⟩ := star0_exact hx hy sx sy t hf
    obtain rfl : a' = a := Except.ok.inj (e1.symm.trans hP)
    exact ⟨b, e2, e3⟩
  · refine ⟨⟨(mono (flip k n 0) (flip k' n' 1) hg).neg ((spans' k n hn).space 1 (!t)), mono (flip k n 1) (flip k' n' 0) hf⟩, ?_⟩
    obtain ⟨a', b, e1, e2, e3⟩ := star1_exact hx hy sx sy t hf hg
    obtain rfl : a' = a := Except.ok.inj (e1.symm.trans hP)
    exact ⟨b, e2, e3⟩
  · refine ⟨mono (flip k n 1) (flip k' n' 1) hf, ?_⟩
    obtain ⟨a', b, e1, e2, e3⟩ := star2_exact hx hy sx sy t hf
    obtain rfl : a' = a := Except.ok.inj (e1.symm.trans hP)
    exact ⟨b, e2, e3⟩

theorem word_core (k k' : Kind) (hk : k ≠ .regular) (hk' : k' ≠ .regular) (n n' : ℕ) (hn : validSize k n) (hn' : validSize k' n') (h927 : k = .chebyshev → n ≤ 927)
    (h927' : k' = .chebyshev → n' ≤ 927) (torus : Bool) (htor : torus = true → k = .periodic ∧ k' = .periodic) (w : List CalcOp) :
    ∀ (d : Fin 3) (t : Bool) (σ : List (ℝ → ℝ → ℝ)) (a : List ℝ), allowedWord torus w d t → TensorForm (fun e => Determined k n e t) (fun e => Determined k' n' e t) d σ →
      (product (grid₀ k n) (grid₀ k' n')).P d t σ = .ok a →
      ∃ b, runWord (product (grid₀ k n) (grid₀ k' n')) w d t a = .ok ((wordType w d t).1, (wordType w d t).2, b) ∧
        TensorForm (fun e => Determined k n e (wordType w d t).2) (fun e => Determined k' n' e (wordType w d t).2) (wordType w d t).1 (formWord w d σ) ∧
        (product (grid₀ k n) (grid₀ k' n')).P (wordType w d t).1 (wordType w d t).2 (formWord w d σ) = .ok b := by
  induction w with
  | nil => intro d t σ a _ hσ hP; exact ⟨a, rfl, hσ, hP⟩
  | cons o w ih =>
    intro d t σ a hw hσ hP
    cases o with
    | D =>
      obtain ⟨hd, ht, hw⟩ := hw
      obtain ⟨hσ', b, h1, h2⟩ := word_D k k' hk hk' n n' hn hn' d hd t (fun h => htor (ht h)) hσ hP
      obtain ⟨c, h3, h4, h5⟩ := ih (d + 1) t _ b hw hσ' h2
      refine ⟨c, ?_, h4, h5⟩
      simp only [runWord, h1, bind_ok]
      exact h3
    | H =>
      obtain ⟨hσ', b, h1, h2⟩ := word_H k k' n n' hn hn' h927 h927' d t hσ hP
      obtain ⟨c, h3, h4, h5⟩ := ih (2 - d) (!t) _ b hw hσ' h2
      refine ⟨c, ?_, h4, h5⟩
      simp only [runWord, h1, bind_ok]
      exact h3

/-- **C101**: on a product of periodic and Chebyshev grids, apply any sequence of derivatives and stars to any array of coefficients — derivatives of primal forms, and on a
product of two periodic grids of dual forms as well.  The result reconstructs to the form that the same sequence of exterior derivatives and Hodge stars makes of the
reconstruction of the array. -/
theorem C101_words (k k' : Kind) (hk : k ≠ .regular) (hk' : k' ≠ .regular) (n n' : ℕ) (hn : validSize k n) (hn' : validSize k' n') (h927 : k = .chebyshev → n ≤ 927)
    (h927' : k' = .chebyshev → n' ≤ 927) (w : List CalcOp) (d : Fin 3) (t : Bool) (hw : allowedWord (decide (k = .periodic ∧ k' = .periodic)) w d t) (a : List ℝ)
    (ha : (product (grid₀ k n) (grid₀ k' n')).N d t = .ok a.length) :
    ∃ σ r d' t' b r', (product (grid₀ k n) (grid₀ k' n')).R d t a = .ok r ∧
      (∀ x ∈ Inside k 1, ∀ y ∈ Inside k' 1, r x y = σ.map fun f => some (f x y)) ∧ (∀ f ∈ σ, Smooth2 f) ∧
      runWord (product (grid₀ k n) (grid₀ k' n')) w d t a = .ok (d', t', b) ∧ (product (grid₀ k n) (grid₀ k' n')).R d' t' b = .ok r' ∧
      ∀ x ∈ Inside k 1, ∀ y ∈ Inside k' 1, r' x y = (formWord w d σ).map fun f => some (f x y) := by
  obtain ⟨σ, r, hσ, hP, hR, hr⟩ := C70_reconstruction_determined_2d k k' n n' hn hn' d t a ha
  obtain ⟨b, h1, h2, h3⟩ := word_core k k' hk hk' n n' hn hn' h927 h927' _ (fun h => of_decide_eq_true h) w d t σ a hw hσ hP
  obtain ⟨b', r', h4, h5, h6⟩ := C70_reconstruct_2d k k' n n' hn hn' _ _ _ h2
  obtain rfl : b' = b := Except.ok.inj (h4.symm.trans h3)
  refine ⟨σ, r, _, _, b', r', hR, fun x hx y hy => hr x (inside_mono k _ hx) y (inside_mono k' _ hy), ?_, h1, h5, fun x hx y hy => h6 x (inside_mono k _ hx) y (inside_mono k' _ hy)⟩
  rcases TensorForm.cases hσ with ⟨rfl, f, rfl, hf⟩ | ⟨rfl, f, g, rfl, hf, hg⟩ | ⟨rfl, f, rfl, hf⟩
  · simpa using determined_smooth k k' hk hk' n n' hn hn' t _ _ hf
  · simpa using ⟨determined_smooth k k' hk hk' n n' hn hn' t _ _ hf, determined_smooth k k' hk hk' n n' hn hn' t _ _ hg⟩
  · simpa using determined_smooth k k' hk hk' n n' hn hn' t _ _ hf

/-- The divergence of the grids notebook, `f.H.D.H` of a dual 1-form on a product of Chebyshev grids, and the Laplacian `f.D.H.D.H` on the torus are such sequences; the divergence
of a primal 1-form on a product of Chebyshev grids is not (it needs the boundary condition). -/
example : allowedWord false [.H, .D, .H] 1 false ∧ allowedWord true [.D, .H, .D, .H] 0 true ∧ ¬ allowedWord false [.H, .D, .H] 1 true := by
  simp [allowedWord]

/-- The Laplacian of the word: the sum of the second derivatives. -/
example (f : ℝ → ℝ → ℝ) : formWord [.D, .H, .D, .H] 0 [f] = [fun x y => dX (dX f) x y - dY (fun x y => -dY f x y) x y] := rfl

end Dec.Props
