import Verif.Props.AccuracyProducts
import Verif.Props.Reconstruction2

set_option linter.unusedSimpArgs false
set_option linter.unusedVariables false

/-! # C106 on product grids -/

namespace Dec.Props

open Finset Real G2 Sp

/-! ## Specification -/

/-- A continuous function of two variables, with the period `2π` in the directions that are circles. -/
def Nice2 (k k' : Kind) (f : ℝ → ℝ → ℝ) : Prop :=
  (Continuous fun p : ℝ × ℝ => f p.1 p.2) ∧ (k = .periodic → ∀ x y, f (x + 2 * π) y = f x y) ∧ (k' = .periodic → ∀ x y, f x (y + 2 * π) = f x y)

/-- A form of degree `d` (with 1, 2, 1 components) all of whose components are such functions, bounded by `F` on the rectangle. -/
def NiceForm (k k' : Kind) (d : Fin 3) (F : ℝ) (σ : List (ℝ → ℝ → ℝ)) : Prop :=
  σ.length = Grid2.ncomp d ∧ ∀ f ∈ σ, Nice2 k k' f ∧ ∀ x ∈ Whole k, ∀ y ∈ Whole k', |f x y| ≤ F

/-- The grid recovers the form up to `ε`: no component of the reconstruction of its projection is anywhere further from it. -/
def Recovers2 (k k' : Kind) (n n' : ℕ) (d : Fin 3) (t : Bool) (ε : ℝ) (σ : List (ℝ → ℝ → ℝ)) : Prop :=
  ∃ a r, (product (grid₀ k n) (grid₀ k' n')).P d t σ = .ok a ∧ (product (grid₀ k n) (grid₀ k' n')).R d t a = .ok r ∧
    ∀ x ∈ Inside k (if d = 0 then 0 else 1), ∀ y ∈ Inside k' (if d = 0 then 0 else 1), ∃ v : List ℝ, r x y = v.map some ∧ v.length = σ.length ∧
      ∀ m < σ.length, |v.getD m 0 - (σ.getD m fun _ _ => 0) x y| ≤ ε

/-! ## Forms with the same projection -/

theorem getD_of_lt {α : Type*} {l : List α} {m : ℕ} (d : α) (h : m < l.length) : l.getD m d = l[m] := by
  rw [List.getD_eq_getElem?_getD, List.getElem?_eq_getElem h]; rfl

theorem ncomp_cases {d : Fin 3} {σ : List (ℝ → ℝ → ℝ)} (h : σ.length = Grid2.ncomp d) : (d = 0 ∧ ∃ f, σ = [f]) ∨ (d = 1 ∧ ∃ f g, σ = [f, g]) ∨ (d = 2 ∧ ∃ f, σ = [f]) := by
  obtain rfl | rfl | rfl : d = 0 ∨ d = 1 ∨ d = 2 := by omega
  · exact .inl ⟨rfl, List.length_eq_one_iff.1 h⟩
  · exact .inr (.inl ⟨rfl, List.length_eq_two.1 h⟩)
  · exact .inr (.inr ⟨rfl, List.length_eq_one_iff.1 h⟩)

theorem P_count {gx gy : Grid1} (hx : Factor gx) (hy : Factor gy) {d : Fin 3} (t : Bool) {σ : List (ℝ → ℝ → ℝ)} (h : σ.length = Grid2.ncomp d) {a : List ℝ}
    (ha : (product gx gy).P d t σ = .ok a) : (product gx gy).N d t = .ok a.length := by
  rw [length_of_N hx hy]
  rcases ncomp_cases h with ⟨rfl, f, rfl⟩ | ⟨rfl, f, g, rfl⟩ | ⟨rfl, f, rfl⟩
  · rw [P0_mtab hx hy] at ha; rw [← Except.ok.inj ha]; exact length_data _ _ _
  · rw [P1_mtab hx hy] at ha; rw [← Except.ok.inj ha, List.length_append]; exact congrArg₂ _ (length_data _ _ _) (length_data _ _ _)
  · rw [P2_mtab hx hy] at ha; rw [← Except.ok.inj ha]; exact length_data _ _ _

section
variable {k k' : Kind} {n n' : ℕ} (h : Refinable k n) (h' : Refinable k' n')
include h h'

theorem det_nice2 {d d' : Fin 2} {t t' : Bool} {r : ℝ → ℝ → ℝ} (hr : Tensor (Determined k n d t) (Determined k' n' d' t') r) : Nice2 k k' r := by
  obtain ⟨m, a, b, hab, e⟩ := hr
  have e' : r = fun x y => ∑ i ∈ range m, a i x * b i y := by funext x y; exact e x y
  subst e'
  refine ⟨?_, fun hk x y => ?_, fun hk x y => ?_⟩
  · exact continuous_finsetSum _ fun i hi =>
      ((determined_nice h.1 (hab i (mem_range.1 hi)).1).1.comp continuous_fst).mul ((determined_nice h'.1 (hab i (mem_range.1 hi)).2).1.comp continuous_snd)
  · exact sum_congr rfl fun i hi => by rw [(determined_nice h.1 (hab i (mem_range.1 hi)).1).2 hk x]
  · exact sum_congr rfl fun i hi => by rw [(determined_nice h'.1 (hab i (mem_range.1 hi)).2).2 hk y]

omit h h' in
theorem Nice2.row {f : ℝ → ℝ → ℝ} (hf : Nice2 k k' f) (y : ℝ) : Nice k fun x => f x y :=
  ⟨hf.1.comp (continuous_id.prodMk continuous_const), fun hk x => hf.2.1 hk x y⟩
omit h h' in
theorem Nice2.col {f : ℝ → ℝ → ℝ} (hf : Nice2 k k' f) (x : ℝ) : Nice k' (f x) :=
  ⟨hf.1.comp (continuous_const.prodMk continuous_id), fun hk y => hf.2.2 hk x y⟩

theorem inside_whole2 {d d' : Fin 2} {p f : ℝ → ℝ → ℝ} {ε : ℝ} (hp : Nice2 k k' p) (hf : Nice2 k k' f) (hb : ∀ x ∈ Inside k d, ∀ y ∈ Inside k' d', |p x y - f x y| ≤ ε) :
    ∀ x ∈ Whole k, ∀ y ∈ Whole k', |p x y - f x y| ≤ ε := by
  have h1 : ∀ x ∈ Inside k d, ∀ y ∈ Whole k', |p x y - f x y| ≤ ε := fun x hx => inside_whole h'.2.1 d' (hp.col x) (hf.col x) (hb x hx)
  intro x hx y hy
  exact inside_whole (p := fun x => p x y) (f := fun x => f x y) h.2.1 d (hp.row y) (hf.row y) (fun x hx => h1 x hx y hy) x hx

theorem same_projection2 (d : Fin 3) (t : Bool) {ε F : ℝ} {σ : List (ℝ → ℝ → ℝ)} (hσ : NiceForm k k' d F σ) (hR : Recovers2 k k' n n' d t ε σ) :
    ∃ τ a, TensorForm (fun e => Determined k n e t) (fun e => Determined k' n' e t) d τ ∧ (product (grid₀ k n) (grid₀ k' n')).P d t τ = .ok a ∧
      (product (grid₀ k n) (grid₀ k' n')).P d t σ = .ok a ∧
      ∀ m < σ.length, ∀ x ∈ Whole k, ∀ y ∈ Whole k', |(τ.getD m 0) x y - (σ.getD m 0) x y| ≤ ε := by
  obtain ⟨a, r, h1, h2, h3⟩ := hR
  have hl : (product (grid₀ k n) (grid₀ k' n')).N d t = .ok a.length := P_count (grid₀_factor k n h.1) (grid₀_factor k' n' h'.1) t hσ.1 h1
  obtain ⟨τ, r', g1, g2, g3, g4⟩ := C70_reconstruction_determined_2d k k' n n' h.1 h'.1 d t a hl
  obtain rfl : r = r' := Except.ok.inj (h2.symm.trans g3)
  refine ⟨τ, a, g1, g2, h1, fun m hm => ?_⟩
  have hlen : τ.length = σ.length := by rw [TensorForm.len g1, hσ.1]
  have hmem : σ.getD m 0 ∈ σ := by rw [getD_of_lt _ hm]; exact List.getElem_mem hm
  have hnice : Nice2 k k' (τ.getD m 0) := by
    rcases TensorForm.cases g1 with ⟨rfl, f, rfl, hf⟩ | ⟨rfl, f, g, rfl, hf, hg⟩ | ⟨rfl, f, rfl, hf⟩
    · obtain rfl : m = 0 := by rw [← hlen] at hm; simpa using hm
      exact det_nice2 h h' hf
    · obtain rfl | rfl : m = 0 ∨ m = 1 := by rw [← hlen] at hm; simp at hm; omega
      exacts [det_nice2 h h' hf, det_nice2 h h' hg]
    · obtain rfl : m = 0 := by rw [← hlen] at hm; simpa using hm
      exact det_nice2 h h' hf
  refine inside_whole2 h h' hnice (hσ.2 _ hmem).1 (d := if d = 0 then 0 else 1) (d' := if d = 0 then 0 else 1) fun x hx y hy => ?_
  obtain ⟨v, e1, e2, e3⟩ := h3 x hx y hy
  have e4 := (g4 x hx y hy).symm.trans e1
  have e5 : τ.map (fun f => f x y) = v := by
    rw [show (τ.map fun f => some (f x y)) = (τ.map fun f => f x y).map some by rw [List.map_map]; rfl] at e4
    exact (List.map_injective_iff.2 (Option.some_injective _)) e4
  have e6 := e3 m hm
  have e7 : v.getD m 0 = (τ.getD m 0) x y := by
    rw [← e5, getD_of_lt _ (by simpa [hlen] using hm), getD_of_lt _ (by omega), List.getElem_map]
  rw [e7] at e6
  exact e6

/-! ## Bounds of projections -/

theorem pe2_bound {d d' : Fin 2} {t : Bool} {p f : ℝ → ℝ → ℝ} {c : ℝ} (hp : Nice2 k k' p) (hf : Nice2 k k' f) (hb : ∀ x ∈ Whole k, ∀ y ∈ Whole k', |p x y - f x y| ≤ c)
    {i j : ℕ} (hi : i < (grid₀ k n).N d t) (hj : j < (grid₀ k' n').N d' t) :
    |pe2 (grid₀ k n) (grid₀ k' n') d d' t t p i j - pe2 (grid₀ k n) (grid₀ k' n') d d' t t f i j| ≤ c * pe2 (grid₀ k n) (grid₀ k' n') d d' t t (fun _ _ => 1) i j := by
  have hx := grid₀_factor k n h.1
  have hy := grid₀_factor k' n' h'.1
  have hI := cells_in k n h.1 d t
  have hJ := cells_in k' n' h'.1 d' t
  have hcont : ∀ {p : ℝ → ℝ → ℝ}, Nice2 k k' p → Continuous fun x => pe (grid₀ k' n') d' t (p x) j := fun {p} hp => by
    obtain rfl | rfl : d' = 0 ∨ d' = 1 := by omega
    · have e : (fun x => pe (grid₀ k' n') 0 t (p x) j) = fun x => p x (vx (grid₀ k' n') t j) := funext fun x => pe0 hy t (p x) hj
      rw [e]; exact (hp.row _).1
    · have e : (fun x => pe (grid₀ k' n') 1 t (p x) j) = fun x => ∫ y in (lo (grid₀ k' n') t j)..(G2.hi (grid₀ k' n') t j), p x y := funext fun x => pe1 hy t (p x) hj
      rw [e]
      exact intervalIntegral.continuous_parametric_intervalIntegral_of_continuous' hp.1 _ _
  have h1 : ∀ x ∈ Whole k, |pe (grid₀ k' n') d' t (p x) j - pe (grid₀ k' n') d' t (f x) j| ≤ c * pe (grid₀ k' n') d' t (fun _ => 1) j := fun x hxW =>
    P_bound hy d' t hJ (hf.col x).1 (hp.col x).1 (fun y hyW => hb x hxW y hyW) hj
  have h2 := P_bound hx d t hI (hcont hf) (hcont hp) h1 hi
  have hone : pe2 (grid₀ k n) (grid₀ k' n') d d' t t (fun _ _ => 1) i j = pe (grid₀ k' n') d' t (fun _ => 1) j * pe (grid₀ k n) d t (fun _ => 1) i := by
    unfold pe2
    have := pe_smul hx d t (pe (grid₀ k' n') d' t (fun _ => 1) j) (fun _ => 1) hi
    simp only [mul_one] at this
    rw [this]
  rw [hone, ← mul_assoc]
  exact h2

/-- Two forms that differ by at most `c` have projections that differ by at most `c` times the sizes of the cells. -/
theorem form_bound (d : Fin 3) (t : Bool) {σ τ : List (ℝ → ℝ → ℝ)} {c : ℝ} (hσ : σ.length = Grid2.ncomp d) (hτ : τ.length = Grid2.ncomp d) (nσ : ∀ f ∈ σ, Nice2 k k' f)
    (nτ : ∀ f ∈ τ, Nice2 k k' f) (hb : ∀ m < σ.length, ∀ x ∈ Whole k, ∀ y ∈ Whole k', |(τ.getD m 0) x y - (σ.getD m 0) x y| ≤ c) {a : List ℝ}
    (ha : (product (grid₀ k n) (grid₀ k' n')).P d t τ = .ok a) :
    ∃ b s, (product (grid₀ k n) (grid₀ k' n')).P d t σ = .ok b ∧ (product (grid₀ k n) (grid₀ k' n')).P d t (unitForm d) = .ok s ∧
      a.length = b.length ∧ s.length = b.length ∧ ∀ m < b.length, |a.getD m 0 - b.getD m 0| ≤ c * s.getD m 0 := by
  have hx := grid₀_factor k n h.1
  have hy := grid₀_factor k' n' h'.1
  rcases ncomp_cases hσ with ⟨rfl, f, rfl⟩ | ⟨rfl, f, g, rfl⟩ | ⟨rfl, f, rfl⟩
  · obtain ⟨p, rfl⟩ := List.length_eq_one_iff.1 hτ
    rw [P0_pe2 hx hy] at ha
    obtain rfl := Except.ok.inj ha
    exact ⟨_, _, P0_pe2 hx hy t f, P0_pe2 hx hy t fun _ _ => 1, within_mtab fun j hj i hi => pe2_bound h h' (nτ p (by simp)) (nσ f (by simp)) (hb 0 (by simp)) hi hj⟩
  · obtain ⟨p, q, rfl⟩ := List.length_eq_two.1 hτ
    rw [P1_pe2 hx hy] at ha
    obtain rfl := Except.ok.inj ha
    exact ⟨_, _, P1_pe2 hx hy t f g, P1_pe2 hx hy t (fun _ _ => 1) fun _ _ => 1,
      Within.append (within_mtab fun j hj i hi => pe2_bound h h' (nτ p (by simp)) (nσ f (by simp)) (hb 0 (by simp)) hi hj)
        (within_mtab fun j hj i hi => pe2_bound h h' (nτ q (by simp)) (nσ g (by simp)) (hb 1 (by simp)) hi hj)⟩
  · obtain ⟨p, rfl⟩ := List.length_eq_one_iff.1 hτ
    rw [P2_pe2 hx hy] at ha
    obtain rfl := Except.ok.inj ha
    exact ⟨_, _, P2_pe2 hx hy t f, P2_pe2 hx hy t fun _ _ => 1, within_mtab fun j hj i hi => pe2_bound h h' (nτ p (by simp)) (nσ f (by simp)) (hb 0 (by simp)) hi hj⟩
end

/-! ## Products -/

section
variable {V W V' W' Q R : Fin 2 → (ℝ → ℝ) → Prop} (sQ : ∀ d, FnSpace (Q d))
  (hQ : ∀ (d d' : Fin 2) a b, V d a → V' d' b → Q (d + d') fun x => a x * b x) (hR : ∀ (d d' : Fin 2) a b, W d a → W' d' b → R (d + d') fun x => a x * b x)
include sQ hQ hR

theorem wedgeForm_tensor' {d₀ d₁ : Fin 3} (hd : d₀.val + d₁.val ≤ 2) {α β : List (ℝ → ℝ → ℝ)} (hα : TensorForm V W d₀ α) (hβ : TensorForm V' W' d₁ β) :
    TensorForm Q R (Fin.ofNat 3 (d₀.val + d₁.val)) (wedgeForm d₀ d₁ α β) := by
  rcases TensorForm.cases hα with ⟨rfl, f, rfl, hf⟩ | ⟨rfl, f, g, rfl, hf, hg⟩ | ⟨rfl, f, rfl, hf⟩ <;>
  rcases TensorForm.cases hβ with ⟨rfl, f', rfl, hf'⟩ | ⟨rfl, f', g', rfl, hf', hg'⟩ | ⟨rfl, f', rfl, hf'⟩
  · exact hf.mul (hQ 0 0) (hR 0 0) hf'
  · exact ⟨hf.mul (hQ 0 1) (hR 0 0) hf', hf.mul (hQ 0 0) (hR 0 1) hg'⟩
  · exact hf.mul (hQ 0 1) (hR 0 1) hf'
  · exact ⟨hf.mul (hQ 1 0) (hR 0 0) hf', hg.mul (hQ 0 0) (hR 1 0) hf'⟩
  · have := (hf.mul (hQ 1 0) (hR 0 1) hg').add ((hg.mul (hQ 0 1) (hR 1 0) hf').neg (sQ 1))
    simp only [← sub_eq_add_neg] at this
    exact this
  · exact absurd hd (by decide)
  · exact hf.mul (hQ 1 0) (hR 1 0) hf'
  · exact absurd hd (by decide)
  · exact absurd hd (by decide)

theorem contractForm_tensor' {d : Fin 3} (hd : d ≠ 0) {X β : List (ℝ → ℝ → ℝ)} (hX : TensorForm V W 1 X) (hβ : TensorForm V' W' d β) :
    TensorForm Q R (d - 1) (contractForm d X β) := by
  rcases TensorForm.cases hX with ⟨h, _⟩ | ⟨-, X, Y, rfl, hX, hY⟩ | ⟨h, _⟩
  · cases h
  rotate_left
  · cases h
  rcases TensorForm.cases hβ with ⟨rfl, f', rfl, hf'⟩ | ⟨rfl, f', g', rfl, hf', hg'⟩ | ⟨rfl, f', rfl, hf'⟩
  · exact absurd rfl hd
  · exact (hX.mul (hQ 1 1) (hR 0 0) hf').add (hY.mul (hQ 0 0) (hR 1 1) hg')
  · exact ⟨(hY.mul (hQ 0 1) (hR 1 1) hf').neg (sQ 1), hX.mul (hQ 1 1) (hR 0 1) hf'⟩
end

section
variable {k k' : Kind}
theorem Nice2.mul {f g : ℝ → ℝ → ℝ} (hf : Nice2 k k' f) (hg : Nice2 k k' g) : Nice2 k k' fun x y => f x y * g x y :=
  ⟨hf.1.mul hg.1, fun hk x y => by simp only [hf.2.1 hk x y, hg.2.1 hk x y], fun hk x y => by simp only [hf.2.2 hk x y, hg.2.2 hk x y]⟩
theorem Nice2.add {f g : ℝ → ℝ → ℝ} (hf : Nice2 k k' f) (hg : Nice2 k k' g) : Nice2 k k' fun x y => f x y + g x y :=
  ⟨hf.1.add hg.1, fun hk x y => by simp only [hf.2.1 hk x y, hg.2.1 hk x y], fun hk x y => by simp only [hf.2.2 hk x y, hg.2.2 hk x y]⟩
theorem Nice2.sub {f g : ℝ → ℝ → ℝ} (hf : Nice2 k k' f) (hg : Nice2 k k' g) : Nice2 k k' fun x y => f x y - g x y :=
  ⟨hf.1.sub hg.1, fun hk x y => by simp only [hf.2.1 hk x y, hg.2.1 hk x y], fun hk x y => by simp only [hf.2.2 hk x y, hg.2.2 hk x y]⟩
theorem Nice2.neg {f : ℝ → ℝ → ℝ} (hf : Nice2 k k' f) : Nice2 k k' fun x y => -f x y :=
  ⟨hf.1.neg, fun hk x y => by simp only [hf.2.1 hk x y], fun hk x y => by simp only [hf.2.2 hk x y]⟩

theorem tensorForm_nice {n n' : ℕ} (h : Refinable k n) (h' : Refinable k' n') {d : Fin 3} {t : Bool} {τ : List (ℝ → ℝ → ℝ)}
    (hτ : TensorForm (fun e => Determined k n e t) (fun e => Determined k' n' e t) d τ) : ∀ f ∈ τ, Nice2 k k' f := by
  rcases TensorForm.cases hτ with ⟨rfl, f, rfl, hf⟩ | ⟨rfl, f, g, rfl, hf, hg⟩ | ⟨rfl, f, rfl, hf⟩
  · simpa using det_nice2 h h' hf
  · simpa using ⟨det_nice2 h h' hf, det_nice2 h h' hg⟩
  · simpa using det_nice2 h h' hf

/-- What the wedge product does to bounds. -/
theorem wedgeForm_bound {d₀ d₁ : Fin 3} (hd : d₀.val + d₁.val ≤ 2) {α β α' β' : List (ℝ → ℝ → ℝ)} (lα : α.length = Grid2.ncomp d₀) (lβ : β.length = Grid2.ncomp d₁)
    (lα' : α'.length = Grid2.ncomp d₀) (lβ' : β'.length = Grid2.ncomp d₁) (nα : ∀ f ∈ α, Nice2 k k' f) (nβ : ∀ f ∈ β, Nice2 k k' f) :
    (wedgeForm d₀ d₁ α β).length = Grid2.ncomp (Fin.ofNat 3 (d₀.val + d₁.val)) ∧ (∀ f ∈ wedgeForm d₀ d₁ α β, Nice2 k k' f) ∧
    ∀ (x y ε δ F G : ℝ), (∀ m < α.length, |(α'.getD m 0) x y - (α.getD m 0) x y| ≤ ε) → (∀ m < β.length, |(β'.getD m 0) x y - (β.getD m 0) x y| ≤ δ) →
      (∀ f ∈ α, |f x y| ≤ F) → (∀ f ∈ β, |f x y| ≤ G) → ∀ m < (wedgeForm d₀ d₁ α β).length,
        |((wedgeForm d₀ d₁ α' β').getD m 0) x y - ((wedgeForm d₀ d₁ α β).getD m 0) x y| ≤ (if d₀ = 1 ∧ d₁ = 1 then 2 else 1) * (ε * G + F * δ + ε * δ) := by
  rcases ncomp_cases lα with ⟨rfl, f, rfl⟩ | ⟨rfl, f, g, rfl⟩ | ⟨rfl, f, rfl⟩ <;>
  rcases ncomp_cases lβ with ⟨rfl, u, rfl⟩ | ⟨rfl, u, v, rfl⟩ | ⟨rfl, u, rfl⟩
  · obtain ⟨f', rfl⟩ := List.length_eq_one_iff.1 lα'
    obtain ⟨u', rfl⟩ := List.length_eq_one_iff.1 lβ'
    refine ⟨rfl, by simpa [wedgeForm] using (nα f (by simp)).mul (nβ u (by simp)), fun x y ε δ F G h1 h2 h3 h4 m hm => ?_⟩
    obtain rfl : m = 0 := by simpa [wedgeForm] using hm
    have := product_error (h1 0 (by simp)) (h2 0 (by simp)) (h3 f (by simp)) (h4 u (by simp))
    simpa [wedgeForm] using this
  · obtain ⟨f', rfl⟩ := List.length_eq_one_iff.1 lα'
    obtain ⟨u', v', rfl⟩ := List.length_eq_two.1 lβ'
    refine ⟨rfl, by simpa [wedgeForm] using ⟨(nα f (by simp)).mul (nβ u (by simp)), (nα f (by simp)).mul (nβ v (by simp))⟩, fun x y ε δ F G h1 h2 h3 h4 m hm => ?_⟩
    obtain rfl | rfl : m = 0 ∨ m = 1 := by simp [wedgeForm] at hm; omega
    · have := product_error (h1 0 (by simp)) (h2 0 (by simp)) (h3 f (by simp)) (h4 u (by simp))
      simpa [wedgeForm] using this
    · have := product_error (h1 0 (by simp)) (h2 1 (by simp)) (h3 f (by simp)) (h4 v (by simp))
      simpa [wedgeForm] using this
  · obtain ⟨f', rfl⟩ := List.length_eq_one_iff.1 lα'
    obtain ⟨u', rfl⟩ := List.length_eq_one_iff.1 lβ'
    refine ⟨rfl, by simpa [wedgeForm] using (nα f (by simp)).mul (nβ u (by simp)), fun x y ε δ F G h1 h2 h3 h4 m hm => ?_⟩
    obtain rfl : m = 0 := by simpa [wedgeForm] using hm
    have := product_error (h1 0 (by simp)) (h2 0 (by simp)) (h3 f (by simp)) (h4 u (by simp))
    simpa [wedgeForm] using this
  · obtain ⟨f', g', rfl⟩ := List.length_eq_two.1 lα'
    obtain ⟨u', rfl⟩ := List.length_eq_one_iff.1 lβ'
    refine ⟨rfl, by simpa [wedgeForm] using ⟨(nα f (by simp)).mul (nβ u (by simp)), (nα g (by simp)).mul (nβ u (by simp))⟩, fun x y ε δ F G h1 h2 h3 h4 m hm => ?_⟩
    obtain rfl | rfl : m = 0 ∨ m = 1 := by simp [wedgeForm] at hm; omega
    · have := product_error (h1 0 (by simp)) (h2 0 (by simp)) (h3 f (by simp)) (h4 u (by simp))
      simpa [wedgeForm] using this
    · have := product_error (h1 1 (by simp)) (h2 0 (by simp)) (h3 g (by simp)) (h4 u (by simp))
      simpa [wedgeForm] using this
  · obtain ⟨f', g', rfl⟩ := List.length_eq_two.1 lα'
    obtain ⟨u', v', rfl⟩ := List.length_eq_two.1 lβ'
    refine ⟨rfl, by simpa [wedgeForm] using ((nα f (by simp)).mul (nβ v (by simp))).sub ((nα g (by simp)).mul (nβ u (by simp))), fun x y ε δ F G h1 h2 h3 h4 m hm => ?_⟩
    obtain rfl : m = 0 := by simpa [wedgeForm] using hm
    have e1 := product_error (h1 0 (by simp)) (h2 1 (by simp)) (h3 f (by simp)) (h4 v (by simp))
    have e2 := product_error (h1 1 (by simp)) (h2 0 (by simp)) (h3 g (by simp)) (h4 u (by simp))
    simp only [List.getD_cons_zero, List.getD_cons_succ] at e1 e2
    have e3 : |(f' x y * v' x y - g' x y * u' x y) - (f x y * v x y - g x y * u x y)| ≤ 2 * (ε * G + F * δ + ε * δ) := by
      rw [abs_le] at e1 e2 ⊢
      constructor <;> linarith [e1.1, e1.2, e2.1, e2.2]
    simpa [wedgeForm] using e3
  · exact absurd hd (by decide)
  · obtain ⟨f', rfl⟩ := List.length_eq_one_iff.1 lα'
    obtain ⟨u', rfl⟩ := List.length_eq_one_iff.1 lβ'
    refine ⟨rfl, by simpa [wedgeForm] using (nα f (by simp)).mul (nβ u (by simp)), fun x y ε δ F G h1 h2 h3 h4 m hm => ?_⟩
    obtain rfl : m = 0 := by simpa [wedgeForm] using hm
    have := product_error (h1 0 (by simp)) (h2 0 (by simp)) (h3 f (by simp)) (h4 u (by simp))
    simpa [wedgeForm] using this
  · exact absurd hd (by decide)
  · exact absurd hd (by decide)

/-- What the contraction does to bounds. -/
theorem contractForm_bound {d : Fin 3} (hd : d ≠ 0) {α β α' β' : List (ℝ → ℝ → ℝ)} (lα : α.length = Grid2.ncomp (1 : Fin 3)) (lβ : β.length = Grid2.ncomp d)
    (lα' : α'.length = Grid2.ncomp (1 : Fin 3)) (lβ' : β'.length = Grid2.ncomp d) (nα : ∀ f ∈ α, Nice2 k k' f) (nβ : ∀ f ∈ β, Nice2 k k' f) :
    (contractForm d α β).length = Grid2.ncomp (d - 1 : Fin 3) ∧ (∀ f ∈ contractForm d α β, Nice2 k k' f) ∧
    ∀ (x y ε δ F G : ℝ), (∀ m < α.length, |(α'.getD m 0) x y - (α.getD m 0) x y| ≤ ε) → (∀ m < β.length, |(β'.getD m 0) x y - (β.getD m 0) x y| ≤ δ) →
      (∀ f ∈ α, |f x y| ≤ F) → (∀ f ∈ β, |f x y| ≤ G) → ∀ m < (contractForm d α β).length,
        |((contractForm d α' β').getD m 0) x y - ((contractForm d α β).getD m 0) x y| ≤ (if d = 1 then 2 else 1) * (ε * G + F * δ + ε * δ) := by
  obtain ⟨f, g, rfl⟩ := List.length_eq_two.1 lα
  obtain ⟨f', g', rfl⟩ := List.length_eq_two.1 lα'
  rcases ncomp_cases lβ with ⟨rfl, u, rfl⟩ | ⟨rfl, u, v, rfl⟩ | ⟨rfl, u, rfl⟩
  · exact absurd rfl hd
  · obtain ⟨u', v', rfl⟩ := List.length_eq_two.1 lβ'
    refine ⟨rfl, by simpa [contractForm] using ((nα f (by simp)).mul (nβ u (by simp))).add ((nα g (by simp)).mul (nβ v (by simp))), fun x y ε δ F G h1 h2 h3 h4 m hm => ?_⟩
    obtain rfl : m = 0 := by simpa [contractForm] using hm
    have e1 := product_error (h1 0 (by simp)) (h2 0 (by simp)) (h3 f (by simp)) (h4 u (by simp))
    have e2 := product_error (h1 1 (by simp)) (h2 1 (by simp)) (h3 g (by simp)) (h4 v (by simp))
    simp only [List.getD_cons_zero, List.getD_cons_succ] at e1 e2
    have e3 : |(f' x y * u' x y + g' x y * v' x y) - (f x y * u x y + g x y * v x y)| ≤ 2 * (ε * G + F * δ + ε * δ) := by
      rw [abs_le] at e1 e2 ⊢
      constructor <;> linarith [e1.1, e1.2, e2.1, e2.2]
    simpa [contractForm] using e3
  · obtain ⟨u', rfl⟩ := List.length_eq_one_iff.1 lβ'
    refine ⟨rfl, by simpa [contractForm] using ⟨((nα g (by simp)).mul (nβ u (by simp))).neg, (nα f (by simp)).mul (nβ u (by simp))⟩, fun x y ε δ F G h1 h2 h3 h4 m hm => ?_⟩
    obtain rfl | rfl : m = 0 ∨ m = 1 := by simp [contractForm] at hm; omega
    · have := product_error (h1 1 (by simp)) (h2 0 (by simp)) (h3 g (by simp)) (h4 u (by simp))
      simp only [List.getD_cons_zero, List.getD_cons_succ] at this
      have e3 : |-(g' x y * u' x y) - -(g x y * u x y)| ≤ ε * G + F * δ + ε * δ := by
        rw [neg_sub_neg, abs_sub_comm]; exact this
      simpa [contractForm] using e3
    · have := product_error (h1 0 (by simp)) (h2 0 (by simp)) (h3 f (by simp)) (h4 u (by simp))
      simpa [contractForm] using this
end

/-! ## The theorems -/

section
variable (k k' : Kind) (n n' : ℕ) (h : Refinable k n) (h' : Refinable k' n') (s t u : Bool) (hst : k = .chebyshev ∨ k' = .chebyshev → s = t) (α β : List (ℝ → ℝ → ℝ)) (ε δ F G : ℝ)
include h h' hst

/-- **C106**, two dimensions: on a product of periodic and Chebyshev grids, let `α` and `β` be forms whose components are bounded by `F` and `G`, and which the grid
recovers up to `ε` and `δ`.  Then the discrete wedge product of their projections differs from the projection of their exterior product, on every cell, by at most
`ε G + F δ + ε δ` times the size of the cell; twice that for two 1-forms.  (If there is a Chebyshev direction: for two forms on the same side.) -/
theorem C106_wedge_error_2d (d₀ d₁ : Fin 3) (hd : d₀.val + d₁.val ≤ 2) (hα : NiceForm k k' d₀ F α) (hβ : NiceForm k k' d₁ G β)
    (rα : Recovers2 k k' n n' d₀ s ε α) (rβ : Recovers2 k k' n n' d₁ t δ β) :
    ∃ a b c e z, (product (grid₀ k n) (grid₀ k' n')).P d₀ s α = .ok a ∧ (product (grid₀ k n) (grid₀ k' n')).P d₁ t β = .ok b ∧
      (product (grid₀ k n) (grid₀ k' n')).wedge d₀ s d₁ t u a b = .ok c ∧
      (product (grid₀ k n) (grid₀ k' n')).P (Fin.ofNat 3 (d₀.val + d₁.val)) u (wedgeForm d₀ d₁ α β) = .ok e ∧
      (product (grid₀ k n) (grid₀ k' n')).P (Fin.ofNat 3 (d₀.val + d₁.val)) u (unitForm (Fin.ofNat 3 (d₀.val + d₁.val))) = .ok z ∧
      c.length = e.length ∧ z.length = e.length ∧
      ∀ m < e.length, |c.getD m 0 - e.getD m 0| ≤ (if d₀ = 1 ∧ d₁ = 1 then 2 else 1) * (ε * G + F * δ + ε * δ) * z.getD m 0 := by
  obtain ⟨M, p, rx⟩ := refine_det h
  obtain ⟨M', p', ry⟩ := refine_det h'
  obtain ⟨α', a, tα, pα, pα', bα⟩ := same_projection2 h h' d₀ s hα rα
  obtain ⟨β', b, tβ, pβ, pβ', bβ⟩ := same_projection2 h h' d₁ t hβ rβ
  have fit : ∀ {k : Kind}, (k = .chebyshev → s = t) → ∀ (d e : Fin 2), k = .chebyshev → ¬ (d = 0 ∧ s = true ∧ e = 1 ∧ t = false) ∧ ¬ (d = 1 ∧ s = false ∧ e = 0 ∧ t = true) :=
    fun {k} hk d e he => by rw [hk he]; cases t <;> simp
  have hT := wedgeForm_tensor' (unrefined_space h.2.1 n) (fun d d' a b ha hb => det_product h d d' s t (fit (fun hk => hst (.inl hk)) d d') ha hb)
    (fun d d' a b ha hb => det_product h' d d' s t (fit (fun hk => hst (.inr hk)) d d') ha hb) hd tα tβ
  obtain ⟨a₁, b₁, c, e1, e2, e3, e4⟩ := wedge_exact (grid₀_factor k n h.1) (grid₀_factor k' n' h'.1) rx ry d₀ d₁ hd s t u α' β' tα tβ (fun _ => hT)
  obtain rfl : a = a₁ := Except.ok.inj (pα.symm.trans e1)
  obtain rfl : b = b₁ := Except.ok.inj (pβ.symm.trans e2)
  obtain ⟨l1, n1, b1⟩ := wedgeForm_bound hd hα.1 hβ.1 (TensorForm.len tα) (TensorForm.len tβ) (fun f hf => (hα.2 f hf).1) (fun f hf => (hβ.2 f hf).1)
  obtain ⟨l2, n2, -⟩ := wedgeForm_bound (k := k) (k' := k') hd (TensorForm.len tα) (TensorForm.len tβ) (TensorForm.len tα) (TensorForm.len tβ) (tensorForm_nice h h' tα) (tensorForm_nice h h' tβ)
  obtain ⟨e, z, g1, g2, g3⟩ := form_bound h h' (Fin.ofNat 3 (d₀.val + d₁.val)) u l1 l2 n1 n2
    (fun m hm x hx y hy => b1 x y ε δ F G (fun m hm => bα m hm x hx y hy) (fun m hm => bβ m hm x hx y hy) (fun f hf => (hα.2 f hf).2 x hx y hy) (fun f hf => (hβ.2 f hf).2 x hx y hy) m hm) e4
  exact ⟨a, b, c, e, z, pα', pβ', e3, g1, g2, g3⟩

/-- **C106**, two dimensions: likewise for the contraction of a vector field (given as a 1-form) with a form of degree 1 or 2; twice that for degree 1. -/
theorem C106_contraction_error_2d (d : Fin 3) (hd : d ≠ 0) (hα : NiceForm k k' 1 F α) (hβ : NiceForm k k' d G β)
    (rα : Recovers2 k k' n n' 1 s ε α) (rβ : Recovers2 k k' n n' d t δ β) :
    ∃ a b c e z, (product (grid₀ k n) (grid₀ k' n')).P 1 s α = .ok a ∧ (product (grid₀ k n) (grid₀ k' n')).P d t β = .ok b ∧
      (product (grid₀ k n) (grid₀ k' n')).contraction s d t u a b = .ok c ∧
      (product (grid₀ k n) (grid₀ k' n')).P (d - 1) u (contractForm d α β) = .ok e ∧ (product (grid₀ k n) (grid₀ k' n')).P (d - 1) u (unitForm (d - 1)) = .ok z ∧
      c.length = e.length ∧ z.length = e.length ∧
      ∀ m < e.length, |c.getD m 0 - e.getD m 0| ≤ (if d = 1 then 2 else 1) * (ε * G + F * δ + ε * δ) * z.getD m 0 := by
  obtain ⟨M, p, rx⟩ := refine_det h
  obtain ⟨M', p', ry⟩ := refine_det h'
  obtain ⟨α', a, tα, pα, pα', bα⟩ := same_projection2 h h' 1 s hα rα
  obtain ⟨β', b, tβ, pβ, pβ', bβ⟩ := same_projection2 h h' d t hβ rβ
  have fit : ∀ {k : Kind}, (k = .chebyshev → s = t) → ∀ (d e : Fin 2), k = .chebyshev → ¬ (d = 0 ∧ s = true ∧ e = 1 ∧ t = false) ∧ ¬ (d = 1 ∧ s = false ∧ e = 0 ∧ t = true) :=
    fun {k} hk d e he => by rw [hk he]; cases t <;> simp
  have hT := contractForm_tensor' (unrefined_space h.2.1 n) (fun d d' a b ha hb => det_product h d d' s t (fit (fun hk => hst (.inl hk)) d d') ha hb)
    (fun d d' a b ha hb => det_product h' d d' s t (fit (fun hk => hst (.inr hk)) d d') ha hb) hd tα tβ
  obtain ⟨a₁, b₁, c, e1, e2, e3, e4⟩ := contraction_exact (grid₀_factor k n h.1) (grid₀_factor k' n' h'.1) rx ry d hd s t u α' β' tα tβ hT
  obtain rfl : a = a₁ := Except.ok.inj (pα.symm.trans e1)
  obtain rfl : b = b₁ := Except.ok.inj (pβ.symm.trans e2)
  obtain ⟨l1, n1, b1⟩ := contractForm_bound hd hα.1 hβ.1 (TensorForm.len tα) (TensorForm.len tβ) (fun f hf => (hα.2 f hf).1) (fun f hf => (hβ.2 f hf).1)
  obtain ⟨l2, n2, -⟩ := contractForm_bound (k := k) (k' := k') hd (TensorForm.len tα) (TensorForm.len tβ) (TensorForm.len tα) (TensorForm.len tβ) (tensorForm_nice h h' tα) (tensorForm_nice h h' tβ)
  obtain ⟨e, z, g1, g2, g3⟩ := form_bound h h' (d - 1) u l1 l2 n1 n2
    (fun m hm x hx y hy => b1 x y ε δ F G (fun m hm => bα m hm x hx y hy) (fun m hm => bβ m hm x hx y hy) (fun f hf => (hα.2 f hf).2 x hx y hy) (fun f hf => (hβ.2 f hf).2 x hx y hy) m hm) e4
  exact ⟨a, b, c, e, z, pα', pβ', e3, g1, g2, g3⟩
end


/-- **C106**: a form with expansions whose unresolved parts are at most `ε` is recovered up to `ε` (C91). -/
theorem C106_recovers_series (k k' : Kind) (n n' : ℕ) (hn : validSize k n) (hn' : validSize k' n') (d : Fin 3) (t : Bool) (ε : ℝ) (σ : List (ℝ → ℝ → ℝ))
    (h : NearlyResolvedForm k k' n n' t ε d σ) : Recovers2 k k' n n' d t ε σ :=
  C91_reconstruction_error k k' n n' hn hn' t d ε σ h

/-- A function on the torus with infinitely many terms, bounded by 3, that a grid of 20 by 30 vertices recovers up to `1/100`. -/
example : ∃ f, NiceForm .periodic .periodic 0 3 [f] ∧ Recovers2 .periodic .periodic 20 30 0 true (1 / 100) [f] := by
  have hasS := hasSum_mul_pair (hasSum_geometric_of_lt_one (r := (1 / 2 : ℝ)) (by norm_num) (by norm_num)) (hasSum_geometric_of_lt_one (r := (1 / 3 : ℝ)) (by norm_num) (by norm_num))
    (fun i => by positivity) fun i => by positivity
  have hs : Summable fun p : ℕ × ℕ => |((1 / 2 : ℝ)) ^ p.1 * (1 / 3) ^ p.2| := hasS.summable.congr fun p => (abs_of_nonneg (by positivity)).symm
  have hE := expansion2_exists .periodic .periodic 0 0 _ hs
  have wc : ∀ i, Continuous (wave .periodic 0 i) := fun i => by
    by_cases h : i % 2 = 0
    · have e : wave .periodic 0 i = fun x => cos ((i / 2 : ℕ) * x) := by funext x; exact if_pos h
      rw [e]; fun_prop
    · have e : wave .periodic 0 i = fun x => sin ((i / 2 + 1 : ℕ) * x) := by funext x; exact if_neg h
      rw [e]; fun_prop
  have wp : ∀ i x, wave .periodic 0 i (x + 2 * π) = wave .periodic 0 i x := fun i x => by
    by_cases h : i % 2 = 0
    · have e : wave .periodic 0 i = fun x => cos ((i / 2 : ℕ) * x) := by funext x; exact if_pos h
      rw [e]; beta_reduce; rw [mul_add, cos_add_nat_mul_two_pi]
    · have e : wave .periodic 0 i = fun x => sin ((i / 2 + 1 : ℕ) * x) := by funext x; exact if_neg h
      rw [e]; beta_reduce; rw [mul_add, sin_add_nat_mul_two_pi]
  have hb : ∀ (p : ℕ × ℕ) (x y : ℝ), ‖(((1 / 2 : ℝ)) ^ p.1 * (1 / 3) ^ p.2) * (wave .periodic 0 p.1 x * wave .periodic 0 p.2 y)‖ ≤ (1 / 2 : ℝ) ^ p.1 * (1 / 3) ^ p.2 := fun p x y => by
    rw [Real.norm_eq_abs, abs_mul, abs_of_nonneg (show (0 : ℝ) ≤ (1 / 2) ^ p.1 * (1 / 3) ^ p.2 by positivity), abs_mul]
    exact mul_le_of_le_one_right (by positivity) (mul_le_one₀ (wave_bound .periodic 0 p.1 (Set.mem_univ x)) (abs_nonneg _) (wave_bound .periodic 0 p.2 (Set.mem_univ y)))
  refine ⟨fun x y => ∑' p : ℕ × ℕ, (((1 / 2 : ℝ)) ^ p.1 * (1 / 3) ^ p.2) * (wave .periodic 0 p.1 x * wave .periodic 0 p.2 y), ⟨rfl, fun f hf => ?_⟩,
    C106_recovers_series .periodic .periodic 20 30 (show 1 ≤ 20 by norm_num) (show 1 ≤ 30 by norm_num) 0 true _ _ ?_⟩
  · rw [List.mem_singleton] at hf
    subst hf
    refine ⟨⟨continuous_tsum (fun p => ?_) hasS.summable fun p z => hb p z.1 z.2, fun _ x y => ?_, fun _ x y => ?_⟩, fun x _ y _ => ?_⟩
    · exact continuous_const.mul (((wc p.1).comp continuous_fst).mul ((wc p.2).comp continuous_snd))
    · simp only [wp]
    · simp only [wp]
    · have := tsum_of_norm_bounded hasS fun p => hb p x y
      rw [Real.norm_eq_abs] at this
      exact this.trans (by norm_num)
  · obtain ⟨c, h1, h2⟩ := C91_geometric .periodic .periodic 20 30 true 0 0 _ _ hE 1 (1 / 2) (1 / 3) (by norm_num) (by norm_num) (by norm_num)
      (by norm_num) fun p => by rw [abs_of_nonneg (by positivity), one_mul]
    refine ⟨c, h1, h2.trans ?_⟩
    have e1 : (grid₀ .periodic 20).N 0 true = 20 := rfl
    have e2 : (grid₀ .periodic 30).N 0 true = 30 := rfl
    rw [e1, e2]
    norm_num [wavesOf, gain, show ¬ (Kind.periodic = Kind.chebyshev) from nofun]

end Dec.Props
