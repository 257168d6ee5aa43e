import Verif.Model.Diffeo
import Verif.Lib.Tab
import Mathlib.Tactic
import Mathlib.Analysis.Calculus.Deriv.MeanValue
import Mathlib.Analysis.Real.Pi.Bounds
import Mathlib.Analysis.SpecialFunctions.Trigonometric.Inverse

/-!
# C108: the maps of the diffeomorphism notebook
-/

namespace Dec.Props

open Real Dec.Diffeo

theorem J_of {φ : Map} {s t a b c d : ℝ} (h1 : HasDerivAt (fun s => φ.x s t) a s) (h2 : HasDerivAt (fun t => φ.x s t) b t)
    (h3 : HasDerivAt (fun s => φ.y s t) c s) (h4 : HasDerivAt (fun t => φ.y s t) d t) : J φ s t = !![a, b; c, d] := by
  unfold J; rw [h1.deriv, h2.deriv, h3.deriv, h4.deriv]

/-- C108: for every map (of which the notebook shows one), the second and the third invariant are the same function, the square of the Jacobian
determinant; the first is at least twice its absolute value, with equality exactly where the map is conformal (or anti-conformal); and `g` is symmetric with
nonnegative diagonal. -/
theorem C108_invariants (φ : Map) (s t : ℝ) :
    II φ s t = III φ s t ∧ III φ s t = (J φ s t).det ^ 2 ∧ 2 * |(J φ s t).det| ≤ I φ s t ∧
    (2 * (J φ s t).det = I φ s t ↔ J φ s t 0 0 = J φ s t 1 1 ∧ J φ s t 0 1 = - J φ s t 1 0) ∧
    (2 * (-(J φ s t).det) = I φ s t ↔ J φ s t 0 0 = - J φ s t 1 1 ∧ J φ s t 0 1 = J φ s t 1 0) ∧
    g φ s t 0 1 = g φ s t 1 0 ∧ 0 ≤ g φ s t 0 0 ∧ 0 ≤ g φ s t 1 1 := by
  unfold II III I g
  generalize J φ s t = A
  simp only [Matrix.trace_fin_two, Matrix.det_fin_two, Matrix.mul_apply, Fin.sum_univ_two, Matrix.transpose_apply]
  generalize A 0 0 = a; generalize A 0 1 = b; generalize A 1 0 = c; generalize A 1 1 = d
  refine ⟨by ring, by ring, ?_, ⟨fun h => ?_, ?_⟩, ⟨fun h => ?_, ?_⟩, by ring, by nlinarith [sq_nonneg a, sq_nonneg c], by nlinarith [sq_nonneg b, sq_nonneg d]⟩
  · rw [show ∀ z : ℝ, 2 * |z| = |2 * z| from fun z => by rw [abs_mul]; norm_num]
    rw [abs_le]
    constructor <;> nlinarith [sq_nonneg (a - d), sq_nonneg (b + c), sq_nonneg (a + d), sq_nonneg (b - c)]
  · constructor <;> nlinarith [sq_nonneg (a - d), sq_nonneg (b + c)]
  · rintro ⟨h1, h2⟩; rw [h1, h2]; ring
  · constructor <;> nlinarith [sq_nonneg (a + d), sq_nonneg (b - c)]
  · rintro ⟨h1, h2⟩; rw [h1, h2]; ring

/-! ## The maps -/

theorem J_sine (s t : ℝ) : J sine s t = !![1, 0; -(π * cos (π * s)), 1] := by
  refine J_of (hasDerivAt_id s) (hasDerivAt_const t s) ?_ ?_
  · have h : HasDerivAt (fun s => sin (π * s)) (cos (π * s) * (π * 1)) s := ((hasDerivAt_id s).const_mul π).sin
    exact (h.const_sub t).congr_deriv (by ring)
  · exact (hasDerivAt_id t).sub_const _

/-- C108: the sine transform, the map the notebook uses, has determinant one everywhere, is a bijection of the plane, fixes the points at which the notebook
evaluates it, and the colour scales centred at one are right for its second and third invariant, which are constant, while the first is
`2 + π² cos²(πs)`, between 2 and `2 + π²`. -/
theorem C108_sine :
    (∀ s t, (J sine s t).det = 1) ∧ (∀ s t, I sine s t = 2 + π ^ 2 * cos (π * s) ^ 2) ∧ (∀ s t, II sine s t = 1 ∧ III sine s t = 1) ∧
    (∀ s t, g sine s t 0 0 = 1 + π ^ 2 * cos (π * s) ^ 2 ∧ g sine s t 1 0 = -(π * cos (π * s)) ∧ g sine s t 1 1 = 1) ∧
    Function.Bijective sine.at ∧ sine.at (0, 0) = (0, 0) ∧ sine.at (-1, -1) = (-1, -1) := by
  have hdet : ∀ s t, (J sine s t).det = 1 := fun s t => by rw [J_sine, Matrix.det_fin_two_of]; ring
  have hg : ∀ s t, g sine s t 0 0 = 1 + π ^ 2 * cos (π * s) ^ 2 ∧ g sine s t 1 0 = -(π * cos (π * s)) ∧ g sine s t 1 1 = 1 := fun s t => by
    unfold g; rw [J_sine]
    simp only [Matrix.mul_apply, Fin.sum_univ_two, Matrix.transpose_apply, Matrix.of_apply, Matrix.cons_val', Matrix.cons_val_zero, Matrix.cons_val_one,
      Matrix.cons_val_fin_one]
    refine ⟨by ring, by ring, by ring⟩
  refine ⟨hdet, fun s t => ?_, fun s t => ?_, hg, ⟨fun p q h => ?_, fun p => ?_⟩, ?_, ?_⟩
  · unfold I; rw [Matrix.trace_fin_two, (hg s t).1, (hg s t).2.2]; ring
  · obtain ⟨h1, h2, _⟩ := C108_invariants sine s t
    rw [h1, h2, hdet]; norm_num
  · obtain ⟨p1, p2⟩ := p
    obtain ⟨q1, q2⟩ := q
    simp only [Map.at, sine, Prod.mk.injEq] at h
    obtain ⟨rfl, h⟩ := h
    rw [Prod.mk.injEq]; exact ⟨rfl, by linarith⟩
  · exact ⟨(p.1, p.2 + sin (π * p.1)), by simp [Map.at, sine]⟩
  · simp [Map.at, sine]
  · simp [Map.at, sine]

theorem J_wave (c s t : ℝ) : J (wave c) s t = !![1 + c * (cos (π * s) * (π * 1)) * sin (π * t), c * sin (π * s) * (cos (π * t) * (π * 1));
    c * (cos (π * s) * (π * 1)) * sin (π * t), 1 + c * sin (π * s) * (cos (π * t) * (π * 1))] := by
  have h1 : HasDerivAt (fun s => sin (π * s)) (cos (π * s) * (π * 1)) s := ((hasDerivAt_id s).const_mul π).sin
  have h2 : HasDerivAt (fun t => sin (π * t)) (cos (π * t) * (π * 1)) t := ((hasDerivAt_id t).const_mul π).sin
  have h3 := (h1.const_mul c).mul_const (sin (π * t))
  have h4 := h2.const_mul (c * sin (π * s))
  exact J_of ((hasDerivAt_id s).add h3) (h4.const_add s) (h3.const_add t) ((hasDerivAt_id t).add h4)

/-- C108: the first commented map has determinant `1 + cπ sin(π(s+t))`; for `|c| π < 1` (the notebook has `c = 1/5`) it is positive everywhere and the map is a
bijection of the plane. -/
theorem C108_wave (c : ℝ) :
    (∀ s t, (J (wave c) s t).det = 1 + c * π * sin (π * (s + t))) ∧
    (|c| * π < 1 → (∀ s t, 0 < (J (wave c) s t).det) ∧ Function.Bijective (wave c).at) := by
  have hdet : ∀ s t, (J (wave c) s t).det = 1 + c * π * sin (π * (s + t)) := fun s t => by
    rw [J_wave, Matrix.det_fin_two_of, show π * (s + t) = π * s + π * t by ring, sin_add]; ring
  refine ⟨hdet, fun hc => ?_⟩
  have hlt : ∀ x : ℝ, |c * π * sin x| < 1 := fun x => by
    rw [abs_mul, abs_mul, abs_of_pos pi_pos]
    calc |c| * π * |sin x| ≤ |c| * π * 1 := by
          refine mul_le_mul_of_nonneg_left (abs_sin_le_one x) (by positivity)
      _ < 1 := by rw [mul_one]; exact hc
  have hpos : ∀ s t, 0 < (J (wave c) s t).det := fun s t => by
    rw [hdet]; have := (abs_lt.1 (hlt (π * (s + t)))).1; linarith
  refine ⟨hpos, ?_⟩
  -- in terms of the sum u and the difference d the map is u ↦ u + c (cos πd - cos πu), d ↦ d
  set F : ℝ → ℝ → ℝ := fun d u => u + c * (cos (π * d) - cos (π * u)) with hF
  have hder : ∀ d u, HasDerivAt (F d) (1 + c * π * sin (π * u)) u := fun d u => by
    have h1 : HasDerivAt (fun u => cos (π * u)) (-sin (π * u) * (π * 1)) u := ((hasDerivAt_id u).const_mul π).cos
    have h2 := (hasDerivAt_id u).add (((h1.const_sub (cos (π * d))).const_mul c))
    exact h2.congr_deriv (by ring)
  have hmono : ∀ d, StrictMono (F d) := fun d => by
    refine strictMono_of_deriv_pos fun u => ?_
    rw [(hder d u).deriv]; have := (abs_lt.1 (hlt (π * u))).1; linarith
  have hcont : ∀ d, Continuous (F d) := fun d => continuous_iff_continuousAt.2 fun u => (hder d u).continuousAt
  have hbd : ∀ d u, |F d u - u| ≤ 2 * |c| := fun d u => by
    have : F d u - u = c * (cos (π * d) - cos (π * u)) := by rw [hF]; ring
    rw [this, abs_mul]
    have h1 := abs_cos_le_one (π * d)
    have h2 := abs_cos_le_one (π * u)
    have h3 := abs_sub (cos (π * d)) (cos (π * u))
    nlinarith [abs_nonneg c]
  have hsurj : ∀ d, Function.Surjective (F d) := fun d v => by
    have h1 := abs_le.1 (hbd d (v - 2 * |c|))
    have h2 := abs_le.1 (hbd d (v + 2 * |c|))
    have hle : v - 2 * |c| ≤ v + 2 * |c| := by linarith [abs_nonneg c]
    obtain ⟨u, _, hu⟩ := intermediate_value_Icc hle (hcont d).continuousOn (show v ∈ Set.Icc (F d (v - 2 * |c|)) (F d (v + 2 * |c|)) from
      ⟨by linarith, by linarith⟩)
    exact ⟨u, hu⟩
  have hsum : ∀ s t, (wave c).x s t + (wave c).y s t = F (s - t) (s + t) := fun s t => by
    simp only [wave, hF]
    rw [show π * (s - t) = π * s - π * t by ring, show π * (s + t) = π * s + π * t by ring, cos_sub, cos_add]; ring
  have hdiff : ∀ s t, (wave c).x s t - (wave c).y s t = s - t := fun s t => by simp only [wave]; ring
  constructor
  · rintro ⟨s, t⟩ ⟨s', t'⟩ h
    simp only [Map.at, Prod.mk.injEq] at h
    have h1 : s - t = s' - t' := by rw [← hdiff s t, ← hdiff s' t', h.1, h.2]
    have h2 : F (s - t) (s + t) = F (s - t) (s' + t') := by rw [← hsum s t, h.1, h.2, hsum, h1]
    have h3 := (hmono _).injective h2
    rw [Prod.mk.injEq]; constructor <;> linarith
  · rintro ⟨x, y⟩
    obtain ⟨u, hu⟩ := hsurj (x - y) (x + y)
    refine ⟨((u + (x - y)) / 2, (u - (x - y)) / 2), ?_⟩
    have h1 := hsum ((u + (x - y)) / 2) ((u - (x - y)) / 2)
    have h2 := hdiff ((u + (x - y)) / 2) ((u - (x - y)) / 2)
    rw [show (u + (x - y)) / 2 - (u - (x - y)) / 2 = x - y by ring, show (u + (x - y)) / 2 + (u - (x - y)) / 2 = u by ring, hu] at h1
    rw [show (u + (x - y)) / 2 - (u - (x - y)) / 2 = x - y by ring] at h2
    simp only [Map.at, Prod.mk.injEq]
    constructor <;> linarith

/-- The constant of the notebook satisfies the hypothesis. -/
example : |(2 / 10 : ℝ)| * π < 1 := by rw [abs_of_pos (by norm_num)]; linarith [pi_lt_d2]

/-- The square `[-1, 1] × [-1, 1]` on which the notebook draws the maps. -/
def theSquare : Set (ℝ × ℝ) := Set.Icc (-1) 1 ×ˢ Set.Icc (-1) 1

theorem mem_theSquare {p : ℝ × ℝ} : p ∈ theSquare ↔ (-1 ≤ p.1 ∧ p.1 ≤ 1) ∧ (-1 ≤ p.2 ∧ p.2 ≤ 1) := by
  unfold theSquare; rw [Set.mem_prod, Set.mem_Icc, Set.mem_Icc]

/-- C108: `flat` and `squeeze` have determinant one and are bijections of the plane; the second and third invariant do not tell them apart, the first does. -/
theorem C108_flat_squeeze :
    (∀ s t, (J flat s t).det = 1 ∧ (J squeeze s t).det = 1 ∧ I flat s t = 2 ∧ I squeeze s t = 3) ∧
    (∀ p, flat.at p = p) ∧ Function.Bijective squeeze.at := by
  have h1 : ∀ s t, J flat s t = !![1, 0; 0, 1] := fun s t => J_of (hasDerivAt_id s) (hasDerivAt_const t s) (hasDerivAt_const s t) (hasDerivAt_id t)
  have h2 : ∀ s t, J squeeze s t = !![1, 1; 0, 1] := fun s t =>
    J_of ((hasDerivAt_id s).add_const t) ((hasDerivAt_id t).const_add s) (hasDerivAt_const s t) (hasDerivAt_id t)
  refine ⟨fun s t => ⟨by rw [h1, Matrix.det_fin_two_of]; norm_num, by rw [h2, Matrix.det_fin_two_of]; norm_num, ?_, ?_⟩, fun p => rfl, ⟨?_, ?_⟩⟩
  · unfold I g; rw [h1]; simp [Matrix.trace_fin_two, Matrix.mul_apply, Fin.sum_univ_two]; norm_num
  · unfold I g; rw [h2]; simp [Matrix.trace_fin_two, Matrix.mul_apply, Fin.sum_univ_two]; norm_num
  · rintro ⟨s, t⟩ ⟨s', t'⟩ h
    simp only [Map.at, squeeze, Prod.mk.injEq] at h
    obtain ⟨h, rfl⟩ := h
    rw [Prod.mk.injEq]; exact ⟨by linarith, rfl⟩
  · rintro ⟨x, y⟩; exact ⟨(x - y, y), by simp [Map.at, squeeze]⟩

/-- C108: the Chebyshev map has a positive determinant in the interior of the square, zero on its boundary (where the logarithm that the last figure plots
is that of zero), and maps the square onto itself one to one. -/
theorem C108_chebyshev :
    (∀ s t, (J chebyshev s t).det = π ^ 2 / 4 * sin (π * (s + 1) / 2) * sin (π * (t + 1) / 2)) ∧
    (∀ s t, -1 < s → s < 1 → -1 < t → t < 1 → 0 < (J chebyshev s t).det) ∧
    (∀ p ∈ theSquare, p.1 = -1 ∨ p.1 = 1 ∨ p.2 = -1 ∨ p.2 = 1 → (J chebyshev p.1 p.2).det = 0) ∧
    Set.BijOn chebyshev.at theSquare theSquare := by
  have hd : ∀ u : ℝ, HasDerivAt (fun u => -cos (π * (u + 1) / 2)) (π / 2 * sin (π * (u + 1) / 2)) u := fun u => by
    have h1 : HasDerivAt (fun u : ℝ => π * (u + 1) / 2) (π * 1 / 2) u := (((hasDerivAt_id u).add_const 1).const_mul π).div_const 2
    exact (h1.cos.neg).congr_deriv (by ring)
  have hJ : ∀ s t, (J chebyshev s t).det = π ^ 2 / 4 * sin (π * (s + 1) / 2) * sin (π * (t + 1) / 2) := fun s t => by
    rw [J_of (φ := chebyshev) (hd s) (hasDerivAt_const t _) (hasDerivAt_const s _) (hd t), Matrix.det_fin_two_of]; ring
  have hsin : ∀ u : ℝ, -1 < u → u < 1 → 0 < sin (π * (u + 1) / 2) := fun u h1 h2 =>
    sin_pos_of_pos_of_lt_pi (by have := pi_pos; have : 0 < u + 1 := by linarith
                                positivity) (by nlinarith [pi_pos])
  have h01 : ∀ u : ℝ, -1 ≤ u → u ≤ 1 → π * (u + 1) / 2 ∈ Set.Icc 0 π := fun u h1 h2 => ⟨by nlinarith [pi_pos], by nlinarith [pi_pos]⟩
  have hinj : ∀ u v : ℝ, -1 ≤ u → u ≤ 1 → -1 ≤ v → v ≤ 1 → -cos (π * (u + 1) / 2) = -cos (π * (v + 1) / 2) → u = v := fun u v a1 a2 b1 b2 h => by
    have := injOn_cos (h01 u a1 a2) (h01 v b1 b2) (neg_inj.1 h)
    have hp := pi_pos.ne'
    field_simp at this
    linarith
  have hsurj : ∀ x : ℝ, -1 ≤ x → x ≤ 1 → ∃ u, -1 ≤ u ∧ u ≤ 1 ∧ -cos (π * (u + 1) / 2) = x := fun x h1 h2 => by
    refine ⟨2 * arccos (-x) / π - 1, ?_, ?_, ?_⟩
    · have := arccos_nonneg (-x); have hp := pi_pos
      have : 0 ≤ 2 * arccos (-x) / π := by positivity
      linarith
    · have h3 := arccos_le_pi (-x)
      have : 2 * arccos (-x) / π ≤ 2 := by rw [div_le_iff₀ pi_pos]; linarith
      linarith
    · rw [show π * (2 * arccos (-x) / π - 1 + 1) / 2 = arccos (-x) by field_simp; ring, cos_arccos (by linarith) (by linarith)]; ring
  refine ⟨hJ, fun s t a b c d => ?_, fun p hp h => ?_, ?_, ?_, ?_⟩
  · rw [hJ]; have := hsin s a b; have := hsin t c d; positivity
  · rw [hJ]
    rcases h with h | h | h | h <;> rw [h] <;> norm_num
  · intro p _
    rw [mem_theSquare]
    simp only [Map.at, chebyshev]
    refine ⟨⟨by linarith [cos_le_one (π * (p.1 + 1) / 2)], by linarith [neg_one_le_cos (π * (p.1 + 1) / 2)]⟩,
      ⟨by linarith [cos_le_one (π * (p.2 + 1) / 2)], by linarith [neg_one_le_cos (π * (p.2 + 1) / 2)]⟩⟩
  · rintro ⟨s, t⟩ hp ⟨s', t'⟩ hq h
    rw [mem_theSquare] at hp hq
    simp only [Map.at, chebyshev, Prod.mk.injEq] at h
    rw [Prod.mk.injEq]
    exact ⟨hinj _ _ hp.1.1 hp.1.2 hq.1.1 hq.1.2 h.1, hinj _ _ hp.2.1 hp.2.2 hq.2.1 hq.2.2 h.2⟩
  · rintro ⟨x, y⟩ hp
    rw [mem_theSquare] at hp
    obtain ⟨s, a1, a2, a3⟩ := hsurj x hp.1.1 hp.1.2
    obtain ⟨t, b1, b2, b3⟩ := hsurj y hp.2.1 hp.2.2
    exact ⟨(s, t), mem_theSquare.2 ⟨⟨a1, a2⟩, ⟨b1, b2⟩⟩, by simp only [Map.at, chebyshev]; rw [a3, b3]⟩

/-- C108: the polar map has determinant `r = s + 2`, so between 1 and 3 on the square, where it is one to one; lengths along the radius are unchanged and
those along the angle multiplied by `r`. -/
theorem C108_polar :
    (∀ s t, (J polar s t).det = s + 2 ∧ g polar s t 0 0 = 1 ∧ g polar s t 1 0 = 0 ∧ g polar s t 1 1 = (s + 2) ^ 2) ∧
    (∀ p ∈ theSquare, 1 ≤ (J polar p.1 p.2).det ∧ (J polar p.1 p.2).det ≤ 3) ∧ Set.InjOn polar.at theSquare := by
  have hJ : ∀ s t, J polar s t = !![cos t, -((s + 2) * sin t); sin t, (s + 2) * cos t] := fun s t => by
    have h : HasDerivAt (fun s : ℝ => s + 2) 1 s := (hasDerivAt_id s).add_const 2
    refine J_of ?_ ?_ ?_ ?_
    · exact (h.mul_const (cos t)).congr_deriv (by ring)
    · exact ((hasDerivAt_cos t).const_mul (s + 2)).congr_deriv (by ring)
    · exact (h.mul_const (sin t)).congr_deriv (by ring)
    · exact (hasDerivAt_sin t).const_mul (s + 2)
  have hdet : ∀ s t, (J polar s t).det = s + 2 := fun s t => by
    rw [hJ, Matrix.det_fin_two_of]; linear_combination (s + 2) * sin_sq_add_cos_sq t
  refine ⟨fun s t => ⟨hdet s t, ?_⟩, fun p hp => ?_, ?_⟩
  · unfold g; rw [hJ]
    simp only [Matrix.mul_apply, Fin.sum_univ_two, Matrix.transpose_apply, Matrix.of_apply, Matrix.cons_val', Matrix.cons_val_zero, Matrix.cons_val_one,
      Matrix.cons_val_fin_one]
    refine ⟨by linear_combination sin_sq_add_cos_sq t, by ring, by linear_combination (s + 2) ^ 2 * sin_sq_add_cos_sq t⟩
  · rw [hdet]; rw [mem_theSquare] at hp; constructor <;> linarith [hp.1.1, hp.1.2]
  · rintro ⟨s, t⟩ hp ⟨s', t'⟩ hq h
    rw [mem_theSquare] at hp hq
    simp only at hp hq
    simp only [Map.at, polar, Prod.mk.injEq] at h
    have h1 : (s + 2) ^ 2 = (s' + 2) ^ 2 := by
      have e1 : (s + 2) ^ 2 = ((s + 2) * cos t) ^ 2 + ((s + 2) * sin t) ^ 2 := by linear_combination (-(s + 2) ^ 2) * sin_sq_add_cos_sq t
      have e2 : (s' + 2) ^ 2 = ((s' + 2) * cos t') ^ 2 + ((s' + 2) * sin t') ^ 2 := by linear_combination (-(s' + 2) ^ 2) * sin_sq_add_cos_sq t'
      rw [e1, e2, h.1, h.2]
    have h2 : s = s' := by
      have := (sq_eq_sq₀ (by linarith [hp.1.1]) (by linarith [hq.1.1])).1 h1
      linarith
    subst h2
    have h3 : s + 2 ≠ 0 := by linarith [hp.1.1]
    have hs : sin t = sin t' := mul_left_cancel₀ h3 h.2
    have hb : (1 : ℝ) ≤ π / 2 := by linarith [pi_gt_three]
    have := injOn_sin (show t ∈ Set.Icc (-(π / 2)) (π / 2) from ⟨by linarith [hp.2.1], by linarith [hp.2.2]⟩)
      (show t' ∈ Set.Icc (-(π / 2)) (π / 2) from ⟨by linarith [hq.2.1], by linarith [hq.2.2]⟩) hs
    rw [this]

/-- C108: the three maps made of powers are one to one on the square; `powers` has determinant `-12uv² < 0` and so exchanges left and right, `cubes` has
`9u²v² > 0`, and `square` (complex squaring) `4(u²+v²) > 0` and is conformal. -/
theorem C108_powers :
    (∀ s t, (J powers s t).det = -12 * (s + 2) * (t + 2) ^ 2 ∧ (J cubes s t).det = 9 * (s + 2) ^ 2 * (t + 2) ^ 2 ∧
      (J square s t).det = 4 * ((s + 2) ^ 2 + t ^ 2) ∧ I square s t = 2 * (J square s t).det) ∧
    (∀ p ∈ theSquare, (J powers p.1 p.2).det < 0 ∧ 0 < (J cubes p.1 p.2).det ∧ 0 < (J square p.1 p.2).det) ∧
    Set.InjOn powers.at theSquare ∧ Set.InjOn cubes.at theSquare ∧ Set.InjOn square.at theSquare := by
  have hp : ∀ (n : ℕ) (u : ℝ), HasDerivAt (fun u : ℝ => (u + 2) ^ n) (n * (u + 2) ^ (n - 1) * 1) u := fun n u => ((hasDerivAt_id u).add_const 2).pow n
  have h1 : ∀ s t, (J powers s t).det = -12 * (s + 2) * (t + 2) ^ 2 := fun s t => by
    rw [J_of (φ := powers) ((hp 2 s).add_const _) ((hp 3 t).const_add _) ((hp 2 s).sub_const _) ((hp 3 t).const_sub _), Matrix.det_fin_two_of]
    norm_num; ring
  have h2 : ∀ s t, (J cubes s t).det = 9 * (s + 2) ^ 2 * (t + 2) ^ 2 := fun s t => by
    rw [J_of (φ := cubes) (hp 3 s) (hasDerivAt_const t _) (hasDerivAt_const s _) (hp 3 t), Matrix.det_fin_two_of]
    norm_num; ring
  have hJ : ∀ s t, J square s t = !![2 * (s + 2), -(2 * t); 2 * t, 2 * (s + 2)] := fun s t => by
    refine J_of (((hp 2 s).sub_const _).congr_deriv (by norm_num)) (((((hasDerivAt_id t).pow 2)).const_sub _).congr_deriv (by norm_num))
      ((((((hasDerivAt_id s).add_const 2).const_mul 2).mul_const t)).congr_deriv (by ring))
      ((((hasDerivAt_id t).const_mul (2 * (s + 2)))).congr_deriv (by ring))
  have h3 : ∀ s t, (J square s t).det = 4 * ((s + 2) ^ 2 + t ^ 2) := fun s t => by rw [hJ, Matrix.det_fin_two_of]; ring
  refine ⟨fun s t => ⟨h1 s t, h2 s t, h3 s t, ?_⟩, fun p hpq => ?_, ?_, ?_, ?_⟩
  · refine ((C108_invariants square s t).2.2.2.1.2 ?_).symm
    rw [hJ]; simp
  · rw [mem_theSquare] at hpq
    have a : 0 < p.1 + 2 := by linarith [hpq.1.1]
    have b : 0 < p.2 + 2 := by linarith [hpq.2.1]
    rw [h1, h2, h3]
    refine ⟨by have : 0 < (p.1 + 2) * (p.2 + 2) ^ 2 := by positivity
               linarith, by positivity, by positivity⟩
  · rintro ⟨s, t⟩ hpq ⟨s', t'⟩ hq h
    rw [mem_theSquare] at hpq hq
    simp only at hpq hq
    simp only [Map.at, powers, Prod.mk.injEq] at h
    have e1 : (s + 2) ^ 2 = (s' + 2) ^ 2 := by linarith [h.1, h.2]
    have e2 : (t + 2) ^ 3 = (t' + 2) ^ 3 := by linarith [h.1, h.2]
    have e3 := (pow_left_inj₀ (by linarith [hpq.1.1]) (by linarith [hq.1.1]) two_ne_zero).1 e1
    have e4 := (pow_left_inj₀ (by linarith [hpq.2.1]) (by linarith [hq.2.1]) three_ne_zero).1 e2
    rw [Prod.mk.injEq]; constructor <;> linarith
  · rintro ⟨s, t⟩ hpq ⟨s', t'⟩ hq h
    rw [mem_theSquare] at hpq hq
    simp only at hpq hq
    simp only [Map.at, cubes, Prod.mk.injEq] at h
    have e3 := (pow_left_inj₀ (by linarith [hpq.1.1]) (by linarith [hq.1.1]) three_ne_zero).1 h.1
    have e4 := (pow_left_inj₀ (by linarith [hpq.2.1]) (by linarith [hq.2.1]) three_ne_zero).1 h.2
    rw [Prod.mk.injEq]; constructor <;> linarith
  · rintro ⟨s, t⟩ hpq ⟨s', t'⟩ hq h
    rw [mem_theSquare] at hpq hq
    simp only at hpq hq
    simp only [Map.at, square, Prod.mk.injEq] at h
    obtain ⟨u, rfl⟩ : ∃ u, s = u - 2 := ⟨s + 2, by ring⟩
    obtain ⟨u', rfl⟩ : ∃ u', s' = u' - 2 := ⟨s' + 2, by ring⟩
    simp only [sub_add_cancel] at h
    have hu : 1 ≤ u := by linarith [hpq.1.1]
    have hu' : 1 ≤ u' := by linarith [hq.1.1]
    -- (z - z')(z + z') = 0 and the real part of z + z' is positive
    have e1 : (u - u') * (u + u') = (t - t') * (t + t') := by linarith [h.1]
    have e2 : (u - u') * (t + t') + (t - t') * (u + u') = 0 := by linarith [h.2]
    have e3 : (u - u') * ((u + u') ^ 2 + (t + t') ^ 2) = 0 := by linear_combination (u + u') * e1 + (t + t') * e2
    have e4 : (t - t') * ((u + u') ^ 2 + (t + t') ^ 2) = 0 := by linear_combination (-(t + t')) * e1 + (u + u') * e2
    have e5 : (u + u') ^ 2 + (t + t') ^ 2 ≠ 0 := by nlinarith [sq_nonneg (t + t')]
    have e6 := (mul_eq_zero.1 e3).resolve_right e5
    have e7 := (mul_eq_zero.1 e4).resolve_right e5
    rw [Prod.mk.injEq]; constructor <;> linarith

/-- The closed unit disk. -/
def theDisk : Set (ℝ × ℝ) := {p | p.1 ^ 2 + p.2 ^ 2 ≤ 1}

theorem circle_at (s t : ℝ) : (circle 1).at (s, t) = (s * √(1 - t ^ 2 / 2), t * √(1 - s ^ 2 / 2)) := by
  simp only [Map.at, circle]; ring_nf

theorem circle_sq {s t : ℝ} (hs : s ^ 2 ≤ 1) (ht : t ^ 2 ≤ 1) :
    (s * √(1 - t ^ 2 / 2)) ^ 2 = s ^ 2 - s ^ 2 * t ^ 2 / 2 ∧ (t * √(1 - s ^ 2 / 2)) ^ 2 = t ^ 2 - s ^ 2 * t ^ 2 / 2 := by
  rw [mul_pow, mul_pow, sq_sqrt (by linarith), sq_sqrt (by linarith)]
  constructor <;> ring

/-- A number is determined by its square and its sign, where the sign is that of a positive multiple. -/
theorem eq_of_scaled {s s' r r' : ℝ} (hr : 0 < r) (hr' : 0 < r') (h : s * r = s' * r') (h2 : s ^ 2 = s' ^ 2) : s = s' := by
  rcases sq_eq_sq_iff_eq_or_eq_neg.1 h2 with h3 | h3
  · exact h3
  · subst h3
    have : s' * (r + r') = 0 := by linarith
    rcases mul_eq_zero.1 this with h4 | h4
    · rw [h4]; simp
    · linarith

/-- C108: the map from the square to the circle (`c = 1`): the determinant is `(1 - (s²+t²)/2) / (√(1-t²/2) √(1-s²/2))`, positive on the square except at the four
corners, where it is zero; `1 - x² - y² = (1 - s²)(1 - t²)`, so exactly the boundary goes to the unit circle; and the square is mapped onto the closed disk, one to
one. -/
theorem C108_circle :
    (∀ p ∈ theSquare, (J (circle 1) p.1 p.2).det = (1 - (p.1 ^ 2 + p.2 ^ 2) / 2) / (√(1 - p.2 ^ 2 / 2) * √(1 - p.1 ^ 2 / 2)) ∧
      (0 < (J (circle 1) p.1 p.2).det ∨ (p.1 ^ 2 = 1 ∧ p.2 ^ 2 = 1) ∧ (J (circle 1) p.1 p.2).det = 0) ∧
      1 - ((circle 1).at p).1 ^ 2 - ((circle 1).at p).2 ^ 2 = (1 - p.1 ^ 2) * (1 - p.2 ^ 2)) ∧
    Set.BijOn (circle 1).at theSquare theDisk := by
  have hsq : ∀ {p : ℝ × ℝ}, p ∈ theSquare → p.1 ^ 2 ≤ 1 ∧ p.2 ^ 2 ≤ 1 := fun {p} hp => by
    rw [mem_theSquare] at hp
    constructor <;> nlinarith [hp.1.1, hp.1.2, hp.2.1, hp.2.2]
  have hone : ∀ p ∈ theSquare, 1 - ((circle 1).at p).1 ^ 2 - ((circle 1).at p).2 ^ 2 = (1 - p.1 ^ 2) * (1 - p.2 ^ 2) := by
    rintro ⟨s, t⟩ hp
    obtain ⟨a, b⟩ := hsq hp
    have := circle_sq a b
    rw [circle_at]
    simp only at *
    rw [this.1, this.2]; ring
  refine ⟨fun p hp => ?_, ?_, ?_, ?_⟩
  · obtain ⟨s, t⟩ := p
    obtain ⟨a, b⟩ := hsq hp
    simp only at a b
    have hA : 0 < 1 - t ^ 2 / 2 := by linarith
    have hB : 0 < 1 - s ^ 2 / 2 := by linarith
    have hd : ∀ u : ℝ, 0 < 1 - u ^ 2 / 2 → HasDerivAt (fun u : ℝ => √(1 - u ^ 2 / 2)) (-u / (2 * √(1 - u ^ 2 / 2))) u := fun u hu => by
      have h1 : HasDerivAt (fun u : ℝ => 1 - u ^ 2 / 2) (-(2 * u / 2)) u := by
        have := (((hasDerivAt_id u).pow 2).div_const 2).const_sub 1
        exact this.congr_deriv (by norm_num)
      exact (h1.sqrt hu.ne').congr_deriv (by ring)
    have hx : HasDerivAt (fun s => (circle 1).x s t) (√(1 - t ^ 2 / 2)) s := by
      have h1 := (hasDerivAt_id s).mul_const (1 - (1 : ℝ))
      have h2 := ((hasDerivAt_id s).const_mul (1 : ℝ)).mul_const (√(1 - t ^ 2 / 2))
      exact (h1.add h2).congr_deriv (by ring)
    have hx' : HasDerivAt (fun t => (circle 1).x s t) (1 * s * (-t / (2 * √(1 - t ^ 2 / 2)))) t :=
      ((hd t hA).const_mul (1 * s)).const_add (s * (1 - 1))
    have hy : HasDerivAt (fun t => (circle 1).y s t) (√(1 - s ^ 2 / 2)) t := by
      have h1 := (hasDerivAt_id t).mul_const (1 - (1 : ℝ))
      have h2 := ((hasDerivAt_id t).const_mul (1 : ℝ)).mul_const (√(1 - s ^ 2 / 2))
      exact (h1.add h2).congr_deriv (by ring)
    have hy' : HasDerivAt (fun s => (circle 1).y s t) (1 * t * (-s / (2 * √(1 - s ^ 2 / 2)))) s :=
      ((hd s hB).const_mul (1 * t)).const_add (t * (1 - 1))
    have sA := sqrt_pos.2 hA
    have sB := sqrt_pos.2 hB
    have eA := sq_sqrt hA.le
    have eB := sq_sqrt hB.le
    have hdet : (J (circle 1) s t).det = (1 - (s ^ 2 + t ^ 2) / 2) / (√(1 - t ^ 2 / 2) * √(1 - s ^ 2 / 2)) := by
      rw [J_of hx hx' hy' hy, Matrix.det_fin_two_of]
      generalize √(1 - t ^ 2 / 2) = A at *
      generalize √(1 - s ^ 2 / 2) = B at *
      rw [eq_div_iff (by positivity)]
      field_simp
      rw [eA, eB]
      ring
    refine ⟨hdet, ?_, hone _ hp⟩
    rcases lt_or_eq_of_le (show 0 ≤ 1 - (s ^ 2 + t ^ 2) / 2 by linarith) with h | h
    · left; rw [hdet]; positivity
    · right
      exact ⟨⟨by simp only; linarith, by simp only; linarith⟩, by rw [hdet, ← h, zero_div]⟩
  · intro p hp
    have h := hone p hp
    obtain ⟨a, b⟩ := hsq hp
    have : 0 ≤ (1 - p.1 ^ 2) * (1 - p.2 ^ 2) := mul_nonneg (by linarith) (by linarith)
    show ((circle 1).at p).1 ^ 2 + ((circle 1).at p).2 ^ 2 ≤ 1
    linarith
  · rintro ⟨s, t⟩ hp ⟨s', t'⟩ hq h
    obtain ⟨a, b⟩ := hsq hp
    obtain ⟨a', b'⟩ := hsq hq
    simp only at a b a' b'
    rw [circle_at, circle_at, Prod.mk.injEq] at h
    have c1 := circle_sq a b
    have c2 := circle_sq a' b'
    rw [h.1, h.2] at c1
    have e1 : s ^ 2 - s ^ 2 * t ^ 2 / 2 = s' ^ 2 - s' ^ 2 * t' ^ 2 / 2 := c1.1.symm.trans c2.1
    have e2 : t ^ 2 - s ^ 2 * t ^ 2 / 2 = t' ^ 2 - s' ^ 2 * t' ^ 2 / 2 := c1.2.symm.trans c2.2
    have e3 : s ^ 2 = s' ^ 2 ∧ t ^ 2 = t' ^ 2 := by
      generalize s ^ 2 = S at *; generalize t ^ 2 = T at *; generalize s' ^ 2 = S' at *; generalize t' ^ 2 = T' at *
      have d : S - S' = T - T' := by linarith
      have f : (T - T') * (2 - S' - T) = 0 := by linear_combination e1 + e2 - (1 - T) * d
      rcases mul_eq_zero.1 f with f | f
      · exact ⟨by linarith, by linarith⟩
      · have : T = 1 := by linarith
        have : S' = 1 := by linarith
        have h5 : S - 1 = 1 - T' := by linarith
        have : S = 1 := by linarith
        exact ⟨by linarith, by linarith⟩
    have r1 : ∀ u : ℝ, u ^ 2 ≤ 1 → 0 < √(1 - u ^ 2 / 2) := fun u hu => sqrt_pos.2 (by linarith)
    rw [Prod.mk.injEq]
    exact ⟨eq_of_scaled (r1 t b) (r1 t' b') h.1 e3.1, eq_of_scaled (r1 s a) (r1 s' a') h.2 e3.2⟩
  · rintro ⟨x, y⟩ hp
    have hp' : x ^ 2 + y ^ 2 ≤ 1 := hp
    obtain ⟨A, hA⟩ : ∃ A, A = x ^ 2 := ⟨_, rfl⟩
    obtain ⟨B, hB⟩ : ∃ B, B = y ^ 2 := ⟨_, rfl⟩
    have hA0 : 0 ≤ A := by rw [hA]; positivity
    have hB0 : 0 ≤ B := by rw [hB]; positivity
    have hAB : A + B ≤ 1 := by rw [hA, hB]; exact hp'
    -- the squares of the coordinates solve a quadratic equation
    obtain ⟨Δ, hΔ⟩ : ∃ Δ, Δ = (2 - A - B) ^ 2 - 4 * A * B := ⟨_, rfl⟩
    have hΔ0 : 0 ≤ Δ := by rw [hΔ]; nlinarith [sq_nonneg (A - B)]
    obtain ⟨r, hr⟩ : ∃ r, r = √Δ := ⟨_, rfl⟩
    have hr0 : 0 ≤ r := by rw [hr]; exact sqrt_nonneg _
    have hr2 : r ^ 2 = (2 - A - B) ^ 2 - 4 * A * B := by rw [hr, sq_sqrt hΔ0, hΔ]
    have u1 : r ≤ 2 + A - B := by
      refine (pow_le_pow_iff_left₀ hr0 (by linarith) two_ne_zero).1 ?_
      rw [hr2]; nlinarith
    have u2 : r ≤ 2 - A + B := by
      refine (pow_le_pow_iff_left₀ hr0 (by linarith) two_ne_zero).1 ?_
      rw [hr2]; nlinarith
    have v1 : A - B ≤ r := by
      rcases le_total (A - B) 0 with h | h
      · linarith
      · refine (pow_le_pow_iff_left₀ h hr0 two_ne_zero).1 ?_
        rw [hr2]; nlinarith
    have v2 : B - A ≤ r := by
      rcases le_total (B - A) 0 with h | h
      · linarith
      · refine (pow_le_pow_iff_left₀ h hr0 two_ne_zero).1 ?_
        rw [hr2]; nlinarith
    obtain ⟨S, hS⟩ : ∃ S, S = (2 + A - B - r) / 2 := ⟨_, rfl⟩
    obtain ⟨T, hT⟩ : ∃ T, T = (2 - A + B - r) / 2 := ⟨_, rfl⟩
    have S0 : 0 ≤ S := by rw [hS]; linarith
    have T0 : 0 ≤ T := by rw [hT]; linarith
    have S1 : S ≤ 1 := by rw [hS]; linarith
    have T1 : T ≤ 1 := by rw [hT]; linarith
    have k1 : S * (1 - T / 2) = A := by rw [hS, hT]; linear_combination (-1 / 8) * hr2
    have k2 : T * (1 - S / 2) = B := by rw [hS, hT]; linear_combination (-1 / 8) * hr2
    have m1 : 0 < √(1 - T / 2) := sqrt_pos.2 (by linarith)
    have m2 : 0 < √(1 - S / 2) := sqrt_pos.2 (by linarith)
    have q1 : (x / √(1 - T / 2)) ^ 2 = S := by
      rw [div_pow, sq_sqrt (by linarith), ← hA, ← k1, mul_div_cancel_right₀ _ (by linarith)]
    have q2 : (y / √(1 - S / 2)) ^ 2 = T := by
      rw [div_pow, sq_sqrt (by linarith), ← hB, ← k2, mul_div_cancel_right₀ _ (by linarith)]
    refine ⟨(x / √(1 - T / 2), y / √(1 - S / 2)), ?_, ?_⟩
    · rw [mem_theSquare]
      have b1 := abs_le_of_sq_le_sq' (show (x / √(1 - T / 2)) ^ 2 ≤ 1 ^ 2 by rw [q1]; linarith) zero_le_one
      have b2 := abs_le_of_sq_le_sq' (show (y / √(1 - S / 2)) ^ 2 ≤ 1 ^ 2 by rw [q2]; linarith) zero_le_one
      exact ⟨b1, b2⟩
    · rw [circle_at, q1, q2]
      rw [div_mul_cancel₀ _ m1.ne', div_mul_cancel₀ _ m2.ne']

/-! ## The figures -/

theorem length_rep {α : Type} (a : List α) (k : ℕ) : (rep a k).length = a.length * k := by
  unfold rep; induction a with
  | nil => simp
  | cons x l ih => rw [List.flatMap_cons, List.length_append, ih, List.length_replicate, List.length_cons]; ring

theorem length_tile {α : Type} (a : List α) (k : ℕ) : (tile a k).length = k * a.length := by
  unfold tile; simp

/-- C108: `cartesian_product(a, b)` is the list of all pairs, first component slowest. -/
theorem C108_cartesian_product {α β : Type} (a : List α) (b : List β) : cartesian_product a b = a.flatMap fun x => b.map fun y => (x, y) := by
  unfold cartesian_product rep tile
  have : ∀ (a : List α) (k : ℕ), k = a.length →
      (a.flatMap (List.replicate b.length)).zip ((List.replicate k b).flatten) = a.flatMap fun x => b.map fun y => (x, y) := by
    intro a
    induction a with
    | nil => intro k hk; simp
    | cons x l ih =>
      intro k hk
      obtain ⟨j, rfl⟩ : ∃ j, k = j + 1 := ⟨k - 1, by simp at hk; omega⟩
      rw [List.flatMap_cons, List.flatMap_cons, List.replicate_succ, List.flatten_cons, List.zip_append (by simp), ih j (by simpa using hk)]
      congr 1
      clear ih hk
      induction b with
      | nil => simp
      | cons y b ihb => simp [List.replicate_succ]; simpa using ihb
  exact this a _ rfl

theorem rows_flatten {α : Type} (m : ℕ) (L : List (List α)) (h : ∀ l ∈ L, l.length = m) : rows L.length m L.flatten = L := by
  unfold rows
  induction L with
  | nil => simp
  | cons l L ih =>
    have hl := h l (by simp)
    rw [List.length_cons, List.range_succ_eq_map, List.map_cons, List.map_map]
    have e := ih fun l hl => h l (by simp [hl])
    rw [List.flatten_cons]
    congr 1
    · rw [zero_mul, List.drop_zero, List.take_left' hl]
    · refine Eq.trans (List.map_congr_left fun i _ => ?_) e
      simp only [Function.comp, Nat.succ_eq_add_one]
      rw [show (i + 1) * m = l.length + i * m by rw [hl]; ring, List.drop_length_add_append]

/-- C108: `plot_grid(n, m, sub)` draws, in the first collection, for each of the `n` values of `x` the points `(x, yy)` for all `sub*m` values of `yy`, and in
the second for each of the `m` values of `y` the points `(xx, y)` for all `sub*n` values of `xx`, all moved by the map. -/
theorem C108_lines (n m sub : ℕ) (φ : Map) :
    lines1 n m sub φ = ((linspace (-1) 1 n).map fun x => (linspace (-1) 1 (sub * m)).map fun y => φ.at (x, y)) ∧
    lines2 n m sub φ = ((linspace (-1) 1 m).map fun y => (linspace (-1) 1 (sub * n)).map fun x => φ.at (x, y)) := by
  have hl : ∀ k, (linspace (-1) 1 k).length = k := fun k => by unfold linspace; simp
  have key : ∀ (n k : ℕ) (a b : List ℝ), a.length = n → b.length = k →
      rows n k ((rep a k).zip (tile b n)) = a.map fun x => b.map fun y => (x, y) := by
    intro n k a b ha hb
    have h1 := C108_cartesian_product a b
    unfold cartesian_product at h1
    rw [hb, ha] at h1
    rw [h1, List.flatMap_def]
    have := rows_flatten k (a.map fun x => b.map fun y => (x, y)) (by simp [hb])
    rwa [List.length_map, ha] at this
  have key2 : ∀ (n k : ℕ) (a b : List ℝ), a.length = n → b.length = k →
      rows n k ((tile b n).zip (rep a k)) = a.map fun x => b.map fun y => (y, x) := by
    intro n k a b ha hb
    have h1 := congrArg (List.map (List.map Prod.swap)) (key n k a b ha hb)
    rw [List.map_map] at h1
    have h2 : (List.map (List.map Prod.swap) (rows n k ((rep a k).zip (tile b n)))) = rows n k ((tile b n).zip (rep a k)) := by
      unfold rows
      rw [List.map_map]
      refine List.map_congr_left fun i _ => ?_
      simp only [Function.comp]
      rw [List.map_take, List.map_drop, List.zip_swap]
    rw [h2] at h1
    rw [h1]
    refine List.map_congr_left fun x _ => ?_
    simp
  constructor
  · unfold lines1 xyy
    rw [key n (sub * m) _ _ (hl n) (hl _), List.map_map]
    exact List.map_congr_left fun x _ => by simp
  · unfold lines2 xxy
    rw [key2 m (sub * n) _ _ (hl m) (hl _), List.map_map]
    exact List.map_congr_left fun x _ => by simp

theorem amin_le {l : List ℝ} {a : ℝ} (h : a ∈ l) : amin l ≤ a := by
  cases l with
  | nil => simp at h
  | cons b l =>
    have : ∀ (l : List ℝ) (b : ℝ), l.foldl min b ≤ b ∧ ∀ a ∈ l, l.foldl min b ≤ a := by
      intro l
      induction l with
      | nil => intro b; simp
      | cons c l ih =>
        intro b
        obtain ⟨h1, h2⟩ := ih (min b c)
        rw [List.foldl_cons]
        refine ⟨h1.trans (min_le_left _ _), fun a ha => ?_⟩
        rcases List.mem_cons.1 ha with rfl | ha
        · exact h1.trans (min_le_right _ _)
        · exact h2 a ha
    rcases List.mem_cons.1 h with rfl | h
    · exact (this l a).1
    · exact (this l b).2 a h

theorem le_amax {l : List ℝ} {a : ℝ} (h : a ∈ l) : a ≤ amax l := by
  cases l with
  | nil => simp at h
  | cons b l =>
    have : ∀ (l : List ℝ) (b : ℝ), b ≤ l.foldl max b ∧ ∀ a ∈ l, a ≤ l.foldl max b := by
      intro l
      induction l with
      | nil => intro b; simp
      | cons c l ih =>
        intro b
        obtain ⟨h1, h2⟩ := ih (max b c)
        rw [List.foldl_cons]
        refine ⟨(le_max_left _ _).trans h1, fun a ha => ?_⟩
        rcases List.mem_cons.1 ha with rfl | ha
        · exact (le_max_right _ _).trans h1
        · exact h2 a ha
    rcases List.mem_cons.1 h with rfl | h
    · exact (this l a).1
    · exact (this l b).2 a h

/-- C108: everything that `plot_grid` draws lies inside the limits of the axes, with a margin of at least 0.1. -/
theorem C108_limits (n m sub : ℕ) (φ : Map) (p : ℝ × ℝ) (h : p ∈ (lines1 n m sub φ).flatten ∨ p ∈ (lines2 n m sub φ).flatten) :
    (limits n m sub φ).1.1 + 0.1 ≤ p.1 ∧ p.1 ≤ (limits n m sub φ).1.2 - 0.1 ∧ (limits n m sub φ).2.1 + 0.1 ≤ p.2 ∧ p.2 ≤ (limits n m sub φ).2.2 - 0.1 := by
  unfold limits
  simp only
  rw [sub_add_cancel, sub_add_cancel, add_sub_cancel_right, add_sub_cancel_right]
  rcases h with h | h
  · exact ⟨(min_le_right _ _).trans (amin_le (List.mem_map_of_mem (f := Prod.fst) h)), (le_amax (List.mem_map_of_mem (f := Prod.fst) h)).trans (le_max_right _ _),
      (min_le_right _ _).trans (amin_le (List.mem_map_of_mem (f := Prod.snd) h)), (le_amax (List.mem_map_of_mem (f := Prod.snd) h)).trans (le_max_right _ _)⟩
  · exact ⟨(min_le_left _ _).trans (amin_le (List.mem_map_of_mem (f := Prod.fst) h)), (le_amax (List.mem_map_of_mem (f := Prod.fst) h)).trans (le_max_left _ _),
      (min_le_left _ _).trans (amin_le (List.mem_map_of_mem (f := Prod.snd) h)), (le_amax (List.mem_map_of_mem (f := Prod.snd) h)).trans (le_max_left _ _)⟩

/-- C108: with a centre, the colours of `plot_st` are symmetric about it and cover all values. -/
theorem C108_colours (Z : List ℝ) (center : ℝ) :
    ((colours Z center).1 + (colours Z center).2) / 2 = center ∧ ∀ z ∈ Z, (colours Z center).1 ≤ z ∧ z ≤ (colours Z center).2 := by
  unfold colours
  refine ⟨by simp only; ring, fun z hz => ?_⟩
  have h1 := le_max_left (center - amin Z) (amax Z - center)
  have h2 := le_max_right (center - amin Z) (amax Z - center)
  have h3 := amin_le hz
  have h4 := le_amax hz
  simp only
  constructor <;> linarith

theorem amin_mem {l : List ℝ} (h : l ≠ []) : amin l ∈ l := by
  cases l with
  | nil => exact absurd rfl h
  | cons b l =>
    have : ∀ (l : List ℝ) (b : ℝ), l.foldl min b = b ∨ l.foldl min b ∈ l := by
      intro l
      induction l with
      | nil => intro b; simp
      | cons c l ih =>
        intro b
        rw [List.foldl_cons]
        rcases ih (min b c) with h | h
        · rw [h]
          rcases min_choice b c with h' | h' <;> rw [h'] <;> simp
        · right; exact List.mem_cons_of_mem _ h
    rcases this l b with h | h
    · show l.foldl min b ∈ b :: l
      rw [h]; simp
    · exact List.mem_cons_of_mem _ h

theorem amax_mem {l : List ℝ} (h : l ≠ []) : amax l ∈ l := by
  cases l with
  | nil => exact absurd rfl h
  | cons b l =>
    have : ∀ (l : List ℝ) (b : ℝ), l.foldl max b = b ∨ l.foldl max b ∈ l := by
      intro l
      induction l with
      | nil => intro b; simp
      | cons c l ih =>
        intro b
        rw [List.foldl_cons]
        rcases ih (max b c) with h | h
        · rw [h]
          rcases max_choice b c with h' | h' <;> rw [h'] <;> simp
        · right; exact List.mem_cons_of_mem _ h
    rcases this l b with h | h
    · show l.foldl max b ∈ b :: l
      rw [h]; simp
    · exact List.mem_cons_of_mem _ h

theorem lines_ne_nil {n m sub : ℕ} (hn : 0 < n) (hm : 0 < m) (hs : 0 < sub) (φ : Map) :
    (lines1 n m sub φ).flatten ≠ [] ∧ (lines2 n m sub φ).flatten ≠ [] := by
  have key : ∀ (a b : List ℝ) (F : ℝ → ℝ → ℝ × ℝ), a.length ≠ 0 → b.length ≠ 0 → (a.map fun x => b.map fun y => F x y).flatten ≠ [] := by
    intro a b F ha hb
    rcases a with _ | ⟨x, a⟩
    · simp at ha
    · rcases b with _ | ⟨y, b⟩
      · simp at hb
      · simp
  have hl : ∀ k, (linspace (-1) 1 k).length = k := fun k => by unfold linspace; simp
  rw [(C108_lines n m sub φ).1, (C108_lines n m sub φ).2]
  exact ⟨key _ _ (fun x y => φ.at (x, y)) (by rw [hl]; omega) (by rw [hl]; positivity),
    key _ _ (fun y x => φ.at (x, y)) (by rw [hl]; omega) (by rw [hl]; positivity)⟩

/-- C108: ... and the limits are as tight as that allows: on each side some point that is drawn is exactly 0.1 away. -/
theorem C108_limits_tight (n m sub : ℕ) (hn : 0 < n) (hm : 0 < m) (hs : 0 < sub) (φ : Map) :
    let drawn := (lines1 n m sub φ).flatten ++ (lines2 n m sub φ).flatten
    (∃ p ∈ drawn, p.1 = (limits n m sub φ).1.1 + 0.1) ∧ (∃ p ∈ drawn, p.1 = (limits n m sub φ).1.2 - 0.1) ∧
    (∃ p ∈ drawn, p.2 = (limits n m sub φ).2.1 + 0.1) ∧ (∃ p ∈ drawn, p.2 = (limits n m sub φ).2.2 - 0.1) := by
  obtain ⟨ha, hb⟩ := lines_ne_nil hn hm hs φ
  unfold limits
  simp only
  rw [sub_add_cancel, sub_add_cancel, add_sub_cancel_right, add_sub_cancel_right]
  generalize (lines1 n m sub φ).flatten = a at *
  generalize (lines2 n m sub φ).flatten = b at *
  have key : ∀ (f : ℝ × ℝ → ℝ) (z : ℝ), z ∈ b.map f ∨ z ∈ a.map f → ∃ p ∈ a ++ b, f p = z := by
    intro f z h
    rcases h with h | h
    · obtain ⟨p, hp, rfl⟩ := List.mem_map.1 h; exact ⟨p, List.mem_append_right _ hp, rfl⟩
    · obtain ⟨p, hp, rfl⟩ := List.mem_map.1 h; exact ⟨p, List.mem_append_left _ hp, rfl⟩
  have hmin : ∀ f : ℝ × ℝ → ℝ, min (amin (b.map f)) (amin (a.map f)) ∈ b.map f ∨ min (amin (b.map f)) (amin (a.map f)) ∈ a.map f := fun f => by
    rcases min_choice (amin (b.map f)) (amin (a.map f)) with h | h <;> rw [h]
    · left; exact amin_mem (by simpa using hb)
    · right; exact amin_mem (by simpa using ha)
  have hmax : ∀ f : ℝ × ℝ → ℝ, max (amax (b.map f)) (amax (a.map f)) ∈ b.map f ∨ max (amax (b.map f)) (amax (a.map f)) ∈ a.map f := fun f => by
    rcases max_choice (amax (b.map f)) (amax (a.map f)) with h | h <;> rw [h]
    · left; exact amax_mem (by simpa using hb)
    · right; exact amax_mem (by simpa using ha)
  exact ⟨key _ _ (hmin _), key _ _ (hmax _), key _ _ (hmin _), key _ _ (hmax _)⟩

/-- C108: ... and some value has an extreme colour. -/
theorem C108_colours_tight (Z : List ℝ) (hZ : Z ≠ []) (center : ℝ) : ∃ z ∈ Z, z = (colours Z center).1 ∨ z = (colours Z center).2 := by
  unfold colours
  simp only
  rcases max_choice (center - amin Z) (amax Z - center) with h | h <;> rw [h]
  · exact ⟨_, amin_mem hZ, Or.inl (by ring)⟩
  · exact ⟨_, amax_mem hZ, Or.inr (by ring)⟩

/-- The grid of the notebook has points. -/
example : ∃ p, p ∈ (lines1 16 16 100 sine).flatten := by
  rw [(C108_lines 16 16 100 sine).1, ← List.flatMap_def]
  refine ⟨sine.at (-1 + ((0 : ℕ) : ℝ) * ((1 - -1) / ((16 - 1 : ℕ) : ℝ)), -1 + ((0 : ℕ) : ℝ) * ((1 - -1) / ((100 * 16 - 1 : ℕ) : ℝ))), ?_⟩
  rw [List.mem_flatMap]
  refine ⟨_, List.mem_map.2 ⟨0, by simp, rfl⟩, List.mem_map.2 ⟨_, List.mem_map.2 ⟨0, by simp, rfl⟩, rfl⟩⟩

end Dec.Props
