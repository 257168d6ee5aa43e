import Verif.Lib.Accuracy

set_option linter.unusedSimpArgs false
set_option linter.unusedVariables false

/-! The errors of the stars and of the reconstruction on product grids, for functions of two variables that are sums of double series. -/

namespace Dec.Props

open Finset Real G2 Sp

/-- What is known about the functions `u i` in which a series is expanded: each has the same projection as some `q i` of the space `V`, at most `B` large, and
`q i = u i` for `i < K`. -/
structure Waves (g : Grid1) (V : (ℝ → ℝ) → Prop) (I : Set ℝ) (d : Fin 2) (t : Bool) (K : ℕ) (B : ℝ) (u q : ℕ → ℝ → ℝ) : Prop where
  cont : ∀ i, Continuous (u i)
  bound : ∀ i, ∀ x ∈ I, |u i x| ≤ 1
  mem : ∀ i, V (q i)
  same : ∀ i, g.P d t (q i) = g.P d t (u i)
  qbound : ∀ i, ∀ x ∈ I, |q i x| ≤ B
  low : ∀ i < K, q i = u i

/-- The projection on the cells of the product: of degree `d` in `x` and `d'` in `y`. -/
noncomputable def pe2 (gx gy : Grid1) (d d' : Fin 2) (t t' : Bool) (f : ℝ → ℝ → ℝ) (i j : ℕ) : ℝ := pe gx d t (fun x => pe gy d' t' (f x) j) i

section
variable {gx gy g : Grid1} {V W : Fin 2 → Bool → (ℝ → ℝ) → Prop} {X Y : Fin 2 → Bool → Set ℝ} {I J : Set ℝ}

theorem pe_smul (hg : Factor g) (d : Fin 2) (t : Bool) (c : ℝ) (f : ℝ → ℝ) {i : ℕ} (hi : i < g.N d t) : pe g d t (fun x => c * f x) i = c * pe g d t f i := by
  obtain rfl | rfl : d = 0 ∨ d = 1 := by omega
  · rw [pe0 hg t _ hi, pe0 hg t _ hi]
  · rw [pe1 hg t _ hi, pe1 hg t _ hi, intervalIntegral.integral_const_mul]

theorem pe_sum (hg : Factor g) (d : Fin 2) (t : Bool) (N : ℕ) (f : ℕ → ℝ → ℝ) (hf : ∀ k < N, Continuous (f k)) {i : ℕ} (hi : i < g.N d t) :
    pe g d t (fun x => ∑ k ∈ range N, f k x) i = ∑ k ∈ range N, pe g d t (f k) i := by
  obtain rfl | rfl : d = 0 ∨ d = 1 := by omega
  · rw [pe0 hg t _ hi]
    exact sum_congr rfl fun k _ => (pe0 hg t _ hi).symm
  · rw [pe1 hg t _ hi, intervalIntegral.integral_finsetSum fun k hk => (hf k (mem_range.1 hk)).intervalIntegrable _ _]
    exact sum_congr rfl fun k _ => (pe1 hg t _ hi).symm

theorem pe_abs (hg : Factor g) (d : Fin 2) (t : Bool) (hI : CellsIn g I d t) {u : ℝ → ℝ} {B : ℝ} (hu : Continuous u) (h : ∀ x ∈ I, |u x| ≤ B) {i : ℕ} (hi : i < g.N d t) :
    |pe g d t u i| ≤ B * pe g d t (fun _ => 1) i := by
  have h0 : pe g d t (fun _ => 0) i = 0 := by
    have := pe_smul hg d t 0 (fun _ => 1) hi
    simpa using this
  have := P_bound hg (u := fun _ => (0 : ℝ)) (q := u) d t hI continuous_const hu (fun x hx => by rw [sub_zero]; exact h x hx) hi
  rwa [h0, sub_zero] at this

theorem size_nonneg (hg : Factor g) (d : Fin 2) (t : Bool) (hI : CellsIn g I d t) {i : ℕ} (hi : i < g.N d t) : 0 ≤ pe g d t (fun _ => 1) i := by
  have := pe_abs hg d t hI (u := fun _ => (0 : ℝ)) (B := 1) continuous_const (by simp) hi
  rw [one_mul] at this
  exact (abs_nonneg _).trans this

/-- The projection of a double series. -/
theorem pe2_hasSum (hx : Factor gx) (hy : Factor gy) (d d' : Fin 2) (t t' : Bool) (hI : CellsIn gx I d t) (hJ : CellsIn gy J d' t') {u v : ℕ → ℝ → ℝ}
    (hu : ∀ i, Continuous (u i)) (hv : ∀ i, Continuous (v i)) (bu : ∀ i, ∀ x ∈ I, |u i x| ≤ 1) (bv : ∀ i, ∀ x ∈ J, |v i x| ≤ 1) {c : ℕ × ℕ → ℝ}
    (hc : Summable fun p => |c p|) {f : ℝ → ℝ → ℝ} (hf : ∀ x ∈ I, ∀ y ∈ J, HasSum (fun p => c p * (u p.1 x * v p.2 y)) (f x y)) {i j : ℕ} (hi : i < gx.N d t)
    (hj : j < gy.N d' t') : HasSum (fun p => c p * (pe gx d t (u p.1) i * pe gy d' t' (v p.2) j)) (pe2 gx gy d d' t t' f i j) := by
  set s := pe gy d' t' (fun _ => 1) j with hs
  have hs0 : 0 ≤ s := size_nonneg hy d' t' hJ hj
  have h1 : ∀ x ∈ I, HasSum (fun p : ℕ × ℕ => (c p * pe gy d' t' (v p.2) j) * u p.1 x) (pe gy d' t' (f x) j) := fun x hxI => by
    have := P_hasSum (ι := ℕ × ℕ) hy (u := fun p y => (c p * u p.1 x) * v p.2 y) (A := fun p => |c p|) (f := f x) d' t' hJ (fun p => (hv p.2).const_mul _) hc
      (fun p y hyJ => ?_) (fun y hyJ => ?_) hj
    · have e : (fun p : ℕ × ℕ => (c p * pe gy d' t' (v p.2) j) * u p.1 x) = fun p : ℕ × ℕ => pe gy d' t' (fun y => (c p * u p.1 x) * v p.2 y) j :=
        funext fun p => by rw [pe_smul hy d' t' _ _ hj]; ring
      rw [e]; exact this
    · rw [abs_mul, abs_mul, mul_assoc]
      exact mul_le_of_le_one_right (abs_nonneg _) (mul_le_one₀ (bu _ x hxI) (abs_nonneg _) (bv _ y hyJ))
    · have e : (fun p : ℕ × ℕ => (c p * u p.1 x) * v p.2 y) = fun p : ℕ × ℕ => c p * (u p.1 x * v p.2 y) := funext fun p => by ring
      rw [e]; exact hf x hxI y hyJ
  have hb : ∀ k, |pe gy d' t' (v k) j| ≤ s := fun k => by
    have := pe_abs hy d' t' hJ (hv k) (bv k) hj
    rwa [one_mul] at this
  have h2 := P_hasSum (ι := ℕ × ℕ) hx (u := fun p x => (c p * pe gy d' t' (v p.2) j) * u p.1 x) (A := fun p => |c p| * s) (f := fun x => pe gy d' t' (f x) j) d t hI
    (fun p => (hu p.1).const_mul _) (hc.mul_right s) (fun p x hxI => ?_) h1 hi
  · have e : (fun p : ℕ × ℕ => c p * (pe gx d t (u p.1) i * pe gy d' t' (v p.2) j)) = fun p : ℕ × ℕ => pe gx d t (fun x => (c p * pe gy d' t' (v p.2) j) * u p.1 x) i :=
      funext fun p => by rw [pe_smul hx d t _ _ hi]; ring
    rw [e]; exact h2
  · rw [abs_mul, abs_mul]
    exact (mul_le_of_le_one_right (by positivity) (bu _ x hxI)).trans (mul_le_mul_of_nonneg_left (hb _) (abs_nonneg _))

/-- The terms of a double series: those with both indices small vanish, the others are bounded. -/
theorem double_error {e a : ℕ × ℕ → ℝ} {E s : ℝ} (K K' : ℕ) (ha : Summable a) (he : HasSum e E) (h0 : ∀ p : ℕ × ℕ, p.1 < K → p.2 < K' → e p = 0)
    (hb : ∀ p, |e p| ≤ s * a p) : |E| ≤ s * ∑' p : ℕ × ℕ, if p.1 < K ∧ p.2 < K' then 0 else a p := by
  have h1 : Summable fun p : ℕ × ℕ => if p.1 < K ∧ p.2 < K' then 0 else a p := by
    have := ha.indicator {p : ℕ × ℕ | ¬ (p.1 < K ∧ p.2 < K')}
    refine this.congr fun p => ?_
    by_cases h : p.1 < K ∧ p.2 < K'
    · rw [if_pos h, Set.indicator_of_notMem (by simpa using h)]
    · rw [if_neg h, Set.indicator_of_mem (by exact h)]
  have h2 := tsum_of_norm_bounded (f := e) (h1.mul_left s).hasSum fun p => by
    rw [Real.norm_eq_abs]
    by_cases h : p.1 < K ∧ p.2 < K'
    · rw [if_pos h, h0 p h.1 h.2]; simp
    · rw [if_neg h]; exact hb p
  rwa [he.tsum_eq, Real.norm_eq_abs, tsum_mul_left] at h2

theorem prod_sub_le {a b a' b' s s' B B' : ℝ} (h1 : |a| ≤ B * s) (h2 : |a'| ≤ B' * s') (h3 : |b| ≤ s) (h4 : |b'| ≤ s') (hs : 0 ≤ s) (hs' : 0 ≤ s') :
    |a * a' - b * b'| ≤ (B * B' + 1) * (s * s') := by
  have h5 := abs_sub (a * a') (b * b')
  rw [abs_mul, abs_mul] at h5
  have h6 := mul_le_mul h1 h2 (abs_nonneg _) ((abs_nonneg _).trans h1)
  have h7 := mul_le_mul h3 h4 (abs_nonneg _) hs
  linarith

/-- The coefficients of the star of a basis function. -/
theorem star_rep (s : Spans g V X) {d : Fin 2} {t : Bool} (hH : ∀ f, V d t f → g.H d t (g.P d t f) = .ok (g.P (1 - d) (!t) f)) {b : ℕ → ℝ → ℝ}
    (hb : ∀ j < g.N d t, V d t (b j))
    (hr : ∀ a : List ℝ, a.length = g.N d t → V d t (fun x => ∑ j ∈ range (g.N d t), a.getD j 0 * b j x) ∧ g.P d t (fun x => ∑ j ∈ range (g.N d t), a.getD j 0 * b j x) = a)
    {q : ℝ → ℝ} (hq : V d t q) {i : ℕ} (hi : i < g.N (1 - d) (!t)) :
    pe g (1 - d) (!t) q i = ∑ j ∈ range (g.N d t), pe g d t q j * pe g (1 - d) (!t) (b j) i := by
  have hlen : (g.P d t q).length = g.N d t := by
    obtain rfl | rfl : d = 0 ∨ d = 1 := by omega
    · rw [P0_tab s.factor]; simp
    · rw [P1_tab s.factor]; simp
  obtain ⟨h1, h2⟩ := hr _ hlen
  have h3 := hH _ h1
  rw [h2, hH _ hq] at h3
  injection h3 with h3
  have h4 : pe g (1 - d) (!t) q i = pe g (1 - d) (!t) (fun x => ∑ j ∈ range (g.N d t), (g.P d t q).getD j 0 * b j x) i := by unfold pe; rw [h3]
  rw [h4, pe_sum s.factor _ _ _ (fun j x => (g.P d t q).getD j 0 * b j x) (fun j hj => ((s.space d t).cont _ (hb j hj)).const_mul _) hi]
  exact sum_congr rfl fun j _ => pe_smul s.factor _ _ _ _ hi

theorem value_rep (s : Spans g V X) {d : Fin 2} {t : Bool} {b : ℕ → ℝ → ℝ} (hB : ∀ j < g.N d t, ∀ x ∈ X d t, g.B d t j x = some (b j x)) {q : ℝ → ℝ} (hq : V d t q)
    {x : ℝ} (hx : x ∈ X d t) : q x = ∑ j ∈ range (g.N d t), pe g d t q j * b j x := by
  have h2 := s.R_P d t hq hx
  rw [s.R_eq d t _ b hB hx] at h2
  exact (Option.some.inj h2).symm

/-- A finite sum of the terms of the series: what the coefficients of `f` determine. -/
theorem double_rep {c : ℕ × ℕ → ℝ} {N N' : ℕ} {α β : ℕ → ℕ → ℝ} {F : ℕ → ℕ → ℝ} (hF : ∀ i < N, ∀ j < N', HasSum (fun p : ℕ × ℕ => c p * (α p.1 i * β p.2 j)) (F i j))
    (m m' : ℕ → ℝ) : HasSum (fun p : ℕ × ℕ => c p * ((∑ i ∈ range N, α p.1 i * m i) * ∑ j ∈ range N', β p.2 j * m' j)) (∑ i ∈ range N, ∑ j ∈ range N', F i j * (m i * m' j)) := by
  have e : (fun p : ℕ × ℕ => c p * ((∑ i ∈ range N, α p.1 i * m i) * ∑ j ∈ range N', β p.2 j * m' j))
      = fun p : ℕ × ℕ => ∑ i ∈ range N, ∑ j ∈ range N', (c p * (α p.1 i * β p.2 j)) * (m i * m' j) := by
    funext p
    rw [sum_mul_sum, mul_sum]
    refine sum_congr rfl fun i _ => ?_
    rw [mul_sum]
    exact sum_congr rfl fun j _ => by ring
  rw [e]
  exact hasSum_sum fun i hi => hasSum_sum fun j hj => (hF i (mem_range.1 hi) j (mem_range.1 hj)).mul_right _

set_option maxHeartbeats 1000000 in
/-- **The core.**  The coefficients of `f` are those of a finite sum `r` of products of determined functions, which differs little from `f`: at all the points,
and on the cells of the other grid. -/
theorem block_error (sx : Spans gx V X) (sy : Spans gy W Y) {d d' : Fin 2} {t : Bool} (hI : CellsIn gx I d t) (hJ : CellsIn gy J d' t) {K K' : ℕ} {B B' : ℝ}
    {u q v q' : ℕ → ℝ → ℝ} (hw : Waves gx (V d t) I d t K B u q) (hw' : Waves gy (W d' t) J d' t K' B' v q') {c : ℕ × ℕ → ℝ} (hc : Summable fun p => |c p|)
    {f : ℝ → ℝ → ℝ} (hf : ∀ x ∈ I, ∀ y ∈ J, HasSum (fun p => c p * (u p.1 x * v p.2 y)) (f x y)) :
    ∃ r : ℝ → ℝ → ℝ, Tensor (V d t) (W d' t) r ∧ (∀ i < gx.N d t, ∀ j < gy.N d' t, pe2 gx gy d d' t t r i j = pe2 gx gy d d' t t f i j) ∧
      (∀ x ∈ X d t, x ∈ I → ∀ y ∈ Y d' t, y ∈ J → |r x y - f x y| ≤ (B * B' + 1) * ∑' p : ℕ × ℕ, if p.1 < K ∧ p.2 < K' then 0 else |c p|) ∧
      ((∀ f, V d t f → gx.H d t (gx.P d t f) = .ok (gx.P (1 - d) (!t) f)) → (∀ f, W d' t f → gy.H d' t (gy.P d' t f) = .ok (gy.P (1 - d') (!t) f)) →
        CellsIn gx I (1 - d) (!t) → CellsIn gy J (1 - d') (!t) → ∀ i < gx.N (1 - d) (!t), ∀ j < gy.N (1 - d') (!t),
          |pe2 gx gy (1 - d) (1 - d') (!t) (!t) r i j - pe2 gx gy (1 - d) (1 - d') (!t) (!t) f i j|
            ≤ (B * B' + 1) * (pe gx (1 - d) (!t) (fun _ => 1) i * pe gy (1 - d') (!t) (fun _ => 1) j) * ∑' p : ℕ × ℕ, if p.1 < K ∧ p.2 < K' then 0 else |c p|) := by
  obtain ⟨b, hb, hB, hr⟩ := spans_reps sx d t
  obtain ⟨b', hb', hB', hr'⟩ := spans_reps sy d' t
  have hx := sx.factor
  have hy := sy.factor
  set F : ℕ → ℕ → ℝ := fun i j => pe2 gx gy d d' t t f i j with hFdef
  have hF : ∀ i < gx.N d t, ∀ j < gy.N d' t, HasSum (fun p : ℕ × ℕ => c p * (pe gx d t (q p.1) i * pe gy d' t (q' p.2) j)) (F i j) := fun i hi j hj => by
    have := pe2_hasSum hx hy d d' t t hI hJ hw.cont hw'.cont hw.bound hw'.bound hc hf hi hj
    have e : (fun p : ℕ × ℕ => c p * (pe gx d t (q p.1) i * pe gy d' t (q' p.2) j)) = fun p : ℕ × ℕ => c p * (pe gx d t (u p.1) i * pe gy d' t (v p.2) j) :=
      funext fun p => by unfold pe; rw [hw.same, hw'.same]
    rw [e]; exact this
  set r : ℝ → ℝ → ℝ := fun x y => ∑ i ∈ range (gx.N d t), ∑ j ∈ range (gy.N d' t), F i j * (b i x * b' j y) with hrdef
  -- the coefficients of `r` on any cells
  have hpe : ∀ (e e' : Fin 2) (τ τ' : Bool) (i j : ℕ), i < gx.N e τ → j < gy.N e' τ' →
      pe2 gx gy e e' τ τ' r i j = ∑ k ∈ range (gx.N d t), ∑ l ∈ range (gy.N d' t), F k l * (pe gx e τ (b k) i * pe gy e' τ' (b' l) j) := fun e e' τ τ' i j hi hj => by
    have cb : ∀ k < gx.N d t, Continuous (b k) := fun k hk => (sx.space d t).cont _ (hb k hk)
    have cb' : ∀ k < gy.N d' t, Continuous (b' k) := fun k hk => (sy.space d' t).cont _ (hb' k hk)
    have h1 : (fun x => pe gy e' τ' (r x) j) = fun x => ∑ k ∈ range (gx.N d t), (∑ l ∈ range (gy.N d' t), F k l * pe gy e' τ' (b' l) j) * b k x := by
      funext x
      show pe gy e' τ' (fun y => ∑ k ∈ range (gx.N d t), ∑ l ∈ range (gy.N d' t), F k l * (b k x * b' l y)) j = _
      rw [pe_sum hy e' τ' _ (fun k y => ∑ l ∈ range (gy.N d' t), F k l * (b k x * b' l y))
        (fun k hk => continuous_finsetSum _ fun l hl => ((cb' l (mem_range.1 hl)).const_mul _).const_mul _) hj]
      refine sum_congr rfl fun k _ => ?_
      rw [pe_sum hy e' τ' _ (fun l y => F k l * (b k x * b' l y)) (fun l hl => ((cb' l hl).const_mul _).const_mul _) hj, sum_mul]
      refine sum_congr rfl fun l _ => ?_
      rw [pe_smul hy e' τ' _ _ hj, pe_smul hy e' τ' _ _ hj]; ring
    unfold pe2
    rw [h1, pe_sum hx e τ _ (fun k x => (∑ l ∈ range (gy.N d' t), F k l * pe gy e' τ' (b' l) j) * b k x) (fun k hk => (cb k hk).const_mul _) hi]
    refine sum_congr rfl fun k _ => ?_
    rw [pe_smul hx e τ _ _ hi, sum_mul]
    exact sum_congr rfl fun l _ => by ring
  refine ⟨r, ?_, fun i hi j hj => ?_, fun x hxX hxI y hyY hyJ => ?_, fun hH hH' cI cJ i hi j hj => ?_⟩
  · refine Tensor.sum (g := fun i x y => ∑ j ∈ range (gy.N d' t), F i j * (b i x * b' j y)) fun i hi => Tensor.sum (g := fun j x y => F i j * (b i x * b' j y)) fun j hj => ?_
    have := Tensor.single (V := V d t) (W := W d' t) ((sx.space d t).smul (F i j) _ (hb i hi)) (hb' j hj)
    refine (show (fun x y => F i j * (b i x * b' j y)) = fun x y => F i j * b i x * b' j y from ?_) ▸ this
    funext x y; ring
  · rw [hpe d d' t t i j hi hj, sum_eq_single i, sum_eq_single j]
    · have h1 : pe gx d t (b i) i = 1 := by unfold pe; rw [sx.P_rep d t hi (hb i hi) (hB i hi), getD_tab hi, if_pos rfl]
      have h2 : pe gy d' t (b' j) j = 1 := by unfold pe; rw [sy.P_rep d' t hj (hb' j hj) (hB' j hj), getD_tab hj, if_pos rfl]
      rw [h1, h2, mul_one, mul_one]
    · intro l hl hne
      have h2 : pe gy d' t (b' l) j = 0 := by unfold pe; rw [sy.P_rep d' t (mem_range.1 hl) (hb' l (mem_range.1 hl)) (hB' l (mem_range.1 hl)), getD_tab hj, if_neg (Ne.symm hne)]
      rw [h2, mul_zero, mul_zero]
    · intro h; exact absurd (mem_range.2 hj) h
    · intro k hk hne
      have h2 : pe gx d t (b k) i = 0 := by unfold pe; rw [sx.P_rep d t (mem_range.1 hk) (hb k (mem_range.1 hk)) (hB k (mem_range.1 hk)), getD_tab hi, if_neg (Ne.symm hne)]
      exact sum_eq_zero fun l _ => by rw [h2, zero_mul, mul_zero]
    · intro h; exact absurd (mem_range.2 hi) h
  · have h1 := double_rep (N := gx.N d t) (N' := gy.N d' t) (α := fun k i => pe gx d t (q k) i) (β := fun k j => pe gy d' t (q' k) j) (F := F) hF (fun i => b i x) (fun j => b' j y)
    have e : (fun p : ℕ × ℕ => c p * ((∑ i ∈ range (gx.N d t), pe gx d t (q p.1) i * b i x) * ∑ j ∈ range (gy.N d' t), pe gy d' t (q' p.2) j * b' j y))
        = fun p : ℕ × ℕ => c p * (q p.1 x * q' p.2 y) := funext fun p => by rw [← value_rep sx hB (hw.mem _) hxX, ← value_rep sy hB' (hw'.mem _) hyY]
    rw [e] at h1
    refine double_error (s := B * B' + 1) K K' hc (h1.sub (hf x hxI y hyJ)) (fun p h h' => by rw [hw.low _ h, hw'.low _ h', sub_self]) fun p => ?_
    have := prod_sub_le (s := 1) (s' := 1) (B := B) (B' := B') (by rw [mul_one]; exact hw.qbound p.1 x hxI) (by rw [mul_one]; exact hw'.qbound p.2 y hyJ) (hw.bound p.1 x hxI)
      (hw'.bound p.2 y hyJ) zero_le_one zero_le_one
    rw [← mul_sub, abs_mul, mul_comm]
    refine mul_le_mul_of_nonneg_right ?_ (abs_nonneg _)
    simpa using this
  · have h1 := double_rep (N := gx.N d t) (N' := gy.N d' t) (α := fun k i => pe gx d t (q k) i) (β := fun k j => pe gy d' t (q' k) j) (F := F) hF (fun k => pe gx (1 - d) (!t) (b k) i) (fun l => pe gy (1 - d') (!t) (b' l) j)
    have e : (fun p : ℕ × ℕ => c p * ((∑ k ∈ range (gx.N d t), pe gx d t (q p.1) k * pe gx (1 - d) (!t) (b k) i) * ∑ l ∈ range (gy.N d' t), pe gy d' t (q' p.2) l * pe gy (1 - d') (!t) (b' l) j))
        = fun p : ℕ × ℕ => c p * (pe gx (1 - d) (!t) (q p.1) i * pe gy (1 - d') (!t) (q' p.2) j) :=
      funext fun p => by rw [← star_rep sx hH hb hr (hw.mem _) hi, ← star_rep sy hH' hb' hr' (hw'.mem _) hj]
    rw [e, ← hpe (1 - d) (1 - d') (!t) (!t) i j hi hj] at h1
    have h2 := pe2_hasSum hx hy (1 - d) (1 - d') (!t) (!t) cI cJ hw.cont hw'.cont hw.bound hw'.bound hc hf hi hj
    refine double_error K K' hc (h1.sub h2) (fun p h h' => by rw [hw.low _ h, hw'.low _ h', sub_self]) fun p => ?_
    have hqc : Continuous (q p.1) := (sx.space d t).cont _ (hw.mem _)
    have hqc' : Continuous (q' p.2) := (sy.space d' t).cont _ (hw'.mem _)
    have a3 := pe_abs hx _ _ cI (hw.cont p.1) (hw.bound p.1) hi
    have a4 := pe_abs hy _ _ cJ (hw'.cont p.2) (hw'.bound p.2) hj
    rw [one_mul] at a3 a4
    have := prod_sub_le (pe_abs hx _ _ cI hqc (hw.qbound p.1) hi) (pe_abs hy _ _ cJ hqc' (hw'.qbound p.2) hj) a3 a4 (size_nonneg hx _ _ cI hi) (size_nonneg hy _ _ cJ hj)
    rw [← mul_sub, abs_mul, mul_comm]
    exact mul_le_mul_of_nonneg_right this (abs_nonneg _)

/-! ### The projections and the stars of the product, component by component -/

theorem P0_pe2 (hx : Factor gx) (hy : Factor gy) (t : Bool) (f : ℝ → ℝ → ℝ) :
    (product gx gy).P 0 t [f] = .ok (mtab (gy.N 0 t) (gx.N 0 t) fun j i => pe2 gx gy 0 0 t t f i j).data := by
  rw [P0_mtab hx hy]
  refine congrArg (fun a : Arr ℝ => Except.ok a.data) (mtab_congr fun j hj i hi => ?_)
  unfold pe2
  rw [pe0 hx t _ hi, pe0 hy t _ hj]

theorem P1_pe2 (hx : Factor gx) (hy : Factor gy) (t : Bool) (f g : ℝ → ℝ → ℝ) :
    (product gx gy).P 1 t [f, g] = .ok ((mtab (gy.N 0 t) (gx.N 1 t) fun j i => pe2 gx gy 1 0 t t f i j).data
      ++ (mtab (gy.N 1 t) (gx.N 0 t) fun j i => pe2 gx gy 0 1 t t g i j).data) := by
  rw [P1_mtab hx hy]
  refine congrArg₂ (fun a b : Arr ℝ => Except.ok (a.data ++ b.data)) (mtab_congr fun j hj i hi => ?_) (mtab_congr fun j hj i hi => ?_)
  · unfold pe2 Integrate.P1x
    rw [pe1 hx t _ hi]
    simp only [pe0 hy t _ hj]
  · unfold pe2 Integrate.P1y
    rw [pe0 hx t _ hi, pe1 hy t _ hj]

theorem P2_pe2 (hx : Factor gx) (hy : Factor gy) (t : Bool) (f : ℝ → ℝ → ℝ) :
    (product gx gy).P 2 t [f] = .ok (mtab (gy.N 1 t) (gx.N 1 t) fun j i => pe2 gx gy 1 1 t t f i j).data := by
  rw [P2_mtab hx hy]
  refine congrArg (fun a : Arr ℝ => Except.ok a.data) (mtab_congr fun j hj i hi => ?_)
  unfold pe2 Integrate.P2r
  rw [pe1 hx t _ hi]
  simp only [pe1 hy t _ hj]

theorem pe_tab (hg : Factor g) (d : Fin 2) (t : Bool) (f : ℝ → ℝ) : g.P d t f = tab (g.N d t) (pe g d t f) := by
  obtain rfl | rfl : d = 0 ∨ d = 1 := by omega
  · rw [P0_tab hg]; exact tab_congr fun i hi => (pe0 hg t f hi).symm
  · rw [P1_tab hg]; exact tab_congr fun i hi => (pe1 hg t f hi).symm

section
variable {V W : (ℝ → ℝ) → Prop} {r : ℝ → ℝ → ℝ}

theorem tens_row (hy : Factor gy) (sV : FnSpace V) (sW : FnSpace W) (hr : Tensor V W r) (e : Fin 2) (τ : Bool) {j : ℕ} (hj : j < gy.N e τ) : V fun x => pe gy e τ (r x) j := by
  obtain rfl | rfl : e = 0 ∨ e = 1 := by omega
  · simp only [pe0 hy τ _ hj]
    exact hr.row sV _
  · simp only [pe1 hy τ _ hj]
    exact hr.inty sV sW _ _

theorem tens_col (hx : Factor gx) (sV : FnSpace V) (sW : FnSpace W) (hr : Tensor V W r) (e : Fin 2) (τ : Bool) {i : ℕ} (hi : i < gx.N e τ) :
    W fun y => pe gx e τ (fun x => r x y) i := tens_row hx sW sV hr.swap e τ hi

theorem pe2_fubini (hx : Factor gx) (hy : Factor gy) (sV : FnSpace V) (sW : FnSpace W) (hr : Tensor V W r) (d d' : Fin 2) (t t' : Bool) {i j : ℕ} (hi : i < gx.N d t) (hj : j < gy.N d' t') :
    pe2 gx gy d d' t t' r i j = pe gy d' t' (fun y => pe gx d t (fun x => r x y) i) j := by
  unfold pe2
  obtain rfl | rfl : d = 0 ∨ d = 1 := by omega
  · obtain rfl | rfl : d' = 0 ∨ d' = 1 := by omega
    · rw [pe0 hx t _ hi, pe0 hy t' _ hj, pe0 hy t' _ hj, pe0 hx t _ hi]
    · rw [pe0 hx t _ hi, pe1 hy t' _ hj, pe1 hy t' _ hj]
      simp only [pe0 hx t _ hi]
  · obtain rfl | rfl : d' = 0 ∨ d' = 1 := by omega
    · rw [pe1 hx t _ hi, pe0 hy t' _ hj, pe1 hx t _ hi]
      simp only [pe0 hy t' _ hj]
    · rw [pe1 hx t _ hi, pe1 hy t' _ hj]
      simp only [pe1 hx t _ hi, pe1 hy t' _ hj]
      exact (hr.fubini sV sW _ _ _ _).symm
end

/-- The star along `y`, and along `x`, of the coefficients of a sum of products. -/
theorem star_y {V W : (ℝ → ℝ) → Prop} {r : ℝ → ℝ → ℝ} (hx : Factor gx) (hy : Factor gy) (sV : FnSpace V) (sW : FnSpace W) (hr : Tensor V W r) (e : Fin 2) (τ : Bool) (d' : Fin 2) (t : Bool)
    (hH : ∀ f, W f → gy.H d' t (gy.P d' t f) = .ok (gy.P (1 - d') (!t) f)) {i : ℕ} (hi : i < gx.N e τ) :
    gy.H d' t (tab (gy.N d' t) fun j => pe2 gx gy e d' τ t r i j) = .ok (tab (gy.N (1 - d') (!t)) fun j => pe2 gx gy e (1 - d') τ (!t) r i j) := by
  have := hH _ (tens_col hx sV sW hr e τ hi)
  rw [pe_tab hy, pe_tab hy] at this
  rw [tab_congr (f := fun j => pe2 gx gy e d' τ t r i j) (g := pe gy d' t fun y => pe gx e τ (fun x => r x y) i) fun j hj => pe2_fubini hx hy sV sW hr e d' τ t hi hj, this]
  exact congrArg Except.ok (tab_congr fun j hj => (pe2_fubini hx hy sV sW hr e (1 - d') τ (!t) hi hj).symm)

theorem star_x {V W : (ℝ → ℝ) → Prop} {r : ℝ → ℝ → ℝ} (hx : Factor gx) (hy : Factor gy) (sV : FnSpace V) (sW : FnSpace W) (hr : Tensor V W r) (e : Fin 2) (τ : Bool) (d : Fin 2) (t : Bool)
    (hH : ∀ f, V f → gx.H d t (gx.P d t f) = .ok (gx.P (1 - d) (!t) f)) {j : ℕ} (hj : j < gy.N e τ) :
    gx.H d t (tab (gx.N d t) fun i => pe2 gx gy d e t τ r i j) = .ok (tab (gx.N (1 - d) (!t)) fun i => pe2 gx gy (1 - d) e (!t) τ r i j) := by
  have := hH _ (tens_row hy sV sW hr e τ hj)
  rw [pe_tab hx, pe_tab hx] at this
  exact this


section
variable {V W V' W' : (ℝ → ℝ) → Prop} {r r' : ℝ → ℝ → ℝ}

theorem H0_pe2 (hx : Factor gx) (hy : Factor gy) (sV : FnSpace V) (sW : FnSpace W) (hr : Tensor V W r) (t : Bool)
    (hH : ∀ f, V f → gx.H 0 t (gx.P 0 t f) = .ok (gx.P 1 (!t) f)) (hH' : ∀ f, W f → gy.H 0 t (gy.P 0 t f) = .ok (gy.P 1 (!t) f)) :
    (product gx gy).H 0 t (mtab (gy.N 0 t) (gx.N 0 t) fun j i => pe2 gx gy 0 0 t t r i j).data
      = .ok (mtab (gy.N 1 (!t)) (gx.N 1 (!t)) fun j i => pe2 gx gy 1 1 (!t) (!t) r i j).data :=
  H0_mtab hx hy t (G := fun j i => pe2 gx gy 0 1 t (!t) r i j) (hy.pos 1 (!t)) (fun i hi => star_y hx hy sV sW hr 0 t 0 t hH' hi)
    (fun j hj => star_x hx hy sV sW hr 1 (!t) 0 t hH hj)

theorem H2_pe2 (hx : Factor gx) (hy : Factor gy) (sV : FnSpace V) (sW : FnSpace W) (hr : Tensor V W r) (t : Bool)
    (hH : ∀ f, V f → gx.H 1 t (gx.P 1 t f) = .ok (gx.P 0 (!t) f)) (hH' : ∀ f, W f → gy.H 1 t (gy.P 1 t f) = .ok (gy.P 0 (!t) f)) :
    (product gx gy).H 2 t (mtab (gy.N 1 t) (gx.N 1 t) fun j i => pe2 gx gy 1 1 t t r i j).data
      = .ok (mtab (gy.N 0 (!t)) (gx.N 0 (!t)) fun j i => pe2 gx gy 0 0 (!t) (!t) r i j).data :=
  H2_mtab hx hy t (G := fun j i => pe2 gx gy 1 0 t (!t) r i j) (hy.pos 0 (!t)) (fun i hi => star_y hx hy sV sW hr 1 t 1 t hH' hi)
    (fun j hj => star_x hx hy sV sW hr 0 (!t) 1 t hH hj)

theorem H1_pe2 (hx : Factor gx) (hy : Factor gy) (sV : FnSpace V) (sW : FnSpace W) (hr : Tensor V W r) (sV' : FnSpace V') (sW' : FnSpace W') (hr' : Tensor V' W' r') (t : Bool)
    (hH : ∀ f, V f → gx.H 1 t (gx.P 1 t f) = .ok (gx.P 0 (!t) f)) (hH' : ∀ f, W f → gy.H 0 t (gy.P 0 t f) = .ok (gy.P 1 (!t) f))
    (gH : ∀ f, V' f → gx.H 0 t (gx.P 0 t f) = .ok (gx.P 1 (!t) f)) (gH' : ∀ f, W' f → gy.H 1 t (gy.P 1 t f) = .ok (gy.P 0 (!t) f)) :
    (product gx gy).H 1 t ((mtab (gy.N 0 t) (gx.N 1 t) fun j i => pe2 gx gy 1 0 t t r i j).data ++ (mtab (gy.N 1 t) (gx.N 0 t) fun j i => pe2 gx gy 0 1 t t r' i j).data)
      = .ok ((mtab (gy.N 0 (!t)) (gx.N 1 (!t)) fun j i => -pe2 gx gy 1 0 (!t) (!t) r' i j).data ++ (mtab (gy.N 1 (!t)) (gx.N 0 (!t)) fun j i => pe2 gx gy 0 1 (!t) (!t) r i j).data) :=
  H1_mtab hx hy t (G' := fun j i => pe2 gx gy 0 0 t (!t) r' i j) (F' := fun j i => pe2 gx gy 0 0 (!t) t r i j) (hy.pos 0 (!t)) (hx.pos 0 (!t))
    (fun i hi => star_y hx hy sV' sW' hr' 0 t 1 t gH' hi) (fun j hj => star_x hx hy sV' sW' hr' 0 (!t) 0 t gH hj)
    (fun j hj => star_x hx hy sV sW hr 0 t 1 t hH hj) (fun i hi => star_y hx hy sV sW hr 0 (!t) 0 t hH' hi)
end

theorem pe2_neg (hx : Factor gx) (hy : Factor gy) (d d' : Fin 2) (t t' : Bool) (f : ℝ → ℝ → ℝ) {i j : ℕ} (hi : i < gx.N d t) (hj : j < gy.N d' t') :
    pe2 gx gy d d' t t' (fun x y => -f x y) i j = -pe2 gx gy d d' t t' f i j := by
  unfold pe2
  have h1 : ∀ x, pe gy d' t' (fun y => -f x y) j = -1 * pe gy d' t' (f x) j := fun x => by
    rw [← pe_smul hy d' t' (-1) (f x) hj]
    simp only [neg_one_mul]
  simp only [h1]
  rw [pe_smul hx d t _ _ hi, neg_one_mul]

end

end Dec.Props
