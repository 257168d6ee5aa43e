import Verif.Lib.Wiener

set_option linter.unusedSimpArgs false
set_option linter.unusedVariables false

/-! # C118: the wedge product is associative in the limit of fine grids -/

namespace Dec.Props

open Finset Real G2 Sp

/-! ## Specification -/

/-- The number of terms of a series such that the products of two of them are resolved by a grid with `n` points. -/
def halfTerms (k : Kind) (n : ℕ) : ℕ :=
  match k with
  | .periodic => (n + 3) / 4
  | _ => n / 2

/-- The sum of the amplitudes of the other terms. -/
noncomputable def restAmp (k : Kind) (c s : ℕ → ℝ) (n : ℕ) : ℝ := ∑' m, amplitude k c s (m + halfTerms k n)

theorem restAmp_nonneg (k : Kind) (c s : ℕ → ℝ) (n : ℕ) : 0 ≤ restAmp k c s n := tsum_nonneg fun m => amplitude_nonneg k c s _

theorem restAmp_le {k : Kind} {c s : ℕ → ℝ} (h : Summable (amplitude k c s)) (n : ℕ) : restAmp k c s n ≤ totalAmplitude k c s := by
  have := h.sum_add_tsum_nat_add (halfTerms k n)
  have h0 := sum_nonneg fun m (_ : m ∈ range (halfTerms k n)) => amplitude_nonneg k c s m
  unfold restAmp totalAmplitude
  linarith

theorem halfTerms_le {k : Kind} {n : ℕ} (hn : validSize k n) (d : Fin 2) (t : Bool) : halfTerms k n ≤ termsOf k ((grid₀ k n).N d t) := by
  have := N_ge k n hn d t
  cases k
  · have hn : 1 ≤ n := hn
    show (n + 3) / 4 ≤ (n + 1) / 2
    omega
  · have hn : 2 ≤ n := hn
    refine le_trans ?_ this
    show n / 2 ≤ n - 1
    omega
  · have hn : 2 ≤ n := hn
    refine le_trans ?_ this
    show n / 2 ≤ n - 1
    omega

/-! ## The reconstruction of a series -/

theorem determined_unique {k : Kind} {n : ℕ} (hr : Refinable k n) {d : Fin 2} {t : Bool} {p q : ℝ → ℝ} (hp : Determined k n d t p) (hq : Determined k n d t q)
    (h : (grid₀ k n).P d t p = (grid₀ k n).P d t q) : ∀ x ∈ Whole k, p x = q x := fun x hx => by
  have := inside_whole hr.2.1 d (determined_nice hr.1 hp) (determined_nice hr.1 hq) (ε := 0) (fun x hx => by
    rw [C70_projection_injective k n hr.1 d t p q hp hq h x hx, sub_self, abs_zero]) x hx
  exact sub_eq_zero.1 (abs_eq_zero.1 (le_antisymm this (abs_nonneg _)))

theorem alias_sum {k : Kind} {n : ℕ} (hr : Refinable k n) {d : Fin 2} {t : Bool} {u q : ℕ → ℝ → ℝ} {A : ℕ → ℝ} {f : ℝ → ℝ} {K : ℕ}
    (h : Aliased (grid₀ k n) (Determined k n d t) (Whole k) d t K u q A f) :
    ∃ p, Determined k n d t p ∧ (grid₀ k n).P d t p = (grid₀ k n).P d t f ∧ ∀ x ∈ Whole k, HasSum (fun m => q m x) (p x) := by
  have s := spans' k n hr.1
  obtain ⟨b, hb, hB, hR⟩ := spans_reps s d t
  have hl : ∀ f, ((grid₀ k n).P d t f).length = (grid₀ k n).N d t := fun f => by rw [pe_tab s.factor]; simp
  obtain ⟨h1, h2⟩ := hR _ (hl f)
  refine ⟨_, h1, h2, fun x hx => ?_⟩
  have e : (fun m => q m x) = fun m => ∑ j ∈ range ((grid₀ k n).N d t), pe (grid₀ k n) d t (u m) j * b j x := by
    funext m
    obtain ⟨h3, h4⟩ := hR _ (hl (q m))
    have := determined_unique hr (h.mem m) h3 h4.symm x hx
    rw [this]
    refine sum_congr rfl fun j _ => ?_
    rw [h.same m]; rfl
  rw [e]
  exact hasSum_sum fun j hj => (P_hasSum s.factor d t (cells_in k n hr.1 d t) h.cont h.sum h.bound h.has (mem_range.1 hj)).mul_right _

/-- The low part of a series. -/
noncomputable def low (k : Kind) (c s : ℕ → ℝ) (n : ℕ) (x : ℝ) : ℝ := ∑ m ∈ range (halfTerms k n), term k c s m x

theorem low_wien (k : Kind) {c s : ℕ → ℝ} (h : Summable (amplitude k c s)) (n : ℕ) : Wien k (totalAmplitude k c s) (low k c s n) :=
  (wien_finset (range (halfTerms k n)) fun m _ => wien_term k c s m).mono (h.sum_le_tsum _ fun m _ => amplitude_nonneg k c s m)

/-- The function that the grid takes for `f`. -/
theorem seen (k : Kind) (n : ℕ) (hr : Refinable k n) (d : Fin 2) (t : Bool) (hc : k = .chebyshev → d = 0) {c s : ℕ → ℝ} {f : ℝ → ℝ} (hf : Expansion k c s f) :
    ∃ p, Determined k n d t p ∧ (grid₀ k n).P d t p = (grid₀ k n).P d t f ∧ Wien k (2 * totalAmplitude k c s) p ∧ Wien k (2 * restAmp k c s n) (fun x => p x - low k c s n x) ∧
      (∀ x ∈ Whole k, |p x| ≤ totalAmplitude k c s) ∧ ∀ x ∈ Whole k, |p x - f x| ≤ 2 * restAmp k c s n := by
  have h := term_alias_shape k n hr.1 d t hc c s
  choose q h1 h2 h3 h4 h5 using h
  have hA : Aliased (grid₀ k n) (Determined k n d t) (Whole k) d t (termsOf k ((grid₀ k n).N d t)) (term k c s) q (amplitude k c s) f :=
    ⟨term_cont k c s, hf.1, fun m x hx => term_bound k c s m hx, hf.2, h1, h2, h3, h4⟩
  obtain ⟨p, hp, hP, hS⟩ := alias_sum hr hA
  have hK := halfTerms_le hr.1 d t
  have hlow : ∀ x, ∑ m ∈ range (halfTerms k n), q m x = low k c s n x := fun x => sum_congr rfl fun m hm => by rw [h4 m ((mem_range.1 hm).trans_le hK)]
  refine ⟨p, hp, hP, ?_, ?_, fun x hx => ?_, fun x hx => ?_⟩
  · have := wien_sum (hf.1.mul_left 2) (fun m => wien_shape (h5 m)) hS
    rwa [tsum_mul_left] at this
  · have := wien_sum (((summable_nat_add_iff (halfTerms k n)).2 hf.1).mul_left 2) (fun m => wien_shape (h5 (m + halfTerms k n))) (f := fun x => p x - low k c s n x) fun x hx => by
      have := (hasSum_nat_add_iff' (halfTerms k n)).2 (hS x hx)
      rwa [hlow x] at this
    rwa [tsum_mul_left] at this
  · have := tsum_of_norm_bounded (f := fun m => q m x) hf.1.hasSum fun m => by rw [Real.norm_eq_abs]; exact h3 m x hx
    rwa [(hS x hx).tsum_eq, Real.norm_eq_abs] at this
  · have := series_error (halfTerms k n) (hf.1.mul_left (2 : ℝ)) ((hS x hx).sub (hf.2 x hx)) (fun m hm => by rw [h4 m (hm.trans_le hK), sub_self]) fun m => hA.diff m x hx
    rwa [tsum_mul_left] at this

/-! ## The reconstruction of a product -/

theorem recovers_det {k : Kind} {n : ℕ} (hn : validSize k n) {d : Fin 2} {t : Bool} {p : ℝ → ℝ} (hp : Determined k n d t p) : Recovers k n d t 0 p := fun x hx =>
  ⟨p x, (spans' k n hn).R_P d t hp (inside_dom k n hn d t hx), by simp⟩

theorem recovers_wien {k : Kind} {n : ℕ} (hn : validSize k n) (d : Fin 2) (t : Bool) (hc : k = .chebyshev → d = 0) {A : ℝ} {f : ℝ → ℝ} (h : Wien k A f) : Recovers k n d t (2 * A) f := by
  obtain ⟨c, s, h1, h2⟩ := h
  intro x hx
  obtain ⟨y, g1, g2⟩ := C80_reconstruction_error k n hn d t hc c s f h1 x hx
  refine ⟨y, g1, g2.trans (mul_le_mul_of_nonneg_left (le_trans ?_ h2) (by norm_num))⟩
  have := h1.1.sum_add_tsum_nat_add (termsOf k ((grid₀ k n).N d t))
  have h0 := sum_nonneg fun m (_ : m ∈ range (termsOf k ((grid₀ k n).N d t))) => amplitude_nonneg k c s m
  unfold tail totalAmplitude
  linarith

theorem recovers_add {k : Kind} {n : ℕ} (hn : validSize k n) {d : Fin 2} {t : Bool} {ε δ : ℝ} {f g : ℝ → ℝ} (hf : Continuous f) (hg : Continuous g)
    (h : Recovers k n d t ε f) (h' : Recovers k n d t δ g) : Recovers k n d t (ε + δ) fun x => f x + g x := by
  intro x hx
  have s := spans' k n hn
  obtain ⟨b, hb, hB, -⟩ := spans_reps s d t
  have hx' := inside_dom k n hn d t hx
  obtain ⟨y, h1, h2⟩ := h x hx
  obtain ⟨z, h3, h4⟩ := h' x hx
  rw [s.R_eq d t _ b hB hx'] at h1 h3
  obtain rfl := Option.some.inj h1
  obtain rfl := Option.some.inj h3
  refine ⟨_, s.R_eq d t _ b hB hx', ?_⟩
  have e : ∑ j ∈ range ((grid₀ k n).N d t), ((grid₀ k n).P d t fun x => f x + g x).getD j 0 * b j x
      = (∑ j ∈ range ((grid₀ k n).N d t), ((grid₀ k n).P d t f).getD j 0 * b j x) + ∑ j ∈ range ((grid₀ k n).N d t), ((grid₀ k n).P d t g).getD j 0 * b j x := by
    rw [← sum_add_distrib]
    refine sum_congr rfl fun j hj => ?_
    rw [← add_mul]
    congr 1
    have hj := mem_range.1 hj
    show pe (grid₀ k n) d t _ j = pe (grid₀ k n) d t f j + pe (grid₀ k n) d t g j
    obtain rfl | rfl : d = 0 ∨ d = 1 := by omega
    · rw [pe0 s.factor t _ hj, pe0 s.factor t _ hj, pe0 s.factor t _ hj]
    · rw [pe1 s.factor t _ hj, pe1 s.factor t _ hj, pe1 s.factor t _ hj]
      exact intervalIntegral.integral_add (hf.intervalIntegrable _ _) (hg.intervalIntegrable _ _)
  rw [e]
  refine le_trans ?_ ((abs_add_le _ _).trans (add_le_add h2 h4))
  apply le_of_eq
  congr 1
  ring

theorem low_cont (k : Kind) (c s : ℕ → ℝ) (n : ℕ) : Continuous (low k c s n) := continuous_finsetSum _ fun m _ => term_cont k c s m

theorem isPoly_range {M N : ℕ} (u : ℕ → ℝ → ℝ) (h : ∀ m < N, IsPoly M (u m)) : IsPoly M fun x => ∑ m ∈ range N, u m x := by
  induction N with
  | zero => exact ⟨fun _ => 0, fun x => by simp⟩
  | succ N ih =>
    have := isPoly_add (ih fun m hm => h m (by omega)) (h N (by omega))
    simp only [sum_range_succ]
    exact this

theorem low_mul_det {k : Kind} {n : ℕ} (hr : Refinable k n) (d : Fin 2) (t : Bool) (c s c' s' : ℕ → ℝ) : Determined k n d t fun x => low k c s n x * low k c' s' n x := by
  cases k
  · have hn : 1 ≤ n := hr.1
    have key : ∀ c s : ℕ → ℝ, IsTrig ((n + 3) / 4 - 1) (low .periodic c s n) := fun c s => IsTrig.sum _ fun m hm => by
      have hm : m < (n + 3) / 4 := mem_range.1 hm
      exact ((isTrig_cos_nat (by omega)).const_mul (c m)).add ((isTrig_sin_nat (by omega)).const_mul (s m))
    exact IsTrigAt.of_trig (((key c s).mul (key c' s')).mono (by omega))
  · exact absurd rfl hr.2.1
  · have hn : 2 ≤ n := hr.1
    have key : ∀ c s : ℕ → ℝ, IsPoly (n / 2) (low .chebyshev c s n) := fun c s => isPoly_range _ fun m hm => by
      refine isPoly_smul (c m) ⟨fun i => (Polynomial.Chebyshev.T ℝ m).coeff i, fun x => ?_⟩
      beta_reduce
      rw [Polynomial.eval_eq_sum_range' (n := n / 2)]
      rw [Polynomial.Chebyshev.natDegree_T]
      simpa using (show m < n / 2 from hm)
    exact isPoly_mul (by split_ifs <;> omega) (key c s) (key c' s')

/-- What the grid recovers of the product of two series. -/
theorem product_recovered {k : Kind} {n : ℕ} (hr : Refinable k n) (m : Fin 2) (v : Bool) (hm : k = .chebyshev → m = 0) {c s c' s' : ℕ → ℝ} {A B T T' : ℝ} {p r : ℝ → ℝ}
    (cp : Continuous p) (cr : Continuous r) (hp : Wien k A p) (hr' : Wien k T' fun x => r x - low k c' s' n x) (hp' : Wien k T fun x => p x - low k c s n x)
    (hl : Wien k B (low k c' s' n)) : Recovers k n m v (2 * (A * T' + T * B)) fun x => p x * r x := by
  have h1 := recovers_det hr.1 (low_mul_det hr m v c s c' s')
  have h2 := recovers_wien hr.1 m v hm (wien_add (wien_mul hr.2.1 hp hr') (wien_mul hr.2.1 hp' hl))
  have h3 : Recovers k n m v (0 + 2 * (A * T' + T * B)) fun x => low k c s n x * low k c' s' n x + (p x * (r x - low k c' s' n x) + (p x - low k c s n x) * low k c' s' n x) := recovers_add hr.1 ((low_cont k c s n).mul (low_cont k c' s' n)) ((cp.mul (cr.sub (low_cont k c' s' n))).add ((cp.sub (low_cont k c s n)).mul (low_cont k c' s' n))) h1 h2
  rw [zero_add] at h3
  have e : (fun x => low k c s n x * low k c' s' n x + (p x * (r x - low k c' s' n x) + (p x - low k c s n x) * low k c' s' n x)) = fun x => p x * r x := by
    funext x; ring
  rwa [e] at h3

theorem recovers_of_seen {k : Kind} {n : ℕ} (hn : validSize k n) {d : Fin 2} {t : Bool} {p f : ℝ → ℝ} {ε : ℝ} (hp : Determined k n d t p)
    (hP : (grid₀ k n).P d t p = (grid₀ k n).P d t f) (h : ∀ x ∈ Whole k, |p x - f x| ≤ ε) : Recovers k n d t ε f := fun x hx =>
  ⟨p x, by rw [← hP]; exact (spans' k n hn).R_P d t hp (inside_dom k n hn d t hx), h x (whole_of_inside hx)⟩

/-- A sum of three products: in each of them one function is replaced by what the grid does not resolve of it. -/
noncomputable def unresolved (k : Kind) (c s c' s' c'' s'' : ℕ → ℝ) (n : ℕ) : ℝ :=
  restAmp k c s n * totalAmplitude k c' s' * totalAmplitude k c'' s'' + totalAmplitude k c s * restAmp k c' s' n * totalAmplitude k c'' s''
    + totalAmplitude k c s * totalAmplitude k c' s' * restAmp k c'' s'' n

theorem total_nonneg (k : Kind) (c s : ℕ → ℝ) : 0 ≤ totalAmplitude k c s := tsum_nonneg (amplitude_nonneg k c s)

/-- The wedge product of two projections, as the projection of a function. -/
theorem first_wedge (k : Kind) (n : ℕ) (hr : Refinable k n) (d e : Fin 2) (hde : d.val + e.val ≤ 1) (hc : k = .chebyshev → d = 0 ∧ e = 0) (s t v : Bool)
    {c b c' b' : ℕ → ℝ} {f g : ℝ → ℝ} (hf : Expansion k c b f) (hg : Expansion k c' b' g) :
    ∃ q, Nice k q ∧ Dec.wedge1 (grid₀ k n).T (grid₀ k n).U d s e t v ((grid₀ k n).P d s f) ((grid₀ k n).P e t g) = .ok ((grid₀ k n).P (d + e) v q) ∧
      Recovers k n (d + e) v (8 * totalAmplitude k c b * restAmp k c' b' n + 4 * restAmp k c b n * totalAmplitude k c' b') q ∧
      (∀ x ∈ Whole k, |q x| ≤ totalAmplitude k c b * totalAmplitude k c' b') ∧
      ∀ x ∈ Whole k, |q x - f x * g x| ≤ 2 * totalAmplitude k c b * restAmp k c' b' n + 2 * restAmp k c b n * totalAmplitude k c' b' := by
  obtain ⟨p, p1, p2, p3, p4, p5, p6⟩ := seen k n hr d s (fun h => (hc h).1) hf
  obtain ⟨r, r1, r2, r3, r4, r5, r6⟩ := seen k n hr e t (fun h => (hc h).2) hg
  have np := determined_nice hr.1 p1
  have nr := determined_nice hr.1 r1
  obtain ⟨M, pt, rx⟩ := refine_det hr
  have hfit : k = .chebyshev → ¬ (d = 0 ∧ s = true ∧ e = 1 ∧ t = false) ∧ ¬ (d = 1 ∧ s = false ∧ e = 0 ∧ t = true) := fun h => by
    obtain ⟨rfl, rfl⟩ := hc h; simp
  have hw := refExact_wedge1 rx (grid₀_factor k n hr.1) d e hde s t v p1 r1 (fun _ => by rw [fin_add d e hde]; exact det_product hr d e s t hfit p1 r1)
  rw [fin_add d e hde, p2, r2] at hw
  refine ⟨fun x => p x * r x, ⟨np.1.mul nr.1, fun h x => ?_⟩, hw, ?_, fun x hx => ?_, fun x hx => ?_⟩
  · show p (x + 2 * π) * r (x + 2 * π) = p x * r x
    rw [np.2 h x, nr.2 h x]
  · have := product_recovered hr (d + e) v (fun h => by obtain ⟨rfl, rfl⟩ := hc h; rfl) np.1 nr.1 p3 r4 p4 (low_wien k hg.1 n)
    convert this using 1
    ring
  · rw [abs_mul]
    exact mul_le_mul (p5 x hx) (r5 x hx) (abs_nonneg _) (total_nonneg _ _ _)
  · have e1 : p x * r x - f x * g x = p x * (r x - g x) + (p x - f x) * g x := by ring
    rw [e1]
    refine (abs_add_le _ _).trans ?_
    rw [abs_mul, abs_mul]
    have h1 := mul_le_mul (p5 x hx) (r6 x hx) (abs_nonneg _) (total_nonneg k c b)
    have h2 := mul_le_mul (p6 x hx) (expansion_bound hg hx) (abs_nonneg _) (mul_nonneg (by norm_num) (restAmp_nonneg k c b n))
    linarith

section
variable (k : Kind) (n : ℕ) (hr : Refinable k n) (d e j : Fin 2) (hde : d.val + e.val + j.val ≤ 1) (hc : k = .chebyshev → d = 0 ∧ e = 0 ∧ j = 0) (s t u v z : Bool)
  (c b c' b' c'' b'' : ℕ → ℝ) (f g h : ℝ → ℝ) (hf : Expansion k c b f) (hg : Expansion k c' b' g) (hh : Expansion k c'' b'' h)
  (cf : Continuous f) (cg : Continuous g) (ch : Continuous h)
include hr hde hc hf hg hh cf cg ch

/-- **C118**: let `f`, `g`, `h` be sums of absolutely convergent series (or 1-forms with such components), on a periodic or Chebyshev grid.  The wedge product
`(f ∧ g) ∧ h` of their projections differs from the projection of `f g h`, on every cell, by at most 26 times the unresolved part of the three series, times the
size of the cell.  (On Chebyshev grids: 0-forms.) -/
theorem C118_left_product : ∃ w a l, (grid₀ k n).W = some w ∧ w d s e t v ((grid₀ k n).P d s f) ((grid₀ k n).P e t g) = .ok a ∧
    w (d + e) v j u z a ((grid₀ k n).P j u h) = .ok l ∧ l.length = (grid₀ k n).N (d + e + j) z ∧
    ∀ i < (grid₀ k n).N (d + e + j) z, |l.getD i 0 - ((grid₀ k n).P (d + e + j) z fun x => f x * g x * h x).getD i 0|
      ≤ 26 * unresolved k c b c' b' c'' b'' n * ((grid₀ k n).P (d + e + j) z fun _ => 1).getD i 0 := by
  obtain ⟨q, q1, q2, q3, q4, q5⟩ := first_wedge k n hr d e (by omega) (fun h => ⟨(hc h).1, (hc h).2.1⟩) s t v hf hg
  obtain ⟨r, r1, r2, r3, r4, r5, r6⟩ := seen k n hr j u (fun h => (hc h).2.2) hh
  have hdv : (d + e).val = d.val + e.val := by rw [← fin_add d e (by omega)]; show (d.val + e.val) % 2 = _; omega
  obtain ⟨w, l, h1, h2, h3, h4⟩ := C106_wedge_error k n hr v u z q h q1 (expansion_nice hh ch) _ _ _ _ q4 (fun x hx => expansion_bound hh hx) (d + e) j (by omega)
    (fun h => by obtain ⟨rfl, rfl, rfl⟩ := hc h; simp) q3 (recovers_of_seen hr.1 r1 r2 r6)
  rw [(grid₀_products hr).1] at h1
  obtain rfl := Option.some.inj h1
  refine ⟨_, _, l, (grid₀_products hr).1, q2, h2, h3, fun i hi => ?_⟩
  have hP := P_bound (grid₀_factor k n hr.1) (d + e + j) z (cells_in k n hr.1 (d + e + j) z) ((cf.mul cg).mul ch) (q1.1.mul ch)
    (c := (2 * totalAmplitude k c b * restAmp k c' b' n + 2 * restAmp k c b n * totalAmplitude k c' b') * totalAmplitude k c'' b'') (fun x hx => by
      show |q x * h x - f x * g x * h x| ≤ _
      rw [← sub_mul, abs_mul]
      exact mul_le_mul (q5 x hx) (expansion_bound hh hx) (abs_nonneg _) ((abs_nonneg _).trans (q5 x hx))) hi
  have hs := size_nonneg (grid₀_factor k n hr.1) (d + e + j) z (cells_in k n hr.1 (d + e + j) z) hi
  have hA := total_nonneg k c b; have hB := total_nonneg k c' b'; have hC := total_nonneg k c'' b''
  have hT := restAmp_nonneg k c b n; have hT' := restAmp_nonneg k c' b' n; have hT'' := restAmp_nonneg k c'' b'' n
  have hle := restAmp_le hh.1 n
  refine (abs_sub_le _ (((grid₀ k n).P (d + e + j) z fun x => q x * h x).getD i 0) _).trans ((add_le_add (h4 i hi) hP).trans ?_)
  show _ * pe (grid₀ k n) (d + e + j) z (fun _ => 1) i + _ ≤ _ * pe (grid₀ k n) (d + e + j) z (fun _ => 1) i
  rw [← add_mul]
  refine mul_le_mul_of_nonneg_right ?_ hs
  unfold unresolved
  generalize totalAmplitude k c b = A at *
  generalize totalAmplitude k c' b' = B at *
  generalize totalAmplitude k c'' b'' = C at *
  generalize restAmp k c b n = T at *
  generalize restAmp k c' b' n = T' at *
  generalize restAmp k c'' b'' n = T'' at *
  have h5 := mul_le_mul_of_nonneg_left hle (show 0 ≤ 8 * A * T' + 4 * T * B by positivity)
  have h6 : 0 ≤ T * B * C := by positivity
  have h7 : 0 ≤ A * B * T'' := by positivity
  nlinarith

/-- **C118**: likewise for `f ∧ (g ∧ h)`. -/
theorem C118_right_product : ∃ w a l, (grid₀ k n).W = some w ∧ w e t j u v ((grid₀ k n).P e t g) ((grid₀ k n).P j u h) = .ok a ∧
    w d s (e + j) v z ((grid₀ k n).P d s f) a = .ok l ∧ l.length = (grid₀ k n).N (d + e + j) z ∧
    ∀ i < (grid₀ k n).N (d + e + j) z, |l.getD i 0 - ((grid₀ k n).P (d + e + j) z fun x => f x * g x * h x).getD i 0|
      ≤ 26 * unresolved k c b c' b' c'' b'' n * ((grid₀ k n).P (d + e + j) z fun _ => 1).getD i 0 := by
  obtain ⟨q, q1, q2, q3, q4, q5⟩ := first_wedge k n hr e j (by omega) (fun h => (hc h).2) t u v hg hh
  obtain ⟨r, r1, r2, r3, r4, r5, r6⟩ := seen k n hr d s (fun h => (hc h).1) hf
  have hdv : (e + j).val = e.val + j.val := by rw [← fin_add e j (by omega)]; show (e.val + j.val) % 2 = _; omega
  obtain ⟨w, l, h1, h2, h3, h4⟩ := C106_wedge_error k n hr s v z f q (expansion_nice hf cf) q1 _ _ _ _ (fun x hx => expansion_bound hf hx) q4 d (e + j) (by omega)
    (fun h => by obtain ⟨rfl, rfl, rfl⟩ := hc h; simp) (recovers_of_seen hr.1 r1 r2 r6) q3
  rw [(grid₀_products hr).1] at h1
  obtain rfl := Option.some.inj h1
  rw [← add_assoc] at h3 h4
  refine ⟨_, _, l, (grid₀_products hr).1, q2, h2, h3, fun i hi => ?_⟩
  have hP := P_bound (grid₀_factor k n hr.1) (d + e + j) z (cells_in k n hr.1 (d + e + j) z) ((cf.mul cg).mul ch) (cf.mul q1.1)
    (c := totalAmplitude k c b * (2 * totalAmplitude k c' b' * restAmp k c'' b'' n + 2 * restAmp k c' b' n * totalAmplitude k c'' b'')) (fun x hx => by
      show |f x * q x - f x * g x * h x| ≤ _
      rw [mul_assoc, ← mul_sub, abs_mul]
      exact mul_le_mul (expansion_bound hf hx) (q5 x hx) (abs_nonneg _) (total_nonneg _ _ _)) hi
  have hs := size_nonneg (grid₀_factor k n hr.1) (d + e + j) z (cells_in k n hr.1 (d + e + j) z) hi
  have hA := total_nonneg k c b; have hB := total_nonneg k c' b'; have hC := total_nonneg k c'' b''
  have hT := restAmp_nonneg k c b n; have hT' := restAmp_nonneg k c' b' n; have hT'' := restAmp_nonneg k c'' b'' n
  have hle := restAmp_le hf.1 n
  refine (abs_sub_le _ (((grid₀ k n).P (d + e + j) z fun x => f x * q x).getD i 0) _).trans ((add_le_add (h4 i hi) hP).trans ?_)
  show _ * pe (grid₀ k n) (d + e + j) z (fun _ => 1) i + _ ≤ _ * pe (grid₀ k n) (d + e + j) z (fun _ => 1) i
  rw [← add_mul]
  refine mul_le_mul_of_nonneg_right ?_ hs
  unfold unresolved
  generalize totalAmplitude k c b = A at *
  generalize totalAmplitude k c' b' = B at *
  generalize totalAmplitude k c'' b'' = C at *
  generalize restAmp k c b n = T at *
  generalize restAmp k c' b' n = T' at *
  generalize restAmp k c'' b'' n = T'' at *
  have h5 := mul_le_mul_of_nonneg_right hle (show 0 ≤ 8 * B * T'' + 4 * T' * C by positivity)
  have h6 : 0 ≤ T * B * C := by positivity
  have h7 : 0 ≤ A * T' * C := by positivity
  nlinarith

/-- **C118**: how far the wedge product is from being associative. -/
theorem C118_associativity_error (v' : Bool) : ∃ w a l a' r, (grid₀ k n).W = some w ∧
    w d s e t v ((grid₀ k n).P d s f) ((grid₀ k n).P e t g) = .ok a ∧ w (d + e) v j u z a ((grid₀ k n).P j u h) = .ok l ∧
    w e t j u v' ((grid₀ k n).P e t g) ((grid₀ k n).P j u h) = .ok a' ∧ w d s (e + j) v' z ((grid₀ k n).P d s f) a' = .ok r ∧
    l.length = (grid₀ k n).N (d + e + j) z ∧ r.length = (grid₀ k n).N (d + e + j) z ∧
    ∀ i < (grid₀ k n).N (d + e + j) z, |l.getD i 0 - r.getD i 0| ≤ 52 * unresolved k c b c' b' c'' b'' n * ((grid₀ k n).P (d + e + j) z fun _ => 1).getD i 0 ∧
      |l.getD i 0 - ((grid₀ k n).P (d + e + j) z fun x => f x * g x * h x).getD i 0| ≤ 26 * unresolved k c b c' b' c'' b'' n * ((grid₀ k n).P (d + e + j) z fun _ => 1).getD i 0 := by
  obtain ⟨w, a, l, h1, h2, h3, h4, h5⟩ := C118_left_product k n hr d e j hde hc s t u v z c b c' b' c'' b'' f g h hf hg hh cf cg ch
  obtain ⟨w', a', r, g1, g2, g3, g4, g5⟩ := C118_right_product k n hr d e j hde hc s t u v' z c b c' b' c'' b'' f g h hf hg hh cf cg ch
  obtain rfl := Option.some.inj (h1.symm.trans g1)
  refine ⟨w, a, l, a', r, h1, h2, h3, g2, g3, h4, g4, fun i hi => ⟨?_, h5 i hi⟩⟩
  have e1 := h5 i hi
  have e2 := g5 i hi
  rw [abs_sub_comm] at e2
  refine (abs_sub_le _ (((grid₀ k n).P (d + e + j) z fun x => f x * g x * h x).getD i 0) _).trans ((add_le_add e1 e2).trans (le_of_eq ?_))
  ring

end

theorem restAmp_tendsto (k : Kind) (c s : ℕ → ℝ) {ε : ℝ} (hε : 0 < ε) : ∃ n₀, ∀ n ≥ n₀, restAmp k c s n < ε := by
  have h := tendsto_sum_nat_add (amplitude k c s)
  obtain ⟨K, hK⟩ := (Metric.tendsto_atTop.1 h) ε hε
  refine ⟨4 * K, fun n hn => ?_⟩
  have hm : K ≤ halfTerms k n := by
    cases k
    · show K ≤ (n + 3) / 4; omega
    · show K ≤ n / 2; omega
    · show K ≤ n / 2; omega
  have h1 := hK _ hm
  rw [dist_zero_right, Real.norm_eq_abs] at h1
  exact (le_abs_self _).trans_lt h1

/-- **C118**: the wedge product is associative in the limit: as the grid is refined, `(f ∧ g) ∧ h` and `f ∧ (g ∧ h)` become equal, and equal to the projection of
`f g h`, uniformly on all the cells (relative to their size). -/
theorem C118_associative_in_the_limit (k : Kind) (d e j : Fin 2) (hde : d.val + e.val + j.val ≤ 1) (hc : k = .chebyshev → d = 0 ∧ e = 0 ∧ j = 0) (s t u v v' z : Bool)
    (c b c' b' c'' b'' : ℕ → ℝ) (f g h : ℝ → ℝ) (hf : Expansion k c b f) (hg : Expansion k c' b' g) (hh : Expansion k c'' b'' h)
    (cf : Continuous f) (cg : Continuous g) (ch : Continuous h) (η : ℝ) (hη : 0 < η) :
    ∃ n₀, ∀ n ≥ n₀, Refinable k n → ∃ w a l a' r, (grid₀ k n).W = some w ∧
      w d s e t v ((grid₀ k n).P d s f) ((grid₀ k n).P e t g) = .ok a ∧ w (d + e) v j u z a ((grid₀ k n).P j u h) = .ok l ∧
      w e t j u v' ((grid₀ k n).P e t g) ((grid₀ k n).P j u h) = .ok a' ∧ w d s (e + j) v' z ((grid₀ k n).P d s f) a' = .ok r ∧
      l.length = (grid₀ k n).N (d + e + j) z ∧ r.length = (grid₀ k n).N (d + e + j) z ∧
      ∀ i < (grid₀ k n).N (d + e + j) z, |l.getD i 0 - r.getD i 0| ≤ η * ((grid₀ k n).P (d + e + j) z fun _ => 1).getD i 0 ∧
        |l.getD i 0 - ((grid₀ k n).P (d + e + j) z fun x => f x * g x * h x).getD i 0| ≤ η * ((grid₀ k n).P (d + e + j) z fun _ => 1).getD i 0 := by
  have hA := total_nonneg k c b; have hB := total_nonneg k c' b'; have hC := total_nonneg k c'' b''
  set S := totalAmplitude k c' b' * totalAmplitude k c'' b'' + totalAmplitude k c b * totalAmplitude k c'' b'' + totalAmplitude k c b * totalAmplitude k c' b' with hS
  have hS0 : 0 ≤ S := by positivity
  obtain ⟨n₁, h1⟩ := restAmp_tendsto k c b (show 0 < η / (52 * (S + 1)) by positivity)
  obtain ⟨n₂, h2⟩ := restAmp_tendsto k c' b' (show 0 < η / (52 * (S + 1)) by positivity)
  obtain ⟨n₃, h3⟩ := restAmp_tendsto k c'' b'' (show 0 < η / (52 * (S + 1)) by positivity)
  refine ⟨max n₁ (max n₂ n₃), fun n hn hr => ?_⟩
  have h1 := (h1 n (by omega)).le
  have h2 := (h2 n (by omega)).le
  have h3 := (h3 n (by omega)).le
  obtain ⟨w, a, l, a', r, g1, g2, g3, g4, g5, g6, g7, g8⟩ := C118_associativity_error k n hr d e j hde hc s t u v z c b c' b' c'' b'' f g h hf hg hh cf cg ch v'
  have key : unresolved k c b c' b' c'' b'' n ≤ η / (52 * (S + 1)) * S := by
    unfold unresolved
    rw [hS]
    have e1 := mul_le_mul_of_nonneg_right h1 (show 0 ≤ totalAmplitude k c' b' * totalAmplitude k c'' b'' by positivity)
    have e2 := mul_le_mul_of_nonneg_right h2 (show 0 ≤ totalAmplitude k c b * totalAmplitude k c'' b'' by positivity)
    have e3 := mul_le_mul_of_nonneg_right h3 (show 0 ≤ totalAmplitude k c b * totalAmplitude k c' b' by positivity)
    linarith
  have e4 : 52 * (η / (52 * (S + 1)) * S) ≤ η := by
    rw [show 52 * (η / (52 * (S + 1)) * S) = η * (S / (S + 1)) by field_simp]
    exact mul_le_of_le_one_right hη.le ((div_le_one (by positivity)).2 (by linarith))
  have e5 : 0 ≤ unresolved k c b c' b' c'' b'' n := by
    have := restAmp_nonneg k c b n; have := restAmp_nonneg k c' b' n; have := restAmp_nonneg k c'' b'' n
    unfold unresolved; positivity
  refine ⟨w, a, l, a', r, g1, g2, g3, g4, g5, g6, g7, fun i hi => ?_⟩
  have hs := size_nonneg (grid₀_factor k n hr.1) (d + e + j) z (cells_in k n hr.1 (d + e + j) z) hi
  exact ⟨(g8 i hi).1.trans (mul_le_mul_of_nonneg_right (by linarith) hs), (g8 i hi).2.trans (mul_le_mul_of_nonneg_right (by linarith) hs)⟩

/-- **C118**: for coefficients that decrease geometrically, the error decreases geometrically with the number of points. -/
theorem C118_spectral (k : Kind) (n : ℕ) (c b c' b' c'' b'' : ℕ → ℝ) (C ρ : ℝ) (hρ : 0 ≤ ρ) (hρ1 : ρ < 1)
    (h : ∀ m, amplitude k c b m ≤ C * ρ ^ m) (h' : ∀ m, amplitude k c' b' m ≤ C * ρ ^ m) (h'' : ∀ m, amplitude k c'' b'' m ≤ C * ρ ^ m) :
    unresolved k c b c' b' c'' b'' n ≤ 3 * (C / (1 - ρ)) ^ 3 * ρ ^ halfTerms k n := by
  have hC : 0 ≤ C := by have := (amplitude_nonneg k c b 0).trans (h 0); simpa using this
  have h1 : 0 < 1 - ρ := by linarith
  have hg := summable_geometric_of_lt_one hρ hρ1
  have hsum : ∀ {c b : ℕ → ℝ}, (∀ m, amplitude k c b m ≤ C * ρ ^ m) → Summable (amplitude k c b) := fun h =>
    Summable.of_nonneg_of_le (fun m => amplitude_nonneg k _ _ m) h (hg.mul_left C)
  have ht : ∀ {c b : ℕ → ℝ}, (∀ m, amplitude k c b m ≤ C * ρ ^ m) → totalAmplitude k c b ≤ C / (1 - ρ) := fun h => by
    have := Summable.tsum_le_tsum h (hsum h) (hg.mul_left C)
    rwa [tsum_mul_left, tsum_geometric_of_lt_one hρ hρ1, ← div_eq_mul_inv] at this
  have hr : ∀ {c b : ℕ → ℝ}, (∀ m, amplitude k c b m ≤ C * ρ ^ m) → restAmp k c b n ≤ C / (1 - ρ) * ρ ^ halfTerms k n := fun {c b} h => by
    have e : ∀ m, amplitude k c b (m + halfTerms k n) ≤ C * ρ ^ halfTerms k n * ρ ^ m := fun m => (h _).trans (le_of_eq (by rw [pow_add]; ring))
    have := Summable.tsum_le_tsum e ((summable_nat_add_iff (halfTerms k n)).2 (hsum h)) (hg.mul_left _)
    rw [tsum_mul_left, tsum_geometric_of_lt_one hρ hρ1] at this
    unfold restAmp
    rw [div_mul_eq_mul_div, div_eq_mul_inv]
    exact this
  have hX : 0 ≤ C / (1 - ρ) := by positivity
  have hY : 0 ≤ ρ ^ halfTerms k n := by positivity
  have a1 := ht h; have a2 := ht h'; have a3 := ht h''
  have r1 := hr h; have r2 := hr h'; have r3 := hr h''
  have p1 := total_nonneg k c b; have p2 := total_nonneg k c' b'; have p3 := total_nonneg k c'' b''
  have q1 := restAmp_nonneg k c b n; have q2 := restAmp_nonneg k c' b' n; have q3 := restAmp_nonneg k c'' b'' n
  unfold unresolved
  generalize C / (1 - ρ) = X at *
  generalize ρ ^ halfTerms k n = Y at *
  have b1 := mul_le_mul (mul_le_mul r1 a2 p2 (by positivity)) a3 p3 (by positivity)
  have b2 := mul_le_mul (mul_le_mul a1 r2 q2 (by positivity)) a3 p3 (by positivity)
  have b3 := mul_le_mul (mul_le_mul a1 a2 p2 (by positivity)) r3 q3 (by positivity)
  nlinarith

/-- A concrete case: a function with infinitely many coefficients, and three 0-forms or two 0-forms and a 1-form made of it. -/
example (n : ℕ) (hn : 1 ≤ n) : ∃ w a l a' r, (grid₀ .periodic n).W = some w ∧ ∃ f : ℝ → ℝ, f 0 = 2 ∧
    w 0 true 1 true true ((grid₀ .periodic n).P 0 true f) ((grid₀ .periodic n).P 1 true f) = .ok a ∧ w 1 true 0 false true a ((grid₀ .periodic n).P 0 false f) = .ok l ∧
    w 1 true 0 false false ((grid₀ .periodic n).P 1 true f) ((grid₀ .periodic n).P 0 false f) = .ok a' ∧ w 0 true 1 false true ((grid₀ .periodic n).P 0 true f) a' = .ok r ∧
    ∀ i < n, |l.getD i 0 - r.getD i 0| ≤ 1248 * (1 / 2) ^ ((n + 3) / 4) * ((grid₀ .periodic n).P 1 true fun _ => 1).getD i 0 := by
  have hs : Summable fun m : ℕ => ((1 : ℝ) / 2) ^ m := summable_geometric_of_lt_one (by norm_num) (by norm_num)
  have hE := expansion_example
  have hc : Continuous fun x => ∑' m : ℕ, (1 / 2 : ℝ) ^ m * cos (m * x) := by
    refine continuous_tsum (fun m => by fun_prop) hs fun m x => ?_
    rw [Real.norm_eq_abs, abs_mul, abs_of_pos (by positivity)]
    exact mul_le_of_le_one_right (by positivity) (abs_cos_le_one _)
  have hr : Refinable .periodic n := ⟨hn, by decide, fun h => by cases h⟩
  obtain ⟨w, a, l, a', r, g1, g2, g3, g4, g5, g6, g7, g8⟩ := C118_associativity_error .periodic n hr 0 1 0 (by decide) (fun h => by cases h) true true false true true _ _ _ _ _ _ _ _ _ hE hE hE hc hc hc false
  refine ⟨w, a, l, a', r, g1, _, ?_, g2, g3, g4, g5, fun i hi => (g8 i hi).1.trans (mul_le_mul_of_nonneg_right ?_ (size_nonneg (grid₀_factor .periodic n hr.1) _ _ (cells_in .periodic n hr.1 _ _) hi))⟩
  · exact (tsum_congr fun m => by simp).trans tsum_geometric_two
  · have hb : ∀ m : ℕ, amplitude .periodic (fun m => (1 / 2) ^ m) (fun _ => 0) m ≤ 1 * (1 / 2 : ℝ) ^ m := fun m => by
      show |((1 : ℝ) / 2) ^ m| + |(0 : ℝ)| ≤ _
      rw [abs_of_pos (by positivity)]; simp
    have := C118_spectral .periodic n _ _ _ _ _ _ 1 (1 / 2) (by norm_num) (by norm_num) hb hb hb
    have e : halfTerms .periodic n = (n + 3) / 4 := rfl
    rw [e] at this
    norm_num at this ⊢
    linarith

end Dec.Props
