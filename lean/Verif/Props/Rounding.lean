import Verif.Model.Rounding
import Verif.Props.Quadrature

set_option linter.unusedVariables false

/-! # C85: comparisons after rounding, assertions of the integrators, named tuples -/

namespace Dec.Props

open Real Sp

/-! ## Rounding -/

theorem rint_near (x : ℝ) : |(rint x : ℝ) - x| ≤ 1 / 2 := by
  have h0 := Int.fract_nonneg x
  have h1 := Int.fract_lt_one x
  have e := Int.floor_add_fract x
  unfold rint
  rw [abs_le]
  split_ifs <;> constructor <;> push_cast <;> linarith

theorem rint_of_near {x : ℝ} {n : ℤ} (h : |x - n| < 1 / 2) : rint x = n := by
  have h2 := rint_near x
  rw [abs_lt] at h
  rw [abs_le] at h2
  have : (rint x : ℝ) - n < 1 ∧ -1 < (rint x : ℝ) - n := ⟨by linarith, by linarith⟩
  have h3 : rint x - n < 1 := by exact_mod_cast this.1
  have h4 : -1 < rint x - n := by exact_mod_cast this.2
  omega

theorem rint_tie (n : ℤ) : Even (rint (n + 1 / 2)) := by
  have hf : ⌊(n : ℝ) + 1 / 2⌋ = n := by rw [Int.floor_eq_iff]; constructor <;> linarith
  have hr : Int.fract ((n : ℝ) + 1 / 2) = 1 / 2 := by
    have := Int.floor_add_fract ((n : ℝ) + 1 / 2)
    rw [hf] at this; linarith
  unfold rint
  rw [hf, hr, if_neg (lt_irrefl _), if_neg (lt_irrefl _)]
  split_ifs with h
  · exact h
  · rw [Int.not_even_iff_odd] at h; exact h.add_one

theorem npRound_eq_iff (k : ℕ) (a b : ℝ) : npRound k a = npRound k b ↔ rint (a * 10 ^ k) = rint (b * 10 ^ k) := by
  unfold npRound
  have : (10 : ℝ) ^ k ≠ 0 := by positivity
  rw [div_left_inj' this]
  exact Int.cast_inj

/-- The rounding error is at most half a unit of the last digit, ties go to the even digit. -/
theorem C85_round (k : ℕ) (x : ℝ) : |npRound k x - x| ≤ 1 / 2 / 10 ^ k ∧ (∃ m : ℤ, npRound k x = m / 10 ^ k ∧ ((∃ n : ℤ, x * 10 ^ k = n + 1 / 2) → Even m)) := by
  have hp : (0 : ℝ) < 10 ^ k := by positivity
  constructor
  · have h := rint_near (x * 10 ^ k)
    unfold npRound
    have e : (rint (x * 10 ^ k) : ℝ) / 10 ^ k - x = ((rint (x * 10 ^ k) : ℝ) - x * 10 ^ k) / 10 ^ k := by field_simp
    rw [e, abs_div, abs_of_pos hp]
    exact (div_le_div_iff_of_pos_right hp).2 h
  · refine ⟨_, rfl, fun ⟨n, hn⟩ => ?_⟩
    rw [hn]; exact rint_tie n

theorem npRound_close {k : ℕ} {a b : ℝ} (h : npRound k a = npRound k b) : |a - b| ≤ 1 / 10 ^ k := by
  have h1 := (C85_round k a).1
  have h2 := (C85_round k b).1
  rw [h] at h1
  rw [abs_le] at *
  have : (1 : ℝ) / 10 ^ k = 1 / 2 / 10 ^ k + 1 / 2 / 10 ^ k := by ring
  constructor <;> linarith [h1.1, h1.2, h2.1, h2.2]

theorem approx_iff (a b : ℝ) : approx a b = true ↔ npRound 10 a = npRound 10 b := by unfold approx; exact decide_eq_true_iff

/-- **C85**: `approx` is an equivalence relation, and implies that the numbers differ by at most `10⁻¹⁰`; numbers that are closer than half of this to the same multiple of `10⁻¹⁰` are related. -/
theorem C85_approx (a b c : ℝ) :
    approx a a = true ∧ (approx a b = true → approx b a = true) ∧ (approx a b = true → approx b c = true → approx a c = true) ∧
    (approx a b = true → |a - b| ≤ 1 / 10 ^ 10) ∧
    (∀ m : ℤ, |a - m / 10 ^ 10| < 1 / 2 / 10 ^ 10 → |b - m / 10 ^ 10| < 1 / 2 / 10 ^ 10 → approx a b = true) := by
  simp only [approx_iff]
  refine ⟨trivial, Eq.symm, Eq.trans, npRound_close, fun m ha hb => ?_⟩
  rw [npRound_eq_iff]
  have key : ∀ a : ℝ, |a - m / 10 ^ 10| < 1 / 2 / 10 ^ 10 → rint (a * 10 ^ 10) = m := fun a h => by
    apply rint_of_near
    rw [abs_lt] at *
    constructor <;> linarith [h.1, h.2]
  rw [key a ha, key b hb]

/-- **C85** (limit): `approx` is not a tolerance: there are numbers arbitrarily close to each other that it separates. -/
theorem C85_approx_splits (ε : ℝ) (hε : 0 < ε) : ∃ a b : ℝ, |a - b| < ε ∧ approx a b = false := by
  set δ := min (ε / 2) (1 / 10 ^ 11) with hδ
  have hd : 0 < δ := lt_min (by linarith) (by norm_num)
  have hd1 : δ ≤ ε / 2 := min_le_left _ _
  have hd2 : δ ≤ 1 / 10 ^ 11 := min_le_right _ _
  refine ⟨1 / 2 / 10 ^ 10 - δ, 1 / 2 / 10 ^ 10 + δ / 4, ?_, ?_⟩
  · rw [abs_lt]; constructor <;> linarith
  · rw [Bool.eq_false_iff, Ne, approx_iff, npRound_eq_iff]
    have h1 : rint ((1 / 2 / 10 ^ 10 - δ) * 10 ^ 10) = 0 := by
      apply rint_of_near
      rw [abs_lt]
      push_cast
      constructor <;> nlinarith
    have h2 : rint ((1 / 2 / 10 ^ 10 + δ / 4) * 10 ^ 10) = 1 := by
      apply rint_of_near
      rw [abs_lt]
      push_cast
      constructor <;> nlinarith
    rw [h1, h2]
    decide

/-- **C85**: for arrays, `approx` is `approx` of all entries. -/
theorem C85_approx_arrays (a b : List ℝ) (h : a.length = b.length) :
    approxArr a b = true ↔ ∀ i < a.length, approx (a.getD i 0) (b.getD i 0) = true := by
  unfold approxArr
  obtain ⟨f, hf⟩ : ∃ f, a = tab a.length f := ⟨_, eq_tab a 0⟩
  obtain ⟨g, hg⟩ : ∃ f, b = tab a.length f := ⟨_, eq_tab' h.symm 0⟩
  generalize hn : a.length = n at *
  subst hf hg
  rw [zipWith_tab]
  simp only [List.all_eq_true, tab, List.mem_map, List.mem_range, beq_iff_eq]
  constructor
  · intro h' i hi
    have := h' _ ⟨i, hi, rfl⟩
    rwa [← getD_tab hi 0 (f := f), ← getD_tab hi 0 (f := g)] at this
  · rintro h' _ ⟨i, hi, rfl⟩
    have := h' i hi
    rwa [show List.getD (List.map f (List.range n)) i 0 = f i from getD_tab hi 0, show List.getD (List.map g (List.range n)) i 0 = g i from getD_tab hi 0] at this

/-! ## Equidistant points -/

theorem isEq_tab (n : ℕ) (hn : 0 < n) (f : ℕ → ℝ) :
    isEquidistant (tab (n + 1) f) = .ok (open Classical in decide (∀ i < n, npRound 8 (f (i + 1) - f i) = npRound 8 (f 1 - f 0))) := by
  classical
  have e : diff (tab (n + 1) f) = (f 1 - f 0) :: (tab (n + 1) f |> diff).tail := by
    rw [diff_tab]
    obtain ⟨m, rfl⟩ : ∃ m, n = m + 1 := ⟨n - 1, by omega⟩
    rw [Nat.add_sub_cancel, tab_succ, List.tail_cons]
  unfold isEquidistant
  rw [e]
  simp only
  congr 1
  rw [← e, diff_tab, Nat.add_sub_cancel, Bool.eq_iff_iff]
  simp only [List.all_eq_true, tab, List.mem_map, List.mem_range, decide_eq_true_eq]
  exact ⟨fun h i hi => h _ ⟨i, hi, rfl⟩, fun h x ⟨i, hi, hx⟩ => hx ▸ h i hi⟩

theorem isEq_short (x : List ℝ) (h : x.length < 2) : isEquidistant x = .error .indexError := by
  rcases x with _ | ⟨a, _ | ⟨b, l⟩⟩
  · rfl
  · rfl
  · simp at h

theorem tab_of_two (x : List ℝ) (h : 2 ≤ x.length) : ∃ n, 0 < n ∧ x = tab (n + 1) fun i => x.getD i 0 :=
  ⟨x.length - 1, by omega, eq_tab' (by omega) 0⟩

/-- **C85**: `is_equidistant` needs two points; it holds for equidistant points, and implies that the distances differ by at most `10⁻⁸`; points that are less than `5·10⁻⁹` apart always pass. -/
theorem C85_equidistant (x : List ℝ) :
    (x.length < 2 → isEquidistant x = .error .indexError) ∧
    (2 ≤ x.length → (∃ a h, ∀ i < x.length, x.getD i 0 = a + i * h) → isEquidistant x = .ok true) ∧
    (isEquidistant x = .ok true → ∀ i j, i + 1 < x.length → j + 1 < x.length →
      |(x.getD (i + 1) 0 - x.getD i 0) - (x.getD (j + 1) 0 - x.getD j 0)| ≤ 1 / 10 ^ 8) ∧
    (2 ≤ x.length → (∀ i, i + 1 < x.length → |x.getD (i + 1) 0 - x.getD i 0| < 1 / 2 / 10 ^ 8) → isEquidistant x = .ok true) := by
  classical
  refine ⟨isEq_short x, fun h2 ⟨a, h, hx⟩ => ?_, fun hx i j hi hj => ?_, fun h2 hs => ?_⟩
  · obtain ⟨n, hn, e⟩ := tab_of_two x h2
    have hl : x.length = n + 1 := by rw [e, length_tab]
    rw [e, isEq_tab n hn]
    congr 1
    refine decide_eq_true fun i hi => ?_
    rw [hx _ (by omega), hx _ (by omega), hx _ (by omega), hx _ (by omega)]
    congr 1
    push_cast; ring
  · obtain ⟨n, hn, e⟩ := tab_of_two x (by omega)
    have hl : x.length = n + 1 := by rw [e, length_tab]
    rw [e, isEq_tab n hn] at hx
    have h := of_decide_eq_true (Except.ok.inj hx)
    exact npRound_close ((h i (by omega)).trans (h j (by omega)).symm)
  · obtain ⟨n, hn, e⟩ := tab_of_two x h2
    have hl : x.length = n + 1 := by rw [e, length_tab]
    rw [e, isEq_tab n hn]
    congr 1
    have key : ∀ i < n, rint ((x.getD (i + 1) 0 - x.getD i 0) * 10 ^ 8) = 0 := fun i hi => by
      have := hs i (by omega)
      apply rint_of_near
      rw [abs_lt] at *
      push_cast
      constructor <;> linarith [this.1, this.2]
    refine decide_eq_true fun i hi => ?_
    rw [npRound_eq_iff, key i hi]
    exact (key 0 hn).symm

/-! ## The assertions of the integrators -/

theorem pyAssert_bind {α : Type} (b : Bool) (k : Unit → Except Err α) : (pyAssert b >>= k) = if b then k () else .error .assertion := by
  cases b <;> rfl

theorem isEq_ok (x : List ℝ) (h : 2 ≤ x.length) : ∃ b, isEquidistant x = .ok b := by
  obtain ⟨n, hn, e⟩ := tab_of_two x h
  rw [e]
  exact ⟨_, isEq_tab n hn _⟩

theorem subdivide_ends (x : List ℝ) (h : 2 ≤ x.length) :
    2 ≤ (subdivide x).length ∧ (subdivide x).getD 0 0 = x.getD 0 0 ∧ (subdivide x).getD ((subdivide x).length - 1) 0 = x.getD (x.length - 1) 0 := by
  obtain ⟨n, hn, e⟩ := tab_of_two x h
  have hl : x.length = n + 1 := by rw [e, length_tab]
  have hs : subdivide x = weave x.dropLast (vadd x.dropLast (smul (1 / 2) (diff x))) ++ [x.getD (x.length - 1) 0] := by
    unfold subdivide; rw [if_neg (by omega)]
  have hne : 1 ≤ (weave x.dropLast (vadd x.dropLast (smul (1 / 2) (diff x)))).length ∧
      (weave x.dropLast (vadd x.dropLast (smul (1 / 2) (diff x)))).getD 0 0 = x.getD 0 0 := by
    rcases x with _ | ⟨a, _ | ⟨b, l⟩⟩
    · simp at h
    · simp at h
    · rw [List.dropLast_cons_of_ne_nil (by simp)]
      rcases vadd (a :: (b :: l).dropLast) (smul (1 / 2) (diff (a :: b :: l))) with _ | ⟨c, m⟩
      · simp [weave]
      · simp [weave]
  rw [hs]
  refine ⟨?_, ?_, ?_⟩
  · have := hne.1
    simp only [List.length_append, List.length_singleton]; omega
  · rw [← hne.2, List.getD_eq_getElem?_getD, List.getElem?_append_left hne.1, ← List.getD_eq_getElem?_getD]
  · rw [List.length_append, List.length_singleton, Nat.add_sub_cancel, List.getD_eq_getElem?_getD, List.getElem?_append_right (le_refl _), Nat.sub_self]
    rfl

theorem integrate_spectral_sum8 (x : List ℝ) (f : ℝ → ℝ) :
    integrate_spectral x f = sum8 (integrate_spectral_coarse (subdivide (subdivide (subdivide x))) f) := rfl

/-- **C85**: with their assertions, the integrators return what `C48` describes or raise an error, never another array. -/
theorem C85_integrators_sound (x : List ℝ) (f : ℝ → ℝ) (r : List ℝ) :
    (integrate_spectral_coarseC x f = .ok r → r = integrate_spectral_coarse x f) ∧ (integrate_spectralC x f = .ok r → r = integrate_spectral x f) ∧
    (integrate_chebyshevC x f = .ok r → r = integrate_chebyshev x f) := by
  have h1 : ∀ x f r, integrate_spectral_coarseC x f = .ok r → r = integrate_spectral_coarse x f := by
    intro x f r h
    unfold integrate_spectral_coarseC at h
    rcases he : isEquidistant x with e | b
    · rw [he] at h; cases h
    · rw [he] at h
      change (pyAssert b >>= _) = _ at h
      rw [pyAssert_bind] at h
      split_ifs at h with hb
      rw [pyAssert_bind] at h
      split_ifs at h with hb'
      cases h; rfl
  have hs : ∀ x y, subdivideC x = .ok y → y = subdivide x := by
    intro x y h
    unfold subdivideC at h
    split_ifs at h with hl
    · cases h; unfold subdivide; rw [if_pos hl]
    · rcases he : isEquidistant x with e | b
      · rw [he] at h; cases h
      · rw [he] at h
        change (pyAssert b >>= _) = _ at h
        rw [pyAssert_bind] at h
        split_ifs at h
        cases h; rfl
  have h2 : ∀ x f r, integrate_spectralC x f = .ok r → r = integrate_spectral x f := by
    intro x f r h
    unfold integrate_spectralC at h
    rcases he : isEquidistant x with e | b
    · rw [he] at h; cases h
    rw [he] at h
    change (pyAssert b >>= _) = _ at h
    rw [pyAssert_bind] at h
    split_ifs at h with hb
    rcases h3 : subdivideC x with e | y
    · rw [h3] at h; cases h
    rw [h3] at h
    change (subdivideC y >>= _) = _ at h
    rcases h4 : subdivideC y with e | z
    · rw [h4] at h; cases h
    rw [h4] at h
    change (subdivideC z >>= _) = _ at h
    rcases h5 : subdivideC z with e | w
    · rw [h5] at h; cases h
    rw [h5] at h
    change (integrate_spectral_coarseC w f >>= _) = _ at h
    rcases h6 : integrate_spectral_coarseC w f with e | f1
    · rw [h6] at h; cases h
    rw [h6] at h
    have h7 := h1 _ _ _ h6
    rw [hs _ _ h5, hs _ _ h4, hs _ _ h3] at h7
    rw [integrate_spectral_sum8, ← h7]
    exact (Except.ok.inj h).symm
  refine ⟨h1 x f r, h2 x f r, fun h => ?_⟩
  unfold integrate_chebyshevC at h
  split_ifs at h with hx
  rw [pyAssert_bind] at h
  split_ifs at h with ha
  simp only [] at h
  rcases he : isEquidistant (x.map varphi) with e | b
  · rw [he] at h; cases h
  rw [he] at h
  change (pyAssert b >>= _) = _ at h
  rw [pyAssert_bind] at h
  split_ifs at h with hb
  rcases h3 : integrate_spectralC (x.map varphi ++ (x.map varphi).tail.map (· + π)) (fun θ => f (-cos θ) * sin θ) with e | q
  · rw [h3] at h; cases h
  rw [h3] at h
  have h4 := h2 _ _ _ h3
  have h5 : r = q.take (x.length - 1) := (Except.ok.inj h).symm
  rw [h5, h4]
  rfl

theorem approx_self (a : ℝ) : approx a a = true := (C85_approx a a a).1

theorem isEq_arith (n : ℕ) (hn : 0 < n) (x0 h : ℝ) : isEquidistant (tab (n + 1) fun i => x0 + i * h) = .ok true := by
  refine (C85_equidistant _).2.1 (by rw [length_tab]; omega) ⟨x0, h, fun i hi => ?_⟩
  rw [length_tab] at hi
  rw [getD_tab hi]

theorem subdivideC_arith (n : ℕ) (hn : 0 < n) (x0 h : ℝ) : subdivideC (tab (n + 1) fun i => x0 + i * h) = .ok (tab (2 * n + 1) fun i => x0 + i * (h / 2)) := by
  unfold subdivideC
  rw [if_neg (by rw [length_tab]; omega), isEq_arith n hn, ← subdivide_tab]
  rfl

theorem coarseC_circle (n : ℕ) (hn : 0 < n) (x0 h : ℝ) (hh' : n * h = 2 * π) (f : ℝ → ℝ) :
    integrate_spectral_coarseC (tab (n + 1) fun i => x0 + i * h) f = .ok (integrate_spectral_coarse (tab (n + 1) fun i => x0 + i * h) f) := by
  unfold integrate_spectral_coarseC
  rw [isEq_arith n hn]
  show (pyAssert (approx _ _) >>= _) = _
  rw [pyAssert_bind, length_tab, Nat.add_sub_cancel, getD_tab (by omega), getD_tab (by omega), if_pos]
  have : x0 + (n : ℝ) * h - (x0 + ((0 : ℕ) : ℝ) * h) = 2 * π := by rw [← hh']; push_cast; ring
  rw [this]
  exact approx_self _

/-- **C85**: the points of a circle pass the assertions, wherever they start ... -/
theorem C85_integrate_circle (N : ℕ) (hN : 0 < N) (x0 : ℝ) (f : ℝ → ℝ) :
    integrate_spectral_coarseC (circlePoints N x0) f = .ok (integrate_spectral_coarse (circlePoints N x0) f) ∧
    integrate_spectralC (circlePoints N x0) f = .ok (integrate_spectral (circlePoints N x0) f) := by
  have hN' : (N : ℝ) ≠ 0 := by positivity
  have e0 : (N : ℝ) * (2 * π / N) = 2 * π := by field_simp
  refine ⟨coarseC_circle N hN x0 _ e0 f, ?_⟩
  have key : ∃ r, integrate_spectralC (circlePoints N x0) f = .ok r := by
    unfold integrate_spectralC circlePoints
    rw [isEq_arith N hN]
    refine ⟨sum8 (integrate_spectral_coarse (tab (2 * (2 * (2 * N)) + 1) fun i => x0 + i * (2 * π / N / 2 / 2 / 2)) f), ?_⟩
    show (subdivideC _ >>= _) = _
    rw [subdivideC_arith N hN]
    show (subdivideC _ >>= _) = _
    rw [subdivideC_arith (2 * N) (by omega)]
    show (subdivideC _ >>= _) = _
    rw [subdivideC_arith (2 * (2 * N)) (by omega)]
    show (integrate_spectral_coarseC _ _ >>= _) = _
    rw [coarseC_circle (2 * (2 * (2 * N))) (by omega) x0 _ (by push_cast; field_simp) f]
    rfl
  obtain ⟨r, hr⟩ := key
  rw [hr, (C85_integrators_sound _ f r).2.1 hr]

/-- **C85**: ... so trigonometric polynomials of degree less than `4 N` are integrated exactly over the cells. -/
theorem C85_integrate_exact (N : ℕ) (x0 : ℝ) (K : ℕ) (hK : K < 4 * N) (p : ℝ → ℝ) (hp : IsTrig K p) :
    integrate_spectralC (circlePoints N x0) p = .ok (tab N fun i => ∫ x in (x0 + i * (2 * π / N))..(x0 + (i + 1) * (2 * π / N)), p x) := by
  rw [(C85_integrate_circle N (by omega) x0 p).2, C48_spectral N x0 K hK p hp]

/-- **C85**: points that do not span a full circle (to ten digits) are rejected with `AssertionError`, whatever they are; a single point raises `IndexError`. -/
theorem C85_integrate_rejects (x : List ℝ) (f : ℝ → ℝ) :
    (2 ≤ x.length → 1 / 10 ^ 10 < |2 * π - (x.getD (x.length - 1) 0 - x.getD 0 0)| →
      integrate_spectral_coarseC x f = .error .assertion ∧ integrate_spectralC x f = .error .assertion) ∧
    (x.length < 2 → integrate_spectral_coarseC x f = .error .indexError ∧ integrate_spectralC x f = .error .indexError) := by
  have hc : ∀ x : List ℝ, 2 ≤ x.length → 1 / 10 ^ 10 < |2 * π - (x.getD (x.length - 1) 0 - x.getD 0 0)| → integrate_spectral_coarseC x f = .error .assertion := by
    intro x h2 h
    unfold integrate_spectral_coarseC
    obtain ⟨b, hb⟩ := isEq_ok x h2
    rw [hb]
    show (pyAssert b >>= _) = _
    rw [pyAssert_bind]
    split_ifs with hb'
    · rw [pyAssert_bind, if_neg]
      intro h'
      exact absurd ((C85_approx _ _ 0).2.2.2.1 h') (not_le.2 h)
    · rfl
  have hs : ∀ x : List ℝ, 2 ≤ x.length → subdivideC x = .error .assertion ∨ subdivideC x = .ok (subdivide x) := by
    intro x h2
    unfold subdivideC
    rw [if_neg (by omega)]
    obtain ⟨b, hb⟩ := isEq_ok x h2
    rw [hb]
    change (pyAssert b >>= _) = _ ∨ (pyAssert b >>= _) = _
    rw [pyAssert_bind]
    cases b
    · left; rfl
    · right; rfl
  refine ⟨fun h2 h => ⟨hc x h2 h, ?_⟩, fun h => ⟨?_, ?_⟩⟩
  · unfold integrate_spectralC
    obtain ⟨b, hb⟩ := isEq_ok x h2
    rw [hb]
    show (pyAssert b >>= _) = _
    rw [pyAssert_bind]
    split_ifs with hb'
    swap
    · rfl
    obtain ⟨a1, b1, c1⟩ := subdivide_ends x h2
    obtain ⟨a2, b2, c2⟩ := subdivide_ends _ a1
    obtain ⟨a3, b3, c3⟩ := subdivide_ends _ a2
    rcases hs x h2 with e | e <;> rw [e]
    · rfl
    show (subdivideC _ >>= _) = _
    rcases hs _ a1 with e | e <;> rw [e]
    · rfl
    show (subdivideC _ >>= _) = _
    rcases hs _ a2 with e | e <;> rw [e]
    · rfl
    show (integrate_spectral_coarseC _ _ >>= _) = _
    rw [hc _ a3 (by rw [b3, c3, b2, c2, b1, c1]; exact h)]
    rfl
  · unfold integrate_spectral_coarseC
    rw [isEq_short x h]; rfl
  · unfold integrate_spectralC
    rw [isEq_short x h]; rfl

/-- **C85**: the Chebyshev points pass the assertions, so polynomials of degree less than `8 m - 1` are integrated exactly over the cells; points that do not reach from one end of an interval of
length two to the other are rejected. -/
theorem C85_integrate_chebyshev (m : ℕ) (hm : 0 < m) (K : ℕ) (hK : K < 8 * m) (p : ℝ → ℝ) (hp : IsPoly K p) :
    integrate_chebyshevC (chebPoints m) p = .ok (tab m fun i => ∫ x in (-cos (i * (π / m)))..(-cos ((i + 1) * (π / m))), p x) ∧
    ∀ xi : List ℝ, xi ≠ [] → 1 / 10 ^ 10 < |2 - (xi.getD (xi.length - 1) 0 - xi.getD 0 0)| → integrate_chebyshevC xi p = .error .assertion := by
  have hm' : (m : ℝ) ≠ 0 := by positivity
  constructor
  · have e1 : (chebPoints m).map varphi = tab (m + 1) fun i => i * (π / m) := by
      unfold chebPoints
      rw [map_tab]
      refine tab_congr fun i hi => ?_
      unfold varphi
      have hi' : (i : ℝ) ≤ m := by exact_mod_cast (by omega : i ≤ m)
      rw [neg_neg, arccos_cos (by positivity)]
      rw [← mul_div_assoc, div_le_iff₀ (by positivity), mul_comm]
      exact mul_le_mul_of_nonneg_left hi' pi_pos.le
    have e2 : (tab (m + 1) fun i : ℕ => (i : ℝ) * (π / m)) ++ ((tab (m + 1) fun i : ℕ => (i : ℝ) * (π / m)).tail.map (· + π)) = circlePoints (2 * m) 0 := by
      unfold circlePoints
      rw [tail_tab, map_tab, append_tab]
      refine tab_congr' (by omega) fun i hi => ?_
      by_cases h : i < m + 1
      · rw [if_pos h]; push_cast; field_simp; ring
      · rw [if_neg h]
        obtain ⟨k, rfl⟩ : ∃ k, i = m + 1 + k := ⟨i - (m + 1), by omega⟩
        rw [show m + 1 + k - (m + 1) = k by omega]; push_cast; field_simp; ring
    have hl : (chebPoints m).length = m + 1 := length_tab _ _
    have hne : chebPoints m ≠ [] := fun h => by rw [h] at hl; simp at hl
    have hspan : approx 2 ((chebPoints m).getD ((chebPoints m).length - 1) 0 - (chebPoints m).getD 0 0) = true := by
      rw [hl, Nat.add_sub_cancel]
      unfold chebPoints
      rw [getD_tab (by omega), getD_tab (by omega)]
      have : -cos ((m : ℝ) * (π / m)) - -cos (((0 : ℕ) : ℝ) * (π / m)) = 2 := by
        rw [mul_div_cancel₀ _ hm', cos_pi]; simp; norm_num
      rw [this]; exact approx_self 2
    have heq : isEquidistant (tab (m + 1) fun i : ℕ => (i : ℝ) * (π / m)) = .ok true := by
      have := isEq_arith m hm 0 (π / m)
      simpa using this
    have key : ∃ r, integrate_chebyshevC (chebPoints m) p = .ok r := by
      unfold integrate_chebyshevC
      rw [if_neg hne, pyAssert_bind, if_pos hspan]
      simp only [e1, e2, heq]
      refine ⟨(integrate_spectral (circlePoints (2 * m) 0) fun θ => p (-cos θ) * sin θ).take ((chebPoints m).length - 1), ?_⟩
      show (integrate_spectralC _ _ >>= _) = _
      rw [(C85_integrate_circle (2 * m) (by omega) 0 fun θ => p (-cos θ) * sin θ).2]
      rfl
    obtain ⟨r, hr⟩ := key
    rw [hr, (C85_integrators_sound _ p r).2.2 hr, C48_chebyshev m hm K hK p hp]
  · intro xi hx h
    unfold integrate_chebyshevC
    rw [if_neg hx, pyAssert_bind, if_neg]
    intro h'
    exact absurd ((C85_approx _ _ 0).2.2.2.1 h') (not_le.2 h)

/-! ## Named tuples from strings -/

open Tuples

/-- The names joined with a separator. -/
def joinWith (sep : List Char) : List (List Char) → List Char
  | [] => []
  | [w] => w
  | w :: ws => w ++ sep ++ joinWith sep ws

/-- A name: not empty, no comma, no blank, accepted by Python. -/
def GoodName (ok : List Char → Bool) (w : List Char) : Prop := w ≠ [] ∧ ',' ∉ w ∧ ' ' ∉ w ∧ ok w = true

theorem split_word (w : List Char) (h : ',' ∉ w) : splitComma w = [w] := by
  induction w with
  | nil => rfl
  | cons c w ih =>
    rw [List.mem_cons, not_or] at h
    rw [splitComma, if_neg (Ne.symm h.1), ih h.2]

theorem split_append (w s : List Char) (h : ',' ∉ w) : splitComma (w ++ ',' :: s) = w :: splitComma s := by
  induction w with
  | nil => simp [splitComma]
  | cons c w ih =>
    rw [List.mem_cons, not_or] at h
    rw [List.cons_append, splitComma, if_neg (Ne.symm h.1), ih h.2]

theorem split_join (l : List (List Char)) (hl : l ≠ []) (h : ∀ w ∈ l, ',' ∉ w) : splitComma (joinWith [','] l) = l := by
  induction l with
  | nil => exact absurd rfl hl
  | cons w ws ih =>
    rcases ws with _ | ⟨w', ws⟩
    · exact split_word w (h w (by simp))
    · rw [joinWith, List.append_assoc]
      show splitComma (w ++ ',' :: _) = _
      rw [split_append _ _ (h w (by simp))]
      exact congrArg _ (ih (by simp) fun v hv => h v (by simp at hv ⊢; tauto))
      simp

theorem words_word (acc w s : List Char) (h : ',' ∉ w) (h' : ' ' ∉ w) : words acc (w ++ s) = words (acc ++ w) s := by
  induction w generalizing acc with
  | nil => simp
  | cons c w ih =>
    rw [List.mem_cons, not_or] at h h'
    rw [List.cons_append, words, if_neg (by rintro (rfl | rfl) <;> simp_all), ih _ h.2 h'.2]
    simp

theorem words_join (sep : List Char) (hs : sep = [','] ∨ sep = [',', ' ']) (l : List (List Char)) (h : ∀ w ∈ l, w ≠ [] ∧ ',' ∉ w ∧ ' ' ∉ w) : words [] (joinWith sep l) = l := by
  induction l with
  | nil => rfl
  | cons w ws ih =>
    obtain ⟨h1, h2, h3⟩ := h w (by simp)
    rcases ws with _ | ⟨w', ws⟩
    · have := words_word [] w [] h2 h3
      rw [List.append_nil] at this
      rw [joinWith, this]
      simp [words, h1]
    · rw [joinWith, List.append_assoc, words_word _ _ _ h2 h3]
      · have ih' := ih fun v hv => h v (by simp at hv ⊢; tauto)
        rcases hs with rfl | rfl
        · rw [List.cons_append, words, if_pos (Or.inl rfl), List.nil_append, if_neg h1, List.nil_append, ih']
        · rw [List.cons_append, words, if_pos (Or.inl rfl), List.nil_append, if_neg h1, List.cons_append, words, if_pos (Or.inr rfl), if_pos rfl, List.nil_append, ih']
      · simp

theorem mapM_ok {α β : Type} (f : α → Except Err β) (g : α → β) (l : List α) (h : ∀ a ∈ l, f a = .ok (g a)) : l.mapM f = .ok (l.map g) := by
  induction l with
  | nil => rfl
  | cons a l ih =>
    rw [List.mapM_cons, h a (by simp), ih fun b hb => h b (by simp [hb])]
    rfl

theorem mapM_err {α β : Type} (f : α → Except Err β) (e : Err) (l : List α) (h : ∀ a ∈ l, ∀ e', f a = .error e' → e' = e) (h' : ∃ a ∈ l, f a = .error e) : l.mapM f = .error e := by
  induction l with
  | nil => obtain ⟨a, ha, _⟩ := h'; simp at ha
  | cons a l ih =>
    rw [List.mapM_cons]
    rcases hf : f a with e' | b
    · rw [h a (by simp) e' hf]; rfl
    · obtain ⟨c, hc, hc'⟩ := h'
      rcases List.mem_cons.1 hc with rfl | hc
      · rw [hf] at hc'; cases hc'
      · rw [ih (fun b hb => h b (by simp [hb])) ⟨c, hc, hc'⟩]; rfl

/-- **C85**: `nametuple` with names separated by single commas: the values of the names in this order; a name that the dictionary lacks raises `KeyError`; names that are not distinct raise `ValueError`. -/
theorem C85_nametuple {V : Type} (ok : List Char → Bool) (names : List (List Char)) (hn : names ≠ []) (hg : ∀ w ∈ names, GoodName ok w) (dict : List Char → Option V) :
    (names.Nodup → ∀ vs : List V, names.map dict = vs.map some → nametuple ok (joinWith [','] names) dict = .ok (names.zip vs)) ∧
    ((∃ w ∈ names, dict w = none) → nametuple ok (joinWith [','] names) dict = .error .keyError) ∧
    ((∀ w ∈ names, dict w ≠ none) → ¬ names.Nodup → nametuple ok (joinWith [','] names) dict = .error .valueError) := by
  have es := split_join names hn fun w hw => (hg w hw).2.1
  have ew := words_join [','] (Or.inl rfl) names fun w hw => ⟨(hg w hw).1, (hg w hw).2.1, (hg w hw).2.2.1⟩
  have hall : (names.all ok) = true := List.all_eq_true.2 fun w hw => (hg w hw).2.2.2
  refine ⟨fun hd vs hv => ?_, fun ⟨w, hw, h⟩ => ?_, fun hk hd => ?_⟩
  · have hlen : names.length = vs.length := by simpa using congrArg List.length hv
    have hdict : ∀ i (h : i < names.length), dict names[i] = some (vs[i]'(by omega)) := fun i h => by
      have := congrArg (·[i]?) hv
      simpa [h, hlen ▸ h] using this
    have hne : ∀ w ∈ names, ∃ v, dict w = some v := fun w hw => by
      obtain ⟨i, hi, rfl⟩ := List.mem_iff_getElem.1 hw
      exact ⟨_, hdict i hi⟩
    have hinh : names.map (fun w => (w, dict w)) = (names.zip vs).map fun p => (p.1, some p.2) := by
      refine List.ext_getElem (by simp [hlen]) fun i h1 h2 => ?_
      simp at h1
      simp [hdict i h1]
    obtain ⟨w0, hw0⟩ := List.exists_mem_of_ne_nil _ hn
    obtain ⟨v0, _⟩ := hne w0 hw0
    have look : ∀ (l : List (List Char)) (w : List Char), w ∈ l → (l.map fun k => (k, (dict k).getD v0)).lookup w = some ((dict w).getD v0) := by
      intro l w hw
      induction l with
      | nil => simp at hw
      | cons a l ih =>
        rw [List.map_cons, List.lookup_cons]
        by_cases h : w = a
        · subst h; simp
        · rw [beq_eq_false_iff_ne.2 h]
          exact ih ((List.mem_cons.1 hw).resolve_left h)
    have m3 : (names.map fun k => (k, (dict k).getD v0)) = names.zip vs := by
      refine List.ext_getElem (by simp [hlen]) fun i h1 h2 => ?_
      simp at h1
      simp [hdict i h1]
    unfold nametuple fieldNames
    rw [es, ew, if_pos ⟨hall, hd⟩, mapM_ok _ (fun k => (k, (dict k).getD v0)) names]
    · show (if _ then _ else _) = _
      rw [if_pos ⟨fun _ h => h, fun _ h => h⟩, mapM_ok _ (fun k => (k, (dict k).getD v0)) names, m3]
      intro w hw
      simp only [look names w hw]
    · intro w hw
      obtain ⟨v, hv⟩ := hne w hw
      simp only [hv, Option.getD_some]
  · unfold nametuple
    rw [es, mapM_err _ .keyError _ _ ⟨w, hw, by simp only [h]⟩]
    · rfl
    · intro a ha e' he
      rcases hd : dict a with _ | v
      · rw [hd] at he; cases he; rfl
      · rw [hd] at he; cases he
  · obtain ⟨w0, hw0⟩ := List.exists_mem_of_ne_nil _ hn
    obtain ⟨v0, _⟩ := Option.ne_none_iff_exists'.1 (hk w0 hw0)
    unfold nametuple fieldNames
    rw [es, ew, if_neg (fun h => hd h.2), mapM_ok _ (fun k => (k, (dict k).getD v0)) names]
    · rfl
    · intro w hw
      obtain ⟨v, hv⟩ := Option.ne_none_iff_exists'.1 (hk w hw)
      simp only [hv, Option.getD_some]

/-- **C85** (defect): the same names separated by a comma and a blank, which Python's `namedtuple` accepts, raise `KeyError`: the blank becomes part of the key. -/
theorem C85_nametuple_blank {V : Type} (ok : List Char → Bool) (w w' : List Char) (ws : List (List Char)) (hg : ∀ v ∈ w :: w' :: ws, GoodName ok v)
    (dict : List Char → Option V) (hd : ∀ v, dict (' ' :: v) = none) :
    nametuple ok (joinWith [',', ' '] (w :: w' :: ws)) dict = .error .keyError ∧
    ((w :: w' :: ws).Nodup → fieldNames ok (joinWith [',', ' '] (w :: w' :: ws)) = .ok (w :: w' :: ws)) := by
  constructor
  · unfold nametuple
    have e : ∃ l k, splitComma (joinWith [',', ' '] (w :: w' :: ws)) = w :: l ∧ k ∈ l ∧ dict k = none := by
      rw [joinWith, List.append_assoc]
      change ∃ l k, splitComma (w ++ ',' :: (' ' :: _)) = _ ∧ _
      rw [split_append _ _ (hg w (by simp)).2.1]
      rw [splitComma, if_neg (by decide)]
      rcases splitComma ([].append (joinWith [',', ' '] (w' :: ws))) with _ | ⟨v, vs⟩
      · exact ⟨[[' ']], [' '], rfl, List.mem_singleton.2 rfl, hd _⟩
      · exact ⟨(' ' :: v) :: vs, ' ' :: v, rfl, List.mem_cons.2 (Or.inl rfl), hd _⟩
      · simp
    obtain ⟨l, k, e, hk, hk'⟩ := e
    rw [e, mapM_err _ .keyError _ _ ⟨k, by simp [hk], by simp only [hk']⟩]
    · rfl
    · intro a ha e' he
      rcases hd : dict a with _ | v
      · rw [hd] at he; cases he; rfl
      · rw [hd] at he; cases he
  · intro hnd
    unfold fieldNames
    rw [words_join _ (Or.inr rfl) _ fun v hv => ⟨(hg v hv).1, (hg v hv).2.1, (hg v hv).2.2.1⟩]
    exact if_pos ⟨List.all_eq_true.2 fun v hv => (hg v hv).2.2.2, hnd⟩

/-- **C85** (defect): `NamedTuple` silently stores `None` for a field that is not a local variable of the caller, where `make_namedtuple` raises `KeyError`. -/
theorem C85_NamedTuple {V : Type} (ok : List Char → Bool) (names : List (List Char)) (hg : ∀ w ∈ names, GoodName ok w) (hd : names.Nodup) (locals : List Char → Option V) :
    namedTupleThis ok (joinWith [','] names) locals = .ok (names.map fun n => (n, locals n)) := by
  unfold namedTupleThis fieldNames
  rw [words_join _ (Or.inl rfl) _ fun v hv => ⟨(hg v hv).1, (hg v hv).2.1, (hg v hv).2.2.1⟩, if_pos ⟨List.all_eq_true.2 fun v hv => (hg v hv).2.2.2, hd⟩]
  rfl

/-- **C85**: `set_attributes` and `set_dictionary` set the fields of the tuple, and nothing else. -/
theorem C85_set_attributes {V : Type} (obj : List Char → Option V) (nt : List (List Char × V)) (hd : (nt.map Prod.fst).Nodup) :
    (∀ p ∈ nt, setAttributes obj nt p.1 = some p.2) ∧ ∀ n, n ∉ nt.map Prod.fst → setAttributes obj nt n = obj n := by
  unfold setAttributes
  have h2 : ∀ (nt : List (List Char × V)) (obj : List Char → Option V) (n : List Char), n ∉ nt.map Prod.fst →
      nt.foldl (fun (o : List Char → Option V) p => Function.update o p.1 (some p.2)) obj n = obj n := by
    intro nt
    induction nt with
    | nil => intros; rfl
    | cons p nt ih =>
      intro obj n hn
      rw [List.map_cons, List.mem_cons, not_or] at hn
      rw [List.foldl_cons, ih _ _ hn.2, Function.update_of_ne hn.1]
  refine ⟨?_, h2 nt obj⟩
  induction nt generalizing obj with
  | nil => intro p hp; simp at hp
  | cons q nt ih =>
    intro p hp
    rw [List.map_cons, List.nodup_cons] at hd
    rw [List.foldl_cons]
    rcases List.mem_cons.1 hp with rfl | hp
    · rw [h2 _ _ _ hd.1, Function.update_self]
    · exact ih _ hd.2 p hp

/-! ## Non-vacuity -/

example : ∀ w ∈ ["x".toList, "y".toList], GoodName (fun w => w ≠ []) w := by
  intro w hw
  simp at hw
  rcases hw with rfl | rfl <;> exact ⟨by decide, by decide, by decide, by decide⟩

example : approx 1 (1 + 1 / 10 ^ 11) = true :=
  (C85_approx 1 (1 + 1 / 10 ^ 11) 0).2.2.2.2 (10 ^ 10) (by norm_num) (by rw [abs_lt]; constructor <;> norm_num)

example : ∃ x : List ℝ, 2 ≤ x.length ∧ 1 / 10 ^ 10 < |2 * π - (x.getD (x.length - 1) 0 - x.getD 0 0)| := by
  refine ⟨[0, 1], by simp, ?_⟩
  have := Real.pi_gt_three
  simp only [List.length_cons, List.length_nil]
  rw [abs_of_pos] <;> norm_num <;> linarith

end Dec.Props
