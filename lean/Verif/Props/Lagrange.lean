import Verif.Lib.LagrangePoly
import Verif.Lib.DualityCheb
import Verif.Lib.Strong

set_option linter.unusedSimpArgs false
set_option linter.unusedVariables false

/-!
# C50 and C17: Lagrange polynomials
-/

namespace Dec.Props

open Real Finset Dec.Sp

/-- C50: for distinct points, at least two, the Lagrange polynomials are 1 at their own point and 0 at the others. -/
theorem C50_cardinal (x : List ℝ) (hx : x.Nodup) (h2 : 2 ≤ x.length) (i j : ℕ) (hi : i < x.length) (hj : j < x.length) :
    lagrange x i (x.getD j 0) = .ok (if i = j then 1 else 0) := by
  rw [lagrange_eq hx h2 hi]
  congr 1
  split_ifs with h
  · subst h; exact Lagrange.eval_basis_self (v := fun j => x.getD j 0) (getD_injOn hx) (by simpa using hi)
  · exact Lagrange.eval_basis_of_ne (v := fun j => x.getD j 0) h (by simpa using hj)

/-- C50: each Lagrange polynomial is a polynomial of degree less than the number of points. -/
theorem C50_polynomial (x : List ℝ) (hx : x.Nodup) (h2 : 2 ≤ x.length) (i : ℕ) (hi : i < x.length) :
    ∃ p, IsPoly x.length p ∧ ∀ y, lagrange x i y = .ok (p y) := ⟨_, basis_isPoly hx hi, fun y => lagrange_eq hx h2 hi y⟩

/-- C50: interpolating a polynomial of degree less than the number of points reproduces it. -/
theorem C50_interpolation (x : List ℝ) (hx : x.Nodup) (h2 : 2 ≤ x.length) (p : ℝ → ℝ) (hp : IsPoly x.length p) (y : ℝ) :
    ∃ L : ℕ → ℝ, (∀ i < x.length, lagrange x i y = .ok (L i)) ∧ ∑ i ∈ range x.length, p (x.getD i 0) * L i = p y := by
  refine ⟨fun i => (Lagrange.basis (range x.length) (fun j => x.getD j 0) i).eval y, fun i hi => lagrange_eq hx h2 hi y, ?_⟩
  obtain ⟨P, hd, hP⟩ := hp.exists_eval
  have h := Lagrange.eq_interpolate (s := range x.length) (v := fun j => x.getD j 0) (f := P) (getD_injOn hx) (by rw [card_range]; exact hd)
  rw [hP y]
  conv_rhs => rw [h]
  rw [Lagrange.interpolate_apply, Polynomial.eval_finset_sum]
  refine Finset.sum_congr rfl fun i _ => ?_
  simp [hP]

/-- C50, the limits: with a single point the function raises `TypeError`, and with a repeated point it divides by zero. -/
theorem C50_limits (x : List ℝ) (i : ℕ) (hi : i < x.length) (y : ℝ) :
    (x.length = 1 → lagrange x i y = .error .typeError) ∧
    ((∃ j < x.length, j ≠ i ∧ x.getD j 0 = x.getD i 0) → lagrange x i y = .error .nan) := by
  constructor
  · intro h
    have : i = 0 := by omega
    subst this
    unfold lagrange
    simp [h]
  · rintro ⟨j, hj, hji, h⟩
    unfold lagrange
    simp only
    rw [if_pos]
    simp only [List.any_eq_true, decide_eq_true_eq]
    exact ⟨j, by simp [hj, hji], by rw [h, sub_self]⟩

/-- Non-vacuity: the example of the documentation. -/
example : ([0, 1, 2] : List ℝ).Nodup ∧ 2 ≤ ([0, 1, 2] : List ℝ).length := ⟨by norm_num, by simp⟩

/-! ## C17 -/

theorem IsCos_even {K : ℕ} {p : ℝ → ℝ} (hp : IsCos K p) (θ : ℝ) : p (-θ) = p θ := hp.even θ

theorem cos_unique0 {N : ℕ} (hN : 2 ≤ N) {p q : ℝ → ℝ} (hp : IsCos (N - 1) p) (hq : IsCos (N - 1) q) (h : ∀ j < N, p (j * hh (2 * N - 2)) = q (j * hh (2 * N - 2)))
    (θ : ℝ) : p θ = q θ := by
  refine (res_of_cos0 hN hp).unique (res_of_cos0 hN hq) (fun j hj => ?_) θ
  rw [zero_add]
  by_cases hjN : j < N
  · exact h j hjN
  · have e := opp N hN (2 * N - 2 - j) (by omega)
    rw [show 2 * N - 2 - (2 * N - 2 - j) = j by omega] at e
    have hr : ∀ r : ℝ → ℝ, IsCos (N - 1) r → ∀ x, r (2 * π - x) = r x := fun r hr x => by
      rw [← hr.even x, ← hr.isTrig.periodic (-x)]; congr 1; ring
    rw [e, hr p hp, hr q hq]
    exact h _ (by omega)

theorem cos_unique1 {N : ℕ} (hN : 2 ≤ N) {p q : ℝ → ℝ} (hp : IsCos (N - 2) p) (hq : IsCos (N - 2) q)
    (h : ∀ j < N - 1, p (hh (2 * N - 2) / 2 + j * hh (2 * N - 2)) = q (hh (2 * N - 2) / 2 + j * hh (2 * N - 2)))
    (θ : ℝ) : p θ = q θ := by
  refine (Res_of_isTrig (N := 2 * N - 2) (by omega) hp.isTrig (hh (2 * N - 2) / 2)).unique (Res_of_isTrig (by omega) hq.isTrig _) (fun j hj => ?_) θ
  by_cases hjN : j < N - 1
  · exact h j hjN
  · have e : hh (2 * N - 2) / 2 + j * hh (2 * N - 2) = 2 * π - (hh (2 * N - 2) / 2 + ((2 * N - 2 - 1 - j : ℕ) : ℝ) * hh (2 * N - 2)) := by
      have hc : ((2 * N - 2 - 1 - j : ℕ) : ℝ) = ((2 * N - 2 : ℕ) : ℝ) - 1 - j := by
        have : ((2 * N - 2 - 1 - j : ℕ) : ℝ) + 1 + j = ((2 * N - 2 : ℕ) : ℝ) := by exact_mod_cast (by omega : 2 * N - 2 - 1 - j + 1 + j = 2 * N - 2)
        linarith
      rw [← mul_hh (show 0 < 2 * N - 2 by omega), hc]; ring
    have hr : ∀ r : ℝ → ℝ, IsCos (N - 2) r → ∀ x, r (2 * π - x) = r x := fun r hr x => by
      rw [← hr.even x, ← hr.isTrig.periodic (-x)]; congr 1; ring
    rw [e, hr p hp, hr q hq]
    exact h _ (by omega)

theorem alpha_some {M : ℕ} (hM : 0 < M) {c x : ℝ} (h1 : -(2 * π) < x - 2 * π / M * c) (h2 : x - 2 * π / M * c < 2 * π) : alpha M c x = some (Ak M (x - 2 * π / M * c)) := by
  unfold alpha
  refine alpha0_eq hM ?_
  generalize x - 2 * π / M * c = y at *
  by_cases h0 : y = 0
  · exact .inl h0
  · refine .inr fun h => h0 ?_
    have := (sin_eq_zero_iff_of_lt_of_lt (x := y / 2) (by linarith) (by linarith)).1 h
    linarith

theorem pair_even (M : ℕ) (a θ : ℝ) : (fun θ => Ak M (θ + -a) + Ak M (θ + a)) (-θ) = (fun θ => Ak M (θ + -a) + Ak M (θ + a)) θ := by
  beta_reduce
  rw [← Ak_even M (-θ + -a), ← Ak_even M (-θ + a), add_comm]
  congr 2 <;> ring

theorem pair_alpha {M : ℕ} (hM : 0 < M) {c θ : ℝ} (h0 : 0 < 2 * π / M * c) (h1 : 2 * π / M * c < π) (hθ0 : 0 ≤ θ) (hθ1 : θ ≤ π) :
    oadd (alpha M c θ) (alpha M c (2 * π - θ)) = some (Ak M (θ + -(2 * π / M * c)) + Ak M (θ + 2 * π / M * c)) := by
  have hpi := pi_pos
  rw [alpha_some hM (by linarith) (by linarith), alpha_some hM (by linarith) (by linarith)]
  have e : Ak M (2 * π - θ - 2 * π / M * c) = Ak M (θ + 2 * π / M * c) := by
    rw [← Ak_even, ← Ak_periodic M]; congr 1; ring
  rw [e]; rfl

/-- `kappa0` inside `[0, π]` is a cosine polynomial. -/
theorem kappa0_cos {N : ℕ} (hN : 2 ≤ N) {i : ℕ} (hi : i < N) : ∃ q, IsCos (N - 1) q ∧ ∀ θ, 0 ≤ θ → θ ≤ π → kappa0 N i θ = some (q θ) := by
  have hM : 0 < 2 * N - 2 := by omega
  have hpi := pi_pos
  have hMr : (0 : ℝ) < (2 * N - 2 : ℕ) := by exact_mod_cast hM
  have hd : (2 * N - 2) / 2 = N - 1 := by omega
  have hA := Ak_isTrig (2 * N - 2)
  rw [hd] at hA
  have hlast : 2 * π / (2 * N - 2 : ℕ) * ((N - 1 : ℕ) : ℝ) = π := by
    have := mul_hh_double hN
    unfold hh at this; linarith
  unfold kappa0
  by_cases h : i = 0 ∨ i = N - 1
  · rcases h with rfl | rfl
    · refine ⟨Ak (2 * N - 2), hA.isCos (Ak_even _), fun θ h0 h1 => ?_⟩
      rw [if_pos (.inl rfl), alpha_some hM (by push_cast; linarith) (by push_cast; linarith)]
      simp
    · refine ⟨fun θ => Ak (2 * N - 2) (θ + -π), (hA.comp_add (-π)).isCos fun θ => ?_, fun θ h0 h1 => ?_⟩
      · rw [← Ak_even, ← Ak_periodic _ (θ + -π)]; congr 1; ring
      · rw [if_pos (.inr rfl), alpha_some hM (by rw [hlast]; linarith) (by rw [hlast]; linarith), hlast]
        rfl
  · have hi0 : (0 : ℝ) < 2 * π / (2 * N - 2 : ℕ) * i := by
      have : (0 : ℝ) < i := by exact_mod_cast (by omega : 0 < i)
      positivity
    have hi1 : 2 * π / (2 * N - 2 : ℕ) * i < π := by
      refine lt_of_lt_of_eq ?_ hlast
      have : (i : ℝ) < (N - 1 : ℕ) := by exact_mod_cast (by omega : i < N - 1)
      exact mul_lt_mul_of_pos_left this (by positivity)
    refine ⟨fun θ => Ak (2 * N - 2) (θ + -(2 * π / (2 * N - 2 : ℕ) * i)) + Ak (2 * N - 2) (θ + 2 * π / (2 * N - 2 : ℕ) * i), ((hA.comp_add _).add (hA.comp_add _)).isCos (pair_even _ _), fun θ h0 h1 => ?_⟩
    rw [if_neg h, pair_alpha hM hi0 hi1 h0 h1]

/-- `kappad0` inside `[0, π]` is a cosine polynomial, of one degree less. -/
theorem kappad0_cos {N : ℕ} (hN : 2 ≤ N) {i : ℕ} (hi : i < N - 1) : ∃ q, IsCos (N - 2) q ∧ ∀ θ, 0 ≤ θ → θ ≤ π → kappad0 N i θ = some (q θ) := by
  have hM : 0 < 2 * N - 2 := by omega
  have hpi := pi_pos
  have hMr : (0 : ℝ) < (2 * N - 2 : ℕ) := by exact_mod_cast hM
  have hd : (2 * N - 2) / 2 = N - 1 := by omega
  have hlast : 2 * π / (2 * N - 2 : ℕ) * ((N - 1 : ℕ) : ℝ) = π := by
    have := mul_hh_double hN
    unfold hh at this; linarith
  have hi0 : (0 : ℝ) < 2 * π / (2 * N - 2 : ℕ) * (i + 1 / 2) := by positivity
  have hi1 : 2 * π / (2 * N - 2 : ℕ) * (i + 1 / 2) < π := by
    refine lt_of_lt_of_eq ?_ hlast
    have : (i : ℝ) + 1 ≤ (N - 1 : ℕ) := by exact_mod_cast (by omega : i + 1 ≤ N - 1)
    exact mul_lt_mul_of_pos_left (by linarith) (by positivity)
  have hcos : cos ((N - 1 : ℕ) * (2 * π / (2 * N - 2 : ℕ) * (i + 1 / 2))) = 0 := by
    rw [show ((N - 1 : ℕ) : ℝ) * (2 * π / (2 * N - 2 : ℕ) * (i + 1 / 2)) = (2 * π / (2 * N - 2 : ℕ) * ((N - 1 : ℕ) : ℝ)) * (i + 1 / 2) by ring, hlast,
      show π * ((i : ℝ) + 1 / 2) = i * π + π / 2 by ring, cos_add, sin_nat_mul_pi]; simp
  generalize ha : 2 * π / (2 * N - 2 : ℕ) * ((i : ℝ) + 1 / 2) = a at *
  have hlow : IsTrig (N - 2) (fun x => (1 / (2 * N - 2 : ℕ)) * (1 + 2 * ∑ n ∈ Ico 1 (N - 1), cos (n * x))) :=
    IsTrig.const_mul (IsTrig.add (isTrig_const _ 1) (IsTrig.const_mul (IsTrig.sum _ fun n hn => isTrig_cos_nat (by rw [mem_Ico] at hn; omega)) 2)) _
  have hAk : ∀ x, Ak (2 * N - 2) x = (1 / (2 * N - 2 : ℕ)) * (1 + 2 * ∑ n ∈ Ico 1 (N - 1), cos (n * x)) + (1 / (2 * N - 2 : ℕ)) * cos ((N - 1 : ℕ) * x) := fun x => by
    unfold Ak; rw [if_pos (by omega), hd]; ring
  have htop : ∀ θ, Ak (2 * N - 2) (θ + -a) + Ak (2 * N - 2) (θ + a)
      = (1 / (2 * N - 2 : ℕ)) * (1 + 2 * ∑ n ∈ Ico 1 (N - 1), cos (n * (θ + -a))) + (1 / (2 * N - 2 : ℕ)) * (1 + 2 * ∑ n ∈ Ico 1 (N - 1), cos (n * (θ + a))) := fun θ => by
    rw [hAk, hAk, mul_add ((N - 1 : ℕ) : ℝ) θ (-a), mul_add ((N - 1 : ℕ) : ℝ) θ a, mul_neg, cos_add, cos_add, cos_neg, sin_neg, hcos]; ring
  refine ⟨fun θ => Ak (2 * N - 2) (θ + -a) + Ak (2 * N - 2) (θ + a), (((hlow.comp_add (-a)).add (hlow.comp_add a)).congr htop).isCos (pair_even _ _), fun θ h0 h1 => ?_⟩
  unfold kappad0
  subst ha
  rw [pair_alpha hM hi0 hi1 h0 h1]

theorem cheb_verts {n : ℕ} (hn : 2 ≤ n) : (Chebyshev.make n).cells.v true = tab n (fun i => -cos (i * hh (2 * n - 2))) ∧
    (Chebyshev.make n).cells.v false = tab (n - 1) (fun i => -cos (hh (2 * n - 2) / 2 + i * hh (2 * n - 2))) := by
  have hI := Chebyshev.isInterval hn (-1) 1
  have hh1 : π / ((n - 1 : ℕ) : ℝ) = hh (2 * n - 2) := (hh_double hn).symm
  have hpt : ∀ θ, Chebyshev.pt (-1) 1 θ = -cos θ := fun θ => by unfold Chebyshev.pt; ring
  simp only [hh1, hpt] at hI
  refine ⟨hI.verts, hI.verts_dual.trans (tab_congr fun i _ => ?_)⟩
  congr 2; ring

theorem nodup_cos {m : ℕ} {θ : ℕ → ℝ} (h0 : ∀ i < m, 0 ≤ θ i) (h1 : ∀ i < m, θ i ≤ π) (hinj : ∀ i < m, ∀ j < m, θ i = θ j → i = j) : (tab m fun i => -cos (θ i)).Nodup := by
  unfold tab
  refine List.Nodup.map_on (fun i hi j hj h => ?_) List.nodup_range
  rw [List.mem_range] at hi hj
  exact hinj i hi j hj (injOn_cos ⟨h0 i hi, h1 i hi⟩ ⟨h0 j hj, h1 j hj⟩ (neg_injective h))

/-- C17: on `[-1, 1]` the function `psi0` of vertex `i` is the `i`-th Lagrange polynomial of the primal vertices; it is never NaN there. -/
theorem C17_psi0 (n : ℕ) (hn : 2 ≤ n) (i : ℕ) (hi : i < n) (x : ℝ) (h0 : -1 ≤ x) (h1 : x ≤ 1) :
    ∃ y, (Chebyshev.make n).B 0 true i x = some y ∧ lagrange ((Chebyshev.make n).cells.v true) i x = .ok y := by
  have hpos : 0 < hh (2 * n - 2) := hh_pos (by omega)
  have hle : ∀ j < n, (j : ℝ) * hh (2 * n - 2) ≤ π := fun j hj => by
    rw [← mul_hh_double hn]
    have : (j : ℝ) ≤ (n - 1 : ℕ) := by exact_mod_cast (by omega : j ≤ n - 1)
    exact mul_le_mul_of_nonneg_right this hpos.le
  obtain ⟨q, hq, hk⟩ := kappa0_cos hn hi
  obtain ⟨hv, -⟩ := cheb_verts hn
  have hnd : ((Chebyshev.make n).cells.v true).Nodup := by
    rw [hv]
    refine nodup_cos (fun j hj => by positivity) (fun j hj => hle j hj) fun j _ k _ h => ?_
    exact_mod_cast mul_right_cancel₀ hpos.ne' h
  have hl : ((Chebyshev.make n).cells.v true).length = n := by rw [hv, length_tab]
  refine ⟨q (arccos (-x)), hk _ (arccos_nonneg _) (arccos_le_pi _), ?_⟩
  obtain ⟨p, hp, hpl⟩ := C50_polynomial _ hnd (by omega) i (by omega)
  rw [hl] at hp
  rw [hpl]
  congr 1
  have hx : x = -cos (arccos (-x)) := by rw [cos_arccos (by linarith) (by linarith)]; ring
  have hpc : IsCos (n - 1) (fun θ => p (-cos θ)) := hp.isCos (by omega)
  have := cos_unique0 hn hpc hq (fun j hj => ?_) (arccos (-x))
  · rw [← this]; rw [← hx]
  · have hc := C50_cardinal _ hnd (by omega) i j (by omega) (by omega)
    rw [hpl] at hc
    rw [hv, getD_tab hj] at hc
    have hb := kappa0_node hn hj hi
    rw [hk _ (by positivity) (hle j hj)] at hb
    have e1 := Except.ok.inj hc
    have e2 := Option.some.inj hb
    rw [e1, e2]
    simp only [eq_comm]

/-- C17: on `[-1, 1]` the function `psid0` of dual vertex `i` is the `i`-th Lagrange polynomial of the dual vertices. -/
theorem C17_psid0 (n : ℕ) (hn : 3 ≤ n) (i : ℕ) (hi : i < n - 1) (x : ℝ) (h0 : -1 ≤ x) (h1 : x ≤ 1) :
    ∃ y, (Chebyshev.make n).B 0 false i x = some y ∧ lagrange ((Chebyshev.make n).cells.v false) i x = .ok y := by
  have hn2 : 2 ≤ n := by omega
  have hpos : 0 < hh (2 * n - 2) := hh_pos (by omega)
  have hle : ∀ j < n - 1, hh (2 * n - 2) / 2 + (j : ℝ) * hh (2 * n - 2) ≤ π := fun j hj => by
    rw [← mul_hh_double hn2]
    have : (j : ℝ) + 1 ≤ (n - 1 : ℕ) := by exact_mod_cast (by omega : j + 1 ≤ n - 1)
    nlinarith
  obtain ⟨q, hq, hk⟩ := kappad0_cos hn2 hi
  obtain ⟨-, hv⟩ := cheb_verts hn2
  have hnd : ((Chebyshev.make n).cells.v false).Nodup := by
    rw [hv]
    refine nodup_cos (fun j hj => by positivity) (fun j hj => hle j hj) fun j _ k _ h => ?_
    exact_mod_cast mul_right_cancel₀ hpos.ne' (add_left_cancel h)
  have hl : ((Chebyshev.make n).cells.v false).length = n - 1 := by rw [hv, length_tab]
  refine ⟨q (arccos (-x)), hk _ (arccos_nonneg _) (arccos_le_pi _), ?_⟩
  obtain ⟨p, hp, hpl⟩ := C50_polynomial _ hnd (by omega) i (by omega)
  rw [hl] at hp
  rw [hpl]
  congr 1
  have hx : x = -cos (arccos (-x)) := by rw [cos_arccos (by linarith) (by linarith)]; ring
  have hpc : IsCos (n - 2) (fun θ => p (-cos θ)) := hp.isCos (by omega)
  have := cos_unique1 hn2 hpc hq (fun j hj => ?_) (arccos (-x))
  · rw [← this]; rw [← hx]
  · have hc := C50_cardinal _ hnd (by omega) i j (by omega) (by omega)
    rw [hpl] at hc
    rw [hv, getD_tab hj] at hc
    have hb := kappad0_node hn2 hj hi
    rw [hk _ (by positivity) (hle j hj)] at hb
    have e1 := Except.ok.inj hc
    have e2 := Option.some.inj hb
    rw [e1, e2]
    simp only [eq_comm]

/-- Non-vacuity: the middle vertex of three, at `x = 0.3`. -/
example : 2 ≤ 3 ∧ 1 < 3 ∧ (-1 : ℝ) ≤ 0.3 ∧ (0.3 : ℝ) ≤ 1 := by norm_num

end Dec.Props
