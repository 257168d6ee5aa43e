import Verif.Model.Switch
import Verif.Props.ChebyshevCalculus
import Verif.Props.PeriodicCalculus

/-!
# C107: switching between primal and dual 0-forms
-/

namespace Dec.Props

open Real Finset Dec.Sp

/-! ## Specification -/

/-- The sum of `u 0, …, u (n - 1)` with half weight at both ends (the trapezoid rule). -/
noncomputable def trapSum (n : ℕ) (u : ℕ → ℝ) : ℝ := ∑ j ∈ range (n - 1), (u j + u (j + 1)) / 2

/-- The sum of squares with half weight at both ends. -/
noncomputable def trapSquares (a : List ℝ) : ℝ := trapSum a.length fun j => a.getD j 0 ^ 2

/-- The ordinary sum of squares, `(a**2).sum()`. -/
noncomputable def sumSquares (a : List ℝ) : ℝ := ∑ j ∈ range a.length, a.getD j 0 ^ 2

/-! ## Alternating sums -/

theorem trapSum_add (n : ℕ) (u v : ℕ → ℝ) : trapSum n (fun j => u j + v j) = trapSum n u + trapSum n v := by
  unfold trapSum; rw [← sum_add_distrib]; exact sum_congr rfl fun j _ => by ring

theorem trapSum_mul (n : ℕ) (c : ℝ) (u : ℕ → ℝ) : trapSum n (fun j => c * u j) = c * trapSum n u := by
  unfold trapSum; rw [mul_sum]; exact sum_congr rfl fun j _ => by ring

theorem trapSum_congr {n : ℕ} {u v : ℕ → ℝ} (h : ∀ j < n, u j = v j) : trapSum n u = trapSum n v := by
  unfold trapSum
  refine sum_congr rfl fun j hj => ?_
  rw [mem_range] at hj
  rw [h j (by omega), h (j + 1) (by omega)]

theorem alt_cos (m : ℕ) (k : ℕ) (hk : k < m) : trapSum (m + 1) (fun j => (-1) ^ j * cos (k * (j * (π / m)))) = 0 := by
  have hm : (0 : ℝ) < m := by exact_mod_cast (by omega : 0 < m)
  set φ : ℝ := k * (π / m) with hφ
  have h1 : φ < π := by
    have : (k : ℝ) < m := by exact_mod_cast hk
    rw [hφ, ← mul_div_assoc, div_lt_iff₀ hm]; nlinarith [pi_pos]
  have h0 : 0 ≤ φ := by positivity
  have hc : cos (φ / 2) ≠ 0 := (cos_pos_of_mem_Ioo ⟨by linarith [pi_pos], by linarith⟩).ne'
  have e : ∀ j : ℕ, (k : ℝ) * (j * (π / m)) = j * φ := fun j => by rw [hφ]; ring
  unfold trapSum
  simp only [e, Nat.add_sub_cancel]
  have step : ∀ M : ℕ, (∑ j ∈ range M, ((-1) ^ j * cos (j * φ) + (-1) ^ (j + 1) * cos ((j + 1 : ℕ) * φ)) / 2) * (2 * cos (φ / 2))
      = - (sin (φ / 2) * ((-1) ^ M * sin (M * φ))) := by
    intro M
    induction M with
    | zero => simp
    | succ M ih =>
      rw [sum_range_succ, add_mul, ih]
      obtain ⟨θ, hθ⟩ : ∃ θ, θ = M * φ + φ / 2 := ⟨_, rfl⟩
      obtain ⟨η, hη⟩ : ∃ η, η = φ / 2 := ⟨_, rfl⟩
      rw [show ((M + 1 : ℕ) : ℝ) * φ = θ + η by rw [hθ, hη]; push_cast; ring, show (M : ℝ) * φ = θ - η by rw [hθ, hη]; ring, ← hη]
      rw [cos_add, cos_sub, sin_add, sin_sub, pow_succ]
      ring
  have h := step m
  have hs : sin ((m : ℝ) * φ) = 0 := by
    rw [hφ, show (m : ℝ) * (k * (π / m)) = k * π by field_simp, sin_nat_mul_pi]
  rw [hs, mul_zero, mul_zero, neg_zero] at h
  rcases mul_eq_zero.1 h with h | h
  · exact h
  · exact absurd h (by simpa using hc)

theorem alt_isCos {m : ℕ} (hm : 0 < m) {q : ℝ → ℝ} (hq : IsCos (m - 1) q) : trapSum (m + 1) (fun j => (-1) ^ j * q (j * (π / m))) = 0 := by
  obtain ⟨a, ha⟩ := hq
  have : ∀ M ≤ m, trapSum (m + 1) (fun j => (-1) ^ j * ∑ k ∈ range M, a k * cos (k * (j * (π / m)))) = 0 := by
    intro M
    induction M with
    | zero => intro _; simp [trapSum]
    | succ M ih =>
      intro hM
      rw [trapSum_congr (v := fun j => (-1) ^ j * (∑ k ∈ range M, a k * cos (k * (j * (π / m)))) + a M * ((-1) ^ j * cos (M * (j * (π / m)))))
        (fun j _ => by rw [sum_range_succ]; ring), trapSum_add, trapSum_mul, ih (by omega), alt_cos m M (by omega)]
      ring
  simp only [ha]
  rw [show m - 1 + 1 = m by omega]
  exact this m le_rfl

theorem trapSum_one (m : ℕ) : trapSum (m + 1) (fun _ => 1) = m := by
  unfold trapSum; simp

/-! ## Chebyshev grids -/

theorem cheb_fst (a : List ℝ) : Chebyshev.switch.1 a = Chebyshev.S_cheb a := rfl
theorem cheb_snd (a : List ℝ) : Chebyshev.switch.2 a = Chebyshev.S_cheb_pinv a := rfl

theorem alt_sq (j : ℕ) : (-1 : ℝ) ^ j * (-1) ^ j = 1 := by rw [← pow_add, ← two_mul, pow_mul]; norm_num

/-- What `switch` does with an arbitrary primal array. -/
theorem cheb_switch {m : ℕ} (hm : 0 < m) {a : List ℝ} (ha : a.length = m + 1) :
    ∃ (q : ℝ → ℝ) (c : ℝ), IsCos (m - 1) q ∧ a = (tab (m + 1) fun j => q (j * (π / m)) + c * (-1) ^ j) ∧
      Chebyshev.switch.2 (Chebyshev.switch.1 a) = (tab (m + 1) fun j => q (j * (π / m))) ∧
      Chebyshev.switch.1 a = (tab m fun j => q ((j + 1 / 2) * (π / m))) ∧
      c = trapSum (m + 1) (fun j => (-1) ^ j * a.getD j 0) / m := by
  have hm0 : (m : ℝ) ≠ 0 := by exact_mod_cast hm.ne'
  have hn : 2 ≤ m + 1 := by omega
  have hhm : hh (2 * (m + 1) - 2) = π / m := by
    rw [show 2 * (m + 1) - 2 = 2 * m by omega]; unfold hh; push_cast; field_simp
  obtain ⟨p, hp, h⟩ := Chebyshev.exists_rep (n := m + 1) hn 0 true (fun h => absurd h (by decide)) (a := a) ha
  have hp' : IsCos m p := hp
  obtain ⟨α, hα⟩ := hp'
  have h' : a = tab (m + 1) fun j => p (j * hh (2 * (m + 1) - 2)) := h
  set q : ℝ → ℝ := fun θ => ∑ k ∈ range m, α k * cos (k * θ) with hq
  have hqc : IsCos (m - 1) q := ⟨α, fun θ => by rw [show m - 1 + 1 = m by omega]⟩
  have hpq : ∀ θ, p θ = q θ + α m * cos (m * θ) := fun θ => by rw [hα, sum_range_succ]
  have e1 := Chebyshev.S_cheb_exact hn (p := p) hp
  have e2 := Chebyshev.S_cheb_pinv_exact hn (p := q) (by simpa using hqc)
  rw [← h', hhm] at e1
  rw [hhm] at e2
  rw [hhm] at h'
  have hS : Chebyshev.S_cheb a = tab (m + 1 - 1) fun j => q (π / m / 2 + j * (π / m)) := by
    rw [e1]
    refine tab_congr fun j _ => ?_
    rw [hpq, show (m : ℝ) * (π / m / 2 + j * (π / m)) = j * π + π / 2 by field_simp; ring, cos_add_pi_div_two, sin_nat_mul_pi]; ring
  have hA : a = tab (m + 1) fun j => q (j * (π / m)) + α m * (-1) ^ j := by
    rw [h']
    refine tab_congr fun j _ => ?_
    rw [hpq, show (m : ℝ) * (j * (π / m)) = j * π by field_simp, cos_nat_mul_pi]
  refine ⟨q, α m, hqc, hA, ?_, ?_, ?_⟩
  · rw [cheb_fst, cheb_snd, hS, e2]
  · rw [cheb_fst, hS, Nat.add_sub_cancel]
    refine tab_congr fun j _ => congrArg q (by ring)
  · rw [eq_div_iff hm0, trapSum_congr (v := fun j => (-1) ^ j * q (j * (π / m)) + α m * 1), trapSum_add, trapSum_mul, alt_isCos hm hqc,
      trapSum_one m, zero_add]
    intro j hj
    rw [hA, getD_tab hj]
    linear_combination α m * alt_sq j

/-- C107 (Chebyshev): going to the dual points and back removes the alternating part of an array, measured with half weight at the two ends of the
interval, and nothing else. -/
theorem C107_chebyshev_round_trip (n : ℕ) (hn : 2 ≤ n) (a : List ℝ) (ha : a.length = n) :
    (Chebyshev.switch.1 a).length = n - 1 ∧
    Chebyshev.switch.2 (Chebyshev.switch.1 a) = tab n fun j => a.getD j 0 - trapSum n (fun i => (-1) ^ i * a.getD i 0) / (n - 1 : ℕ) * (-1) ^ j := by
  obtain ⟨m, rfl⟩ : ∃ m, n = m + 1 := ⟨n - 1, by omega⟩
  obtain ⟨q, c, hq, h1, h2, h3, h4⟩ := cheb_switch (by omega) ha
  refine ⟨by rw [h3]; simp, ?_⟩
  rw [h2, Nat.add_sub_cancel, ← h4]
  refine tab_congr fun j hj => ?_
  rw [h1, getD_tab hj]; ring

/-- C107 (Chebyshev): from the dual points to the primal ones and back is the identity, for every array. -/
theorem C107_chebyshev_right_inverse (b : List ℝ) (hb : 1 ≤ b.length) :
    (Chebyshev.switch.2 b).length = b.length + 1 ∧ Chebyshev.switch.1 (Chebyshev.switch.2 b) = b := by
  refine ⟨?_, C46_chebyshev_shift b hb⟩
  obtain ⟨p, hp, h⟩ := Chebyshev.exists_rep (n := b.length + 1) (by omega) 0 false (fun h => absurd h (by decide)) (a := b) (by simp [Chebyshev.make])
  have e1 := Chebyshev.S_cheb_pinv_exact (n := b.length + 1) (by omega) (p := p) hp
  have h' : b = tab (b.length + 1 - 1) fun j => p (hh (2 * (b.length + 1) - 2) / 2 + j * hh (2 * (b.length + 1) - 2)) := h
  rw [← h'] at e1
  show (Chebyshev.S_cheb_pinv b).length = _
  rw [e1]; simp

/-- C107 (Chebyshev): the arrays that are lost are exactly the multiples of `+1, -1, +1, …`; so the switch to the dual points is never
invertible. -/
theorem C107_chebyshev_kernel (n : ℕ) (hn : 2 ≤ n) (a b : List ℝ) (ha : a.length = n) (hb : b.length = n) :
    Chebyshev.switch.1 a = Chebyshev.switch.1 b ↔ ∃ c : ℝ, ∀ j < n, a.getD j 0 = b.getD j 0 + c * (-1) ^ j := by
  obtain ⟨m, rfl⟩ : ∃ m, n = m + 1 := ⟨n - 1, by omega⟩
  have hm : 0 < m := by omega
  have hm0 : (m : ℝ) ≠ 0 := by exact_mod_cast hm.ne'
  obtain ⟨q, c, hq, h1, h2, h3, h4⟩ := cheb_switch hm ha
  obtain ⟨q', c', hq', h1', h2', h3', h4'⟩ := cheb_switch hm hb
  constructor
  · intro h
    refine ⟨c - c', fun j hj => ?_⟩
    have h5 : (tab (m + 1) fun j => q (j * (π / m))) = tab (m + 1) fun j => q' (j * (π / m)) := by rw [← h2, ← h2', h]
    have h6 := (tab_inj.1 h5) j hj
    rw [h1, h1', getD_tab hj, getD_tab hj, h6]; ring
  · rintro ⟨d, hd⟩
    have h5 : c = c' + d := by
      rw [h4, h4', div_add' _ _ _ hm0]
      refine congrArg (· / (m : ℝ)) ?_
      rw [trapSum_congr (v := fun j => (-1) ^ j * b.getD j 0 + d * 1) (fun j hj => ?_), trapSum_add, trapSum_mul, trapSum_one m]
      rw [hd j hj]
      linear_combination d * alt_sq j
    have h6 : Chebyshev.switch.2 (Chebyshev.switch.1 a) = Chebyshev.switch.2 (Chebyshev.switch.1 b) := by
      rw [h2, h2']
      refine tab_congr fun j hj => ?_
      have := hd j hj
      rw [h1, h1', getD_tab hj, getD_tab hj, h5] at this
      linarith
    have h7 := congrArg Chebyshev.switch.1 h6
    rwa [(C107_chebyshev_right_inverse _ (by rw [h3]; simp; omega)).2, (C107_chebyshev_right_inverse _ (by rw [h3']; simp; omega)).2] at h7

/-- C107 (Chebyshev): of all primal arrays that switch to `b`, `S_cheb_pinv(b)` is the one with the least sum of squares when the two end points
count half, and the only one. -/
theorem C107_chebyshev_least (n : ℕ) (hn : 2 ≤ n) (a b : List ℝ) (ha : a.length = n) (h : Chebyshev.switch.1 a = b) :
    trapSquares (Chebyshev.switch.2 b) ≤ trapSquares a ∧ (trapSquares (Chebyshev.switch.2 b) = trapSquares a → a = Chebyshev.switch.2 b) := by
  obtain ⟨m, rfl⟩ : ∃ m, n = m + 1 := ⟨n - 1, by omega⟩
  have hm : 0 < m := by omega
  have hm0 : (0 : ℝ) < m := by exact_mod_cast hm
  obtain ⟨q, c, hq, h1, h2, h3, h4⟩ := cheb_switch hm ha
  subst h
  rw [h2]
  have e : trapSquares a = trapSquares (tab (m + 1) fun j => q (j * (π / m))) + m * c ^ 2 := by
    unfold trapSquares
    rw [ha, length_tab, trapSum_congr (v := fun j => (q (j * (π / m))) ^ 2 + (2 * c * ((-1) ^ j * q (j * (π / m))) + c ^ 2 * 1)), trapSum_add,
      trapSum_add, trapSum_mul, trapSum_mul, alt_isCos hm hq, trapSum_one m]
    · rw [trapSum_congr (u := fun j => (tab (m + 1) fun j => q (j * (π / m))).getD j 0 ^ 2) (v := fun j => (q (j * (π / m))) ^ 2)
        (fun j hj => by rw [getD_tab hj])]
      ring
    · intro j hj
      rw [h1, getD_tab hj]
      have : ((-1 : ℝ) ^ j) ^ 2 = 1 := by rw [← pow_mul, mul_comm, pow_mul]; norm_num
      linear_combination c ^ 2 * this
  refine ⟨by rw [e]; nlinarith [sq_nonneg c], fun h => ?_⟩
  have hc : c = 0 := by
    have : (m : ℝ) * c ^ 2 = 0 := by linarith
    rcases mul_eq_zero.1 this with h | h
    · exact absurd h hm0.ne'
    · exact pow_eq_zero_iff (two_ne_zero) |>.1 h
  rw [h1, hc]; exact tab_congr fun j _ => by ring

theorem sum_eq_trap (m : ℕ) (u : ℕ → ℝ) : ∑ j ∈ range (m + 1), u j = trapSum (m + 1) u + (u 0 + u m) / 2 := by
  unfold trapSum
  rw [Nat.add_sub_cancel]
  induction m with
  | zero => simp
  | succ m ih => rw [sum_range_succ, ih, sum_range_succ]; ring

theorem sumSquares_tab (n : ℕ) (u : ℕ → ℝ) : sumSquares (tab n u) = ∑ j ∈ range n, u j ^ 2 := by
  unfold sumSquares
  rw [length_tab]
  exact sum_congr rfl fun j hj => by rw [getD_tab (mem_range.1 hj)]

/-- C107 (Chebyshev): although it is called a pseudo inverse, with three or more vertices it is not the (Moore–Penrose) pseudo inverse that
`numpy.linalg.pinv` computes, which would return the solution with the least ordinary sum of squares; with two vertices it is. -/
theorem C107_chebyshev_pinv (n : ℕ) (hn : 2 ≤ n) :
    (∀ a : List ℝ, a.length = n → sumSquares (Chebyshev.switch.2 (Chebyshev.switch.1 a)) ≤ sumSquares a) ↔ n = 2 := by
  obtain ⟨m, rfl⟩ : ∃ m, n = m + 1 := ⟨n - 1, by omega⟩
  have hm : 0 < m := by omega
  have hm0 : (0 : ℝ) < m := by exact_mod_cast hm
  constructor
  · intro h
    by_contra hne
    have hm2 : 2 ≤ m := by omega
    -- a resolved function whose values at the two ends do not cancel
    obtain ⟨q, hq, hq2⟩ : ∃ q : ℝ → ℝ, IsCos (m - 1) q ∧ q 0 + (-1) ^ m * q π = 2 := by
      rcases Nat.even_or_odd m with he | ho
      · refine ⟨fun _ => 1, ⟨fun k => if k = 0 then 1 else 0, fun θ => by simp⟩, ?_⟩
        rw [he.neg_one_pow]; norm_num
      · refine ⟨cos, ⟨fun k => if k = 1 then 1 else 0, fun θ => ?_⟩, ?_⟩
        · rw [sum_eq_single 1]
          · simp
          · intro k _ hk; simp [hk]
          · intro hk; exact absurd (mem_range.2 (by omega)) hk
        · rw [ho.neg_one_pow, cos_pi, cos_zero]; norm_num
    have e1 : ∑ j ∈ range (m + 1), (-1 : ℝ) ^ j * q (j * (π / m)) = 1 := by
      rw [sum_eq_trap m (fun j : ℕ => (-1 : ℝ) ^ j * q (j * (π / m))), alt_isCos hm hq]
      have : (m : ℝ) * (π / m) = π := by field_simp
      simp only [Nat.cast_zero, zero_mul, pow_zero, one_mul, this]
      linarith
    -- subtract the optimal multiple of the alternating array
    set d : ℝ := 1 / (m + 1)
    set a : List ℝ := tab (m + 1) fun j => q (j * (π / m)) - d * (-1) ^ j with hadef
    have ha : a.length = m + 1 := by simp [a]
    obtain ⟨q', c, hq', h1, h2, h3, h4⟩ := cheb_switch hm ha
    have hc : c = - d := by
      rw [h4, trapSum_congr (v := fun j => (-1) ^ j * q (j * (π / m)) + (-d) * 1), trapSum_add, trapSum_mul, alt_isCos hm hq, trapSum_one m]
      · field_simp; ring
      · intro j hj
        rw [hadef, getD_tab hj, mul_sub, mul_left_comm, ← pow_add, ← two_mul, pow_mul]; norm_num; ring
    have hqq : (tab (m + 1) fun j => q' (j * (π / m))) = tab (m + 1) fun j => q (j * (π / m)) := by
      refine tab_congr fun j hj => ?_
      have := (tab_inj.1 (h1.symm.trans hadef)) j hj
      rw [hc] at this
      linarith
    have h5 := h a ha
    rw [h2, hqq, hadef, sumSquares_tab, sumSquares_tab] at h5
    have e2 : ∑ j ∈ range (m + 1), (q (j * (π / m)) - d * (-1) ^ j) ^ 2
        = (∑ j ∈ range (m + 1), q (j * (π / m)) ^ 2) - 2 * d * 1 + (m + 1) * d ^ 2 := by
      have h7 : ((m : ℝ) + 1) * d ^ 2 = ∑ j ∈ range (m + 1), d ^ 2 := by simp
      have h8 : 2 * d * 1 = ∑ j ∈ range (m + 1), 2 * d * ((-1 : ℝ) ^ j * q (j * (π / m))) := by rw [← mul_sum, e1]
      rw [h7, h8, ← sum_sub_distrib, ← sum_add_distrib]
      refine sum_congr rfl fun j _ => ?_
      have : ((-1 : ℝ) ^ j) ^ 2 = 1 := by rw [← pow_mul, mul_comm, pow_mul]; norm_num
      linear_combination d ^ 2 * this
    rw [e2] at h5
    have e3 : ((m : ℝ) + 1) * d ^ 2 = d := by simp only [d]; field_simp
    have e4 : 0 < d := by simp only [d]; positivity
    linarith
  · intro h
    obtain rfl : m = 1 := by omega
    intro a ha
    obtain ⟨q, c, hq, h1, h2, h3, h4⟩ := cheb_switch (m := 1) (by norm_num) ha
    obtain ⟨α, hα⟩ := hq
    have hqc : ∀ θ, q θ = α 0 := fun θ => by rw [hα]; simp
    rw [h2, h1, sumSquares_tab, sumSquares_tab]
    simp only [hqc, sum_range_succ, range_zero, sum_empty]
    nlinarith [sq_nonneg c]

/-! ## Periodic grids -/

theorem per_switch {m : ℕ} (hm : 0 < m) {a : List ℝ} (ha : a.length = 2 * m) :
    ∃ (q : ℝ → ℝ) (c : ℝ), IsTrig (m - 1) q ∧ a = (tab (2 * m) fun j => q (j * hh (2 * m)) + c * (-1) ^ j) ∧
      Sinv (S a) = (tab (2 * m) fun j => q (j * hh (2 * m))) := by
  obtain ⟨p, p1, p2, p3⟩ := exists_isTrig (2 * m) 0 a ha
  rw [show 2 * m / 2 = m by omega] at p1
  obtain ⟨q, c, d, hq, h⟩ := p1.split hm
  have hr : ∀ φ, Res (2 * m) φ q := fun φ => Res_of_isTrig (by omega) hq φ
  obtain ⟨e1, e2⟩ := Periodic.shifted_samp hm hq h
  refine ⟨q, c, hq, ?_, ?_⟩
  · rw [p3]
    refine tab_congr fun j _ => ?_
    rw [h, show (m : ℝ) * (0 + j * hh (2 * m)) = j * (m * hh (2 * m)) by ring, Periodic.n_hh hm, cos_nat_mul_pi, sin_nat_mul_pi, zero_add]
    ring
  · rw [p3, e1, (hr _).Sinv, sub_self]
    exact tab_congr fun j _ => by rw [zero_add]

/-- Alternating sums of resolved functions over the whole circle vanish. -/
theorem alt_isTrig {m : ℕ} (hm : 0 < m) {q : ℝ → ℝ} (hq : IsTrig (m - 1) q) : ∑ j ∈ range (2 * m), (-1 : ℝ) ^ j * q (j * hh (2 * m)) = 0 := by
  have key : ∀ (k : ℕ) (α : ℝ), k < m → ∑ j ∈ range (2 * m), (-1 : ℝ) ^ j * cos (k * (j * hh (2 * m)) + α) = 0 := by
    intro k α hk
    have hm0 : (0 : ℝ) < m := by exact_mod_cast hm
    obtain ⟨φ, hφ⟩ : ∃ φ : ℝ, φ = k * hh (2 * m) := ⟨_, rfl⟩
    have hh0 : hh (2 * m) = π / m := by unfold hh; push_cast; field_simp
    have h1 : φ < π := by
      have : (k : ℝ) < m := by exact_mod_cast hk
      rw [hφ, hh0, ← mul_div_assoc, div_lt_iff₀ hm0]; nlinarith [pi_pos]
    have h0 : 0 ≤ φ := by rw [hφ, hh0]; positivity
    have hc : cos (φ / 2) ≠ 0 := (cos_pos_of_mem_Ioo ⟨by linarith [pi_pos], by linarith⟩).ne'
    have step : ∀ M : ℕ, (∑ j ∈ range M, (-1 : ℝ) ^ j * cos (k * (j * hh (2 * m)) + α)) * (2 * cos (φ / 2))
        = cos (α - φ / 2) - (-1) ^ M * cos (M * φ + α - φ / 2) := by
      intro M
      induction M with
      | zero => simp
      | succ M ih =>
        obtain ⟨θ, hθ⟩ : ∃ θ, θ = M * φ + α := ⟨_, rfl⟩
        rw [sum_range_succ, add_mul, ih, show (k : ℝ) * (M * hh (2 * m)) + α = θ by rw [hθ, hφ]; ring,
          show (M : ℝ) * φ + α - φ / 2 = θ - φ / 2 by rw [hθ], show ((M + 1 : ℕ) : ℝ) * φ + α - φ / 2 = θ + φ / 2 by rw [hθ]; push_cast; ring,
          cos_add, cos_sub θ, pow_succ]
        ring
    have h := step (2 * m)
    have e : ((2 * m : ℕ) : ℝ) * φ + α - φ / 2 = (α - φ / 2) + k * (2 * π) := by
      rw [hφ, hh0]; push_cast; field_simp; ring
    rw [e, cos_add_nat_mul_two_pi, pow_mul] at h
    norm_num at h
    rcases h with h | h
    · exact h
    · exact absurd h hc
  obtain ⟨a, b, h⟩ := hq
  simp only [h]
  rw [show m - 1 + 1 = m by omega]
  simp only [mul_sum]
  rw [sum_comm]
  refine sum_eq_zero fun k hk => ?_
  rw [mem_range] at hk
  have e1 := key k 0 hk
  have e2 := key k (-(π / 2)) hk
  have e3 : ∀ t : ℝ, cos (t + -(π / 2)) = sin t := fun t => by rw [← sub_eq_add_neg, cos_sub_pi_div_two]
  simp only [add_zero] at e1
  simp only [e3] at e2
  have : ∑ j ∈ range (2 * m), (-1 : ℝ) ^ j * (a k * cos (k * (j * hh (2 * m))) + b k * sin (k * (j * hh (2 * m))))
      = a k * (∑ j ∈ range (2 * m), (-1 : ℝ) ^ j * cos (k * (j * hh (2 * m)))) + b k * ∑ j ∈ range (2 * m), (-1 : ℝ) ^ j * sin (k * (j * hh (2 * m))) := by
    rw [mul_sum, mul_sum, ← sum_add_distrib]; exact sum_congr rfl fun j _ => by ring
  rw [this, e1, e2]; ring

theorem per_fst (a : List ℝ) : Periodic.switch.1 a = S a := rfl
theorem per_snd (a : List ℝ) : Periodic.switch.2 a = Sinv a := rfl

/-- C107 (periodic): from the primal points to the dual ones and back is the identity when the number of points is odd, and removes the alternating
part when it is even; the other order is the same. -/
theorem C107_periodic_round_trip (n : ℕ) (hn : 1 ≤ n) (a : List ℝ) (ha : a.length = n) :
    Periodic.switch.2 (Periodic.switch.1 a) = (tab n fun j =>
      a.getD j 0 - (if n % 2 = 1 then 0 else (∑ i ∈ range n, (-1) ^ i * a.getD i 0) / n) * (-1) ^ j) ∧
    Periodic.switch.1 (Periodic.switch.2 a) = Periodic.switch.2 (Periodic.switch.1 a) := by
  rw [per_fst, per_snd, per_snd, per_fst]
  refine ⟨?_, (C46_shifts_commute a).1⟩
  by_cases h : n % 2 = 1
  · rw [(C46_shift_inverse_odd a (by omega)).1, if_pos h]
    rw [eq_tab' ha 0]
    refine tab_congr fun j hj => ?_
    rw [getD_tab hj]; ring
  · rw [if_neg h]
    obtain ⟨m, rfl⟩ : ∃ m, n = 2 * m := ⟨n / 2, by omega⟩
    have hm : 0 < m := by omega
    have hm0 : (0 : ℝ) < m := by exact_mod_cast hm
    obtain ⟨q, c, hq, h1, h2⟩ := per_switch hm ha
    have hc : (∑ i ∈ range (2 * m), (-1 : ℝ) ^ i * a.getD i 0) / ((2 * m : ℕ) : ℝ) = c := by
      have : ∑ i ∈ range (2 * m), (-1 : ℝ) ^ i * a.getD i 0 = ∑ i ∈ range (2 * m), ((-1 : ℝ) ^ i * q (i * hh (2 * m)) + c) := by
        refine sum_congr rfl fun j hj => ?_
        rw [h1, getD_tab (mem_range.1 hj)]
        linear_combination c * alt_sq j
      rw [this, sum_add_distrib, alt_isTrig hm hq, sum_const, card_range]
      push_cast; field_simp; simp
    rw [hc, h2]
    refine tab_congr fun j hj => ?_
    rw [h1, getD_tab hj]; ring

/-- C107 (periodic): the switch is invertible exactly when the number of points is odd: having the same number of dual and primal points, which the
documentation asks for, is not enough. -/
theorem C107_periodic_invertible (n : ℕ) (hn : 1 ≤ n) :
    (∀ a b : List ℝ, a.length = n → b.length = n → Periodic.switch.1 a = Periodic.switch.1 b → a = b) ↔ n % 2 = 1 := by
  constructor
  · intro h
    by_contra hne
    obtain ⟨m, rfl⟩ : ∃ m, n = 2 * m := ⟨n / 2, by omega⟩
    have hm : 0 < m := by omega
    have e1 := (C46_even_not_invertible m hm).1
    have e2 : S (List.replicate (2 * m) 0) = List.replicate (2 * m) 0 := by
      have := (Res.zero (2 * m) 0).S
      have e4 : ∀ φ, samp (2 * m) φ (fun _ => (0 : ℝ)) = List.replicate (2 * m) 0 := fun φ => by rw [replicate_tab]; rfl
      rw [e4, e4] at this; exact this
    have e3 := h (tab (2 * m) fun j => (-1) ^ j) (List.replicate (2 * m) 0) (by simp) (by simp) (by rw [per_fst, per_fst, e1, e2])
    rw [replicate_tab] at e3
    have := (tab_inj.1 e3) 0 (by omega)
    simp at this
  · intro h a b ha hb hab
    have := congrArg Periodic.switch.2 hab
    rwa [(C107_periodic_round_trip n hn a ha).1, (C107_periodic_round_trip n hn b hb).1, if_pos h, if_pos h, tab_congr (fun j _ => by rw [zero_mul, sub_zero]),
      tab_congr (f := fun j => b.getD j 0 - 0 * (-1) ^ j) (fun j _ => by rw [zero_mul, sub_zero]), ← eq_tab' ha 0, ← eq_tab' hb 0] at this

/-- C107 (periodic): unlike the one of the Chebyshev grid, `switch()[1]` is a pseudo inverse in the ordinary sense: of all arrays with the same
switched values, the round trip returns the one with the least sum of squares, and it is unique. -/
theorem C107_periodic_pinv (n : ℕ) (hn : 1 ≤ n) (a : List ℝ) (ha : a.length = n) :
    sumSquares (Periodic.switch.2 (Periodic.switch.1 a)) ≤ sumSquares a ∧
    (sumSquares (Periodic.switch.2 (Periodic.switch.1 a)) = sumSquares a → Periodic.switch.2 (Periodic.switch.1 a) = a) ∧
    Periodic.switch.1 (Periodic.switch.2 (Periodic.switch.1 a)) = Periodic.switch.1 a := by
  by_cases h : n % 2 = 1
  · have e : Periodic.switch.2 (Periodic.switch.1 a) = a := by
      rw [per_fst, per_snd]; exact (C46_shift_inverse_odd a (by omega)).1
    rw [e]; exact ⟨le_rfl, fun _ => rfl, rfl⟩
  · obtain ⟨m, rfl⟩ : ∃ m, n = 2 * m := ⟨n / 2, by omega⟩
    have hm : 0 < m := by omega
    have hm0 : (0 : ℝ) < m := by exact_mod_cast hm
    obtain ⟨q, c, hq, h1, h2⟩ := per_switch hm ha
    rw [per_fst, per_snd]
    have e : sumSquares a = sumSquares (Sinv (S a)) + 2 * m * c ^ 2 := by
      rw [h2, sumSquares_tab]
      conv_lhs => rw [h1]
      rw [sumSquares_tab]
      have e1 : ∀ j : ℕ, (q (j * hh (2 * m)) + c * (-1) ^ j) ^ 2 = q (j * hh (2 * m)) ^ 2 + (2 * c * ((-1) ^ j * q (j * hh (2 * m))) + c ^ 2) := fun j => by
        linear_combination c ^ 2 * alt_sq j
      simp only [e1]
      rw [sum_add_distrib, sum_add_distrib, ← mul_sum, alt_isTrig hm hq, sum_const, card_range]
      push_cast; simp
    refine ⟨by rw [e]; nlinarith [sq_nonneg c], fun h => ?_, ?_⟩
    · have hc : c = 0 := by
        have : 2 * (m : ℝ) * c ^ 2 = 0 := by linarith
        rcases mul_eq_zero.1 this with h | h
        · exact absurd h (by positivity)
        · exact pow_eq_zero_iff (two_ne_zero) |>.1 h
      rw [h2]
      conv_rhs => rw [h1, hc]
      exact tab_congr fun j _ => by ring
    · rw [per_fst]
      have z : S (tab (2 * m) fun j => q (j * hh (2 * m))) = S a := by
        have k1 := (Periodic.shifted_samp hm hq (p := fun θ => q θ + c * cos (m * θ) + 0 * sin (m * θ)) (fun θ => rfl)).1
        have k2 := (Res_of_isTrig (show 2 * (m - 1) < 2 * m by omega) hq 0).S
        have k3 : samp (2 * m) 0 (fun θ => q θ + c * cos (m * θ) + 0 * sin (m * θ)) = a := by
          rw [h1]
          refine tab_congr fun j _ => ?_
          beta_reduce
          rw [show (m : ℝ) * (0 + j * hh (2 * m)) = j * (m * hh (2 * m)) by ring, Periodic.n_hh hm, cos_nat_mul_pi, zero_add]
          ring
        have k4 : samp (2 * m) 0 q = tab (2 * m) fun j => q (j * hh (2 * m)) := tab_congr fun j _ => by rw [zero_add]
        rw [k3] at k1
        rw [k4] at k2
        rw [k1, k2, zero_add]
      rw [h2, z]

/-- A case with content: three Chebyshev vertices and an array that is not the round trip of any other. -/
example : 2 ≤ 3 ∧ ([1, 2, 4] : List ℝ).length = 3 ∧ Chebyshev.switch.2 (Chebyshev.switch.1 [1, 2, 4]) = [1 - 1 / 4, 2 + 1 / 4, 4 - 1 / 4] := by
  refine ⟨by norm_num, rfl, ?_⟩
  rw [(C107_chebyshev_round_trip 3 (by norm_num) [1, 2, 4] rfl).2]
  simp [tab, trapSum, sum_range_succ, List.range_succ]
  norm_num

end Dec.Props
