import Verif.Model.StarMatrix
import Verif.Props.BasisDerivative

/-!
# C100: the derivative as a Toeplitz matrix
-/

set_option linter.unusedVariables false

namespace Dec.Props

open Real Finset Dec.Sp Dec.StarMatrix

/-- The derivative of the cardinal function at the other vertices. -/
theorem Ak_deriv_node {N : ℕ} (hN : 0 < N) (h2 : N % 2 = 0) {q : ℝ → ℝ} (hq : ∀ θ, HasDerivAt (Ak N) (q θ) θ) {m : ℤ} (hm : ¬ (N : ℤ) ∣ m) :
    2 * q (2 * π / N * m) = (-1) ^ m / tan (2 * π / N * m / 2) := by
  have hN' : (N : ℝ) ≠ 0 := by positivity
  set x := 2 * π / N * (m : ℝ) with hx
  have hs : sin (x / 2) ≠ 0 := sin_half_ne hN hm
  have hA : Ak N x = 0 := by rw [hx, Ak_node hN, if_neg hm]
  have hNx : (N : ℝ) * x / 2 = m * π := by rw [hx]; field_simp
  have hsin : sin (N * x / 2) = 0 := by rw [hNx]; exact sin_int_mul_pi m
  have hcos : cos (N * x / 2) = (-1) ^ m := by rw [hNx]; exact cos_int_mul_pi m
  have half : HasDerivAt (fun y : ℝ => y / 2) (1 / 2) x := by simpa using (hasDerivAt_id x).div_const 2
  have hNh : HasDerivAt (fun y : ℝ => N * y / 2) (N / 2) x := by simpa using ((hasDerivAt_id x).const_mul (N : ℝ)).div_const 2
  have d1 : HasDerivAt (fun y => N * sin (y / 2) * Ak N y) (N * (cos (x / 2) * (1 / 2)) * Ak N x + N * sin (x / 2) * q x) x :=
    (half.sin.const_mul (N : ℝ)).mul (hq x)
  have d2 : HasDerivAt (fun y => sin (N * y / 2) * cos (y / 2)) (cos (N * x / 2) * (N / 2) * cos (x / 2) + sin (N * x / 2) * (-sin (x / 2) * (1 / 2))) x :=
    hNh.sin.mul half.cos
  have e : (fun y => N * sin (y / 2) * Ak N y) = fun y => sin (N * y / 2) * cos (y / 2) := by
    funext y; rw [Ak_mul hN, if_pos h2]
  rw [e] at d1
  have h := d1.unique d2
  rw [hA, hsin, hcos] at h
  have h' : sin (x / 2) * (2 * q x) = (-1) ^ m * cos (x / 2) := by
    have : (N : ℝ) * (sin (x / 2) * (2 * q x)) = N * ((-1) ^ m * cos (x / 2)) := by linear_combination 2 * h
    exact mul_left_cancel₀ hN' this
  rw [tan_eq_sin_div_cos, div_div_eq_mul_div, eq_div_iff hs, mul_comm]
  exact h'

theorem Ak_deriv_zero {N : ℕ} {q : ℝ → ℝ} (hq : ∀ θ, HasDerivAt (Ak N) (q θ) θ) : q 0 = 0 := by
  have h1 : HasDerivAt (fun y => Ak N (-y)) (q (-0) * -1) 0 := (hq (-0)).comp 0 (hasDerivAt_neg 0)
  have e : (fun y => Ak N (-y)) = Ak N := funext (Ak_even N)
  rw [e] at h1
  have := h1.unique (hq 0)
  rw [neg_zero] at this
  linarith

/-- Every resolved function is the sum of its values times cardinal functions, everywhere. -/
theorem interp_Ak (n : ℕ) (hn : 0 < n) (f : ℝ → ℝ) (hf : Determined .periodic n 0 true f) (x : ℝ) :
    f x = ∑ k ∈ range n, f (k * (2 * π / n)) * Ak n (x - k * (2 * π / n)) := by
  set g : ℝ → ℝ := fun x => ∑ k ∈ range n, f (k * (2 * π / n)) * Ak n (x - k * (2 * π / n)) with hg
  have hf' : IsTrigAt n 0 f := by simpa [Determined] using hf
  have s := space_trigAt n 0
  have hg' : IsTrigAt n 0 g := by
    refine s.sum _ (fun k x => f (k * (2 * π / n)) * Ak n (x - k * (2 * π / n))) fun k hk => s.smul _ _ ?_
    have := (Ak_at hn).shift hn 0 k
    simpa [hh] using this
  have hgd : Determined .periodic n 0 true g := by simpa [Determined] using hg'
  have hn' : (n : ℝ) ≠ 0 := by positivity
  have hP : (grid₀ .periodic n).P 0 true f = (grid₀ .periodic n).P 0 true g := by
    show ((Periodic.make n).cells.v true).map f = ((Periodic.make n).cells.v true).map g
    rw [show (Periodic.make n).cells.v true = tab n fun i => (0 : ℝ) + i * ((2 * π - 0) / n) from Periodic.verts_tab n 0 (2 * π), map_tab, map_tab]
    refine tab_congr fun i hi => ?_
    rw [zero_add, sub_zero, hg]
    show f (i * (2 * π / n)) = ∑ k ∈ range n, f (k * (2 * π / n)) * Ak n (i * (2 * π / n) - k * (2 * π / n))
    rw [Finset.sum_eq_single i]
    · rw [sub_self, Ak_zero hn, mul_one]
    · intro k hk hki
      have hk' := Finset.mem_range.1 hk
      have e : (i : ℝ) * (2 * π / n) - k * (2 * π / n) = 2 * π / n * ((i - k : ℤ) : ℝ) := by push_cast; ring
      rw [e, Ak_node' hn (by omega) (by omega), if_neg (by omega), mul_zero]
    · intro h; exact absurd (Finset.mem_range.2 hi) h
  have key : ∀ y ∈ Set.Ico 0 (2 * π), f y = g y := C70_projection_injective .periodic n hn 0 true f g hf hgd hP
  have hp : Function.Periodic f (2 * π) := IsTrigAt.periodic hf'
  have hp' : Function.Periodic g (2 * π) := IsTrigAt.periodic hg'
  have h2 : (0 : ℝ) < 2 * π := by positivity
  have hmem := toIcoMod_mem_Ico h2 0 x
  rw [zero_add] at hmem
  have e := toIcoMod_add_toIcoDiv_zsmul h2 0 x
  show f x = g x
  rw [← e, zsmul_eq_mul, hp.int_mul, hp'.int_mul]
  exact key _ hmem

theorem q_periodic {N : ℕ} {q : ℝ → ℝ} (hq : ∀ θ, HasDerivAt (Ak N) (q θ) θ) (x : ℝ) : q (x + 2 * π) = q x := by
  have h1 : HasDerivAt (fun y => Ak N (y + 2 * π)) (q (x + 2 * π)) x := HasDerivAt.comp_add_const x (2 * π) (hq (x + 2 * π))
  rw [show (fun y => Ak N (y + 2 * π)) = Ak N from funext (Ak_periodic N)] at h1
  exact h1.unique (hq x)

/-- The entries of the matrix. -/
theorem rest_entry {n : ℕ} (hn : 0 < n) (h2 : n % 2 = 0) {q : ℝ → ℝ} (hq : ∀ θ, HasDerivAt (Ak n) (q θ) θ) :
    differentiation_rest n = .ok (tab n fun i => tab n fun j => 2 * q (2 * π / n * ((i - j : ℤ) : ℝ))) := by
  have hn' : (n : ℝ) ≠ 0 := by positivity
  have hlen : n - 1 + 1 = n := by omega
  have hcol : ([0] ++ tab (n - 1) fun k => (-1 : ℝ) ^ (k + 1) / tan (((k + 1 : ℕ) : ℝ) * (2 * π / n) / 2)) = tab n fun k => 2 * q (2 * π / n * ((k : ℤ) : ℝ)) := by
    rw [List.singleton_append, cons_tab]
    refine tab_congr' hlen fun k hk => ?_
    by_cases h0 : k = 0
    · simp [h0, Ak_deriv_zero hq]
    · rw [if_neg h0, Ak_deriv_node hn h2 hq (fun h => by have := Int.le_of_dvd (by omega) h; omega), show k - 1 + 1 = k by omega, zpow_natCast]
      congr 2
      push_cast; ring
  have hrow : (tab n fun k => 2 * q (2 * π / n * ((k : ℤ) : ℝ))).take 1 ++ ((tab n fun k => 2 * q (2 * π / n * ((k : ℤ) : ℝ))).drop 1).reverse
      = tab n fun k => 2 * q (2 * π / n * ((-k : ℤ) : ℝ)) := by
    rw [take_tab, drop_tab, reverse_tab, show min 1 n = 1 by omega, show tab 1 (fun k : ℕ => 2 * q (2 * π / n * ((k : ℤ) : ℝ))) = [2 * q 0] by simp [tab],
      List.singleton_append, cons_tab]
    refine tab_congr' hlen fun k hk => ?_
    by_cases h0 : k = 0
    · simp [h0]
    · rw [if_neg h0, ← q_periodic hq (2 * π / n * ((-k : ℤ) : ℝ))]
      congr 2
      rw [show 1 + (n - 1 - 1 - (k - 1)) = n - k by omega]
      have e2 : (((n - k : ℕ) : ℤ) : ℝ) = n - k := by push_cast [Nat.cast_sub (show k ≤ n by omega)]; rfl
      rw [e2]
      push_cast
      field_simp
      ring
  unfold differentiation_rest
  simp only []
  rw [if_neg (by omega), hcol, hrow, toeplitz, length_tab, length_tab]
  refine congrArg Except.ok (tab_congr fun i hi => tab_congr fun j hj => ?_)
  by_cases h : j ≤ i
  · rw [if_pos h, getD_tab (by omega)]
    congr 3
    push_cast [Nat.cast_sub h]; ring
  · rw [if_neg h, getD_tab (by omega)]
    congr 3
    push_cast [Nat.cast_sub (by omega : i ≤ j)]; ring

/-- **C100.** `differentiation_toeplitz` raises `TypeError` for every size (it raises the constant `NotImplemented`, which is no exception).  The code after that statement
would raise for odd sizes; for even ones it builds the matrix that takes the values of a resolved function at the vertices to **twice** the values of the derivative. -/
theorem C100_toeplitz (n : ℕ) (hn : 0 < n) : differentiation_toeplitz n = .error .typeError ∧
    (n % 2 = 1 → differentiation_rest n = .error .assertion) ∧
    (n % 2 = 0 → ∃ M, differentiation_rest n = .ok M ∧ M.length = n ∧ (∀ r ∈ M, r.length = n) ∧
      ∀ f, Determined .periodic n 0 true f → ∀ j < n, ∑ k ∈ range n, (M.getD j []).getD k 0 * f (k * (2 * π / n)) = 2 * deriv f (j * (2 * π / n))) := by
  refine ⟨rfl, fun h => ?_, fun h2 => ?_⟩
  · unfold differentiation_rest
    simp only []
    rw [if_pos (by omega)]
  · obtain ⟨q, -, hq⟩ := (Ak_isTrig n).deriv
    refine ⟨_, rest_entry hn h2 hq, length_tab .., fun r hr => ?_, fun f hf j hj => ?_⟩
    · simp only [tab, List.mem_map] at hr
      obtain ⟨i, -, rfl⟩ := hr
      simp
    · have hd : HasDerivAt f (∑ k ∈ range n, f (k * (2 * π / n)) * q (j * (2 * π / n) - k * (2 * π / n))) (j * (2 * π / n)) := by
        have hs : HasDerivAt (fun x => ∑ k ∈ range n, f (k * (2 * π / n)) * Ak n (x - k * (2 * π / n)))
            (∑ k ∈ range n, f (k * (2 * π / n)) * q (j * (2 * π / n) - k * (2 * π / n))) (j * (2 * π / n)) := by
          refine HasDerivAt.fun_sum (A := fun (k : ℕ) x => f (k * (2 * π / n)) * Ak n (x - k * (2 * π / n))) fun k _ => HasDerivAt.const_mul _ ?_
          exact HasDerivAt.comp_sub_const _ _ (hq (j * (2 * π / n) - k * (2 * π / n)))
        exact hs.congr_of_eventuallyEq (Filter.Eventually.of_forall (interp_Ak n hn f hf))
      rw [hd.deriv, mul_sum]
      refine sum_congr rfl fun k hk => ?_
      rw [getD_tab hj, getD_tab (mem_range.1 hk)]
      rw [show (j : ℝ) * (2 * π / n) - k * (2 * π / n) = 2 * π / n * ((j - k : ℤ) : ℝ) by push_cast; ring]
      ring

/-- With four vertices and the sine: the sum is twice the cosine. -/
example : ∃ M, differentiation_rest 4 = .ok M ∧ ∀ j < 4, ∑ k ∈ range 4, (M.getD j []).getD k 0 * sin (k * (2 * π / (4 : ℕ))) = 2 * cos (j * (2 * π / (4 : ℕ))) := by
  obtain ⟨M, h, -, -, hM⟩ := (C100_toeplitz 4 (by norm_num)).2.2 (by norm_num)
  refine ⟨M, h, fun j hj => ?_⟩
  have hd : Determined .periodic 4 0 true sin := by
    have h1 : IsTrig ((4 - 1) / 2) sin := by simpa using isTrig_sin_nat (K := 1) (m := 1) le_rfl
    simpa [Determined] using IsTrigAt.of_trig (x₀ := 0) h1
  have := hM sin hd j hj
  rwa [Real.deriv_sin] at this

end Dec.Props
