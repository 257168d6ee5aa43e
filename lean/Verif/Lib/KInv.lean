import Verif.Lib.KOp
import Verif.Lib.PeriodicGrid

set_option linter.unusedSimpArgs false
set_option linter.unusedVariables false

/-! `fourier_K_inv` inverts `fourier_K`. -/

namespace Dec.Sp

open Finset Real

theorem weave_tab_any {α : Type*} (N : ℕ) (f g : ℕ → α) :
    weave (tab ((N + 1) / 2) f) (tab (N / 2) g) = tab N (fun i => if i % 2 = 0 then f (i / 2) else g (i / 2)) := by
  induction N using Nat.twoStepInduction generalizing f g with
  | zero => simp [weave]
  | one => simp [tab_succ, weave]
  | more n ih _ =>
    rw [show (n + 2 + 1) / 2 = (n + 1) / 2 + 1 by omega, show (n + 2) / 2 = n / 2 + 1 by omega, tab_succ, tab_succ, weave, ih,
      tab_succ, tab_succ]
    have : ∀ i, (i + 1 + 1) / 2 = i / 2 + 1 := fun i => by omega
    have h2 : ∀ i, (i + 1 + 1) % 2 = i % 2 := fun i => by omega
    simp [this, h2]

theorem isclose_self (x : ℂ) : isclose x x := by
  unfold isclose; simp; positivity

/-- The weights used by the inverse do not vanish. -/
def WeightsOk (N : ℕ) (a b : ℝ) : Prop :=
  (∀ k, 1 ≤ k → k ≤ N → Id (fr (N + 2) k) a b ≠ 0) ∧
  (N % 2 = 1 → Id (fr (N + 2) 0) a b ≠ 0 ∧ Id (fr (N + 2) (N + 1)) a b ≠ 0)

/-- The condition under which `fourier_K_inv` rejects. -/
def Rejects (N : ℕ) (a b : ℝ) : Prop :=
  let I : ℕ → ℂ := fun k => Id (fr (N + 2) k) a b
  isclose (I 0) (I N) ∨ isclose (I 1) (I (N + 1)) ∨ isclose (I 0 * I 1) (I N * I (N + 1))

/-- The computation of `fourier_K_inv` after its check, from the four end weights and the quotient of the input by the inner weights. -/
noncomputable def kcore (N : ℕ) (i0 i1 iN iM : ℂ) (x : List ℂ) : List ℂ :=
  let E := (stride2 x).sum
  let O := (stride2' x).sum
  let y := List.replicate N (0 : ℂ)
  let y := if N % 2 = 0 then
      (y.set 0 (O / (1 - i0 / iN))).set (N - 1) (E / (iM / i1 - 1))
    else
      (y.set 0 ((i1 / iM * E + O) / (1 - i1 * i0 / iN / iM))).set (N - 1)
        ((iN / i0 * E + O) / (iN * iM / i0 / i1 - 1))
  let y0 := y.getD 0 0
  let yl := y.getD (N - 1) 0
  let x := x.modify 0 (· - yl * iM / i1)
  let x := x.modify (N - 1) (· - (-y0 * i0 / iN))
  let x := [-y0] ++ x ++ [yl]
  let ye := ((cumsum (stride2 x)).map (- ·)).dropLast
  let yo := ((cumsum (stride2' x).reverse).dropLast).reverse
  let y := weave ye yo
  y.map (· * (2 * Complex.I))

open Classical in
theorem fourier_K_inv_eq (x : List ℂ) (a b : ℝ) : fourier_K_inv x a b =
    let I : ℕ → ℂ := fun k => (I_diag (x.length + 2) a b).getD k 0
    if isclose (I 0) (I x.length) ∨ isclose (I 1) (I (x.length + 1)) ∨ isclose (I 0 * I 1) (I x.length * I (x.length + 1)) then
      .error .valueError
    else .ok (kcore x.length (I 0) (I 1) (I x.length) (I (x.length + 1)) (vdiv x ((I_diag (x.length + 2) a b).tail.dropLast))) := rfl

open Classical in
theorem fourier_K_inv_eq' {N : ℕ} (x : List ℂ) (hx : x.length = N) (a b : ℝ) : fourier_K_inv x a b =
    if Rejects N a b then .error .valueError
    else .ok (kcore N (Id (fr (N + 2) 0) a b) (Id (fr (N + 2) 1) a b) (Id (fr (N + 2) N) a b) (Id (fr (N + 2) (N + 1)) a b)
      (vdiv x (tab N fun k => Id (fr (N + 2) (k + 1)) a b))) := by
  subst hx
  rw [fourier_K_inv_eq]
  set N := x.length
  have g : ∀ k, k < N + 2 → (I_diag (N + 2) a b).getD k 0 = Id (fr (N + 2) k) a b := fun k hk => by rw [I_diag_tab, getD_tab hk]
  have t : (I_diag (N + 2) a b).tail.dropLast = tab N fun k => Id (fr (N + 2) (k + 1)) a b := by
    rw [I_diag_tab, tail_tab, dropLast_tab]; rfl
  unfold Rejects
  simp only [g 0 (by omega), g 1 (by omega), g N (by omega), g (N + 1) (by omega), t]
  congr

theorem fourier_K_inv_rejects {N : ℕ} {a b : ℝ} (h : Rejects N a b) (x : List ℂ) (hx : x.length = N) :
    fourier_K_inv x a b = .error .valueError := by
  rw [fourier_K_inv_eq' x hx, if_pos h]

theorem telescope_odd {N : ℕ} (u : ℕ → ℂ) (k : ℕ) :
    ∑ i ∈ range k, (u (2 * i) - u (2 * i + 2)) = u 0 - u (2 * k) := by
  induction k with
  | zero => simp
  | succ k ih => rw [Finset.sum_range_succ, ih, show 2 * (k + 1) = 2 * k + 2 by ring]; ring

theorem telescope_even {N : ℕ} (u : ℕ → ℂ) (k : ℕ) :
    ∑ i ∈ range k, (u (2 * i + 1) - u (2 * i + 3)) = u 1 - u (2 * k + 1) := by
  induction k with
  | zero => simp
  | succ k ih => rw [Finset.sum_range_succ, ih, show 2 * (k + 1) + 1 = 2 * k + 3 by ring]; ring

theorem sum_indicator_zero {M : ℕ} (hM : 0 < M) (P : ℂ) (f : ℕ → ℕ) (hf : ∀ i, f i = 0 ↔ i = 0) :
    ∑ i ∈ range M, (if f i = 0 then P else 0) = P := by
  simp_rw [hf]; rw [Finset.sum_ite_eq', if_pos (by simpa using hM)]

/-- The operator is exactly invertible (given nonzero weights). -/
def NonSing (N : ℕ) (a b : ℝ) : Prop :=
  (N % 2 = 0 → Id (fr (N + 2) 0) a b ≠ Id (fr (N + 2) N) a b ∧ Id (fr (N + 2) 1) a b ≠ Id (fr (N + 2) (N + 1)) a b) ∧
  (N % 2 = 1 → Id (fr (N + 2) 0) a b * Id (fr (N + 2) 1) a b ≠ Id (fr (N + 2) N) a b * Id (fr (N + 2) (N + 1)) a b)

theorem nonSing_of_accepts {N : ℕ} {a b : ℝ} (hacc : ¬ Rejects N a b) : NonSing N a b := by
  unfold Rejects at hacc
  simp only [not_or] at hacc
  obtain ⟨n1, n2, n3⟩ := hacc
  exact ⟨fun _ => ⟨fun h => n1 (by rw [h]; exact isclose_self _), fun h => n2 (by rw [h]; exact isclose_self _)⟩,
    fun _ h => n3 (by rw [h]; exact isclose_self _)⟩

/-- The computation of `fourier_K_inv` after its check inverts `fourier_K`. -/
theorem kcore_K {N : ℕ} (hN : 0 < N) {a b : ℝ} (hw : WeightsOk N a b) (hns : NonSing N a b) (X : ℕ → ℂ) :
    kcore N (Id (fr (N + 2) 0) a b) (Id (fr (N + 2) 1) a b) (Id (fr (N + 2) N) a b) (Id (fr (N + 2) (N + 1)) a b)
      (vdiv (fourier_K (tab N X) a b) (tab N fun k => Id (fr (N + 2) (k + 1)) a b)) = tab N X := by
  obtain ⟨hI, hodd⟩ := hw
  obtain ⟨nev, nodd⟩ := hns
  set I : ℕ → ℂ := fun k => Id (fr (N + 2) k) a b with hIdef
  have hI1 : I 1 ≠ 0 := hI 1 le_rfl hN
  have hIN : I N ≠ 0 := hI N hN le_rfl
  have h2i : (2 * Complex.I) ≠ 0 := by simp
  set u : ℕ → ℂ := fun k => pad N X k / (2 * Complex.I) with hu
  set d : ℕ → ℂ := fun k => (if k = 0 then 0 else u (k - 1)) - u (k + 1) with hd
  have hdif : ∀ k, dif N X k / (2 * Complex.I) = d k := by
    intro k; simp only [hd, hu, dif]; split_ifs <;> ring
  have u0 : u 0 = 0 := by simp [hu, pad]
  have uN1 : ∀ k, N < k → u k = 0 := by
    intro k hk; simp only [hu, pad]; rw [if_neg (by omega), if_neg (by omega), zero_div]
  have d0 : d 0 = -u 1 := by simp [hd]
  have dN1 : d (N + 1) = u N := by simp only [hd]; rw [if_neg (by omega), uN1 (N + 1 + 1) (by omega)]; simp
  have dodd : ∀ i, d (2 * i + 1) = u (2 * i) - u (2 * i + 2) := by intro i; simp [hd]
  have deven : ∀ i, d (2 * i + 2) = u (2 * i + 1) - u (2 * i + 3) := by intro i; simp [hd]
  rw [fourier_K_tab hN, vdiv_tab]
  -- the quotient by the weights
  have hx : tab N (fun i =>
      (dif N X (i + 1) * (Id (fr (N + 2) (i + 1)) a b / (2 * Complex.I))
      + (if i = 0 then dif N X (N + 1) * (Id (fr (N + 2) (N + 1)) a b / (2 * Complex.I)) else 0)
      + (if i = N - 1 then dif N X 0 * (Id (fr (N + 2) 0) a b / (2 * Complex.I)) else 0)) / Id (fr (N + 2) (i + 1)) a b)
      = tab N (fun i => d (i + 1) + (if i = 0 then u N * I (N + 1) / I 1 else 0) + (if i = N - 1 then -u 1 * I 0 / I N else 0)) := by
    refine tab_congr fun i hi => ?_
    have hw := hI (i + 1) (by omega) (by omega)
    rw [← dN1, ← d0, ← hdif, ← hdif, ← hdif, add_div, add_div]
    congr 1
    · congr 1
      · field_simp
      · split_ifs with h
        · subst h; simp only [hIdef, zero_add]; ring
        · simp
    · split_ifs with h
      · have e : i + 1 = N := by omega
        simp only [hIdef, e]; ring
      · simp
  rw [hx]
  show kcore N (I 0) (I 1) (I N) (I (N + 1)) _ = _
  unfold kcore
  simp only
  -- the two sums
  have hE : (stride2 (tab N (fun i => d (i + 1) + (if i = 0 then u N * I (N + 1) / I 1 else 0) + (if i = N - 1 then -u 1 * I 0 / I N else 0)))).sum
      = -u (2 * ((N + 1) / 2)) + u N * I (N + 1) / I 1 + (if N % 2 = 1 then -u 1 * I 0 / I N else 0) := by
    rw [stride2_tab, sum_tab, Finset.sum_add_distrib, Finset.sum_add_distrib]
    congr 1
    · congr 1
      · simp_rw [dodd]; rw [telescope_odd (N := N), u0, zero_sub]
      · exact sum_indicator_zero (by omega) _ _ (by intro i; omega)
    · split_ifs with h
      · rw [Finset.sum_eq_single ((N - 1) / 2)]
        · rw [if_pos (by omega)]
        · intro i _ hi; rw [if_neg (by omega)]
        · intro hi; exact absurd (by rw [mem_range]; omega) hi
      · apply Finset.sum_eq_zero; intro i _; rw [if_neg (by omega)]
  have hO : (stride2' (tab N (fun i => d (i + 1) + (if i = 0 then u N * I (N + 1) / I 1 else 0) + (if i = N - 1 then -u 1 * I 0 / I N else 0)))).sum
      = u 1 - u (2 * (N / 2) + 1) + (if N % 2 = 0 then -u 1 * I 0 / I N else 0) := by
    rw [stride2'_tab, sum_tab, Finset.sum_add_distrib, Finset.sum_add_distrib]
    congr 1
    · rw [Finset.sum_eq_zero (f := fun i => if 2 * i + 1 = 0 then _ else (0 : ℂ)) (fun i _ => by rw [if_neg (by omega)]), add_zero]
      have : ∀ i, d (2 * i + 1 + 1) = u (2 * i + 1) - u (2 * i + 3) := deven
      simp_rw [this]; rw [telescope_even (N := N)]
    · split_ifs with h
      · rw [Finset.sum_eq_single ((N - 2) / 2)]
        · rw [if_pos (by omega)]
        · intro i _ hi; rw [if_neg (by omega)]
        · intro hi; exact absurd (by rw [mem_range]; omega) hi
      · apply Finset.sum_eq_zero; intro i _; rw [if_neg (by omega)]
  rw [hE, hO]
  -- the end values
  have hy : ∀ A B : ℂ, A = u 1 → B = u N →
      (((List.replicate N (0 : ℂ)).set 0 A).set (N - 1) B).getD 0 0 = u 1 ∧
      (((List.replicate N (0 : ℂ)).set 0 A).set (N - 1) B).getD (N - 1) 0 = u N := by
    intro A B hA hB
    subst hA hB
    constructor
    · by_cases h1 : N = 1
      · subst h1; simp
      · rw [List.getD_eq_getElem?_getD, List.getElem?_set, List.getElem?_set]
        rw [if_neg (by omega), if_pos rfl]; simp [hN]
    · rw [List.getD_eq_getElem?_getD, List.getElem?_set]
      rw [if_pos rfl]; simp [hN]
  have hends : ∀ Y : List ℂ, Y = (if N % 2 = 0 then
        ((List.replicate N (0 : ℂ)).set 0 ((u 1 - u (2 * (N / 2) + 1) + (if N % 2 = 0 then -u 1 * I 0 / I N else 0)) / (1 - I 0 / I N))).set (N - 1)
          ((-u (2 * ((N + 1) / 2)) + u N * I (N + 1) / I 1 + (if N % 2 = 1 then -u 1 * I 0 / I N else 0)) / (I (N + 1) / I 1 - 1))
      else
        ((List.replicate N (0 : ℂ)).set 0 ((I 1 / I (N + 1) * (-u (2 * ((N + 1) / 2)) + u N * I (N + 1) / I 1 + (if N % 2 = 1 then -u 1 * I 0 / I N else 0))
            + (u 1 - u (2 * (N / 2) + 1) + (if N % 2 = 0 then -u 1 * I 0 / I N else 0))) / (1 - I 1 * I 0 / I N / I (N + 1)))).set (N - 1)
          ((I N / I 0 * (-u (2 * ((N + 1) / 2)) + u N * I (N + 1) / I 1 + (if N % 2 = 1 then -u 1 * I 0 / I N else 0))
            + (u 1 - u (2 * (N / 2) + 1) + (if N % 2 = 0 then -u 1 * I 0 / I N else 0))) / (I N * I (N + 1) / I 0 / I 1 - 1)))
      → Y.getD 0 0 = u 1 ∧ Y.getD (N - 1) 0 = u N := by
    intro Y hY
    subst hY
    rcases Nat.mod_two_eq_zero_or_one N with h | h
    · rw [if_pos h]
      apply hy
      · rw [if_pos h, uN1 (2 * (N / 2) + 1) (by omega)]
        have : (1 : ℂ) - I 0 / I N ≠ 0 := by
          intro h'; apply (nev h).1; field_simp at h'; linear_combination -h'
        rw [div_eq_iff this]; ring
      · rw [if_neg (by omega), show 2 * ((N + 1) / 2) = N by omega]
        have : I (N + 1) / I 1 - 1 ≠ 0 := by
          intro h'; apply (nev h).2; field_simp at h'; linear_combination -h'
        rw [div_eq_iff this]; ring
    · rw [if_neg (by omega)]
      obtain ⟨hI0, hIN1⟩ := hodd h
      apply hy
      · rw [if_neg (show ¬ N % 2 = 0 by omega), if_pos h, uN1 (2 * ((N + 1) / 2)) (by omega), show 2 * (N / 2) + 1 = N by omega]
        have hIN1' : I (N + 1) ≠ 0 := hIN1
        have : (1 : ℂ) - I 1 * I 0 / I N / I (N + 1) ≠ 0 := by
          intro h'; apply nodd h; field_simp at h'; linear_combination -h'
        rw [div_eq_iff this]; field_simp; ring
      · rw [if_neg (show ¬ N % 2 = 0 by omega), if_pos h, uN1 (2 * ((N + 1) / 2)) (by omega), show 2 * (N / 2) + 1 = N by omega]
        have hI0' : I 0 ≠ 0 := hI0
        have : I N * I (N + 1) / I 0 / I 1 - 1 ≠ 0 := by
          intro h'; apply nodd h; field_simp at h'; linear_combination -h'
        rw [div_eq_iff this]; field_simp; ring
  obtain ⟨hy0, hyl⟩ := hends _ rfl
  rw [hy0, hyl]
  -- the corrected differences
  have hx2 : [-u 1] ++ List.modify (List.modify (tab N (fun i => d (i + 1) + (if i = 0 then u N * I (N + 1) / I 1 else 0)
      + (if i = N - 1 then -u 1 * I 0 / I N else 0))) 0 (· - u N * I (N + 1) / I 1)) (N - 1) (· - (-u 1 * I 0 / I N)) ++ [u N]
      = tab (N + 2) d := by
    have e : List.modify (List.modify (tab N (fun i => d (i + 1) + (if i = 0 then u N * I (N + 1) / I 1 else 0)
      + (if i = N - 1 then -u 1 * I 0 / I N else 0))) 0 (· - u N * I (N + 1) / I 1)) (N - 1) (· - (-u 1 * I 0 / I N))
      = tab N (fun i => d (i + 1)) := by
      apply List.ext_getElem
      · simp
      · intro i h1 h2
        simp only [length_tab] at h2
        simp only [List.getElem_modify, getElem_tab, eq_comm (b := i)]
        split_ifs <;> ring
    rw [e, List.singleton_append, cons_tab, append_singleton_tab]
    refine tab_congr fun k hk => ?_
    by_cases h0 : k = 0
    · subst h0; rw [if_pos (by omega), if_pos rfl, d0]
    · by_cases h1 : k < N + 1
      · rw [if_pos h1, if_neg h0]; congr 1; omega
      · rw [if_neg h1, show k = N + 1 by omega, dN1]
  rw [hx2, stride2_tab, stride2'_tab, cumsum_tab, map_tab, dropLast_tab, reverse_tab, cumsum_tab, dropLast_tab, reverse_tab]
  have hye : tab ((N + 2 + 1) / 2 - 1) (fun i => -∑ i ∈ range (i + 1), d (2 * i)) = tab ((N + 1) / 2) (fun i => u (2 * i + 1)) := by
    refine tab_congr' (by omega) fun i _ => ?_
    rw [Finset.sum_range_succ']
    have : ∀ k, d (2 * (k + 1)) = u (2 * k + 1) - u (2 * k + 3) := fun k => deven k
    simp_rw [this]
    rw [telescope_even (N := N), Nat.mul_zero, d0]; ring
  have hyo : ∀ n, n = (N + 2) / 2 → tab (n - 1) (fun i => ∑ j ∈ range (n - 1 - 1 - i + 1), d (2 * (n - 1 - j) + 1))
      = tab (N / 2) (fun i => u (2 * i + 2)) := by
    intro n hn
    refine tab_congr' (by omega) fun i hi => ?_
    have key : ∀ k, k + 1 ≤ n → ∑ j ∈ range (k + 1), d (2 * (n - 1 - j) + 1) = u (2 * (n - 1 - k)) := by
      intro k
      induction k with
      | zero =>
        intro hk
        rw [Finset.sum_range_one, dodd, Nat.sub_zero, uN1 (2 * (n - 1) + 2) (by omega), sub_zero]
      | succ k ih =>
        intro hk
        rw [Finset.sum_range_succ, ih (by omega), dodd]
        rw [show 2 * (n - 1 - (k + 1)) + 2 = 2 * (n - 1 - k) by omega]; ring
    rw [key _ (by omega)]
    congr 1; omega
  rw [hye, hyo _ rfl, weave_tab_any, map_tab]
  refine tab_congr fun i hi => ?_
  have e : (if i % 2 = 0 then u (2 * (i / 2) + 1) else u (2 * (i / 2) + 2)) = u (i + 1) := by
    split_ifs with h
    · congr 1; omega
    · congr 1; omega
  rw [e]
  simp only [hu, pad]
  rw [if_neg (by omega), if_pos (by omega), Nat.add_sub_cancel, div_mul_cancel₀ _ h2i]

/-- `fourier_K_inv` inverts `fourier_K` whenever it accepts. -/
theorem fourier_K_inv_K {N : ℕ} (hN : 0 < N) {a b : ℝ} (hw : WeightsOk N a b) (hacc : ¬ Rejects N a b) (X : ℕ → ℂ) :
    fourier_K_inv (fourier_K (tab N X) a b) a b = .ok (tab N X) := by
  have hl : (fourier_K (tab N X) a b).length = N := by rw [fourier_K_tab hN, length_tab]
  rw [fourier_K_inv_eq' _ hl, if_neg hacc, kcore_K hN hw (nonSing_of_accepts hacc)]

/-- The inverse the other way round. -/
theorem fourier_K_K_inv {N : ℕ} (hN : 0 < N) {a b : ℝ} (hw : WeightsOk N a b) (hacc : ¬ Rejects N a b) (x : List ℂ) (hx : x.length = N) :
    ∃ y, fourier_K_inv x a b = .ok y ∧ y.length = N ∧ fourier_K y a b = x := by
  let A : List ℂ → List ℂ := fun x => match fourier_K_inv x a b with | .ok y => y | .error _ => []
  have h : ∀ x : List ℂ, x.length = N → A (fourier_K x a b) = x := by
    intro x hx
    show (match fourier_K_inv (fourier_K x a b) a b with | .ok y => y | .error _ => []) = x
    conv_lhs => rw [eq_tab' hx 0, fourier_K_inv_K hN hw hacc]
    exact (eq_tab' hx 0).symm
  have hs := (lin_fourier_K hN a b).inverse h x hx
  have surj : ∃ y : List ℂ, y.length = N ∧ fourier_K y a b = x := by
    refine ⟨A x, ?_, hs⟩
    by_contra hne
    have hl : (fourier_K (A x) a b).length = N := by rw [hs, hx]
    -- the operator preserves lengths
    have : (fourier_K (A x) a b).length = (A x).length := by
      unfold fourier_K
      simp only [List.length_modify, List.length_dropLast, List.length_tail, length_vmul, length_vsub, length_roll, List.length_append,
        List.length_map, length_I_diag, List.length_singleton]
      omega
    exact hne (by rw [← this, hl])
  obtain ⟨y, hy, rfl⟩ := surj
  refine ⟨y, ?_, hy, rfl⟩
  conv_lhs => rw [eq_tab' hy 0, fourier_K_inv_K hN hw hacc]
  rw [← eq_tab' hy 0]

end Dec.Sp
