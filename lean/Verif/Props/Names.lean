import Verif.Model.Names
import Verif.Lib.Proj2
import Verif.Spec

set_option linter.unusedSimpArgs false
set_option linter.unusedVariables false

/-! # C82: the names of the coordinates -/

namespace Dec.Props

open Names G2

/-! ## Specification -/

/-- The integrator returns an expression for the integral, with no symbols beyond the bounds and the remaining symbols of the integrand. -/
def Integrates (I : Integrator) : Prop :=
  ∀ x a b e, (∀ σ : String → ℝ, (I x a b e).val σ = ∫ s in (σ a)..(σ b), e.val (Function.update σ x s)) ∧
    ∀ s ∈ (I x a b e).free, (s ∈ e.free ∧ s ≠ x) ∨ s = a ∨ s = b

/-- The expression denotes the function `φ` of the symbol `c`. -/
def Denotes (e : Expr) (c : String) (φ : ℝ → ℝ) : Prop := (∀ s ∈ e.free, s = c) ∧ ∀ σ, e.val σ = φ (σ c)

/-- The expression denotes the function `φ` of the symbols `x` and `y`. -/
def Denotes2 (e : Expr) (φ : ℝ → ℝ → ℝ) : Prop := (∀ s ∈ e.free, s = "x" ∨ s = "y") ∧ ∀ σ, e.val σ = φ (σ "x") (σ "y")

theorem append_ne (c : String) : c ≠ c ++ "0" ∧ c ≠ c ++ "1" ∧ c ++ "0" ≠ c ++ "1" := by
  have h : ∀ t : String, t.length = 1 → c ≠ c ++ t := by
    intro t ht e
    have := congrArg String.length e
    rw [String.length_append, ht] at this; omega
  refine ⟨h "0" rfl, h "1" rfl, ?_⟩
  intro e
  have := congrArg String.toList e
  simp at this

/-- **C82**: in one dimension the name of the coordinate does not matter: a form with the component `φ(c)` is discretised like the function `φ`, whatever `c` is. -/
theorem C82_one_dimension (I : Integrator) (hI : Integrates I) (g : Grid1) (c : String) (e : Expr) (φ : ℝ → ℝ) (he : Denotes e c φ) (t : Bool) :
    (to_discrete1 I g c 0 e t = .ok (if e.free = [] then .scalar (φ 0) else .array ((g.cells.v t).map φ))) ∧
    (to_discrete1 I g c 1 e t = .ok (if (I c (c ++ "0") (c ++ "1") e).free = [] then .scalar 0
      else .array (List.zipWith (fun a b => ∫ s in a..b, φ s) (g.cells.e t).1 (g.cells.e t).2))) := by
  obtain ⟨h0, h1, h01⟩ := append_ne c
  constructor
  · unfold to_discrete1 callArr lam
    have hf : ∀ s ∈ (e.subs [(c, c ++ "0")]).free, s ∈ [c ++ "0"] := by
      intro s hs
      obtain ⟨s', h', rfl⟩ := List.mem_map.1 hs
      rw [he.1 s' h']; simp
    simp only [if_pos hf, bind, Except.bind]
    have hn : (e.subs [(c, c ++ "0")]).free = [] ↔ e.free = [] := by simp [Expr.subs]
    simp only [hn]
    congr 1
    split_ifs with h
    · congr 1
      show e.val _ = _
      rw [he.2]
      simp [env]
    · congr 1
      rw [List.map_map]
      refine List.map_congr_left fun x _ => ?_
      show e.val _ = _
      rw [he.2]
      simp [env]
  · unfold to_discrete1 callArr lam
    obtain ⟨hv, hs⟩ := hI c (c ++ "0") (c ++ "1") e
    have hf : ∀ s ∈ (I c (c ++ "0") (c ++ "1") e).free, s ∈ [c ++ "0", c ++ "1"] := by
      intro s h
      rcases hs s h with ⟨h', h''⟩ | rfl | rfl
      · exact absurd (he.1 s h') h''
      · simp
      · simp
    simp only [if_pos hf, bind, Except.bind]
    congr 1
    have key : ∀ vals : List ℝ, (I c (c ++ "0") (c ++ "1") e).val (env [c ++ "0", c ++ "1"] vals) = ∫ s in (vals.getD 0 0)..(vals.getD 1 0), φ s := by
      intro vals
      rw [hv]
      have e0 : env [c ++ "0", c ++ "1"] vals (c ++ "0") = vals.getD 0 0 := by
        rcases vals with _ | ⟨a, _ | ⟨b, l⟩⟩ <;> simp [env]
      have e1 : env [c ++ "0", c ++ "1"] vals (c ++ "1") = vals.getD 1 0 := by
        rcases vals with _ | ⟨a, _ | ⟨b, l⟩⟩ <;> simp [env, List.lookup_cons, h01.symm, beq_eq_false_iff_ne.2 h01.symm]
      rw [e0, e1]
      refine intervalIntegral.integral_congr fun s _ => ?_
      show e.val _ = φ s
      rw [he.2, Function.update_self]
    split_ifs with h
    · congr 1
      rw [key]; simp
    · congr 1
      rw [List.map_zipWith]
      congr 1
      funext a b
      rw [key]; rfl

/-- **C82**: in two dimensions, forms written in `x` and `y` are discretised like the functions they denote. -/
theorem C82_two_dimensions (I : Integrator) (hI : Integrates I) (g : Grid2) (c c' : String) (t : Bool) (e e' : Expr) (φ ψ : ℝ → ℝ → ℝ) (he : Denotes2 e φ) (he' : Denotes2 e' ψ) :
    to_discrete2 I g c c' 0 [e] t = g.P 0 t [φ] ∧ to_discrete2 I g c c' 1 [e, e'] t = g.P 1 t [φ, ψ] ∧ to_discrete2 I g c c' 2 [e] t = g.P 2 t [φ] := by
  have l0 : lam ["x0", "y0"] (e.subs [("x", "x0"), ("y", "y0")]) = .ok fun vals => (e.subs [("x", "x0"), ("y", "y0")]).val (env ["x0", "y0"] vals) := by
    refine if_pos fun s hs => ?_
    obtain ⟨s', h', rfl⟩ := List.mem_map.1 hs
    rcases he.1 s' h' with rfl | rfl <;> simp [List.lookup_cons]
  have l1 : lam ["x0", "x1", "y"] (I "x" "x0" "x1" e) = .ok fun vals => (I "x" "x0" "x1" e).val (env ["x0", "x1", "y"] vals) := by
    refine if_pos fun s hs => ?_
    rcases (hI "x" "x0" "x1" e).2 s hs with ⟨h, h'⟩ | rfl | rfl
    · rcases he.1 s h with rfl | rfl
      · exact absurd rfl h'
      · simp
    · simp
    · simp
  have l1' : lam ["x", "y0", "y1"] (I "y" "y0" "y1" e') = .ok fun vals => (I "y" "y0" "y1" e').val (env ["x", "y0", "y1"] vals) := by
    refine if_pos fun s hs => ?_
    rcases (hI "y" "y0" "y1" e').2 s hs with ⟨h, h'⟩ | rfl | rfl
    · rcases he'.1 s h with rfl | rfl
      · simp
      · exact absurd rfl h'
    · simp
    · simp
  have l2 : lam ["x0", "y0", "x1", "y1"] (I "x" "x0" "x1" (I "y" "y0" "y1" e)) = .ok fun vals => (I "x" "x0" "x1" (I "y" "y0" "y1" e)).val (env ["x0", "y0", "x1", "y1"] vals) := by
    refine if_pos fun s hs => ?_
    rcases (hI "x" "x0" "x1" (I "y" "y0" "y1" e)).2 s hs with ⟨h, h'⟩ | rfl | rfl
    · rcases (hI "y" "y0" "y1" e).2 s h with ⟨h2, h2'⟩ | rfl | rfl
      · rcases he.1 s h2 with rfl | rfl
        · exact absurd rfl h'
        · exact absurd rfl h2'
      · simp
      · simp
    · simp
    · simp
  refine ⟨?_, ?_, ?_⟩
  · have k : (fun a b => (e.subs [("x", "x0"), ("y", "y0")]).val (env ["x0", "y0"] [a, b])) = φ := by
      funext a b
      show e.val _ = _
      rw [he.2]; simp [env, List.lookup_cons]
    simp only [to_discrete2, Names.P2, l0, bind, Except.bind, Grid2.P, bP, k]
  · have k : (fun a b c => (I "x" "x0" "x1" e).val (env ["x0", "x1", "y"] [a, b, c])) = Integrate.P1x φ := by
      funext a b c
      rw [(hI "x" "x0" "x1" e).1]
      unfold Integrate.P1x
      rw [show env ["x0", "x1", "y"] [a, b, c] "x0" = a by simp [env, List.lookup_cons], show env ["x0", "x1", "y"] [a, b, c] "x1" = b by simp [env, List.lookup_cons]]
      refine intervalIntegral.integral_congr fun s _ => ?_
      show e.val _ = _
      rw [he.2, Function.update_self, Function.update_of_ne (by decide)]
      simp [env, List.lookup_cons]
    have k' : (fun a b c => (I "y" "y0" "y1" e').val (env ["x", "y0", "y1"] [a, b, c])) = Integrate.P1y ψ := by
      funext a b c
      rw [(hI "y" "y0" "y1" e').1]
      unfold Integrate.P1y
      rw [show env ["x", "y0", "y1"] [a, b, c] "y0" = b by simp [env, List.lookup_cons], show env ["x", "y0", "y1"] [a, b, c] "y1" = c by simp [env, List.lookup_cons]]
      refine intervalIntegral.integral_congr fun s _ => ?_
      show e'.val _ = _
      rw [he'.2, Function.update_self, Function.update_of_ne (by decide)]
      simp [env, List.lookup_cons]
    simp only [to_discrete2, Names.P2, l1, l1', bind, Except.bind, Grid2.P, bP, k, k']
  · have k : (fun a b c d => (I "x" "x0" "x1" (I "y" "y0" "y1" e)).val (env ["x0", "y0", "x1", "y1"] [a, b, c, d])) = Integrate.P2r φ := by
      funext a b c d
      rw [(hI "x" "x0" "x1" _).1]
      unfold Integrate.P2r
      rw [show env ["x0", "y0", "x1", "y1"] [a, b, c, d] "x0" = a by simp [env, List.lookup_cons], show env ["x0", "y0", "x1", "y1"] [a, b, c, d] "x1" = c by simp [env, List.lookup_cons]]
      refine intervalIntegral.integral_congr fun s _ => ?_
      beta_reduce
      rw [(hI "y" "y0" "y1" e).1, Function.update_of_ne (by decide), Function.update_of_ne (by decide),
        show env ["x0", "y0", "x1", "y1"] [a, b, c, d] "y0" = b by simp [env, List.lookup_cons], show env ["x0", "y0", "x1", "y1"] [a, b, c, d] "y1" = d by simp [env, List.lookup_cons]]
      refine intervalIntegral.integral_congr fun r _ => ?_
      show e.val _ = _
      rw [he.2, Function.update_self, Function.update_of_ne (by decide), Function.update_self]
    simp only [to_discrete2, Names.P2, l2, bind, Except.bind, Grid2.P, bP, k]

/-- **C82** (defect): a 0-form on a chart whose coordinates are not called `x` and `y` cannot be discretised in two dimensions: as soon as another symbol occurs in it, the
call raises `NameError`. -/
theorem C82_other_names (I : Integrator) (g : Grid2) (c c' : String) (t : Bool) (e : Expr) (s : String) (hs : s ∈ e.free) (h : s ∉ ["x", "y", "x0", "y0"]) :
    to_discrete2 I g c c' 0 [e] t = .error .nameError := by
  have hx : s ≠ "x" := fun h' => h (by simp [h'])
  have hy : s ≠ "y" := fun h' => h (by simp [h'])
  have l0 : lam ["x0", "y0"] (e.subs [("x", "x0"), ("y", "y0")]) = .error .nameError := by
    refine if_neg fun hall => ?_
    have := hall s (List.mem_map.2 ⟨s, hs, by simp [List.lookup_cons, beq_eq_false_iff_ne.2 hx, beq_eq_false_iff_ne.2 hy]⟩)
    exact h (by simp at this ⊢; tauto)
  simp only [to_discrete2, Names.P2, l0, bind, Except.bind]

/-- **C82** (defect): on `Chart(y, x)` the coordinates are not matched with the axes in the order of the chart, but by their names: the first coordinate of the chart gets the values
of the second axis, and a 1-form `f dy + g dx` is discretised as `f dx + g dy`. -/
theorem C82_swapped_chart (I : Integrator) (hI : Integrates I) (g : Grid2) (t : Bool) (e e' : Expr) (φ ψ : ℝ → ℝ → ℝ) (he : Denotes2 e φ) (he' : Denotes2 e' ψ) :
    to_discrete2 I g "y" "x" 0 [sym "y"] t = g.P 0 t [fun _ y => y] ∧ to_discrete2 I g "y" "x" 1 [e, e'] t = g.P 1 t [φ, ψ] := by
  have hy : Denotes2 (sym "y") fun _ y => y := ⟨fun s hs => Or.inr (by simpa [sym] using hs), fun σ => rfl⟩
  exact ⟨(C82_two_dimensions I hI g "y" "x" t (sym "y") e' _ ψ hy he').1, (C82_two_dimensions I hI g "y" "x" t e e' φ ψ he he').2.1⟩

/-! ## Non-vacuity -/

open Classical in
/-- An integrator exists. -/
noncomputable def anIntegrator : Integrator := fun x a b e =>
  { free := e.free.filter (· ≠ x) ++ [a, b]
    val := fun σ => ∫ s in (σ a)..(σ b), e.val (Function.update σ x s)
    only := fun σ τ h => by
      have ha : σ a = τ a := h a (by simp)
      have hb : σ b = τ b := h b (by simp)
      rw [ha, hb]
      refine intervalIntegral.integral_congr fun s _ => ?_
      refine e.only _ _ fun r hr => ?_
      by_cases hrx : r = x
      · subst hrx; rw [Function.update_self, Function.update_self]
      · rw [Function.update_of_ne hrx, Function.update_of_ne hrx]
        exact h r (by simp [hr, hrx]) }

example : Integrates anIntegrator := by
  intro x a b e
  refine ⟨fun σ => rfl, fun s hs => ?_⟩
  simp [anIntegrator] at hs
  tauto

/-- The expression `θ^2`, in a coordinate called `θ`. -/
def square (c : String) : Expr := ⟨[c], fun σ => σ c ^ 2, fun _ _ h => by rw [h c (by simp)]⟩

example : Denotes (square "θ") "θ" (· ^ 2) ∧ "θ" ∈ (square "θ").free ∧ "θ" ∉ ["x", "y", "x0", "y0"] ∧ Denotes2 (square "y") fun _ y => y ^ 2 := by
  refine ⟨⟨fun s hs => by simpa [square] using hs, fun σ => rfl⟩, by simp [square], by decide, ⟨fun s hs => Or.inr (by simpa [square] using hs), fun σ => rfl⟩⟩

end Dec.Props
