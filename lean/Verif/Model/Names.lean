import Verif.Model.Grid2

/-!
# Expressions with names: which symbols `to_discrete` and the projections of `Grid_2D` use

`Model/Discretise.lean` takes the components of a form as functions of the coordinates.  Here a component is an expression with named symbols, to see what the names of
the coordinates of a chart do.
-/

namespace Dec.Names

/-- A sympy expression: the symbols that occur in it and its value, which depends on no other symbol. For /repo/dec/symform.py:33-39. -/
structure Expr where
  free : List String
  val : (String → ℝ) → ℝ
  only : ∀ σ τ : String → ℝ, (∀ s ∈ free, σ s = τ s) → val σ = val τ

/-- `e.subs({x: x0, y: y0})` for pairs of symbols, `/repo/dec/integrate.py:91,116,166`. The new symbols are not among the old ones, so the order does not matter. -/
def Expr.subs (e : Expr) (l : List (String × String)) : Expr where
  free := e.free.map fun s => (l.lookup s).getD s
  val σ := e.val fun s => σ ((l.lookup s).getD s)
  only σ τ h := e.only _ _ fun s hs => h _ (List.mem_map_of_mem hs)

/-- The values of the arguments of a function made by `lambdify`. For /repo/dec/symform.py:164. -/
def env (args : List String) (vals : List ℝ) (s : String) : ℝ := ((args.zip vals).lookup s).getD 0

/-- `sy.lambdify(args, e, 'numpy')`, `/repo/dec/symform.py:164`, `/repo/dec/grid2.py:468,476,485`: the generated Python function; a symbol that is not an argument is an
unknown global name when the function is called. -/
def lam (args : List String) (e : Expr) : Except Err (List ℝ → ℝ) :=
  if ∀ s ∈ e.free, s ∈ args then .ok fun vals => e.val (env args vals) else .error .nameError

/-- What a generated function returns on arrays: an array, or a number if no argument occurs in the expression. For /repo/dec/symform.py:166-172. -/
inductive PyArr
  | scalar (c : ℝ)
  | array (l : List ℝ)

/-- The call of a generated function on arrays of arguments, `/repo/dec/symform.py:166-172`. `pts` has one list of arguments for every entry. -/
def callArr (args : List String) (e : Expr) (pts : List (List ℝ)) : Except Err PyArr := do
  let f ← lam args e
  .ok (if e.free = [] then .scalar (f []) else .array (pts.map f))

/-- An integrator: `I x a b e` is the expression `process(sy.Integral(e, (x, a, b)))`, `/repo/dec/integrate.py:9-15,95-96,170-172`. -/
abbrev Integrator := String → String → String → Expr → Expr

/-- `to_discrete(form(d, Chart(c), (e,)), g, t)`, `/repo/dec/symform.py:155-186`: the array of the resulting form. The cell coordinates are named `c0`, `c1`
(`/repo/dec/symbolic.py:92-104`). -/
def to_discrete1 (I : Integrator) (g : Grid1) (c : String) (d : Fin 2) (e : Expr) (t : Bool) : Except Err PyArr :=
  match d with
  | 0 => callArr [c ++ "0"] (e.subs [(c, c ++ "0")]) ((g.cells.v t).map fun x => [x])
  | 1 => callArr [c ++ "0", c ++ "1"] (I c (c ++ "0") (c ++ "1") e) (List.zipWith (fun a b => [a, b]) (g.cells.e t).1 (g.cells.e t).2)

open G2 in
/-- `g.dec.P[d, t](σ)`, `/repo/dec/grid2.py:455-491,792`, on the components: the symbols are `x, y, x0, y0, x1, y1`, whatever the chart of the form is. -/
def P2 (I : Integrator) (g : Grid2) (d : Fin 3) (t : Bool) (σ : List Expr) : Except Err (List ℝ) := do
  let v ← match d, σ with
    | 0, [e] => do
      let f ← lam ["x0", "y0"] (e.subs [("x", "x0"), ("y", "y0")])
      .ok (Val.arr (map2 (fun a b => f [a, b]) (g.bcells.v t).1 (g.bcells.v t).2))
    | 1, [e, e'] => do
      let (((x0, x1), y), (x, (y0, y1))) := g.bcells.e t
      let f ← lam ["x0", "x1", "y"] (I "x" "x0" "x1" e)
      let f' ← lam ["x", "y0", "y1"] (I "y" "y0" "y1" e')
      .ok (.tup [map3 (fun a b c => f [a, b, c]) x0 x1 y, map3 (fun a b c => f' [a, b, c]) x y0 y1])
    | 2, [e] => do
      let ((x0, y0), (x1, y1)) := g.bcells.f t
      let f ← lam ["x0", "y0", "x1", "y1"] (I "x" "x0" "x1" (I "y" "y0" "y1" e))
      .ok (.arr (map4 (fun a b c d => f [a, b, c, d]) x0 y0 x1 y1))
    | _, _ => .error .valueError
  let u ← unshape v
  .ok u.1

/-- `to_discrete(form(d, Chart(c, c'), σ), g, t)`, `/repo/dec/symform.py:155-186`: `g.P(f, isprimal)`; the coordinates of the chart are not used. -/
def to_discrete2 (I : Integrator) (g : G2.Grid2) (_c _c' : String) (d : Fin 3) (σ : List Expr) (t : Bool) : Except Err (List ℝ) := P2 I g d t σ

/-- The symbol `s` as an expression. For /repo/dec/symbolic.py:10. -/
def sym (s : String) : Expr := ⟨[s], fun σ => σ s, fun _ _ h => h s (by simp)⟩

end Dec.Names
