# Formal model of knut0815/dec (spectral discrete exterior calculus)

## 1. What is modelled, and how

Source: `/repo/dec/*.py` (Python 3, numpy, scipy, sympy).  The model is a shallow Lean 4
embedding, one Lean definition per Python function, each with a comment citing file and lines.

| Lean module (`lean/Verif/...`) | Python |
|---|---|
| `Model/Np.lean`        | the numpy primitives used (`roll`, `diff`, slices, `cumsum`, `linspace`, `fft`, `ifft`, `fftshift`, `fftfreq`, `meshgrid`, `apply_along_axis`, ...) |
| `Model/Helper.lean`, `Model/Misc.lean` | `dec/helper.py`; `Misc`: its dispatch and named tuples, cell coordinates of `dec/symbolic.py`, non-operator attributes of `dec/decform.py` |
| `Model/Spectral.lean`, `Model/Transforms.lean`, `Model/StarMatrix.lean` | `dec/spectral.py`, `dec/deprecated/spectral.py`, `dec/periodic.py` (`hodge_star_toeplitz`) |
| `Model/Common.lean`    | `dec/common.py` |
| `Model/Periodic.lean`, `Model/Regular.lean`, `Model/Chebyshev.lean` | same-named files |
| `Model/Switch.lean` | `switch()` of `dec/periodic.py` and `dec/chebyshev.py` |
| `Model/Grids.lean`     | `dec/grid1.py` and the numeric checks of the three constructors |
| `Model/Grid2.lean`, `Model/Nan2.lean` | `dec/grid2.py` (`Nan2`: the variants whose value may be NaN) |
| `Model/Symbolic.lean`  | `dec/symbolic.py`, `dec/symform.py` |
| `Model/Decform.lean`, `Model/DformEval.lean`, `Model/Discretise.lean` | `dec/decform.py` (operators; evaluation and refinement); `symform -> decform` projection and numeric boundary conditions |
| `Model/Integrate.lean` | `dec/integrate.py` |
| `Model/JsonText.lean` | `dec/data.py` again: files as texts, `json.dump`, `json.load`, processes writing at the same time |
| `Model/MemoText.lean` | `memoize` over such a text: starts, calls, commits in pieces, overlapping commits (C88) |
| `Model/Schur.lean`, `Model/Data.lean`, `Model/Forms.lean` | same-named files |
| `Model/SchurSin.lean` | `examples/schur.ipynb` (cells 3 to 12: the sine operator in blocks and its inverse by Schur's complement) |
| `Model/MakeRst.lean` | `make_rst.py` (the regular expressions, differential-tested against Python's `re` with `tools/rstdiff.py SEED`; files; pandoc and lyx are arbitrary functions) |
| `Model/Notebooks.lean` | `examples/hodge.ipynb` (`H0_cheb_new`), `examples/whitney.ipynb` (the matrix for every size) |
| `Model/Diffeo.lean` | `examples/diffeomorphism.ipynb` (the maps, the metric and its invariants, the arrays and limits of the figures) |
| `Model/Pictures.lean` | `dec/plot.py`, and `_draw`, `_plot_scatter` of `dec/grid2.py`: the coordinates that are drawn |
| `Model/Flows.lean`     | the velocity/pressure pairs of `doc/` and `dec/symbolic.py` examples |

`Spec.lean` is the independent specification: trigonometric/cosine/exponential polynomials, polynomials, tensor sums,
smooth forms with their wedge, derivative and contraction, sampling on a circle.  It mentions no model definition.
`Lib/` holds the mathematics and the lemmas about the model, `Props/` the property theorems (names `Cnn_...`), each file ending with
concrete cases that meet the hypotheses.

Conventions

* 1-D numpy arrays are `List`s, 2-D arrays are a shape with a row-major list.
* Numbers are exact: `Float64` is modelled by `ℝ`/`ℂ` (Mathlib).  Rounding is NOT modelled;
  the theorems are about the exact-arithmetic semantics of the code.
  Tolerances that the *code itself* applies (`isclose` in `fourier_K_inv`) are modelled with their
  numeric values, because they decide between returning and raising.
* Exceptions are values (`Except Err`).  NaN from `0/0` is `none` where it can reach a caller
  (`alpha0`); where a division is total in Lean (`x/0 = 0`) a theorem shows that the divisor is
  not zero at every call the property ranges over.
* `scipy.integrate.quad/dblquad` and sympy's `Integral(..).doit()` are external: they are modelled as the
  true (interval) integral.  `numpy.fft` is modelled by the discrete Fourier sum it computes.
* sympy expressions in `dec/symbolic.py` are modelled by an arbitrary commutative ring
  with two commuting derivations (that is, expressions up to mathematical equality).
* Python 2 style float slices `f[:len(f)/2]` (`unmirror0/1`, `fold0/1`) are modelled as integer slices, which is
  what numpy of 2015 did (with a deprecation warning) for the even lengths that occur.

## 2. Plan per property

Five proof shapes are used: (a) a DFT core theorem — diagonal operators in Fourier space act on
samples of trigonometric polynomials by shifting/integrating the polynomial (C01–C06, C13–C15, C18–C24, C46, C48, C63, C64, C67–C71);
(b) list/array algebra (C07–C12, C25–C31, C45, C47, C52–C55);
(c) ring identities (C32–C36, C37, C38, C42–C44, C49, C50, C65); (d) state machines over histories (C39–C41);
(e) tensor products of (a) by Fubini (C53, C58–C62, C66).

See section 4 for the per-property table (kept current, generated by `tools/design.py`), and section 5 for the disagreements found.

## 3. Trusted base

* Lean 4.33 kernel; axioms `propext`, `Classical.choice`, `Quot.sound` only.
* Mathlib definitions of `ℝ`, `ℂ`, `exp`, `sin`, `cos`, `arccos`, interval integral, `Polynomial`, `Derivation`.
* The reading of the Python source, and of numpy/scipy/sympy behaviour cited in the model comments.
* A build passes only if every theorem is accepted by the kernel; the trusted axioms of each theorem can be listed with
  `#print axioms` (all are subsets of the three above).

Modelled exactly: the value flow, branching, indexing and exceptions of the functions cited in `Model/`.

Not modelled:

* floating-point rounding, performance, memory layout, numpy warnings, dtype promotion (except in `interweave`, C52);
* matplotlib itself and the figures of `doc/plot` other than those of section 1, notebooks other than those of section 1, LaTeX/`__repr__` output, doctest machinery;
* sympy's simplifier and printer: expressions are taken up to mathematical equality, symbolic integrals are assumed to be found;
* scipy's adaptive quadrature error (`quad`, `dblquad` are the exact integral) and `scipy.sparse` storage formats;
* `dec/helper.py`: `NamedTuple`, `nametuple`, `set_attributes`, frame inspection (their effect, the operator tables, is modelled directly);
* in C39/C40, overlapping commits of two processes to the memo file (two commits are modelled as one after the other; C88 removes this restriction; C78 and C79 model the file as a text, with overlapping writes, and show that without overlap the abstract model is right), and collisions of `repr` keys (excluded by a hypothesis of C39/C40);
* of the `json` module (C78, C79): a byte order mark, the limit on the depth of recursion, dict keys that are not strings; the rest of reader and writer is modelled and agrees with CPython on thousands of random texts, valid and broken (`tools/jsondiff.py`);
* Python 2's `__div__`; division of a form by the number zero; `periodic.differentiation_toeplitz` (its first line raises).

## 4. Properties, models, proofs

<!-- table begin -->
| property | status | modelled | proof | theorems in `Props/` |
|---|---|---|---|---|
| C01 Periodic Hodge stars are mutually inverse | proved (2 theorems) | Periodic.H0/H1/H0d/H1d on arrays of any length n >= 2 | the stars multiply the Fourier coefficients by a weight and by its inverse; the weights are shown to be non-zero, so no division by zero happens | Periodic |
| C02 Periodic Hodge star is exact on resolvable trigonometric polynomials | proved (1 theorems) | same | DFT core theorem (Lib/Fourier, Res, Trig): the star of the samples of a trigonometric polynomial is its array of cell integrals | Periodic |
| C03 Regular-grid Hodge stars are mutually inverse and real | proved (2 theorems) | Regular.H* | even/odd extension to a periodic array (Lib/Mirror), then C01; reality by conjugate symmetry | Regular |
| C04 Regular-grid Hodge star is exact on cosine polynomials | proved (2 theorems) | Regular.H* | cosine polynomials are exactly the even extensions; DFT core theorem | Regular |
| C05 Chebyshev Hodge stars are mutually inverse | proved (4 theorems) | Chebyshev.H*, fourier_K, fourier_K_inv with its isclose test | K is multiplication by sin and integration; K_inv solves a three-term recurrence (Lib/KInv); exact analysis of the isclose test (Lib/ChebyshevAccept): accepts iff n <= 927 | Chebyshev, ChebyshevInjective |
| C06 Chebyshev Hodge star is exact on polynomials | proved (2 theorems) | Chebyshev.H* | polynomials of -cos are cosine polynomials; substitution in the integral | Chebyshev |
| C07 Primal derivative commutes with projection | proved (2 theorems) | Grid_1D.D, P on all grids | fundamental theorem of calculus on each cell | Derivative |
| C08 Dual derivative plus boundary condition commutes with projection | proved (2 theorems) | dual D, P, boundary_condition | fundamental theorem of calculus; end cells take the boundary values | Derivative |
| C09 Primal and dual derivatives are negative adjoints | proved (3 theorems) | D matrices/actions | summation by parts over lists | Derivative |
| C10 Discrete Stokes theorem in 1-D | proved (6 theorems) | D | telescoping sums; kernels by induction along the grid | Derivative |
| C11 Array lengths match the advertised N table in 1-D | proved (9 theorems) | every operator table of the 1-D grids | length computation, function by function | Lengths |
| C12 Cells partition the interval | proved (7 theorems) | vertices, edges, delta, points of every grid | monotonicity of linspace / sin, list algebra | Cells |
| C13 Periodic basis functions are dual to the projections | proved (2 theorems) | B tables of the periodic grid (alpha, beta, gamma, phi..) | closed-form sums of exponentials; integrals of the basis over cells | Basis |
| C14 Regular basis functions are dual to the projections | proved (2 theorems) | B tables of the regular grid (kappa, ..) | symmetrised periodic basis functions | Basis |
| C15 Chebyshev basis functions are dual to the projections | proved (2 theorems) | B tables of the Chebyshev grid (psi, ..) | cosine polynomials and the star H1d | Basis |
| C16 Projecting a reconstruction returns the coefficients | proved (1 theorems) | P, R | linearity plus duality | Basis |
| C17 Chebyshev 0-form basis functions are the Lagrange polynomials of the vertices | proved (2 theorems) | psi0, psid0 against lagrange | two polynomials of degree < n agreeing at n points | Lagrange |
| C18 Unrefinement inverts refinement | proved (2 theorems) | T/U tables | shift inverse + star inverse | ChebyshevCalculus, Periodic |
| C19 Refinement samples the form at the grid points | proved (4 theorems) | T/U tables | DFT core theorem at the half-step grid | ChebyshevCalculus, Periodic |
| C20 Discrete wedge product is graded commutative and bilinear | proved (8 theorems) | W of 1-D and 2-D grids | bilinearity of pointwise products between linear maps; sign table of the antisymmetriser | Grid2Wedge, Wedge |
| C21 Discrete wedge product is exact when the product is resolved | proved (4 theorems) | W | refine exactly (C19), multiply pointwise, unrefine exactly | ChebyshevCalculus, Periodic |
| C22 Leibniz rule on periodic grids | proved (2 theorems) | W, D on periodic grids | every discrete form is the projection of a resolved trigonometric polynomial; Leibniz there; aliasing-free by refinement | Explicit, PeriodicCalculus |
| C23 The spectral Laplacian is exact | proved (3 theorems) | laplacian | DFT core theorem twice | PeriodicCalculus |
| C24 Discrete contraction is exact when resolved | proved (4 theorems) | C | as C21 | ChebyshevCalculus, Grid2Wedge, Periodic, Wedge |
| C25 d(d f) = 0 in 2-D | proved (1 theorems) | 2-D D | mixed differences commute (Lib/Arr2) | Grid2 |
| C26 2-D Hodge star squares to (-1)^(k(2-k)) | proved (2 theorems) | 2-D H | row/column operators commute, signs, C01/C03/C05 per factor | Grid2 |
| C27 2-D derivative (plus boundary term) commutes with projection | proved (5 theorems) | 2-D P, D, BC | Fubini and the fundamental theorem of calculus per cell | Grid2Commute |
| C28 Flattening and unflattening 2-D forms lose nothing | proved (7 theorems) | reshape/unshape/unravel | index arithmetic, no bound on shapes | Flatten |
| C29 Array lengths match the advertised N table in 2-D | proved (6 theorems) | 2-D tables | shape computation | Grid2Lengths, Grid2Wedge |
| C30 Arithmetic on discrete forms respects type and grid | proved (6 theorems) | decform arithmetic | case analysis on types/grids, module laws | Decform |
| C31 The derivative of a top-degree form | proved (3 theorems) | derivative of top degree | evaluation of the model | Grid2Lengths |
| C32 Symbolic exterior derivative squares to zero and obeys Leibniz | proved (2 theorems) | symbolic D, W over an arbitrary commutative ring with two commuting derivations | ring identities | Symbolic |
| C33 Symbolic wedge product is associative and graded commutative | proved (4 theorems) | symbolic W | ring identities, case analysis on degrees | Symbolic |
| C34 Symbolic Hodge star, inner product and contraction laws | proved (4 theorems) | symbolic H, dot, C | ring identities | Symbolic |
| C35 Laplacian, Lie derivative, grad, div, vort and adv compute the vector-calculus formulas | proved (6 theorems) | symbolic Laplacian, Lie, grad, div, vort, adv | ring identities | Symbolic |
| C36 Arithmetic of symbolic forms | proved (3 theorems) | symform arithmetic | case analysis | Symbolic |
| C37 Schur-complement solver solves the block system | proved (2 theorems) | dec/schur.py | linear algebra of block elimination over any field | Schur |
| C38 fourier_K and fourier_K_inv are mutually inverse, and singular operators are rejected | proved (4 theorems) | fourier_K, fourier_K_inv | recurrence + explicit test | Chebyshev |
| C39 Memoised evaluation is transparent | proved (2 theorems) | dec/data.py memoize as a state machine (memory, file, exits, crashes) | invariant by induction over histories | Data |
| C40 Memoised evaluation computes each key at most once and survives clean restarts and crashes outside commits | proved (7 theorems) | same | induction over histories; counterexample histories for the defects | Data |
| C41 The data store behaves like a map from names to JSON values | proved (8 theorems) | dec/data.py file store | file-tree invariant, induction over paths | Data, Store |
| C42 Quadrature rules are exact on low-degree polynomials | proved (5 theorems) | dec/integrate.py rules | polynomial identities; sharpness by counterexample polynomial | Integrate |
| C43 Polygon integration of 2-forms | proved (2 theorems) | integrate_2form | sum over fan triangles, exact integrals of polynomials | Integrate |
| C44 Line and triangle integration formulas | proved (16 theorems) | P1, P2, nP1, nP2, averages | exact integrals over segments and triangles (Lib/Triangle) | Integrate |
| C45 Mirror, fold and extension operators have their stated inverses | proved (10 theorems) | mirror*, fold*, extend, unextend | list algebra; error cases evaluated | Arrays |
| C46 Half-cell shift | proved (7 theorems) | S, Sinv, S_cheb | DFT core theorem; counterexample at the Nyquist frequency | ChebyshevCalculus, PeriodicCalculus |
| C47 to_matrix represents linear operators | proved (4 theorems) | to_matrix | linear maps on lists are determined by basis vectors | Arrays |
| C48 Spectral integrators are exact on resolvable functions | proved (7 theorems) | integrate_spectral*, integrate_chebyshev* | DFT core theorem | Quadrature, SplitArgs |
| C49 Combinatorics of degrees | proved (10 theorems) | nCr, by_degree, Lambda, operators tables | closed forms (Nat.choose), case analysis | Forms |
| C50 Lagrange polynomials are cardinal | proved (4 theorems) | lagrange | Mathlib Polynomial, degree count | Lagrange |
| C51 What the Hodge stars compute on a stretched interval | proved (3 theorems) | P, H for arbitrary xmin, xmax | scaling of integrals; failure proved | Scaling |
| C52 interweave preserves the values of both arrays | proved (6 theorems) | interweave, dtype conversions | list algebra | Arrays |
| C53 2-D basis functions are dual to the 2-D projections | proved (3 theorems) | 2-D B, P, R | Fubini on tensor products, 1-D duality | Grid2Basis |
| C54 2-D refinement round trip | proved (1 theorems) | 2-D T, U | row/column operators | Grid2Wedge |
| C55 Structured, flat and numeric boundary conditions and projections agree | proved (6 theorems) | 2-D P / Pn / BC variants | evaluation, integrals; failure proved | Grid2Agree |
| C56 What == means on discrete forms | proved (4 theorems) | decform __eq__ | evaluation; counterexamples | Decform |
| C57 Operators on discrete forms are well typed and satisfy D.D = 0 and H.H = +-1 | proved (6 theorems) | decform D, H, W, C | lifting the array theorems to typed forms | DecformOps |
| C58 2-D Hodge star is exact on resolved forms | proved (1 theorems) | 2-D H | tensor sums (Lib/Tensor), 1-D exactness per axis | Grid2Exact |
| C59 2-D refinement samples resolved forms at g.points | proved (1 theorems) | 2-D T | same | Grid2Exact |
| C60 2-D wedge product is exact on resolved forms | proved (2 theorems) | 2-D W | same | Grid2Exact |
| C61 2-D contraction is exact on resolved forms | proved (2 theorems) | 2-D C | same | Grid2Exact |
| C62 2-D Leibniz rule for all discrete forms | proved (1 theorems) | 2-D W, D on doubly periodic grids | every form is a projection of a resolved tensor form; smooth Leibniz rule | Grid2Leibniz |
| C63 Explicit periodic wedge products | proved (7 theorems) | wedge_explicit examples | DFT core theorem; counterexamples for even n | Explicit |
| C64 Associativity of the wedge product on periodic grids | proved (2 theorems) | W | exactness; counterexample | Explicit |
| C65 The example flows solve the pressure equation | proved (2 theorems) | symbolic flows in doc/ | derivations given by the chain rule, ring/trig identities (grind) | Flows |
| C66 Discretising a symbolic form commutes with the operators | proved (15 theorems) | decform.to_discrete path | combination of C07/C08/C27, C02-C06, C58-C61 with the smooth operators | Discretise |
| C67 Poisson problems are well posed and solved exactly for resolved solutions | proved (7 theorems) | Laplacian with boundary conditions, poisson examples | kernel by C10 and injectivity of stars, rank argument, exactness | Poisson |
| C68 Fourier-space transforms act on the trigonometric interpolant | proved (16 theorems) | T_space, S_space, I_space, K_space, E_space and inverses | every array is a sampled exponential sum (Lib/Exp); diagonal operators act on coefficients | Transforms |
| C69 The deprecated transforms and Chebyshev stars compute what the current ones do | proved (7 theorems) | dec/deprecated/spectral.py | modulation of coefficients by roll; kernels exhibited explicitly (Dirichlet-type kernels); interpolation by cosine polynomials, then the integrals of both versions coincide | DeprecatedStars |
| C70 Reconstruction inverts projection | proved (9 theorems) | R, B, P in 1-D and 2-D | each basis function is exhibited as a member of the space (kernel shifts, division of sine polynomials by sin); P is injective on the space; duality C13-C15 | Reconstruction, Reconstruction2 |
| C71 Hodge-star matrices computed from basis functions | proved (2 theorems) | hodge_star_matrix, hodge_star_toeplitz | columns are projections of members of the spaces of C70, on which the stars are exact; Toeplitz form by periodicity of the kernel | StarMatrix |
| C72 Integration by parts, Stokes and potentials on product grids | proved (7 theorems) | derivative of product grids and of the three 1-D grids | kernel, image and sums of the 1-D derivatives as matrices, then exactness of the total complex: solve along rows, correct by a function of the other coordinate | Grid2Cohomology |
| C73 Inner products and self-adjoint Laplacians on periodic and regular grids | proved (7 theorems) | stars of periodic, regular and product grids, Laplacians | Parseval with the positive multipliers of the stars; half-range folding for regular grids; Kronecker products of positive definite matrices; integration by parts C09/C72 | Energy |
| C74 Poisson problems on product grids | proved (8 theorems) | `lap2`, `lapOne` (Props/Energy, Props/Poisson2): the compositions the convergence plots call laplacian2; everything else is the Grid2 model | projection commutes with D up to the boundary term (C27), stars of resolved forms are exact (C58), derivatives of resolved functions are resolved on the dual cells, all operators are linear (Lib/Lin2); kernel from the energy identity C73 and C72; surjectivity from injectivity in finite dimension | HodgeDecomposition, Poisson2 |
| C75 Array helpers do what they say on every input | proved (11 theorems) | sparse_diag, sparse_matrix, bndry_with_zeros (both axes), apply_map, cartesian_product | induction over triples and dictionary items; index arithmetic of row-major arrays | Helpers |
| C76 Cell coordinates, simplex measures, dispatch tables, named tuples | proved (9 theorems) | enumerate_coords, cell_coords, simplex_measure, multipledispatch/register, make_namedtuple | injectivity of one-digit suffixes; Euclidean distance; induction over the history of registrations | Helpers |
| C77 Refinement, random forms and interpolation of discrete forms | proved (5 theorems) | decform Rf and I, Grid.P, Grid.rand | exactness of refinement (C19, C59); the keys of the operator tables | Helpers |
| C78 A stored value is read back, and an incompletely written file is always detected | proved (9 theorems) | json.dump and json.load as functions on texts (checked against CPython's json by tools/jsondiff.py), TypeError in the middle of a dump | induction over values for the round trip; the reader is stable under appended text, so no proper prefix can be read | JsonText |
| C79 What a file contains when several processes write it | proved (6 theorems) | the file and any number of writers, each with its own position; truncation on open, partial flushes, zero-filled gaps, kills | invariants over histories; a text with a zero byte is rejected, a proper prefix too (C78); counterexample for different tables | JsonText |
| C80 Size of the errors for functions the grid does not resolve | proved (8 theorems) | the stars, the reconstruction and the Laplacian of the three families on their default intervals | aliasing: every wave has the coefficients of a resolved wave that is not larger; exactness on resolved functions (C06, C70, C23); dominated convergence of the projections; tail of the series | Accuracy, AccuracyCheb, AccuracyLaplace |
| C81 The operators respect the symmetries of the grids | proved (18 theorems) | all one-dimensional operator tables; reversal and rotation of arrays | every array is the projection of a unique resolved function, reflected and translated resolved functions are resolved and the operators are exact on them (C70); D and the contraction/wedge pipeline by index computations | Symmetry |
| C82 The names of the coordinates | proved (4 theorems) | sympy expressions as a set of symbols and a value; subs, lambdify and the integrator as functions on them; to_discrete in one and two dimensions | case analysis over degrees; values of substituted expressions; NameError and swapped axes by counterexample families | Names |
| C83 The operators as they are unpacked from a grid | proved (16 theorems) | the attributes and operator tuples of Grid_1D and Grid_2D; numerical projection of forms; constant callables | the tuples are unpacked and the identities C07, C08, C06/C70, C27, C55, C58 are applied to their entries | Accessors |
| C84 Forms as Python objects: comparison, keys, iteration | proved (12 theorems) | Python objects with identities: ==, !=, in, hash, indexing and the iteration protocol for symbolic and discrete forms | equality of records; induction over lists; determinism and totality of the iteration relation | Objects |
| C85 Rounded comparisons, assertions of the integrators, named tuples | proved (14 theorems) | rounding half to even on reals; approx, is_equidistant; the integrators with their assertions; strings of field names | floor and fractional part; propagation of assertions through the subdivisions, then C48; induction over strings and lists | Rounding |
| C86 The derivative of a reconstruction is the reconstruction of the derivative | proved (11 theorems) | the basis functions, reconstruction, discrete derivative and boundary condition of the 1-D grids; alpha0_alt | the kernel of the 0-forms is differentiated explicitly; C70 with C07 and C08; uniqueness in the spaces of C70; analytic continuation and degrees for the negative results | BasisDerivative |
| C87 The operators of product grids respect reflections, rotations and exchange of the axes | proved (13 theorems) | the operators of product grids; the one-dimensional symmetries of C81 along each axis; transposition of blocks | matrices of the factors commute with permutations of cells; the two orders of application agree by exchanging sums; invariance of the pointwise products; substitution and Fubini for the projections | Symmetry2 |
| C88 Memoised evaluation over a shared file, with commits that overlap | proved (8 theorems) | memoize with the text of the file: sessions hold any JSON value, commits are written in pieces at the writer's own position, starts read the text | invariant: sessions and texts being written are right tables, the file agrees with the text being written up to a missing end and zero bytes (then C78); a concrete history for the defect | MemoText |
| C89 Expressions of discrete forms: no failures, linear in linear variables | proved (3 theorems) | expressions as syntax trees, evaluated with the methods of the model of discrete forms; the tables of the one- and two-dimensional grids | induction over typing derivations; every operator is linear, products are bilinear (C03, C04) | DecformExpr |
| C90 Whole expressions of discrete forms are exact for resolved forms | proved (3 theorems) | expressions evaluated with the models of symbolic and of discrete forms; to_discrete on product grids | induction over typing derivations with bandwidths; linearity of projections; C27, C58, C60, C61, C66 for the single operators | ExprExact |
| C91 Size of the errors on product grids | proved (4 theorems) | the stars, projections and reconstruction of product grids; double series with infinitely many terms | every wave has an alias that the coefficients determine (C80); the coefficients of the form are those of a finite sum of products, on which C58 and C70 are exact; sums and integrals exchanged by dominated convergence | Accuracy2 |
| C92 Size of the errors of the integrators | proved (12 theorems) | the integrators on equidistant points of a circle, Chebyshev points and dual Chebyshev points, Simpson and Boole; infinite series | positive weights and exactness (C42), Taylor's theorem; aliasing on a periodic grid (C80); the sine series of f(-cos t) sin t; powers are convex combinations of Chebyshev polynomials | QuadratureError |
| C93 Evaluating and refining a discrete form | proved (13 theorems) | the property `R` of a discrete form with the exact order of evaluation (degree lookup, `a[i]`, basis function, call), on one- and two-dimensional grids | induction over the loop of `sum`; then C16/C53 (projecting back), C70 (determined functions), C18/C19/C59 (refinement) | DformEval |
| C94 The periodic Poisson example is stable and converges | proved (7 theorems) | the Laplacian of a periodic grid; the least-squares problem that `pinv` of the stacked matrix solves, stated by its minimality (the pseudoinverse algorithm itself is not modelled) | the Laplacian multiplies the discrete Fourier coefficients by -m^2; sum of 1/m^2; Parseval; solvability (C67); consistency (C80); powers of the sine are convex combinations of Chebyshev polynomials of the sine, weighted tails by summation by parts | PoissonConverge |
| C95 Schur's complement inverts the sine operator, also where the library's own inverse wrongly raises | proved (7 theorems) | the blocks `A`, `B`, `C`, `D`, `Ainv`, the two assembled operators and the two inverses of the notebook, on complex arrays with exact arithmetic | entries of `fourier_K` read off its weights; the blocks are linear maps and C37 applies to them; agreement with C38; an explicit kernel vector on symmetric intervals | SchurSin |
| C96 Expressions with boundary terms are exact on both sides, and evaluating the result at a point gives the true value | proved (8 theorems) | discrete and symbolic forms as in C90, the boundary forms `g.BC`, evaluation `.R` as in C93 | induction over the typing as in C90, with C66 (derivative of a dual form plus boundary form); C93/C70 to read off the values | ExprBoundary |
| C97 Expressions on one-dimensional grids are exact, on the arrays and at points | proved (4 theorems) | one-dimensional discrete and symbolic forms, `g.boundary_condition`, `.R` | induction over the typing; each operator is exact on resolved forms (C07, C08, C18, C21, C24), projection is linear; C93 for the values | ExprOne |
| C98 The documentation converter rewrites exactly the marked places and writes only the .rst file | proved (21 theorems) | the substitutions of make_rst.py as functions on texts (differential-tested against Python's `re`), files as a map, pandoc and lyx as arbitrary functions | induction over the marked places, using that the opening markers cannot overlap themselves; case distinction for files | MakeRst |
| C99 The variants of the notebooks: a star without folding, and piecewise linear bases | proved (10 theorems) | `H0_cheb_new` with exact spectral operators; the hat function, its integrals, the band matrix for every size and its inverse | exactness on cosine polynomials (every array is sampled from one) and odd integrands at the ends; closed form of the inverse by a three-term recursion and its Wronskian | Notebooks, Whitney |
| C100 The derivative as a Toeplitz matrix | proved (1 theorems) | the matrix as written, `scipy.linalg.toeplitz` entry by entry | derivatives of the cardinal functions at the vertices, from the closed form of the kernel; interpolation is unique (C70) | Toeplitz |
| C101 The calculus of reconstructed forms on product grids | proved (5 theorems) | the reconstruction of product grids from the basis functions (C70) | every array is the projection of one form whose components are sums of products of determined functions (C70); the derivative commutes with the projection (C27), the star is exact on determined functions (C71) | ReconstructCalculus, ReconstructWords |
| C102 What the figures of the documentation show | proved (3 theorems) | the star, the basis functions, `extend` and `method_in_fourier_space` of the models above | the star is exact on determined functions (C71), which are determined by their coefficients (C70); the real array is the samples of a complex exponential sum with the same real part (C68) | Figures |
| C103 Hodge decomposition of 1-forms | proved (4 theorems) | the product grids, derivatives and stars of the models above | positive definiteness (C73) gives orthogonal projections onto the exact and the coexact forms; integration by parts (C72) makes the rest harmonic; a harmonic form minus the constant form with its periods is exact (C72) and orthogonal to itself | HodgeDecomposition |
| C104 The stars of periodic and regular grids are uniformly well conditioned | proved (7 theorems) | the stars and cell lengths of the periodic and regular grids and of their products | Parseval and the bounds 2/pi <= sin(x)/x <= 1 on the Fourier multipliers; reflection for regular grids; Cauchy-Schwarz for inverses and images; positive semidefinite tensor products | Condition |
| C105 The Laplacian of 1-forms | proved (7 theorems) | `lap2`, `lapOne`, `lapTwo`: the compositions the Poisson plots call L0, L1, L2 (laplacian2 is not defined in the repository); everything else is the Grid2 model | D D = 0 (C25) and H H = -1 (C26); adjointness (C72) and positive stars (C73) give the energy; orthogonal projection onto the range | LaplaceOne |
| C106 Accuracy of the wedge product and the contraction for functions that the grid does not resolve | proved (8 theorems) | the Grid1 and Grid2 models of refine, unrefine, W, C, P and R | the reconstruction is the one determined function with the same projection (C70), refinement samples it and unrefinement is exact on its products, so the error is that of the product of two close functions (C80, C91 give the closeness) | AccuracyProducts, AccuracyProducts2 |
| C107 Switching between primal and dual 0-forms | proved (8 theorems) | Model/Switch over the models of S, Sinv, S_cheb and S_cheb_pinv | every array is the sample of a resolved function plus a multiple of the alternating array (exactness of the shifts), which is orthogonal to the samples of resolved functions for the trapezoid sum (telescoping) | Switch |
| C108 The maps of the diffeomorphism notebook | proved (14 theorems) | Model/Diffeo: the maps as functions, J by derivatives, the arrays of the figures | derivatives by the rules, determinants by algebra; bijectivity by explicit inverses, or monotonicity and the intermediate value theorem for the wave map | Diffeo |
| C109 The Chebyshev Poisson example: stable, spectrally accurate | proved (10 theorems) | the Grid1 model; `dirichletData` is the composition H1(D0(H1d(bc))) of the example, `LeastSquares` what pinv returns | the solution is the polynomial that solves the continuous problem for the reconstructed source, so the maximum principle bounds the error; Green's function of Chebyshev polynomials for the stability; for Neumann the derivative at the dual vertices is the integral of the source, and Gauss quadrature in the angle bounds L1 norms by sums of squares | PoissonCheb, PoissonNeumann, PoissonNeumannError |
| C110 2-D Laplacians act line by line; the left-hand sides of the 2-D Poisson examples reduce to 1-D | proved (4 theorems) | the Grid2 model; `line` and `column` cut a flat array into rows and columns, `valueSide` and `slopeSide` are the 1-D expressions of the examples | every 1-D operator is a matrix; the 2-D operators apply it along rows or columns, and row and column operators commute, so the Hodge stars of the other direction cancel | Separable, Separable2 |
| C111 The residuals of the Chebyshev Poisson examples decay spectrally | proved (8 theorems) | the Grid1 and Grid2 models; the left-hand sides of the examples as in C110; `TwiceExpansion` and `TwicePower` say that f, f', f'' are the sums of the termwise derivatives | the left-hand sides are exact on polynomials of low degree and bounded by multiples of m^4 on T_m (aliasing to a low T_k with |T_k''| <= k^4); sum the series, in 2-D line by line | Residual |
| C112 The residuals of the periodic Poisson example decay spectrally, for 0-forms and 1-forms | proved (5 theorems) | the Grid1 and Grid2 models, `lapOne` and `lap2` of C110; `Expansion` says that a function is the sum of its Fourier series | 1-forms: integrate the series termwise, the 1-form Laplacian is the derivative of the Laplacian of the primitive; torus: line by line (C110) | ResidualPeriodic |
| C113 The left-hand sides for 1-forms of the Chebyshev Poisson example are the derivatives of those for 0-forms, and their residuals decay spectrally | proved (4 theorems) | the Grid2 model, `lap2` and `lapOne` of C107; `laplacian2` is called by the script but not defined in the repository, so the operators are the compositions that the comments of the script and the notebooks give | C27 turns the projection of a gradient into D0 of samples plus BC0; D after D is zero; linearity of D, H; the bounds from C111 through differences of neighbouring entries; mixed derivatives agree by Schwarz's theorem | ResidualOne |
| C114 The pictures of grids and basis forms show what they say | proved (9 theorems) | Model/Pictures: the numbers that are handed to matplotlib, over the Grid1 and Grid2 models; colours and texts other than the numbers are not modelled | C12 for the partition of the interval by the edges; duality of basis forms and cells; C70 applied to the constant function for the sums; the normal form of 2-dimensional cells for the labels | Pictures |
| C115 Cartan's calculus and the identities of vector analysis hold for symbolic forms | proved (10 theorems) | Model/Symbolic: expressions are elements of a commutative ring with two commuting derivations | case analysis over the kinds of forms, the product rule, and ring normalisation; the Lie derivative is first computed in components (C35) | Cartan |
| C116 Grids are nested: the points of a grid are the vertices of the grid with twice as many edges | proved (11 theorems) | Model/{Common,Grids,Grid2}: points, cells, projections, D0 and reconstruction of the three kinds of grids | the vertices of the two grids are compared as formulas; integrals over adjacent intervals add; a reconstruction is one function of the span (C70), which is then projected to the coarse cells | Nested |
| C117 Laplacians of grids with Chebyshev points are negative, and Poisson problems for functions and 1-forms are well posed on every product grid | proved (10 theorems) | Model/{Spectral,Grids,Grid2}: derivatives and stars of the three kinds of grids and their products | energy of a polynomial that vanishes at both ends: integrated against the Chebyshev weight after dividing by 1 - x^2, exact by Gauss quadrature; dissipativity with respect to a positive definite matrix is inherited by primal sides and 1-forms, a Sylvester argument (factor of the weight of the other axis) carries it to product grids, and kernel plus a projector determine the range | WellPosed2, WellPosed3, WellPosed4 |
| C118 The wedge product is associative in the limit of fine grids | proved (5 theorems) | Model/{Spectral,Grids,Dispatch}: projections, refinement and wedge products of periodic and Chebyshev grids | Wiener algebra: sums, products and aliases of absolutely convergent series have amplitudes bounded by those of the factors, so the aliased intermediate product is the product of the low parts, which the grid resolves, plus a series of small total amplitude; C106 then gives the second product | WedgeLimit |
| C119 The solutions printed for the example flows | proved (9 theorems) | Model/Flows, Model/Symbolic (adv, grad, div, vort) over smooth functions; the printed formulas as functions of two real numbers | derivatives by the rules of Lib/Smooth, trigonometric identities for half and double angles, values at single points for the negative parts; the Laplacian of a wave for the Fourier formula | SampleFlows |
| C120 The antisymmetric basis 1-forms give no inverse star | proved (6 theorems) | Model/Spectral (kappa1, kappa1_symm, kappad0, the regular stars), Model/Grid1 (Regular.make) | an odd trigonometric polynomial is determined by its edge integrals (its antiderivative is an even one, fixed by the vertices), so the sine is a known combination of the odd forms; symmetry of the matrix of midpoint values; analytic continuation for the span | OddBases |
| C121 Intervals given backwards, and the sizes the constructors accept | proved (9 theorems) | Model/Grids (construct, grid), Model/Grid1 (make), the cells, projections, derivatives and stars of the three kinds | closed forms of the cells for every pair of end points, cos(pi - x) = -cos x, the mirror symmetry of the stars (C81), the fundamental theorem of calculus and periodicity of integrals | Backwards |
| C122 The Leibniz rule on grids with boundaries | proved (4 theorems) | Model/Grid1, Model/Grid2 (derivatives, wedge products, reconstruction), the Chebyshev and periodic refinements | every array is the projection of the function it determines (C70), the wedge product of resolved functions is exact (C21, C60) as da wedge b has degree (n-2) + (n-1), and both sides project the same form by the fundamental theorem of calculus | LeibnizCheb |
| C123 Contraction by means of the wedge product and the Hodge star | proved (3 theorems) | Model/Grid1, Model/Grid2 (contraction, wedge products, stars, reconstruction), the Chebyshev and periodic refinements | every array is the projection of the form it determines (C70), contraction and wedge product are exact for determined forms as the refined grid resolves their product (C24, C21, C61, C60), stars are exact for determined forms; for the finest cosine the 1-form of its square aliases to one whose value at the first vertex is less than one | SharpContraction |
| C124 The wedge product does not depend on the metric: pull-backs by affine maps | proved (13 theorems) | Model/Periodic, Model/Regular, Model/Chebyshev (cells and operators on any interval), Model/Common (wedge, contraction, projection) | substitution in the integrals over the cells, which are the images of those of the default interval; the operators do not mention the interval; exactness on the default interval (C21, C24) | PullBack, PullBack2 |
<!-- table end -->

## 5. Disagreements between the code and what it says or suggests

Each was found while stating the properties; where the claim of a docstring or the natural reading is false, the
property was restated as what the code does, and the failure itself is a theorem.

1. The derivative of a 2-form in 2-D raises `TypeError` instead of giving zero (C31, C57).
2. `scalar * symform` (`__rmul__`) always raises `TypeError` (C36).
3. Hodge stars and basis functions ignore `xmin`, `xmax`: on an interval other than the default they are off by the ratio of lengths (C51).
4. `fourier_K_inv` compares with `isclose`; its absolute tolerance makes the invertible Chebyshev star H1 raise "Singular operator" for every n >= 928 (C05, C38).
5. `memoize` truncates its file before writing: a crash in between leaves torn JSON that stops the next start (C40); the last of two concurrent commits wins (C40).
6. `interweave(a, b)` casts to the dtype of `b`, so float values interwoven with integers are truncated (C52).
7. `unextend` raises for `n = 0` and for arrays shorter than `3 n` (C45, C68).
8. `lagrange` on a single point raises `TypeError` (C50).
9. `decform.__eq__` is neither symmetric nor transitive (C56); arrays of length one broadcast silently in sums (C30); regular grids have no W and C; `decform.I` raises `KeyError`.
10. `S` and `Sinv` are not inverse to each other for even N (C46); `alpha0` is NaN at non-zero multiples of 2 pi (excluded in C13).
11. `boundary_condition` needs n >= 2 (C08).
12. `setitem` of a value that cannot be serialised destroys the stored value (C41).
13. The flat 2-D `BC1` raises `ValueError` on grids with a periodic axis (C55).
14. `apply_along_axis` raises for a factor with no cells (interval with n = 1), so 2-D operators need n >= 2 (C29).
15. `wedge_explicit`'s `w01` differs from the grid wedge for even n, and its "associative" variant is not associative for even n (C63); the grid wedge is not associative (C64).
16. `to_discrete` of a constant 1-D form returns a scalar, not an array (C66).
17. `simplex_measure` unpacks `(y1, y2)` for the third vertex of a triangle, so `x2` is unbound and every triangle in the plane raises (C76); `differentiation_toeplitz` does `raise NotImplemented`.
18. The deprecated transforms `H_exp` and `H_sin_dual` are documented as singular; `H_exp` is injective for every size above one, `H_sin_dual` for even sizes (C69).
19. The Chebyshev stars are not symmetric matrices, so they define no inner product (C73); those of periodic and regular grids do. `laplacian2`, used by the plots in `doc/plot/cheb`, is not defined anywhere.
20. `register(f)` without degrees stores a default that calls never consult (C76); `enumerate_coords` can give two coordinates the same name from eleven vertices on (C76); `decform.I` raises `KeyError` on every grid (C77).
21. Nothing locks the memo file: overlapping commits of different tables can leave a readable file with an entry nobody computed (C79). A bare number that was cut short by a crash is read as another number; strings with adjacent surrogate halves are not read back (C78).
22. Two-dimensional discretisation looks the coordinates up by the names x and y: forms on other charts raise NameError, forms on Chart(y, x) have their components exchanged (C82).
23. The numerical projection of a symbolic form fails for constant 0-forms (AttributeError) and for every 2-form (TypeError); constant callables give a number instead of an array in one dimension and fail in two (C83).
24. Forms cannot be compared with the integer 0 that D and C return; symbolic == discrete and discrete == symbolic behave differently; equal forms are different keys of sets and dictionaries (C84).
25. nametuple fails on the usual 'x, y'; NamedTuple stores None for misspelt names; approx is not a tolerance: numbers arbitrarily close to each other can be told apart (C85).
26. The regular grid uses symmetric basis 1-forms: derivative and reconstruction commute for constant arrays only; the dual psi1 are not the edge functions doc/bases.rst says; alpha0_alt differs from alpha0 between the nodes (C86).
27. Two processes that commit different memo tables at the same time can make a later session return the result of one argument for another one, silently; a memo file with a JSON value other than an object is accepted at import and makes every call raise (C88).
28. make_rst.py: two `[eq:...]` references on one line are merged into one; `[figure|image]` is a character class, so every directive ending in one of its letters (`include::`) has `.pdf` renamed; the doctests of `latex2rst_` and `latex2rst` contradict each other; when pandoc or lyx fails, the previous .rst file is left empty (C98).
29. `differentiation_toeplitz` raises TypeError instead of NotImplementedError, and the disabled code computes twice the derivative (C100). `H0_cheb_new` of the hodge notebook is singular (C99).
30. `switch()` of periodic grids is documented to be invertible if there are as many dual as primal points; with an even number it is not. `S_cheb_pinv` is not the Moore-Penrose pseudo inverse of `S_cheb` as soon as there are three vertices (C107).
31. The `__main__` part of `dec/plot.py` uses `Grid_1D_Chebyshev` and `doc/plot/cheb/poisson_2d_example.py` uses `Grid_2D_Chebyshev`; neither exists. In the picture of a periodic grid the right end of the last segment has no dot (C114).
32. `doc/sample_advection.rst`: the Fourier formula for the pressure has the wrong sign, and so have the printed pressures of examples 1, 3 and 4 (the table `p` of `dec/symbolic.py` has the right ones); example 2 is not periodic on the domain of the page (C119).
33. `dec/periodic.py`: an interval given backwards (`xmin > xmax`) is accepted, but the first dual edge is moved by `abs(xmax - xmin)` in the wrong direction, so the first entry of every dual 1-form is off by twice the integral over the circle and the stars are wrong; `regular` asserts `xmax > xmin`, the other two do not (C121).
34. `dec/grid1.py`, `dec/chebyshev.py`: the derivative of a dual form without `boundary_condition` does not satisfy the Leibniz rule on any Chebyshev grid, already for the constant one (C122); with the boundary terms of the represented functions it does.
35. `examples/contraction.ipynb`: the identity `i_X b = H(X ^ H b)` shown there for symbolic forms fails for discrete forms on every periodic grid with at least two vertices (C123); it holds where the grid represents the product.
36. `dec/common.py`, `contraction`: the contraction depends on the metric, but the one of the default interval is used on every interval, so the contraction of resolved 1-forms is off by the square of the ratio of the lengths (C124), like the stars (C51).

## 6. What the tests of the repository check, and the theorems that generalise them

The doctests of `/repo/dec` are repeated on the model in `lean/Verif/Doctest.lean` and `lean/Verif/DoctestGrids.lean` (as `example`s; they validate the
transcription and no claim rests on them). The test files check the same operators on a few grids and functions; the table names the properties
that state the same facts for all of them.

| Test | What it checks | Properties |
| --- | --- | --- |
| `grid1_test.test_integrals` | Boole, spectral and Chebyshev integrators on `sin`, `cos`, `x`, `x^3`, `exp` | C42, C48 (exact cases), C92 (errors, `exp`) |
| `grid1_test.test_basis_functions`, `test_projection_reconstruction` | duality, `P(R a) = a` | C13, C14, C15, C16, C70 |
| `grid1_test.test_hodge_star_basis_fn`, `test_hodge_star_inv` | star matrices, inverses | C71, C01, C03, C05 |
| `grid1_test.test_compare_chebyshev_and_lagrange_polynomials` | `psi0` is the Lagrange basis | C17, C50 |
| `grid1_test.test_d` | derivative and boundary term | C07, C08 |
| `grid1_test.test_hodge` | star of `sin 4x` | C02, C80 (unresolved functions) |
| `grid1_test.test_wedge`, `test_wedge_chebyshev` | products that only the refined grid resolves | C21, C63 |
| `grid1_test.test_leibniz`, `test_associativity_exact` | Leibniz rule; associativity fails | C22, C64 |
| `grid1_sym_test` (`refine`, `P`, `R`, `D`, `H`, `W_C`) | symbolic against discrete | C18, C19, C66, C70, C90 |
| `grid2_sym_test` (`P`, `N`, `refine`, `D`, `H`, `W_C`) | symbolic against discrete on product grids | C55, C29, C54, C59, C27, C58, C60, C61, C66, C90 |
| `grid2_test` (`basis_functions`, `d`, `hodge`) | duality, derivative, star of `sin x sin y` on a Chebyshev product | C53, C27, C58, C91 (not resolved there) |
| `spectral_test` (`transforms`, `linearity`, `fourier_K_inv`) | transforms, `K` and its inverse | C46, C68, C38, C47 |
