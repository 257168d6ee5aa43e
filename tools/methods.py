# property -> (what is modelled, how it is proved)
M = {
"C01": ("Periodic.H0/H1/H0d/H1d on arrays of any length n >= 2", "the stars multiply the Fourier coefficients by a weight and by its inverse; the weights are shown to be non-zero, so no division by zero happens"),
"C02": ("same", "DFT core theorem (Lib/Fourier, Res, Trig): the star of the samples of a trigonometric polynomial is its array of cell integrals"),
"C03": ("Regular.H*", "even/odd extension to a periodic array (Lib/Mirror), then C01; reality by conjugate symmetry"),
"C04": ("Regular.H*", "cosine polynomials are exactly the even extensions; DFT core theorem"),
"C05": ("Chebyshev.H*, fourier_K, fourier_K_inv with its isclose test", "K is multiplication by sin and integration; K_inv solves a three-term recurrence (Lib/KInv); exact analysis of the isclose test (Lib/ChebyshevAccept): accepts iff n <= 927"),
"C06": ("Chebyshev.H*", "polynomials of -cos are cosine polynomials; substitution in the integral"),
"C07": ("Grid_1D.D, P on all grids", "fundamental theorem of calculus on each cell"),
"C08": ("dual D, P, boundary_condition", "fundamental theorem of calculus; end cells take the boundary values"),
"C09": ("D matrices/actions", "summation by parts over lists"),
"C10": ("D", "telescoping sums; kernels by induction along the grid"),
"C11": ("every operator table of the 1-D grids", "length computation, function by function"),
"C12": ("vertices, edges, delta, points of every grid", "monotonicity of linspace / sin, list algebra"),
"C13": ("B tables of the periodic grid (alpha, beta, gamma, phi..)", "closed-form sums of exponentials; integrals of the basis over cells"),
"C14": ("B tables of the regular grid (kappa, ..)", "symmetrised periodic basis functions"),
"C15": ("B tables of the Chebyshev grid (psi, ..)", "cosine polynomials and the star H1d"),
"C16": ("P, R", "linearity plus duality"),
"C17": ("psi0, psid0 against lagrange", "two polynomials of degree < n agreeing at n points"),
"C18": ("T/U tables", "shift inverse + star inverse"),
"C19": ("T/U tables", "DFT core theorem at the half-step grid"),
"C20": ("W of 1-D and 2-D grids", "bilinearity of pointwise products between linear maps; sign table of the antisymmetriser"),
"C21": ("W", "refine exactly (C19), multiply pointwise, unrefine exactly"),
"C22": ("W, D on periodic grids", "every discrete form is the projection of a resolved trigonometric polynomial; Leibniz there; aliasing-free by refinement"),
"C23": ("laplacian", "DFT core theorem twice"),
"C24": ("C", "as C21"),
"C25": ("2-D D", "mixed differences commute (Lib/Arr2)"),
"C26": ("2-D H", "row/column operators commute, signs, C01/C03/C05 per factor"),
"C27": ("2-D P, D, BC", "Fubini and the fundamental theorem of calculus per cell"),
"C28": ("reshape/unshape/unravel", "index arithmetic, no bound on shapes"),
"C29": ("2-D tables", "shape computation"),
"C30": ("decform arithmetic", "case analysis on types/grids, module laws"),
"C31": ("derivative of top degree", "evaluation of the model"),
"C32": ("symbolic D, W over an arbitrary commutative ring with two commuting derivations", "ring identities"),
"C33": ("symbolic W", "ring identities, case analysis on degrees"),
"C34": ("symbolic H, dot, C", "ring identities"),
"C35": ("symbolic Laplacian, Lie, grad, div, vort, adv", "ring identities"),
"C36": ("symform arithmetic", "case analysis"),
"C37": ("dec/schur.py", "linear algebra of block elimination over any field"),
"C38": ("fourier_K, fourier_K_inv", "recurrence + explicit test"),
"C39": ("dec/data.py memoize as a state machine (memory, file, exits, crashes)", "invariant by induction over histories"),
"C40": ("same", "induction over histories; counterexample histories for the defects"),
"C41": ("dec/data.py file store", "file-tree invariant, induction over paths"),
"C42": ("dec/integrate.py rules", "polynomial identities; sharpness by counterexample polynomial"),
"C43": ("integrate_2form", "sum over fan triangles, exact integrals of polynomials"),
"C44": ("P1, P2, nP1, nP2, averages", "exact integrals over segments and triangles (Lib/Triangle)"),
"C45": ("mirror*, fold*, extend, unextend", "list algebra; error cases evaluated"),
"C46": ("S, Sinv, S_cheb", "DFT core theorem; counterexample at the Nyquist frequency"),
"C47": ("to_matrix", "linear maps on lists are determined by basis vectors"),
"C48": ("integrate_spectral*, integrate_chebyshev*", "DFT core theorem"),
"C49": ("nCr, by_degree, Lambda, operators tables", "closed forms (Nat.choose), case analysis"),
"C50": ("lagrange", "Mathlib Polynomial, degree count"),
"C51": ("P, H for arbitrary xmin, xmax", "scaling of integrals; failure proved"),
"C52": ("interweave, dtype conversions", "list algebra"),
"C53": ("2-D B, P, R", "Fubini on tensor products, 1-D duality"),
"C54": ("2-D T, U", "row/column operators"),
"C55": ("2-D P / Pn / BC variants", "evaluation, integrals; failure proved"),
"C56": ("decform __eq__", "evaluation; counterexamples"),
"C57": ("decform D, H, W, C", "lifting the array theorems to typed forms"),
"C58": ("2-D H", "tensor sums (Lib/Tensor), 1-D exactness per axis"),
"C59": ("2-D T", "same"),
"C60": ("2-D W", "same"),
"C61": ("2-D C", "same"),
"C62": ("2-D W, D on doubly periodic grids", "every form is a projection of a resolved tensor form; smooth Leibniz rule"),
"C63": ("wedge_explicit examples", "DFT core theorem; counterexamples for even n"),
"C64": ("W", "exactness; counterexample"),
"C65": ("symbolic flows in doc/", "derivations given by the chain rule, ring/trig identities (grind)"),
"C66": ("decform.to_discrete path", "combination of C07/C08/C27, C02-C06, C58-C61 with the smooth operators"),
"C67": ("Laplacian with boundary conditions, poisson examples", "kernel by C10 and injectivity of stars, rank argument, exactness"),
"C68": ("T_space, S_space, I_space, K_space, E_space and inverses", "every array is a sampled exponential sum (Lib/Exp); diagonal operators act on coefficients"),
"C69": ("dec/deprecated/spectral.py", "modulation of coefficients by roll; kernels exhibited explicitly (Dirichlet-type kernels); interpolation by cosine polynomials, then the integrals of both versions coincide"),
"C70": ("R, B, P in 1-D and 2-D", "each basis function is exhibited as a member of the space (kernel shifts, division of sine polynomials by sin); P is injective on the space; duality C13-C15"),
"C71": ("hodge_star_matrix, hodge_star_toeplitz", "columns are projections of members of the spaces of C70, on which the stars are exact; Toeplitz form by periodicity of the kernel"),
"C72": ("derivative of product grids and of the three 1-D grids", "kernel, image and sums of the 1-D derivatives as matrices, then exactness of the total complex: solve along rows, correct by a function of the other coordinate"),
"C73": ("stars of periodic, regular and product grids, Laplacians", "Parseval with the positive multipliers of the stars; half-range folding for regular grids; Kronecker products of positive definite matrices; integration by parts C09/C72"),
    "C74": ("`lap2`, `lapOne` (Props/Energy, Props/Poisson2): the compositions the convergence plots call laplacian2; everything else is the Grid2 model", "projection commutes with D up to the boundary term (C27), stars of resolved forms are exact (C58), derivatives of resolved functions are resolved on the dual cells, all operators are linear (Lib/Lin2); kernel from the energy identity C73 and C72; surjectivity from injectivity in finite dimension"),
    "C75": ("sparse_diag, sparse_matrix, bndry_with_zeros (both axes), apply_map, cartesian_product", "induction over triples and dictionary items; index arithmetic of row-major arrays"),
    "C76": ("enumerate_coords, cell_coords, simplex_measure, multipledispatch/register, make_namedtuple", "injectivity of one-digit suffixes; Euclidean distance; induction over the history of registrations"),
    "C77": ("decform Rf and I, Grid.P, Grid.rand", "exactness of refinement (C19, C59); the keys of the operator tables"),
    "C78": ("json.dump and json.load as functions on texts (checked against CPython's json by tools/jsondiff.py), TypeError in the middle of a dump", "induction over values for the round trip; the reader is stable under appended text, so no proper prefix can be read"),
    "C79": ("the file and any number of writers, each with its own position; truncation on open, partial flushes, zero-filled gaps, kills", "invariants over histories; a text with a zero byte is rejected, a proper prefix too (C78); counterexample for different tables"),
    "C80": ("the stars, the reconstruction and the Laplacian of the three families on their default intervals", "aliasing: every wave has the coefficients of a resolved wave that is not larger; exactness on resolved functions (C06, C70, C23); dominated convergence of the projections; tail of the series"),
    "C81": ("all one-dimensional operator tables; reversal and rotation of arrays", "every array is the projection of a unique resolved function, reflected and translated resolved functions are resolved and the operators are exact on them (C70); D and the contraction/wedge pipeline by index computations"),
    "C82": ("sympy expressions as a set of symbols and a value; subs, lambdify and the integrator as functions on them; to_discrete in one and two dimensions", "case analysis over degrees; values of substituted expressions; NameError and swapped axes by counterexample families"),
    "C83": ("the attributes and operator tuples of Grid_1D and Grid_2D; numerical projection of forms; constant callables", "the tuples are unpacked and the identities C07, C08, C06/C70, C27, C55, C58 are applied to their entries"),
    "C84": ("Python objects with identities: ==, !=, in, hash, indexing and the iteration protocol for symbolic and discrete forms", "equality of records; induction over lists; determinism and totality of the iteration relation"),
    "C85": ("rounding half to even on reals; approx, is_equidistant; the integrators with their assertions; strings of field names", "floor and fractional part; propagation of assertions through the subdivisions, then C48; induction over strings and lists"),
    "C86": ("the basis functions, reconstruction, discrete derivative and boundary condition of the 1-D grids; alpha0_alt", "the kernel of the 0-forms is differentiated explicitly; C70 with C07 and C08; uniqueness in the spaces of C70; analytic continuation and degrees for the negative results"),
    "C87": ("the operators of product grids; the one-dimensional symmetries of C81 along each axis; transposition of blocks", "matrices of the factors commute with permutations of cells; the two orders of application agree by exchanging sums; invariance of the pointwise products; substitution and Fubini for the projections"),
    "C88": ("memoize with the text of the file: sessions hold any JSON value, commits are written in pieces at the writer's own position, starts read the text", "invariant: sessions and texts being written are right tables, the file agrees with the text being written up to a missing end and zero bytes (then C78); a concrete history for the defect"),
    "C89": ("expressions as syntax trees, evaluated with the methods of the model of discrete forms; the tables of the one- and two-dimensional grids", "induction over typing derivations; every operator is linear, products are bilinear (C03, C04)"),
    "C90": ("expressions evaluated with the models of symbolic and of discrete forms; to_discrete on product grids", "induction over typing derivations with bandwidths; linearity of projections; C27, C58, C60, C61, C66 for the single operators"),
    "C91": ("the stars, projections and reconstruction of product grids; double series with infinitely many terms", "every wave has an alias that the coefficients determine (C80); the coefficients of the form are those of a finite sum of products, on which C58 and C70 are exact; sums and integrals exchanged by dominated convergence"),
    "C92": ("the integrators on equidistant points of a circle, Chebyshev points and dual Chebyshev points, Simpson and Boole; infinite series", "positive weights and exactness (C42), Taylor's theorem; aliasing on a periodic grid (C80); the sine series of f(-cos t) sin t; powers are convex combinations of Chebyshev polynomials"),
    "C93": ("the property `R` of a discrete form with the exact order of evaluation (degree lookup, `a[i]`, basis function, call), on one- and two-dimensional grids",
            "induction over the loop of `sum`; then C16/C53 (projecting back), C70 (determined functions), C18/C19/C59 (refinement)"),
    "C94": ("the Laplacian of a periodic grid; the least-squares problem that `pinv` of the stacked matrix solves, stated by its minimality (the pseudoinverse algorithm itself is not modelled)",
            "the Laplacian multiplies the discrete Fourier coefficients by -m^2; sum of 1/m^2; Parseval; solvability (C67); consistency (C80); powers of the sine are convex combinations of Chebyshev polynomials of the sine, weighted tails by summation by parts"),
    "C95": ("the blocks `A`, `B`, `C`, `D`, `Ainv`, the two assembled operators and the two inverses of the notebook, on complex arrays with exact arithmetic",
            "entries of `fourier_K` read off its weights; the blocks are linear maps and C37 applies to them; agreement with C38; an explicit kernel vector on symmetric intervals"),
    "C96": ("discrete and symbolic forms as in C90, the boundary forms `g.BC`, evaluation `.R` as in C93",
            "induction over the typing as in C90, with C66 (derivative of a dual form plus boundary form); C93/C70 to read off the values"),
    "C97": ("one-dimensional discrete and symbolic forms, `g.boundary_condition`, `.R`",
            "induction over the typing; each operator is exact on resolved forms (C07, C08, C18, C21, C24), projection is linear; C93 for the values"),
    "C98": ("the substitutions of make_rst.py as functions on texts (differential-tested against Python's `re`), files as a map, pandoc and lyx as arbitrary functions",
            "induction over the marked places, using that the opening markers cannot overlap themselves; case distinction for files"),
    "C99": ("`H0_cheb_new` with exact spectral operators; the hat function, its integrals, the band matrix for every size and its inverse",
            "exactness on cosine polynomials (every array is sampled from one) and odd integrands at the ends; closed form of the inverse by a three-term recursion and its Wronskian"),
    "C100": ("the matrix as written, `scipy.linalg.toeplitz` entry by entry",
            "derivatives of the cardinal functions at the vertices, from the closed form of the kernel; interpolation is unique (C70)"),
    "C101": ("the reconstruction of product grids from the basis functions (C70)",
            "every array is the projection of one form whose components are sums of products of determined functions (C70); the derivative commutes with the projection (C27), the star is exact on determined functions (C71)"),
    "C102": ("the star, the basis functions, `extend` and `method_in_fourier_space` of the models above",
            "the star is exact on determined functions (C71), which are determined by their coefficients (C70); the real array is the samples of a complex exponential sum with the same real part (C68)"),
    "C103": ("the product grids, derivatives and stars of the models above",
            "positive definiteness (C73) gives orthogonal projections onto the exact and the coexact forms; integration by parts (C72) makes the rest harmonic; a harmonic form minus the constant form with its periods is exact (C72) and orthogonal to itself"),
    "C104": ("the stars and cell lengths of the periodic and regular grids and of their products",
            "Parseval and the bounds 2/pi <= sin(x)/x <= 1 on the Fourier multipliers; reflection for regular grids; Cauchy-Schwarz for inverses and images; positive semidefinite tensor products"),
    "C105": ("`lap2`, `lapOne`, `lapTwo`: the compositions the Poisson plots call L0, L1, L2 (laplacian2 is not defined in the repository); everything else is the Grid2 model",
            "D D = 0 (C25) and H H = -1 (C26); adjointness (C72) and positive stars (C73) give the energy; orthogonal projection onto the range"),
    "C106": ("the Grid1 and Grid2 models of refine, unrefine, W, C, P and R",
            "the reconstruction is the one determined function with the same projection (C70), refinement samples it and unrefinement is exact on its products, so the error is that of the product of two close functions (C80, C91 give the closeness)"),
    "C107": ("Model/Switch over the models of S, Sinv, S_cheb and S_cheb_pinv",
            "every array is the sample of a resolved function plus a multiple of the alternating array (exactness of the shifts), which is orthogonal to the samples of resolved functions for the trapezoid sum (telescoping)"),
    "C108": ("Model/Diffeo: the maps as functions, J by derivatives, the arrays of the figures",
            "derivatives by the rules, determinants by algebra; bijectivity by explicit inverses, or monotonicity and the intermediate value theorem for the wave map"),
    "C109": ("the Grid1 model; `dirichletData` is the composition H1(D0(H1d(bc))) of the example, `LeastSquares` what pinv returns",
            "the solution is the polynomial that solves the continuous problem for the reconstructed source, so the maximum principle bounds the error; Green's function of Chebyshev polynomials for the stability; for Neumann the derivative at the dual vertices is the integral of the source, and Gauss quadrature in the angle bounds L1 norms by sums of squares"),
    "C110": ("the Grid2 model; `line` and `column` cut a flat array into rows and columns, `valueSide` and `slopeSide` are the 1-D expressions of the examples",
            "every 1-D operator is a matrix; the 2-D operators apply it along rows or columns, and row and column operators commute, so the Hodge stars of the other direction cancel"),
    "C111": ("the Grid1 and Grid2 models; the left-hand sides of the examples as in C110; `TwiceExpansion` and `TwicePower` say that f, f', f'' are the sums of the termwise derivatives",
            "the left-hand sides are exact on polynomials of low degree and bounded by multiples of m^4 on T_m (aliasing to a low T_k with |T_k''| <= k^4); sum the series, in 2-D line by line"),
    "C112": ("the Grid1 and Grid2 models, `lapOne` and `lap2` of C110; `Expansion` says that a function is the sum of its Fourier series",
            "1-forms: integrate the series termwise, the 1-form Laplacian is the derivative of the Laplacian of the primitive; torus: line by line (C110)"),
    "C113": ("the Grid2 model, `lap2` and `lapOne` of C107; `laplacian2` is called by the script but not defined in the repository, so the operators are the compositions that the comments of the script and the notebooks give",
            "C27 turns the projection of a gradient into D0 of samples plus BC0; D after D is zero; linearity of D, H; the bounds from C111 through differences of neighbouring entries; mixed derivatives agree by Schwarz's theorem"),
    "C114": ("Model/Pictures: the numbers that are handed to matplotlib, over the Grid1 and Grid2 models; colours and texts other than the numbers are not modelled",
            "C12 for the partition of the interval by the edges; duality of basis forms and cells; C70 applied to the constant function for the sums; the normal form of 2-dimensional cells for the labels"),
    "C115": ("Model/Symbolic: expressions are elements of a commutative ring with two commuting derivations",
            "case analysis over the kinds of forms, the product rule, and ring normalisation; the Lie derivative is first computed in components (C35)"),
    "C116": ("Model/{Common,Grids,Grid2}: points, cells, projections, D0 and reconstruction of the three kinds of grids",
            "the vertices of the two grids are compared as formulas; integrals over adjacent intervals add; a reconstruction is one function of the span (C70), which is then projected to the coarse cells"),
    "C117": ("Model/{Spectral,Grids,Grid2}: derivatives and stars of the three kinds of grids and their products",
            "energy of a polynomial that vanishes at both ends: integrated against the Chebyshev weight after dividing by 1 - x^2, exact by Gauss quadrature; dissipativity with respect to a positive definite matrix is inherited by primal sides and 1-forms, a Sylvester argument (factor of the weight of the other axis) carries it to product grids, and kernel plus a projector determine the range"),
    "C118": ("Model/{Spectral,Grids,Dispatch}: projections, refinement and wedge products of periodic and Chebyshev grids",
            "Wiener algebra: sums, products and aliases of absolutely convergent series have amplitudes bounded by those of the factors, so the aliased intermediate product is the product of the low parts, which the grid resolves, plus a series of small total amplitude; C106 then gives the second product"),
    "C119": ("Model/Flows, Model/Symbolic (adv, grad, div, vort) over smooth functions; the printed formulas as functions of two real numbers",
            "derivatives by the rules of Lib/Smooth, trigonometric identities for half and double angles, values at single points for the negative parts; the Laplacian of a wave for the Fourier formula"),
    "C120": ("Model/Spectral (kappa1, kappa1_symm, kappad0, the regular stars), Model/Grid1 (Regular.make)",
            "an odd trigonometric polynomial is determined by its edge integrals (its antiderivative is an even one, fixed by the vertices), so the sine is a known combination of the odd forms; symmetry of the matrix of midpoint values; analytic continuation for the span"),
    "C121": ("Model/Grids (construct, grid), Model/Grid1 (make), the cells, projections, derivatives and stars of the three kinds",
            "closed forms of the cells for every pair of end points, cos(pi - x) = -cos x, the mirror symmetry of the stars (C81), the fundamental theorem of calculus and periodicity of integrals"),
    "C122": ("Model/Grid1, Model/Grid2 (derivatives, wedge products, reconstruction), the Chebyshev and periodic refinements",
            "every array is the projection of the function it determines (C70), the wedge product of resolved functions is exact (C21, C60) as da wedge b has degree (n-2) + (n-1), and both sides project the same form by the fundamental theorem of calculus"),
    "C123": ("Model/Grid1, Model/Grid2 (contraction, wedge products, stars, reconstruction), the Chebyshev and periodic refinements",
            "every array is the projection of the form it determines (C70), contraction and wedge product are exact for determined forms as the refined grid resolves their product (C24, C21, C61, C60), stars are exact for determined forms; for the finest cosine the 1-form of its square aliases to one whose value at the first vertex is less than one"),
    "C124": ("Model/Periodic, Model/Regular, Model/Chebyshev (cells and operators on any interval), Model/Common (wedge, contraction, projection)",
            "substitution in the integrals over the cells, which are the images of those of the default interval; the operators do not mention the interval; exactness on the default interval (C21, C24)"),
}
