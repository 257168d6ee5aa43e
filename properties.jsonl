{"id": "C01", "title": "Periodic Hodge stars are mutually inverse", "statement": "On a periodic grid the four Hodge stars invert each other: H[1,dual](H[0,primal](a)) = a, H[0,primal](H[1,dual](a)) = a, H[1,primal](H[0,dual](a)) = a and H[0,dual](H[1,primal](a)) = a; none of them divides by zero.", "quantifier": "every n >= 1 (even and odd) and every real array of length n", "why_tests_cant": "Tests evaluate a handful of grid sizes on random arrays with allclose; the claim ranges over every size and every real array.", "anchors": ["dec/periodic.py: make, H", "dec/spectral.py: H, Hinv, I_diag, F, Finv, freq"]}
{"id": "C02", "title": "Periodic Hodge star is exact on resolvable trigonometric polynomials", "statement": "On the default periodic grid, the Hodge star of the projection equals the projection of the function itself: H[0,t](P[0,t](f)) = P[1,not t](f) and H[1,t](P[1,t](f)) = P[0,not t](f).", "quantifier": "every n >= 1, t in {primal, dual}, every real trigonometric polynomial f of degree k with 2k < n", "why_tests_cant": "The test uses one function (sin 4x) and one n=10.", "anchors": ["dec/periodic.py: make", "dec/common.py: projection", "dec/spectral.py: H, Hinv, I_diag"]}
{"id": "C03", "title": "Regular-grid Hodge stars are mutually inverse and real", "statement": "On a regular grid H[1,dual] inverts H[0,primal] and H[0,dual] inverts H[1,primal] on both sides, and the complex arrays these functions return have zero imaginary part for real input.", "quantifier": "every n >= 2 and every real array of the right length", "why_tests_cant": "Tests evaluate a handful of grid sizes on random arrays with allclose; the claim ranges over every size and every real array. Only n=3..6 are tried.", "anchors": ["dec/regular.py: H0_regular, H1_regular, H0d_regular, H1d_regular", "dec/spectral.py: mirror0, mirror1, unmirror0, unmirror1, I_space, I_space_inv, A_diag"]}
{"id": "C04", "title": "Regular-grid Hodge star is exact on cosine polynomials", "statement": "On the default regular grid [0,pi], H[0,t](P[0,t](f)) = P[1,not t](f) and H[1,t](P[1,t](f)) = P[0,not t](f) for cosine polynomials f of degree at most n-1 (primal points) or n-2 (dual points).", "quantifier": "every n >= 2 and every cosine polynomial of the stated degree", "why_tests_cant": "No test at all covers exactness on regular grids.", "anchors": ["dec/regular.py: make, H0_regular, H1_regular, H0d_regular, H1d_regular"]}
{"id": "C05", "title": "Chebyshev Hodge stars are mutually inverse", "statement": "On a Chebyshev grid H[1,dual] inverts H[0,primal] on both sides for every size; H[1,primal] inverts H[0,dual] on both sides for up to 927 vertices. H[0,dual] is injective for every size, so the inverse exists, but from 928 vertices on H[1,primal] rejects every form with ValueError 'Singular operator' (a defect: the tolerance of fourier_K_inv).", "quantifier": "every n >= 2 (927 being the exact limit) and every real array of the right length", "why_tests_cant": "Tests evaluate a handful of grid sizes on random arrays with allclose; the claim ranges over every size and every real array. Only n=3..6 are tried.", "anchors": ["dec/chebyshev.py: H0_cheb, H1_cheb, H0d_cheb, H1d_cheb", "dec/spectral.py: fourier_K, fourier_K_inv, fold0, half_edge_base, matB, matB1, matC, Omega_d"]}
{"id": "C06", "title": "Chebyshev Hodge star is exact on polynomials", "statement": "On the default Chebyshev grid [-1,1], H[0,primal](P[0,primal](p)) = P[1,dual](p) and H[1,dual](P[1,dual](p)) = P[0,primal](p) for deg p < n; H[0,dual](P[0,dual](p)) = P[1,primal](p) and, with at most 927 vertices, H[1,primal](P[1,primal](p)) = P[0,dual](p) for deg p < n-1.", "quantifier": "every n >= 2 and every real polynomial of the stated degree", "why_tests_cant": "Tests use x^4 and x^2+1 on n=11.", "anchors": ["dec/chebyshev.py: make, H0_cheb, H1_cheb, H0d_cheb, H1d_cheb", "dec/common.py: projection"]}
{"id": "C07", "title": "Primal derivative commutes with projection", "statement": "D[0,primal](P[0,primal](f)) = P[1,primal](f') on periodic, regular and Chebyshev grids (periodic: for f with f(xmin)=f(xmax)).", "quantifier": "every n (>=1 periodic, >=2 otherwise), every interval xmin < xmax, every continuously differentiable f", "why_tests_cant": "Infinitely many functions, sizes and intervals; tests use sin, cos, x, x^3.", "anchors": ["dec/periodic.py: make D", "dec/regular.py: make D", "dec/chebyshev.py: make D", "dec/common.py: projection", "dec/integrate.py: slow_integration"]}
{"id": "C08", "title": "Dual derivative plus boundary condition commutes with projection", "statement": "D[0,dual](P[0,dual](f)) + boundary_condition(f) = P[1,dual](f') on regular and Chebyshev grids; on periodic grids the same holds without the boundary term for periodic f.", "quantifier": "every n >= 2 (periodic n >= 1), every interval, every continuously differentiable f", "why_tests_cant": "Infinitely many functions and sizes; a sign error at one end of an asymmetric function is easy to miss.", "anchors": ["dec/grid1.py: boundary_condition", "dec/periodic.py: make", "dec/regular.py: make", "dec/chebyshev.py: make"]}
{"id": "C09", "title": "Primal and dual derivatives are negative adjoints", "statement": "For every primal 0-form a and dual 0-form b, sum((D a)*b) = -sum(a*(DD b)); derivative_matrix(n) returns exactly the matrices of the two operators.", "quantifier": "all three 1-D grid kinds, every size, all real arrays a and b", "why_tests_cant": "Tests evaluate a handful of grid sizes on random arrays with allclose; the claim ranges over every size and every real array.", "anchors": ["dec/periodic.py: make, derivative_matrix", "dec/regular.py: make", "dec/chebyshev.py: make", "dec/helper.py: sparse_matrix"]}
{"id": "C10", "title": "Discrete Stokes theorem in 1-D", "statement": "The sum of the entries of a derivative is the boundary value: 0 for periodic grids and for dual derivatives on interval grids, last minus first for primal derivatives on interval grids; the derivative of a constant primal 0-form is zero, and only constants have zero derivative.", "quantifier": "all grid kinds, sizes and real arrays", "why_tests_cant": "Tests evaluate a handful of grid sizes on random arrays with allclose; the claim ranges over every size and every real array.", "anchors": ["dec/periodic.py: make", "dec/regular.py: make", "dec/chebyshev.py: make"]}
{"id": "C11", "title": "Array lengths match the advertised N table in 1-D", "statement": "Every cell array, projection, derivative, Hodge star, refinement, unrefinement, wedge and contraction returns an array whose length is the grid's N[degree, isprimal] of its codomain (or the number of refined points).", "quantifier": "every grid kind and size, every operator, every input of the right length (Chebyshev operators built on H[1,primal]: n <= 927, see C05)", "why_tests_cant": "Shape bugs show up only at particular parities or tiny sizes.", "anchors": ["dec/periodic.py: make", "dec/regular.py: make", "dec/chebyshev.py: make", "dec/grid1.py: Grid_1D"]}
{"id": "C12", "title": "Cells partition the interval", "statement": "Primal edges are consecutive intervals from xmin to xmax between consecutive primal vertices; each dual vertex lies strictly inside its primal edge; dual edges are consecutive, run between consecutive dual vertices and (interval grids) start at xmin and end at xmax; points lists primal and dual vertices in increasing order. The lengths g.delta reported by a grid (primal and dual) are exactly the lengths of its edges, edge by edge.", "quantifier": "every grid kind, every n and every interval xmin < xmax", "why_tests_cant": "Monotonicity of Chebyshev points for every n cannot be enumerated.", "anchors": ["dec/periodic.py: make", "dec/regular.py: make", "dec/chebyshev.py: make", "dec/grid1.py: points"]}
{"id": "C13", "title": "Periodic basis functions are dual to the projections", "statement": "P[d,t](B[d,t](j)) is the j-th unit vector for d in {0,1} and t primal or dual: 0-form basis functions are cardinal functions of the vertices and 1-form basis functions integrate to 1 on their own edge and 0 on all others.", "quantifier": "the default interval, every n >= 1 and every pair of indices", "why_tests_cant": "test_basis_functions tries n=3,4,5 with numerical quadrature.", "anchors": ["dec/spectral.py: alpha0, beta0, alpha, beta, phi0, phi1, phid0, phid1", "dec/periodic.py: make B"]}
{"id": "C14", "title": "Regular basis functions are dual to the projections", "statement": "Same as above for the regular grid's kappa0, kappa1_symm, kappad0 and kappad1_symm, including the two half edges at the boundary.", "quantifier": "the default interval, every n >= 2 and every pair of indices", "why_tests_cant": "test_basis_functions tries n=3,4,5.", "anchors": ["dec/spectral.py: kappa0, kappa1_symm, kappad0, kappad1_symm", "dec/regular.py: make B"]}
{"id": "C15", "title": "Chebyshev basis functions are dual to the projections", "statement": "Same as above for psi0, psi1, psid0 and psid1, including the boundary half-edge functions delta and the correction rho built from gamma.", "quantifier": "the default interval, every n >= 2 and every pair of indices", "why_tests_cant": "test_basis_functions tries n=3,4,5.", "anchors": ["dec/spectral.py: psi0, psi1, psid0, psid1, kappa1, kappad1, delta, rho, gamma", "dec/chebyshev.py: make B"]}
{"id": "C16", "title": "Projecting a reconstruction returns the coefficients", "statement": "P[d,t](R[d,t](a)) = a, for Grid_1D.reconstruction (for the R property of a discrete form see C93).", "quantifier": "all three grid kinds on their default intervals, every size, all degrees and both dualities, every real array", "why_tests_cant": "Tests use one random vector for n=2,3,4.", "anchors": ["dec/spectral.py: reconstruction", "dec/decform.py: R", "dec/grid1.py: reconstruction"]}
{"id": "C17", "title": "Chebyshev 0-form basis functions are the Lagrange polynomials of the vertices", "statement": "psi0(n,i,x) equals the i-th Lagrange polynomial of the primal vertices, and psid0(n,i,x) that of the dual vertices, wherever the code does not divide zero by zero.", "quantifier": "every n >= 2 (psid0: n >= 3, since lagrange_polynomials raises on a single point), every i, every x in [-1,1]", "why_tests_cant": "A continuum of x and all n.", "anchors": ["dec/spectral.py: psi0, psid0, lagrange_polynomials", "dec/chebyshev.py: make"]}
{"id": "C18", "title": "Unrefinement inverts refinement", "statement": "refine.U[d,t](refine.T[d,t](a)) = a.", "quantifier": "periodic n >= 1 and Chebyshev n >= 2 (for primal 1-forms n <= 927, see C05), d in {0,1}, t primal or dual, every real array", "why_tests_cant": "Doctests use three arrays of lengths 8, 9, 10; even lengths lose the Nyquist mode under S so parity matters.", "anchors": ["dec/periodic.py: to_refine, from_refine", "dec/chebyshev.py: to_refine, from_refine", "dec/helper.py: interweave"]}
{"id": "C19", "title": "Refinement samples the form at the grid points", "statement": "refine.T[d,t](P[d,t](f)) = f(points) and refine.U[d,t](f(points)) = P[d,t](f) for resolvable f (trigonometric polynomials of degree < n/2, polynomials of degree < n or < n-1).", "quantifier": "default intervals, every size (Chebyshev primal 1-forms: n <= 927, see C05), all degrees and dualities, every resolvable f", "why_tests_cant": "Tests use five functions.", "anchors": ["dec/periodic.py: to_refine, from_refine", "dec/chebyshev.py: to_refine, from_refine, S_cheb, S_cheb_pinv"]}
{"id": "C20", "title": "Discrete wedge product is graded commutative and bilinear", "statement": "W[(k,s),(l,t),u](a,b) = (-1)^(k l) W[(l,t),(k,s),u](b,a), additive and homogeneous in each argument, in 1-D and 2-D.", "quantifier": "every grid with a wedge: periodic and Chebyshev (up to 927 vertices) and their products, all degrees with k+l <= dimension, all dualities, all arrays", "why_tests_cant": "Tests never check commutativity of the discrete product.", "anchors": ["dec/common.py: wedge", "dec/grid2.py: wedge", "dec/symbolic.py: antisymmetrize_wedge, wedge_1d, wedge_2d"]}
{"id": "C21", "title": "Discrete wedge product is exact when the product is resolved", "statement": "W[(k,s),(l,t),u](P[k,s](f), P[l,t](g)) = P[k+l,u](f g) when f and g are resolvable with deg f, deg g < n/2 (periodic), or resolvable polynomials with deg f + deg g within the refined grid (Chebyshev).", "quantifier": "default intervals, every size (Chebyshev with primal 1-forms: n <= 927, see C05), all dualities, all such f and g", "why_tests_cant": "One pair of functions is tested.", "anchors": ["dec/common.py: wedge", "dec/periodic.py: to_refine, from_refine", "dec/chebyshev.py: to_refine, from_refine"]}
{"id": "C22", "title": "Leibniz rule on periodic grids", "statement": "D(W(a,b)) = W(D a, b) + W(a, D b) for two 0-forms a and b on any sides, with the product taken on any side (for primal forms: D(W00(a,b)) = W01(a, D b) + W10(D a, b)).", "quantifier": "every n >= 1, even and odd, all real arrays a and b", "why_tests_cant": "Tested for n=7 with one random pair; even n has a Nyquist mode whose square aliases.", "anchors": ["dec/common.py: wedge", "dec/periodic.py: make, to_refine, from_refine"]}
{"id": "C23", "title": "The spectral Laplacian is exact", "statement": "laplacian(g) applied to the samples of a resolvable function returns the samples of its second derivative, on primal and on dual vertices; on periodic grids L has exactly the constants as kernel.", "quantifier": "every periodic n >= 1, every trigonometric polynomial of degree < n/2, every array", "why_tests_cant": "No test exercises laplacian.", "anchors": ["dec/spectral.py: laplacian", "dec/periodic.py: make"]}
{"id": "C24", "title": "Discrete contraction is exact when resolved", "statement": "C[s,(1,t),u](P[1,s](X), P[1,t](f)) = P[0,u](X f) for resolvable 1-forms with resolved product; contraction is bilinear.", "quantifier": "default intervals, every size (Chebyshev with primal 1-forms: n <= 927, see C05), all dualities, all such X and f; bilinearity for all arrays, in 1-D and 2-D", "why_tests_cant": "One pair of functions is tested, and the 1-D periodic test calls W rather than C.", "anchors": ["dec/common.py: contraction", "dec/symbolic.py: contraction_1d"]}
{"id": "C25", "title": "d(d f) = 0 in 2-D", "statement": "On every product grid D[1,t](D[0,t](f)) = 0 for primal and dual 0-forms.", "quantifier": "every pair of 1-D grids (any kinds, any sizes >= 1 or 2), t primal or dual, every real array", "why_tests_cant": "Tests evaluate a handful of grid sizes on random arrays with allclose; the claim ranges over every size and every real array.", "anchors": ["dec/grid2.py: derivative, reshapeO, flatten_grid, Grid_2D.product"]}
{"id": "C26", "title": "2-D Hodge star squares to (-1)^(k(2-k))", "statement": "H[2-k, not t](H[k, t](a)) = a for k = 0, 2 and = -a for k = 1.", "quantifier": "every product of periodic, regular and Chebyshev grids (Chebyshev factors up to 927 vertices, see C05), all sizes, t primal or dual, every array", "why_tests_cant": "Checked only on projections of two functions.", "anchors": ["dec/grid2.py: hodge_star, apply_operators, reshapeO"]}
{"id": "C27", "title": "2-D derivative (plus boundary term) commutes with projection", "statement": "P(d f, primal) = D(P(f, primal)) and P(d f, dual) = D(P(f, dual)) + BC(f), for 0-forms and 1-forms (on periodic axes for functions periodic along that axis, where BC contributes nothing).", "quantifier": "every product grid, every smooth form", "why_tests_cant": "Infinitely many forms; orientation signs on the four sides must all agree.", "anchors": ["dec/grid2.py: symprojection, symboundary, derivative, product_cells, boundary_condition"]}
{"id": "C28", "title": "Flattening and unflattening 2-D forms lose nothing", "statement": "unshape and reshape are inverse to each other on block arrays; unravel_idx(i, shape) returns the block and row/column at which arange2(shape) holds i, for exactly the indices in range, and raises ValueError otherwise; countshape and cumul_index agree with the lengths.", "quantifier": "all shapes, all arrays, all indices", "why_tests_cant": "Doctests try three indices of one shape.", "anchors": ["dec/grid2.py: unshape, reshape, arange2, unravel_idx, cumul_index, countshape"]}
{"id": "C29", "title": "Array lengths match the advertised N table in 2-D", "statement": "On every product grid the flat cell arrays, projections, derivatives, Hodge stars, wedges and contractions have length N[degree, isprimal] of their codomain.", "quantifier": "all products of grids of the three kinds and all sizes (stars of Chebyshev factors up to 927 vertices, see C05; wedge and contraction for factors that have a wedge product), all operators and arrays", "why_tests_cant": "check_N tries four sizes and only projections of zero forms.", "anchors": ["dec/grid2.py: flatten_grid, flatten_cells, countshape, derivative, hodge_star"]}
{"id": "C30", "title": "Arithmetic on discrete forms respects type and grid", "statement": "Sum, difference, product, quotient and negation of discrete forms act entrywise, keep degree, duality and grid, satisfy the vector-space laws, and are rejected when the operands differ in degree, duality or grid; wedge and contraction are rejected across grids. Arrays of the wrong length are rejected with ValueError, except that a length-1 array on either side is silently broadcast to the length of the other (a defect).", "quantifier": "all forms and scalars (quotients: no zero in the divisor)", "why_tests_cant": "Algebraic laws over all forms.", "anchors": ["dec/decform.py: decform_factory"]}
{"id": "C31", "title": "The derivative of a top-degree form", "statement": "In one dimension D of a 1-form is the integer 0 and D of a 0-form is an array. In two dimensions D of a 2-form, which should be 0 as well, raises TypeError for every 2-form (a defect: the integer 0 is handed to unshape), although the block derivative before flattening does return 0.", "quantifier": "all grids of the three kinds and all their products, all sizes, all forms of top degree", "why_tests_cant": "No test takes the derivative of a 2-form on a 2-D grid.", "anchors": ["dec/decform.py: D", "dec/grid2.py: derivative, reshapeO, unshape", "dec/periodic.py: make D"]}
{"id": "C32", "title": "Symbolic exterior derivative squares to zero and obeys Leibniz", "statement": "D(D(f)) = 0, and D(a ^ b) = D(a) ^ b + (-1)^k a ^ D(b) for every k-form a and every form b of total degree below the dimension (beyond it the products on the right are rejected, C33).", "quantifier": "all symbolic forms in one and two dimensions", "why_tests_cant": "All expressions.", "anchors": ["dec/symbolic.py: derivative_1d, derivative_2d, D, W", "dec/symform.py: D, W"]}
{"id": "C33", "title": "Symbolic wedge product is associative and graded commutative", "statement": "(a ^ b) ^ c = a ^ (b ^ c) and a ^ b = (-1)^(k l) b ^ a whenever the total degree is at most the dimension; a ^ a = 0 for 1-forms in two dimensions; a total degree above the dimension is rejected with KeyError, forms on different charts with AssertionError.", "quantifier": "all symbolic forms in one and two dimensions", "why_tests_cant": "All expressions.", "anchors": ["dec/symbolic.py: wedge_1d, wedge_2d, antisymmetrize_wedge", "dec/symform.py: W"]}
{"id": "C34", "title": "Symbolic Hodge star, inner product and contraction laws", "statement": "H(H(f)) = (-1)^(k(n-k)) f; Dot is symmetric and Dot(a,b) is the sum of products of components; C(X, f) = H(W(X, H(f))) for k >= 1; C(X, C(X, f)) = 0.", "quantifier": "all symbolic forms in one and two dimensions", "why_tests_cant": "All expressions.", "anchors": ["dec/symbolic.py: hodge_star_1d, hodge_star_2d, contraction_1d, contraction_2d, Dot, C, H", "dec/symform.py: H, C"]}
{"id": "C35", "title": "Laplacian, Lie derivative, grad, div, vort and adv compute the vector-calculus formulas", "statement": "Laplacian acts as d2/dx2 + d2/dy2 on every component of every form; Lie(X, f) is the usual Lie derivative in each degree and commutes with D; div(grad f) is the Laplacian, vort(grad f) = 0; adv(V) = (V . grad) V.", "quantifier": "all symbolic forms and vector fields in two dimensions", "why_tests_cant": "All expressions.", "anchors": ["dec/symbolic.py: Laplacian, Lie, grad, div, vort, adv"]}
{"id": "C36", "title": "Arithmetic of symbolic forms", "statement": "Sums, differences and negatives of symbolic forms act on the components and forms of different degree or on different charts are rejected with AssertionError; c*f, which should have components c times those of f, raises TypeError for every scalar and every form (a defect).", "quantifier": "all forms and scalars", "why_tests_cant": "No test multiplies a form by a scalar from the left.", "anchors": ["dec/symform.py: __rmul__, __add__, __sub__, __neg__"]}
{"id": "C37", "title": "Schur-complement solver solves the block system", "statement": "Minv(f, g) from schur(Ainv, B, C, D) and from the operator variant returns (x, l) with A x + B l = f and C x + D l = g, whenever Ainv inverts A and the Schur complement is invertible; it is the unique solution; a singular Schur complement is rejected.", "quantifier": "all dimensions n, m >= 0, all matrices and right-hand sides", "why_tests_cant": "Random matrices of five shapes.", "anchors": ["dec/schur.py: schur"]}
{"id": "C38", "title": "fourier_K and fourier_K_inv are mutually inverse, and singular operators are rejected", "statement": "fourier_K_inv(fourier_K(x,a,b),a,b) is x unless it raises ValueError, and any y returned by fourier_K_inv(x,a,b) solves fourier_K(y,a,b) = x; if fourier_K(.,a,b) is not injective on arrays of that length, fourier_K_inv raises ValueError on all of them. The converse fails (a defect): for every even length from 1854 on and (a,b) = (0, one cell) fourier_K is injective but fourier_K_inv raises on every array.", "quantifier": "every length N >= 1, all a, b with nonzero integration weights, every complex array", "why_tests_cant": "Tested for N=4..9 with b=h/2.", "anchors": ["dec/spectral.py: fourier_K, fourier_K_inv, I_diag"]}
{"id": "C39", "title": "Memoised evaluation is transparent", "statement": "Whatever the history of calls, exceptions, process exits and restarts, a memoised call returns exactly what the wrapped function returns on the same argument (given that decoding inverts encoding on results and equal keys mean equal results).", "quantifier": "all histories of calls and sessions (whose commits do not overlap in time; see C79)", "why_tests_cant": "All histories and crash points.", "anchors": ["dec/data.py: memoize", "dec/integrate.py: process"]}
{"id": "C40", "title": "Memoised evaluation computes each key at most once and survives clean restarts and crashes outside commits", "statement": "Within a session, and across clean exits of one process at a time, each key is computed at most once; a crash outside a commit loses at most the entries added since the last clean exit, and later sessions start; after any history a process running alone commits its table by a clean exit and the next session starts with exactly that table. Two limits of the code: a crash between truncation and completion of the file makes every later start raise a JSON error until a surviving process commits, and of two processes running at the same time the last to exit overwrites what the other one committed.", "quantifier": "all histories of starts, calls, exits and crashes at any point of any number of processes (whose commits do not overlap in time; see C79)", "why_tests_cant": "All crash points, including the middle of writing the file.", "anchors": ["dec/data.py: memoize, setitem, getitem"]}
{"id": "C41", "title": "The data store behaves like a map from names to JSON values", "statement": "For names none of which lies below another, every sequence of assignments, reads and deletions gives the outcomes of a plain map. After d[name] = v, d[name] returns v (arrays and tuples come back as lists) and other names are unaffected; deleting a name makes it absent; reading an absent name raises FileNotFoundError; only empty directories can be deleted; storing a value that is not JSON serialisable raises TypeError and destroys what was stored under the name (a defect).", "quantifier": "all sequences of set, get and delete on all names and values", "why_tests_cant": "All operation sequences.", "anchors": ["dec/data.py: Data, getitem, setitem, delitem, JSONEncoder"]}
{"id": "C42", "title": "Quadrature rules are exact on low-degree polynomials", "statement": "integrate_simpson is exact on polynomials of degree <= 3 and integrate_boole on degree <= 5, on every interval; integrate_boole1 gives the integral over each consecutive pair of points.", "quantifier": "all polynomials of the stated degree, all endpoints", "why_tests_cant": "Doctests try x and x^4 on [0,1].", "anchors": ["dec/integrate.py: integrate_simpson, integrate_boole, integrate_boole1"]}
{"id": "C43", "title": "Polygon integration of 2-forms", "statement": "integrate_2form of the constant 1 over a polygon is its signed (shoelace) area for any vertex list with at least one vertex, and an IndexError for an empty one; on an axis-parallel rectangle it is the iterated integral of f over the rectangle.", "quantifier": "all polygons with at least three vertices; all continuous f on rectangles", "why_tests_cant": "Doctests try one triangle and the unit square.", "anchors": ["dec/integrate.py: integrate_2form, _integrate_2form"]}
{"id": "C44", "title": "Line and triangle integration formulas", "statement": "integration_2d.P1 and integrate_1form of a gradient along any segment give the difference of the end values, reversing the segment flips the sign; P2 of the constant c is c times the signed triangle area and changes sign under swapping two vertices; the numerical integrals n_integration_1d.P1 over consecutive cells are the differences of any antiderivative and add up to the integral from the first to the last point; averages_1d and averages_2d are these integrals divided by the length or area (A1 of each component for a line integral), so constants average to themselves and functions of degree one to their value at the midpoint or centroid.", "quantifier": "all segments, triangles and continuously differentiable functions", "why_tests_cant": "All segments and functions.", "anchors": ["dec/integrate.py: averages_1d, averages_2d, integration_2d, n_integration_2d, integrate_1form, integration_1d"]}
{"id": "C45", "title": "Mirror, fold and extension operators have their stated inverses", "statement": "unmirror0(mirror0(f,s)) = f, unmirror1(mirror1(f,s)) = f, fold1(mirror1(f,s),s) = 2f, fold0(unfold0(f),-1) = f; mirror images have the stated (anti)symmetry; unextend(extend(f,n),n) = f for 1 <= n <= len(f), while n = 0 and n > len(f) make unextend raise ValueError.", "quantifier": "all arrays of valid length, both signs, all extension widths n >= 0", "why_tests_cant": "Doctests use one array each.", "anchors": ["dec/spectral.py: mirror0, mirror1, unmirror0, unmirror1, fold0, fold1, unfold0, extend, unextend, _extend, _unextend"]}
{"id": "C46", "title": "Half-cell shift", "statement": "S interpolates to the points shifted by half a cell and Sinv undoes it exactly for odd lengths; S, Sinv, H and Hinv commute; for resolvable f, S(f(x)) = f(x+h/2); S_cheb after S_cheb_pinv is the identity.", "quantifier": "every length, every real array; resolvable functions", "why_tests_cant": "Tested on one array of length 11 and sin on 12 points; the even case fails for the Nyquist mode.", "anchors": ["dec/spectral.py: S, Sinv, H, Hinv, refine", "dec/chebyshev.py: S_cheb, S_cheb_pinv"]}
{"id": "C47", "title": "to_matrix represents linear operators", "statement": "For linear f, to_matrix(f,N) times x equals f(x) for all x, and two linear operators with the same matrix agree.", "quantifier": "all sizes, all linear operators and all arrays", "why_tests_cant": "Doctests try the identity and a roll.", "anchors": ["dec/helper.py: to_matrix, to_matrix_by_index"]}
{"id": "C48", "title": "Spectral integrators are exact on resolvable functions", "statement": "integrate_spectral_coarse and integrate_spectral return the integrals over consecutive cells for resolvable trigonometric polynomials; integrate_chebyshev does so for polynomials. split_args turns an integrator of consecutive points into one of the starts and ends of the cells: with the edges and dual edges of periodic and Chebyshev grids the integrators return the numbers of P1 and P1d; arrays whose cells do not follow one another (up to 1.5e-7) are an AssertionError.", "quantifier": "all grids covering 2 pi, all trigonometric polynomials below the resolution", "why_tests_cant": "Four grid sizes and two functions.", "anchors": ["dec/spectral.py: integrate_spectral_coarse, integrate_spectral, integrate_chebyshev, integrate_chebyshev_dual, subdivide, split_args"]}
{"id": "C49", "title": "Combinatorics of degrees", "statement": "nCr(n,r) is the binomial coefficient for r <= n and raises otherwise; operators_by_degree and operators enumerate exactly the well-typed operators of dimension n with the right domains and codomains.", "quantifier": "all n and r", "why_tests_cant": "Doctests stop at n=3.", "anchors": ["dec/helper.py: nCr", "dec/forms.py: operators, operators_by_degree, operators_lambda"]}
{"id": "C50", "title": "Lagrange polynomials are cardinal", "statement": "lagrange_polynomials(x)[i](x[j]) is 1 if i=j and 0 otherwise for at least two distinct points, each is a polynomial of degree < len(x), and interpolation of polynomials of degree < len(x) is exact. A single point raises TypeError and a repeated point divides by zero.", "quantifier": "all lists of points", "why_tests_cant": "One list of three points.", "anchors": ["dec/spectral.py: lagrange_polynomials"]}
{"id": "C51", "title": "What the Hodge stars compute on a stretched interval", "statement": "On a grid over [xmin,xmax], H[0,t](P[0,t](f)) is P[1,not t](f) divided by r and H[1,not t](P[1,not t](f)) is P[0,t](f) times r, where r is (xmax-xmin) divided by the default length (2 pi, pi, 2). So the expected law H[0,t](P[0,t](1)) = P[1,not t](1) holds exactly when xmax-xmin is the default length: the stars ignore the interval (a defect).", "quantifier": "all three kinds of grids, all intervals xmin < xmax, all sizes, both dualities, all functions the grid resolves", "why_tests_cant": "Every test uses the default interval.", "anchors": ["dec/periodic.py: make", "dec/regular.py: make", "dec/chebyshev.py: make"]}
{"id": "C52", "title": "interweave preserves the values of both arrays", "statement": "interweave(a,b)[0::2] = a and interweave(a,b)[1::2] = b whenever len(a) is len(b) or len(b)+1 and b is a float array or a an integer array; other lengths are rejected. The result has the element type of b: with an integer array b the entries of a float array a are truncated towards zero (a defect).", "quantifier": "all 1-D arrays, integer or float", "why_tests_cant": "Doctests use integers only; refinement of an integer array mixes types.", "anchors": ["dec/helper.py: interweave"]}
{"id": "C53", "title": "2-D basis functions are dual to the 2-D projections", "statement": "On a product of default-interval grids the numerical projection of the basis form with flat index m is the m-th unit vector, in every degree and duality; an index out of range is rejected; projecting a reconstruction gives the coefficients back.", "quantifier": "all products of two default-interval grids of the three kinds, all sizes, degrees 0,1,2, both dualities, all indices and coefficient arrays", "why_tests_cant": "Tested for 2x2 and 3x3 periodic grids only.", "anchors": ["dec/grid2.py: basis_fn, reshapeB, unravel_idx, numprojection"]}
{"id": "C54", "title": "2-D refinement round trip", "statement": "refine.U[d,t](refine.T[d,t](a)) = a on product grids whose 1-D factors have that property.", "quantifier": "all products of periodic and Chebyshev grids (Chebyshev factors up to 927 vertices, see C05), degrees 0, 1, 2, both dualities, all arrays", "why_tests_cant": "Never tested directly on arbitrary arrays.", "anchors": ["dec/grid2.py: to_refine, from_refine, reshapeT, reshapeU"]}
{"id": "C55", "title": "Structured, flat and numeric boundary conditions and projections agree", "statement": "The block-array boundary term (BC) and the flat boundary_condition() give the same numbers, and the symbolic, numeric and flat projections of the same form agree; on grids with a periodic axis the flat boundary_condition() of a 1-form raises ValueError instead (a defect).", "quantifier": "all product grids of the three kinds, all forms", "why_tests_cant": "One or two forms are compared.", "anchors": ["dec/grid2.py: boundary_condition, symboundary, projection_2d, symprojection, numprojection, flatten_cells"]}
{"id": "C56", "title": "What == means on discrete forms", "statement": "x == y holds for forms of the same degree, duality and grid exactly when every entry satisfies |x_i - y_i| <= 1e-8 + 1e-5 |y_i|; it is False for forms of different degree, duality or grid; != is its negation. The relation is reflexive but neither symmetric nor transitive.", "quantifier": "all pairs of discrete forms of any sizes and values", "why_tests_cant": "Tests only use == as an assertion on a few forms; a relation's algebraic laws range over all pairs and triples.", "anchors": ["dec/decform.py: __eq__, __ne__"]}
{"id": "C57", "title": "Operators on discrete forms are well typed and satisfy D.D = 0 and H.H = +-1", "statement": "Starting from forms whose arrays have the length their grid advertises, F.D, F.H, F.W(G), F ^ G and F.C(G) give forms of the right degree, side and grid whose arrays again have the advertised length, or are rejected; the second derivative vanishes; H applied twice is the identity up to the sign (-1)^(d(n-d)); a wedge whose degrees add to more than the dimension is rejected; in two dimensions the derivative of a 2-form raises TypeError (a defect) while in one dimension the derivative of a 1-form is 0.", "quantifier": "all 1-D grids of the three kinds and all their 2-D products, all sizes, all well-formed forms (stars of Chebyshev factors up to 927 vertices, see C05; products on grids that have them), hence all chains of operators", "why_tests_cant": "Chains of operators are unbounded and lengths depend on kind, degree and duality; tests exercise a few chains on fixed sizes.", "anchors": ["dec/decform.py: D, H, W, C, __xor__", "dec/grid1.py: Grid_1D", "dec/grid2.py: Grid_2D"]}
{"id": "C58", "title": "2-D Hodge star is exact on resolved forms", "statement": "On a product of default 1-D grids, the Hodge star of the projection of a form whose components are sums of products of functions resolved by the factors is the projection, on the other side, of the continuous Hodge star: *f = f dx^dy, *(f dx + g dy) = -g dx + f dy, *(f dx^dy) = f.", "quantifier": "all products of periodic, regular and Chebyshev grids of all sizes (Chebyshev factors up to 927 vertices), both sides, all degrees, all resolved forms", "why_tests_cant": "Exactness is a statement about infinitely many grids and an infinite dimensional family of forms; tests check a few forms on a few grids, and a sign or an axis swapped in one degree or side can cancel in the double star test.", "anchors": ["dec/grid2.py: hodge_star", "dec/grid2.py: Grid_2D"]}
{"id": "C59", "title": "2-D refinement samples resolved forms at g.points", "statement": "On a product of periodic and Chebyshev grids, refining the projection of a resolved form gives the values of its components at g.points, and unrefining the values of a form at g.points gives its projection, also for integrands of up to about twice the resolution.", "quantifier": "all products of periodic and Chebyshev grids of all sizes (Chebyshev factors up to 927 vertices), all degrees and sides, all resolved forms", "why_tests_cant": "Ranges over all grids and an infinite family of forms.", "anchors": ["dec/grid2.py: refine, unrefine, points"]}
{"id": "C60", "title": "2-D wedge product is exact on resolved forms", "statement": "On a product of periodic and Chebyshev grids, the discrete wedge of the projections of two resolved forms, of any degrees with sum at most 2, on any sides, with the result on any side, is the projection of their exterior product whenever that product can be unrefined; on products of periodic grids that is always so.", "quantifier": "all such grids on the default intervals, of all sizes (Chebyshev factors up to 927 vertices), all degrees and sides, all resolved forms", "why_tests_cant": "Ranges over all grids, sides and forms; swapped operands or a wrong sign of one component only show up on particular forms.", "anchors": ["dec/grid2.py: wedge"]}
{"id": "C61", "title": "2-D contraction is exact on resolved forms", "statement": "On a product of periodic and Chebyshev grids, the discrete contraction of the projection of a vector field X dx + Y dy and the projection of a 1-form (f, g) is the projection of X f + Y g, and with a 2-form f dx^dy that of -Y f dx + X f dy, whenever the result can be unrefined; on products of periodic grids always.", "quantifier": "all such grids on the default intervals, of all sizes (Chebyshev factors up to 927 vertices), degrees 1 and 2, all sides, all resolved forms and fields", "why_tests_cant": "Ranges over all grids, sides and forms.", "anchors": ["dec/grid2.py: contraction"]}
{"id": "C62", "title": "2-D Leibniz rule for all discrete forms", "statement": "On a product of periodic grids, d(a^b) = da^b + (-1)^deg(a) a^db exactly, for all arrays a, b of the advertised lengths with degrees adding to at most 1, on any sides and with the result on any side.", "quantifier": "all sizes n, n' >= 1 (odd and even), all arrays, all eight combinations of sides", "why_tests_cant": "The identity ranges over all arrays; the library has no test of it, and it depends on the refined grid having enough points to integrate products of interpolants exactly.", "anchors": ["dec/grid2.py: wedge, derivative"]}
{"id": "C63", "title": "Explicit periodic wedge products", "statement": "wedge_explicit() returns w00, w01, _w01. w00 is the grid's wedge of primal 0-forms for every n. w01 is the grid's wedge of a primal 0-form and a primal 1-form for odd n; for even n it is not (it sends 1 ^ alternating to 0 instead of alternating). _w01, documented as associative, satisfies _w01(a, _w01(b, c)) = _w01(w00(a, b), c) for every odd n and violates it for every even n >= 2; it equals the projection of the product, and the grid's wedge, when the product of the coefficient functions is below the Nyquist frequency, and differs from the grid's wedge for some arrays for every n >= 2.", "quantifier": "every n, all real arrays of length n; all trigonometric polynomials with deg f + deg g < n/2", "why_tests_cant": "No test calls these functions; the parity dependence shows only on the Nyquist mode.", "anchors": ["dec/periodic.py: wedge_explicit", "dec/common.py: wedge"]}
{"id": "C64", "title": "Associativity of the wedge product on periodic grids", "statement": "W(W(f,g),h) = W(f,W(g,h)) = P(f g h) for projections of trigonometric polynomials whose pairwise products deg f + deg g and deg g + deg h are below n/2, on any sides and with at most one 1-form; without that condition the wedge product is not associative for any n >= 2.", "quantifier": "every n, all sides, all such f, g, h; for the negative part every n >= 2", "why_tests_cant": "No test checks associativity; failures occur only for under-resolved products.", "anchors": ["dec/common.py: wedge", "dec/periodic.py: to_refine, from_refine"]}
{"id": "C65", "title": "The example flows solve the pressure equation", "statement": "For each of the five pairs (V[i], p[i]) of the module, div(V[i]) = 0 and div(adv(V[i])) + div(grad(p[i])) = 0 at every point of the plane (the comment in plot says it must be zero); for i = 1, 2, 4 the flow is steady: -adv(V) - grad(p) = 0.", "quantifier": "every i, every real x and y", "why_tests_cant": "The check is commented out, and a numeric test samples points of the plane.", "anchors": ["dec/symbolic.py: V, p, adv, div, grad, plot"]}
{"id": "C66", "title": "Discretising a symbolic form commutes with the operators", "statement": "For a symbolic form f, f.P(g,t).D = f.D.P(g,t) on primal forms and f.P(g,False).D + boundary condition = f.D.P(g,False) on dual forms (for every smooth f, periodic along periodic axes); f.P(g,t).H = f.H.P(g,not t), f.P(g,s).W(h.P(g,t),u) = (f^h).P(g,u) and X.P(g,s).C(f.P(g,t),u) = X.C(f).P(g,u) for forms the grid resolves. In one dimension f.P(g,t) = g.P(f.degree,t,f.lambdify) whenever a coordinate occurs in the expression; for a constant 0-form f.P(g,t) holds a single number instead of an array. A chart and a grid of different dimensions are rejected.", "quantifier": "every symbolic form of every degree with smooth components, every grid (1-D and products, all kinds and sizes; Chebyshev up to 927 vertices for H, W and C), both sides; resolved components for H, W, C", "why_tests_cant": "The tests check a few forms on a few grids with allclose.", "anchors": ["dec/symform.py: to_discrete, form.P, form.D, form.H, form.W, form.C", "dec/grid2.py: Grid_2D.P, Grid_2D.BC", "dec/grid1.py: Grid_1D.P, boundary_condition", "dec/decform.py"]}
{"id": "C67", "title": "Poisson problems are well posed and solved exactly for resolved solutions", "statement": "The Laplacian L = H D H D of a grid has exactly the constants as kernel where no boundary values are imposed (0-forms on a periodic grid, both sides; primal 0-forms on an interval, which imposes zero flux). L a = b then has a solution iff the sum of the star of b vanishes, and exactly one solution with a prescribed value at the first point. The Laplacian of dual 0-forms on an interval (zero values at the ends) is a bijection, so the matrix inverted by the Poisson example is regular. If the exact solution is a trigonometric polynomial of degree < n/2 (periodic), a polynomial of degree < n (Chebyshev, Neumann) or <= n (Chebyshev, Dirichlet), the systems assembled by the Poisson examples have exactly one solution, and it is the array of exact values.", "quantifier": "every kind and size of grid (Chebyshev n <= 927), every right-hand side, every resolved exact solution", "why_tests_cant": "The examples plot convergence for one solution each; no finite number of solves shows unique solvability for every size and source.", "anchors": ["dec/spectral.py: laplacian, to_matrix", "dec/periodic.py, dec/regular.py, dec/chebyshev.py", "dec/grid1.py: boundary_condition", "doc/plot/cheb/poisson1d_cheb.py, doc/plot/cheb/poisson1d_periodic.py"]}
{"id": "C68", "title": "Fourier-space transforms act on the trigonometric interpolant", "statement": "Every complex array of length N is the sampling, at N equally spaced points of the circle, of exactly one sum of exponentials exp(i m x) with the N frequencies of fftfreq (its interpolant). On such samples T_space(a) and S_space(a) are the translation by a and their inverses the translation by -a; I_space(a,b) gives the exact integrals over [x+a, x+b]; I_space_inv(a,b) undoes it, and I_space is injective, exactly when a differs from b and no non-zero frequency completes a whole number of periods in b-a (true for every step with N(b-a) < 4 pi); K_space(a,b) gives the exact integrals against the sine and K_space_inv undoes it or raises ValueError; E_space(n) gives the values of the interpolant on N+2n points, E_space_inv(n), for 1 <= n <= N/3, the values of the interpolant of the fine grid on N-2n points (resolved there or not); it undoes E_space(n) on arrays of length at least n >= 1 (outside these ranges the call raises, see C45). half_edge_integrals maps the integrals of a resolved function over the cells centred at the vertices to its integral over the first half cell.", "quantifier": "every array, size, offset a, b and padding n", "why_tests_cant": "Exactness for every array and every real offset, and the exact set of steps on which the inverse exists, are statements about a continuum of inputs.", "anchors": ["dec/spectral.py: T_space, S_space, I_space, I_space_inv, K_space, K_space_inv, E_space, E_space_inv, half_edge_integrals, method_in_fourier_space"]}
{"id": "C69", "title": "The deprecated transforms and Chebyshev stars compute what the current ones do", "statement": "H_exp, H_sin and H_sin_dual give, for the interpolant p of any array, the exact integrals of p exp(i x), p sin(x) and p sin(x + h/2) over the cells centred at the points; I_sin gives sin(x) times the integral of p. Contrary to its documentation H_exp is injective for every size except one point; H_sin is singular for every size; H_sin_dual is singular exactly for odd sizes. The earlier Chebyshev stars agree with the current ones on every array of every size n >= 2: both versions of the star of primal 0-forms, the star of dual 0-forms, and the star of dual 1-forms (whose imaginary part vanishes). The earlier star of primal 1-forms is the two-sided inverse of the star of dual 0-forms for every n, also for n >= 928 where the current one raises.", "quantifier": "every array of every length", "why_tests_cant": "Agreement of two implementations and injectivity are statements about all arrays of all sizes; doctests check two arrays.", "anchors": ["dec/deprecated/spectral.py: H_exp, H_sin, H_sin_dual, I_sin, H0_cheb, H0_cheb_alternate, H1_cheb, H0d_cheb, H1d_cheb", "dec/chebyshev.py: H0_cheb, H1_cheb, H0d_cheb, H1d_cheb"]}
{"id": "C70", "title": "Reconstruction inverts projection", "statement": "On the default interval of every grid kind, in every degree and duality, 1-D and 2-D: let f lie in the space that N numbers determine (periodic: trigonometric polynomials of degree (N-1)/2, plus the cosine of frequency N/2 centred at the first node when N is even; regular: cosine polynomials of degree < N; Chebyshev: polynomials of degree < N; 2-D: sums of products). Then R(P(f)) equals f at every point of the interval, every coefficient array is the projection of exactly one such f, namely of its reconstruction. At the ends: a periodic primal 0-form is NaN at 2*pi, a Chebyshev primal 1-form is NaN at -1 and 1, and a Chebyshev dual 1-form is evaluated 1e-16 inside the interval.", "quantifier": "all grid kinds, all sizes, all degrees and dualities, all functions of the space, all points of the interval (rectangle)", "why_tests_cant": "Quantifies over every resolved function and every real evaluation point; tests project random coefficient vectors on a handful of sizes.", "anchors": ["dec/spectral.py:reconstruction", "dec/grid1.py:Grid_1D.reconstruction", "dec/grid1.py:Grid_1D.basis_fn", "dec/grid2.py:basis_fn", "dec/spectral.py:alpha0", "dec/spectral.py:psi1", "dec/spectral.py:psid1"]}
{"id": "C71", "title": "Hodge-star matrices computed from basis functions", "statement": "hodge_star_matrix(g.projection(), g.basis_fn()) returns the matrices of the four Hodge stars of the grid: multiplying any coefficient array by the matrix gives what g.dec.H returns, for periodic and regular grids exactly, for Chebyshev grids exactly for H0, H0d and (n <= 927, where the star is not rejected) H1; the two rows of the Chebyshev H1d matrix that belong to the ends of the interval are the values at -1+1e-16 and 1-1e-16 instead of -1 and 1. On the circle hodge_star_toeplitz(g) is the matrix of H0.", "quantifier": "all grid kinds, all sizes, all coefficient arrays", "why_tests_cant": "The FFT-based stars and the projections of the basis functions are unrelated code paths; tests compare them for n = 2, 3, 4 only, up to rounding.", "anchors": ["dec/spectral.py:hodge_star_matrix", "dec/periodic.py:hodge_star_toeplitz", "dec/grid1.py:Grid_1D.basis_fn", "dec/grid1.py:Grid_1D.projection", "dec/grid1.py:Grid_1D.hodge_star"]}
{"id": "C72", "title": "Integration by parts, Stokes and potentials on product grids", "statement": "On a product grid: (1) for a 0-form a on one kind of cells and a 1-form b on the other kind, sum(da_x*b_y) - sum(da_y*b_x) = -sum(a*db), where da = D(a), db = D(b) and the indices are the blocks of x-edges and y-edges; (2) the sum of D(alpha) over all faces is the circulation of alpha around the boundary (zero on dual cells and in periodic directions); (3) D(a) = 0 exactly for constants when each direction is periodic or the cells are primal, and only for a = 0 otherwise; (4) a 1-form is D of a 0-form exactly when its derivative is zero and it sums to zero along every row of x-edges and column of y-edges, a condition that drops out in a direction that is an interval with primal cells; (5) a 2-form is D of a 1-form exactly when it sums to zero, or always if some direction is an interval with primal cells. In 1-D a 1-form is a derivative exactly when it sums to zero or the cells are primal edges of an interval.", "quantifier": "all products of the three 1-D grid kinds, all sizes, intervals, primal and dual cells, and all real arrays", "why_tests_cant": "Existence of a potential for every closed form of every size cannot be sampled; tests check D(D f) = 0 for random f and never solve for a potential.", "anchors": ["dec/grid2.py: derivative, Grid_2D", "dec/periodic.py: make", "dec/regular.py: make", "dec/chebyshev.py: make"]}
{"id": "C73", "title": "Inner products and self-adjoint Laplacians on periodic and regular grids", "statement": "On a periodic or regular grid the Hodge star is symmetric and positive definite: sum(x*H(y)) = sum(y*H(x)), and sum(x*H(x)) > 0 unless x is zero, for 0- and 1-forms, primal and dual; on a product of such grids the same holds for 0- and 2-forms, and for 1-forms with the pairing of x-edges against crossing y-edges. Consequently the Laplacian of 0-forms (star, derivative, star, derivative), in one and in two dimensions, is self-adjoint and negative semidefinite for that inner product, its energy vanishes only on forms with zero derivative, and its real eigenvalues are never positive. On Chebyshev grids this fails already for three vertices: the star is not symmetric.", "quantifier": "every size, interval, degree, duality and every pair of forms on periodic and regular grids and on their products; the failure is exhibited on the three-vertex Chebyshev grid", "why_tests_cant": "symmetry and definiteness are about all pairs of vectors of every size; a stable time step for a solver relies on them", "anchors": ["dec/periodic.py: make, H0, H1", "dec/regular.py: make, H0, H1, H0d, H1d", "dec/grid1.py: Grid_1D", "dec/grid2.py: hodge_star, derivative", "dec/chebyshev.py: make"]}
{"id": "C74", "title": "Poisson problems on product grids", "statement": "On products of periodic and Chebyshev grids (default intervals, Chebyshev sizes up to 927), for every function the grid resolves (finite sums of products of trigonometric polynomials below the Nyquist frequency, or polynomials with as many coefficients as there are points): L0(P0 f) + H2d(BC1(-f_y, f_x)) = P0(\u0394f); L0d(P0d f) + H2(D1(H1d(BC0 f))) = P0d(\u0394f); L1(P1(f,g)) + H1d(BC0(curl)) + D0(H2d(BC1(-g,f))) = P1(\u0394f, \u0394g); L1d(P1d(f,g)) + H1(D0(H2d(BC1(f,g)))) + BC0(div) = P1d(\u0394f, \u0394g), where L0 = H2d D1d H1 D0 and L1 = D0 H2d D1d H1 + H1d D0d H2 D1: the four identities of the convergence plots hold exactly, not just in the limit. On periodic products the boundary terms vanish. On products of periodic and regular grids with any intervals the kernel of L0 is the constants (zero if values are imposed on an axis), and the Dirichlet problem has exactly one solution for every right-hand side; without imposed values L0(a) = b has a solution exactly when sum(H(b)) = 0, and two solutions differ by a constant.", "quantifier": "all sizes, all kinds of factors except regular (resp. Chebyshev for the kernel), all resolved functions and 1-forms, all arrays", "why_tests_cant": "the plots measure the error of one function at thirty sizes; the identities hold for every resolved function and size, and solvability for every right-hand side", "anchors": ["doc/plot/cheb/poisson2d_cheb.py: run", "doc/plot/cheb/poisson2d_periodic.py: run", "dec/grid2.py: derivative, hodge_star, projection, boundary_condition"]}
{"id": "C75", "title": "Array helpers do what they say on every input", "statement": "sparse_diag(x) multiplies an array entry by entry; sparse_matrix(ijk, N, M) applied to y gives in row i the sum of k*y[j] over its triples, duplicates adding up; bndry_with_zeros adds exactly one zero (row, column) at each end and leaves everything else in place, its differences add up to zero, and on interval grids the derivative of a dual 0-form is the difference of the extended array; apply_map(faces, identify) replaces exactly the entries that are keys and moves nothing, and fails exactly on an empty array (ValueError) or a key larger than all entries (IndexError); cartesian_product lists every pair exactly once, the first coordinate running fastest.", "quantifier": "all arrays of all lengths and shapes, all dictionaries, all lists of triples", "why_tests_cant": "the doctests show one small array each; index arithmetic and boundary cases must be right for every shape", "anchors": ["dec/helper.py: sparse_diag, sparse_matrix, bndry_with_zeros, apply_map", "dec/grid2.py: cartesian_product"]}
{"id": "C76", "title": "Cell coordinates, simplex measures, dispatch tables, named tuples", "statement": "enumerate_coords lists vertex by vertex the coordinates with the vertex number appended; for up to ten vertices all names are different (with eleven, `x` of vertex 10 and `x1` of vertex 0 collide), so cell_coords of a chart never identifies two coordinates, and it refuses degrees above the dimension. simplex_measure gives 1 for a point, the signed length on the line and the Euclidean length for an edge in the plane and in space; triangles have no measure: in the plane the call always fails on an unbound variable, in space it is not implemented. A dispatched function uses, after any history of registrations, the last function registered for exactly the degrees of its arguments; unregistered degrees raise KeyError even if a default was registered (it is never consulted). make_namedtuple takes the fields in order, ignores other keys, and raises KeyError exactly if a field is missing.", "quantifier": "all coordinate names, degrees, vertices, histories of registrations, dictionaries", "why_tests_cant": "name collisions, registration order and missing keys depend on arbitrary user input and histories", "anchors": ["dec/symbolic.py: enumerate_coords, Chart.cell_coords, simplex_measure", "dec/helper.py: multipledispatch, register, make_namedtuple"]}
{"id": "C77", "title": "Refinement, random forms and interpolation of discrete forms", "statement": "On periodic and Chebyshev grids and their products, g.P(...).Rf of a form the grid resolves gives the exact values of its components at g.points; g.rand(d, t) is a form of that degree and duality on g with g.N[d, t] entries, a degree above the dimension raises KeyError; the attribute I raises KeyError on every form (no grid provides an interpolation table); g.dec has an entry for the projection, the basis and the operators D, H, W, C on every grid (None for W and C on regular grids), and entries for boundary terms (BC) and numerical projection (Pn) on two-dimensional grids only.", "quantifier": "all grid sizes, resolved functions and forms, degrees, dualities, grids and arrays", "why_tests_cant": "exactness for all resolved functions and sizes cannot be sampled; failure of I for all forms is universal", "anchors": ["dec/decform.py: Rf, I", "dec/grid1.py: rand, P", "dec/grid2.py: rand, P"]}
{"id": "C78", "title": "A stored value is read back, and an incompletely written file is always detected", "statement": "For every JSON value with strings free of adjacent surrogate halves, d[name] = v writes a text from which d[name] reads exactly v, and different values have different texts. If the process dies after any number of characters, or the encoder raises TypeError in the middle, the text left behind is rejected by the next read: it is never taken for another value (TypeError is raised exactly if some object inside is not serialisable). In particular a commit of a memo table leaves either the whole table or a file that is rejected. Two exceptions (defects): a bare number that was cut short is read as another number, and a string with a high surrogate right before a low one is read back as a different string.", "quantifier": "all values of any nesting and size, all crash points (characters) of the write, all texts", "why_tests_cant": "there is one crash point per character of every possible file; the reader must reject each prefix of each text", "anchors": ["dec/data.py: getitem, setitem, JSONEncoder, Data", "dec/data.py: memoize (commit)"]}
{"id": "C79", "title": "What a file contains when several processes write it", "statement": "If no process opens the file while another one is writing, then after any history of commits, partial writes and kills the file is what it was at the beginning, is rejected, or is read as exactly the table of one of the commits, and a commit that ends leaves its own table. If all processes write the same value, the same holds however the writes overlap, and without kills the value is complete once all have closed the file. If writes of different tables overlap (a defect: nothing locks the file), the file can be read without error as a table that contains an entry none of the processes had, even though nobody was killed.", "quantifier": "all histories of opens, partial flushes, closes and kills of any number of processes, all tables", "why_tests_cant": "interleavings of partial writes of several processes cannot be enumerated or forced in a unit test", "anchors": ["dec/data.py: setitem, memoize (commit)"]}
{"id": "C80", "title": "Size of the errors for functions the grid does not resolve", "statement": "For a function that is the sum of an absolutely convergent Fourier series (periodic grids), cosine series (regular grids) or Chebyshev series (Chebyshev grids, 0-forms): H of its projection differs from its projection on the other grid, on every cell, by at most twice the sum of the amplitudes of the terms that the grid does not resolve times the size of the cell; R of its projection differs from it at every point of the interval by at most twice that sum. Hence both errors tend to zero as the number of vertices grows, uniformly, and geometrically fast if the coefficients decrease geometrically. For Chebyshev 1-forms the same holds for differentials of Chebyshev series with six times the sum of m^2 times the unresolved coefficients. On periodic grids the Laplacian of the samples differs from the samples of the second derivative by at most twice the sum of m^2 times the unresolved amplitudes.", "quantifier": "all grids of the three kinds on their default intervals, all sizes (star of primal Chebyshev 1-forms up to 927 vertices), degrees, dualities, all absolutely convergent expansions (infinitely many coefficients), all cells and points", "why_tests_cant": "an error bound for every function and every grid size cannot be sampled; tests check resolved functions or one function at one size", "anchors": ["dec/spectral.py: H, Hinv, H0_regular..., H0_cheb...", "dec/periodic.py", "dec/regular.py", "dec/chebyshev.py", "dec/grid1.py: projection, hodge_star, reconstruction", "dec/spectral.py: laplacian"]}
{"id": "C81", "title": "The operators respect the symmetries of the grids", "statement": "Mirror images: reversing the order of the coefficients of a form (on the circle, vertices and dual edges keep cell 0), with a change of sign for 1-forms, gives the coefficients of the reflected form, on every interval. With this action, for every array: D, refine, unrefine, the wedge product, the contraction and the Laplacian of mirror images are the mirror images of their results; the Hodge star changes sign, because a reflection reverses the orientation; R of the mirror image is the reflected R. Rotations: on periodic grids, all operators commute with rotating the arrays by any number of cells (refined points by twice as many), and rotated arrays are the coefficients of translated functions. So no cell, no end of the interval and no direction is treated specially.", "quantifier": "all grids that have the operator in question (stars of primal Chebyshev 1-forms up to 927 vertices), sizes, intervals (R: default interval), degrees, dualities, arrays of real numbers, rotations, points", "why_tests_cant": "a test compares with a reference solution on one array; the equivariance holds for all arrays, including those that are not projections of smooth functions", "anchors": ["dec/periodic.py", "dec/regular.py", "dec/chebyshev.py", "dec/common.py: wedge, contraction", "dec/grid1.py: projection, derivative, hodge_star, refinement, wedge, contraction, reconstruction", "dec/spectral.py: laplacian"]}
{"id": "C82", "title": "The names of the coordinates", "statement": "In one dimension, discretising a symbolic form gives the same array whatever the coordinate of its chart is called. In two dimensions, forms written in the symbols x and y are discretised like the functions they denote; but the projections look the symbols up by name, not by position: a form on a chart whose coordinates are called otherwise raises NameError as soon as a coordinate occurs in it, and a form on Chart(y, x) is discretised as if the chart were (x, y), so its first component is integrated along the wrong axis.", "quantifier": "all grids, charts, component expressions, degrees, dualities and integrators that return correct integrals", "why_tests_cant": "the tests use the two charts that the module defines; renaming coordinates is a claim about all charts and expressions", "anchors": ["dec/symform.py: to_discrete", "dec/integrate.py: integration_1d, integration_2d_regular", "dec/grid2.py: projection", "dec/symbolic.py: Chart"]}
{"id": "C83", "title": "The operators as they are unpacked from a grid", "statement": "The tuples that the grids return list the operators in the order of their names: P0, P1, P0d, P1d = g.projection(), D0, D0d = g.derivative(), H0, H1, H0d, H1d = g.hodge_star(), R0.. = g.reconstruction() satisfy: the projections evaluate at and integrate over g.verts, g.edges, g.verts_dual, g.edges_dual; D0 P0 f = P1 f' (dual: up to the boundary term); H0 P0 f = P1d f and so on; R0 P0 f = f and so on. In two dimensions the same for the cells (g.verts, g.edges, g.faces and their duals, where edges are integrated from the first to the second listed point and faces are polygons with the four listed corners) and for P0..P2d, D0..D1d, H0..H2d, R0..R2d. The numerical projection of a symbolic form agrees with the symbolic one for 1-forms and non-constant 0-forms, and raises for constant 0-forms (AttributeError) and all 2-forms (TypeError). A callable that ignores its argument and returns a number is projected to a number in one dimension and rejected in two. The constructors of two-dimensional grids: Grid_2D.periodic(N, M) has the vertices (2\u03c0i/N, 2\u03c0j/M), Grid_2D.regular(N, M) the vertices (\u03c0i/(N-1), \u03c0j/(M-1)), Grid_2D.chebyshev(N, M) the vertices (-cos(\u03c0i/(N-1)), -cos(\u03c0j/(M-1))), the first coordinate running fastest.", "quantifier": "all grids, sizes, intervals, products of grids, functions of the stated class", "why_tests_cant": "a wrong order in a tuple of look-alike operators is only seen where the operators differ; the identities quantify over all functions and sizes", "anchors": ["dec/grid1.py: Grid_1D.verts, edges, verts_dual, edges_dual, projection, basis_fn, reconstruction, derivative, hodge_star", "dec/grid2.py: Grid_2D.projection, derivative, hodge_star, reconstruction, Pn", "dec/spectral.py: reconstruction", "dec/grid2.py: Grid_2D.periodic, regular, chebyshev, verts"]}
{"id": "C84", "title": "Forms as Python objects: comparison, keys, iteration", "statement": "Two symbolic forms compare equal exactly if they have the same degree, the same chart object and structurally the same components; this is an equivalence relation that all operators respect, != is its negation; different expressions for one function make forms different. Indexing counts from the end for negative indices and raises IndexError outside, iterating over a form ends and yields its components. Defects: comparing a form with the integer 0 that D and C return raises AttributeError in either order; symbolic == discrete is False but discrete == symbolic raises AttributeError if the degrees agree; because __eq__ is attached after the class is created, hashing stays by identity, so an equal form is found in a list but not in a set or dictionary.", "quantifier": "all forms, charts, components, indices; all lists and sets of live objects", "why_tests_cant": "tests compare a few forms; equivalence, congruence and membership quantify over all objects and collections", "anchors": ["dec/symform.py: __eq__, __ne__, __getitem__, __rmul__, binary", "dec/decform.py: __eq__, __ne__"]}
{"id": "C85", "title": "Rounded comparisons, assertions of the integrators, named tuples", "statement": "Rounding to k digits is off by at most half a unit, ties to even. approx is an equivalence relation, implies a difference of at most 1e-10, and separates some numbers that are arbitrarily close. is_equidistant needs two points, holds for equidistant points, implies that distances differ by at most 1e-8 and always holds for points less than 5e-9 apart. With their assertions the spectral integrators return the exact integrals over the cells for resolved functions on circle and Chebyshev points, raise AssertionError for points that do not span the circle (the interval), IndexError for fewer than two points, and never return another array. nametuple returns the values in the order of the names, KeyError for a missing name, ValueError for a repeated name; defects: a blank after the comma makes it fail although namedtuple accepts it; NamedTuple stores None for a name that is not a local variable. set_attributes and set_dictionary change the fields of the tuple and nothing else.", "quantifier": "all real numbers, lists of points, functions of the stated class, strings of names, dictionaries", "why_tests_cant": "tests evaluate the helpers on literals; the error bounds and rejections quantify over all numbers, point sets and strings", "anchors": ["dec/helper.py: approx, is_equidistant, nametuple, NamedTuple, set_attributes, set_dictionary", "dec/spectral.py: subdivide, integrate_spectral_coarse, integrate_spectral, integrate_chebyshev"]}
{"id": "C86", "title": "The derivative of a reconstruction is the reconstruction of the derivative", "statement": "On periodic and Chebyshev grids the reconstruction of the coefficients of a 0-form is a differentiable function whose derivative is the reconstruction of the discrete derivative (for dual 0-forms on Chebyshev grids after adding the boundary condition made of the values of the reconstruction at the ends). The basis 1-forms are the edge functions of doc/bases.rst: psi1_n = -sum_{k<=n} d/dx psi0_k, and the same for the antisymmetric kappa1 and kappa0; on periodic grids the derivative of a basis 0-form is the difference of two neighbouring basis 1-forms. Defects: the regular grid uses the symmetric basis 1-forms, for which the two reconstructions agree for constant arrays only; contrary to the documentation the dual psi1 are not combinations of derivatives of psi0; alpha0_alt has the cosine factor of alpha0 in the wrong parity and agrees with it at the nodes only.", "quantifier": "all grid sizes, all arrays of coefficients, all basis indices, all points of the interval", "why_tests_cant": "the identity is between functions, at every point and for every array; tests sample a few points and sizes", "anchors": ["dec/spectral.py: alpha0, alpha0_alt, beta0, phi0, phi1, phid0, phid1, kappa0, kappa1, kappa1_symm, psi0, psi1, psid1, reconstruction", "dec/regular.py: make", "dec/chebyshev.py: make", "doc/bases.rst"]}
{"id": "C87", "title": "The operators of product grids respect reflections, rotations and exchange of the axes", "statement": "For every product of two grids: reflecting either axis, rotating a periodic axis by any number of cells, and any combination of these, applied to the coefficients of a form, commutes with the derivative, the Laplacian, the wedge product and the contraction, and commutes with the Hodge star up to the sign by which the moves change the orientation of the plane; the projection of a pulled-back form is the moved array of coefficients. Exchanging the two axes (building product(gy, gx) instead of product(gx, gy), transposing the blocks, exchanging horizontal and vertical edges and reversing the orientation of faces) commutes with the same operators, with a minus sign for the star, and is its own inverse. So no result depends on which axis is called x, on the direction of an axis or on the first vertex of a circle.", "quantifier": "all kinds, sizes and intervals of both factors (products only where the grids have them, stars of Chebyshev factors up to 927 vertices), all moves, all degrees, primal and dual, all arrays and forms", "why_tests_cant": "the two-dimensional operators apply one-dimensional operators along axes in a fixed order with hand-written signs; a swapped axis, order or sign shows only for some grids and arrays, and tests compare a few products", "anchors": ["dec/grid2.py: derivative, hodge_star, to_refine, from_refine, symprojection, flatten_cells, wedge, contraction, Grid_2D.product"]}
{"id": "C88", "title": "Memoised evaluation over a shared file, with commits that overlap", "statement": "With the memo file as a text that any number of processes read at start and write in pieces at exit, in any order and with kills at any character: as long as commits that overlap in time write the same table, every memoised call returns or raises exactly what the wrapped function does, and the file is always absent, rejected by the next start, or a table of right entries. A commit during which nobody else opens the file leaves exactly the text of its table, and the next session has exactly that table. An exception of the wrapped function is passed on, nothing is stored, and the next call tries again. Whatever happens to the file, what a session computed itself is computed once and returned unchanged in that session. A file with a JSON value other than an object can be imported, but every call then raises. Defect: if two processes commit different tables at the same time, a later session can return the result of one argument for another one, with no process killed and no exception.", "quantifier": "all memoised functions, all contents of the file, all histories of starts, calls, openings, partial writes, closings and kills of any number of processes", "why_tests_cant": "the interleavings of writes and the pieces in which buffers reach the file are not under the control of a test; a wrong table shows only for some interleavings", "anchors": ["dec/data.py: memoize, getitem, setitem", "dec/integrate.py: memoized sympy evaluation"]}
{"id": "C89", "title": "Expressions of discrete forms: no failures, linear in linear variables", "statement": "Type the expressions written with +, -, multiples by numbers, .D, .H, ^, .W and .C by degree and side. On every grid of the library (regular grids have no products), a well-typed expression of well-formed forms never raises, and its value is a well-formed form of the degree and side of its type on the same grid. If a variable occurs in every summand and in exactly one factor of every product, the value is a linear function of that variable; the combination c*x + y computed with the operators is the combination meant.", "quantifier": "all expressions, all assignments of types and forms to variables, all one-dimensional grids and products of them (Chebyshev grids with at most 927 vertices), all scalars", "why_tests_cant": "expressions are nested to any depth, and linearity relates the values for all pairs of forms", "anchors": ["dec/decform.py: Form operators, D, H, W, C", "dec/grid1.py: Grid_1D", "dec/grid2.py: Grid_2D"]}
{"id": "C90", "title": "Whole expressions of discrete forms are exact for resolved forms", "statement": "On a product of periodic and Chebyshev grids, take forms whose components have bandwidth m (trigonometric degree along a periodic axis, polynomial degree along a Chebyshev axis), and an expression of any shape with +, -, multiples, .D, .H, .W and .C that multiplies at most p variables. If the grid resolves p times the bandwidth (2*p*m < n, respectively p*m + 2 <= n), then discretising the variables and evaluating the expression with discrete forms gives the same arrays as evaluating it with symbolic forms and discretising the result, whatever sides the variables and products are put on. Dual forms may be differentiated on a torus only. Hence every identity between expressions that holds for the symbolic forms, for example the product rule, holds exactly for the discrete forms.", "quantifier": "all expressions, all symbolic forms of bounded bandwidth, all sizes of the grids that resolve the products, all choices of sides", "why_tests_cant": "expressions are nested to any depth and the forms range over infinite families; a test compares a few of them", "anchors": ["dec/decform.py: Form operators, D, H, W, C", "dec/symform.py: F, to_discrete", "dec/symbolic.py: D, H, W, C", "dec/grid2.py: Grid_2D"]}
{"id": "C91", "title": "Size of the errors on product grids", "statement": "Let every component of a form on the plane be the sum of an absolutely convergent double series (Fourier along a periodic axis, cosines along a regular axis, Chebyshev polynomials, or their differentials in the direction of integration, along a Chebyshev axis). Let e be the sum of the absolute values of the coefficients the grid does not resolve, times 2 (4 or 10 if the form is integrated along one or two Chebyshev axes). Then g.H of its projection differs from the projection of its Hodge star, on every cell of the other grid, by at most e times the size of the cell (for all degrees, 0-, 1- and 2-forms, primal and dual; primal Chebyshev 1- and 2-forms up to 927 vertices), and the reconstruction of its projection differs from it in every component and at every point by at most e. e tends to zero as both numbers of vertices grow, and geometrically if the coefficients decrease geometrically.", "quantifier": "all kinds and sizes of the two grids, all degrees, dualities, all absolutely convergent double series, all cells and points", "why_tests_cant": "an error bound for every function and every grid size cannot be sampled; grid2_test checks sin(x)*sin(y) at two sizes", "anchors": ["dec/grid2.py: Grid_2D.hodge_star, projection, basis_fn", "dec/decform.py: R", "dec/spectral.py", "dec/grid2_test.py: test_hodge"]}
{"id": "C92", "title": "Size of the errors of the integrators", "statement": "integrate_simpson and integrate_boole: if a function is within e of a polynomial of degree at most 3 (5) on an interval of length h, the error is at most 2 e h; so it is of order h^5 (h^7), with explicit constants from the 4th (6th) derivative, also for every cell of integrate_boole1. The spectral integrators, for functions that are the sum of an absolutely convergent series but need not be resolved: integrate_spectral_coarse on N cells of a full period errs in every cell by at most 2 x (the sum of the absolute values of the Fourier coefficients that N samples do not resolve) x 2 pi/N, integrate_spectral by the same with 8N samples; integrate_chebyshev on m cells by at most 2 x (the sum of the absolute Chebyshev coefficients from 8m-1 on) x pi/m, integrate_chebyshev_dual from 16m-1 on. All four converge. For a power series that converges absolutely at 1 the Chebyshev coefficients can be replaced by those of the power series, also for the Hodge star of 0-forms and the reconstruction on a Chebyshev grid.", "quantifier": "all intervals, numbers of cells and starting points; all functions with an absolutely convergent series (spectral) or bounded 4th/6th derivative (Simpson, Boole); all cells", "why_tests_cant": "an error bound for every function and every number of cells cannot be sampled; the doctests check sin and x on two or three cells", "anchors": ["dec/spectral.py: integrate_spectral_coarse, integrate_spectral, integrate_chebyshev, integrate_chebyshev_dual", "dec/integrate.py: integrate_simpson, integrate_boole, integrate_boole1"]}
{"id": "C93", "title": "Evaluating and refining a discrete form", "statement": "For a discrete form x: x.R(s) (x.R(s, r) on a 2-D grid) is the sum of coefficient times basis form; projecting x.R gives the array of x back; if x is the projection of a form that its coefficients determine, x.R is that form at every point of the interval (the Chebyshev ends excepted for 1-forms). x.Rf on a periodic or Chebyshev grid consists of the values of x.R at g.points, and refine.U takes it back to the array; on regular grids it raises NotImplementedError. A degree above the dimension is a KeyError, an array that is too short an IndexError, entries beyond the number of cells are ignored, a wrong number of coordinates is a TypeError.", "quantifier": "all forms on all grids of the three kinds on the default intervals and their products (Chebyshev at most 927 vertices for Rf), all arrays including those of the wrong length, all points", "why_tests_cant": "All arrays and all real points.", "anchors": ["dec/decform.py: R, Rf", "dec/spectral.py: reconstruction", "dec/common.py: wrap_refine"]}
{"id": "C94", "title": "The periodic Poisson example is stable and converges", "statement": "On a periodic grid with any number n >= 1 of vertices, primal or dual: every number of an array differs from the mean by at most pi^2/3 times the mean absolute value of the Laplacian of the array (a constant that does not depend on n), and in the mean square by at most the mean square of the Laplacian. The overdetermined system of the example - first value prescribed, Laplacian equal to the given right-hand side - has exactly one least-squares solution; it takes the prescribed value and its Laplacian is the right-hand side minus its mean. If the exact solution f is a Fourier series with sum of m^2 |amplitude_m| finite, the least-squares solution for the samples of f'' differs from f at every vertex by at most 8 pi^2/3 times the part of that sum the grid does not resolve; hence it converges. For f = exp(sin x), the function of the example, the error is at most 8 pi^2/3 times the sum of k^2/k! over k >= n/2.", "quantifier": "all sizes n >= 1, both dualities, all arrays, all right-hand sides, all Fourier series with summable m^2 amplitudes, all vertices", "why_tests_cant": "The example plots the error for one function at thirty sizes; stability must hold for all arrays with one constant for all sizes.", "anchors": ["dec/spectral.py: laplacian", "dec/periodic.py: make", "doc/plot/cheb/poisson1d_periodic.py: run"]}
{"id": "C95", "title": "Schur's complement inverts the sine operator, also where the library's own inverse wrongly raises", "statement": "For every length N >= 4 and every interval: the operator fourier_sin_schur assembles from four blocks, in both arrangements of the notebook, is the library's fourier_K on every array. If none of the inner weights vanishes, its inverse by Schur's complement (schur\u03bb) is a two-sided inverse of fourier_K whenever fourier_K has no kernel, and raises LinAlgError when it has one; the variant that reads the blocks off fourier_K itself gives the same inverse or the same error. Whenever the library's fourier_K_inv succeeds, the inverse by Schur's complement gives the same array. For even N >= 1854 and one cell, where fourier_K_inv raises 'Singular operator' although fourier_K is invertible (C38), the inverse by Schur's complement succeeds and is right; on an interval symmetric about the origin fourier_K of even length is singular and Schur's complement raises. The triangular block and its inverse undo each other on arrays of every length.", "quantifier": "all lengths N >= 4, all intervals [a, b], all complex arrays", "why_tests_cant": "The notebook compares the operators on random arrays for N from 4 to 8 and N = 1000 at one interval each.", "anchors": ["examples/schur.ipynb: fourier_sin_schur, fourier_sin_schur_old, fourier_sin_schur_simple, A_lower_triangular_inv", "dec/schur.py: schur\u03bb", "dec/spectral.py: fourier_K, fourier_K_inv, I_diag"]}
{"id": "C96", "title": "Expressions with boundary terms are exact on both sides, and evaluating the result at a point gives the true value", "statement": "On a product of periodic and Chebyshev grids, for forms of bandwidth m and an expression of any shape with +, -, multiples, .D, .H, .W and .C that multiplies at most p variables, on a grid that resolves p times the bandwidth: if every derivative of a dual form is completed with the boundary form of the symbolic operand, x.D + g.BC(f), the discrete expression is the discretisation of the symbolic one, without any restriction on what is differentiated. Calling .R of the result at a point of the domain (interior points for 1- and 2-forms along Chebyshev axes) gives the components of the symbolic result at that point. In particular the pictures of the grids notebook show the true fields: f.D is the gradient, f.D.H the curl, f.H.D.H for dual and (f.H.D + g.BC(F.H)).H for primal forms the divergence, u.C(v.D) + (u.C(v)).D the Lie derivative.", "quantifier": "all expressions, all symbolic forms of bounded bandwidth, all sizes that resolve the products, all choices of sides, all points", "why_tests_cant": "The notebook plots a few fields on one grid; exactness must hold for every expression, field and point.", "anchors": ["dec/grid2.py: BC", "dec/decform.py: D, H, W, C, R", "dec/symform.py", "examples/grids.ipynb"]}
{"id": "C97", "title": "Expressions on one-dimensional grids are exact, on the arrays and at points", "statement": "On a one-dimensional periodic or Chebyshev grid, take symbolic 0- and 1-forms of bandwidth m, project each to the primal or the dual side, and evaluate any well-typed expression with +, -, multiples, .D, .H, .W and .C, adding g.boundary_condition(f) to every derivative of a dual form on an interval. If the grid resolves p times the bandwidth, p being the number of variables multiplied at most, the array of the result is the projection of the component of the symbolic result, and .R of the result at a point is the value of that component there. Without derivatives of dual forms, or on the circle, no boundary term is needed. In particular (f.D.H.D + g.boundary_condition(f')).H is f'' at every point of the Chebyshev interval.", "quantifier": "all expressions, all symbolic forms of bounded bandwidth, all sizes that resolve the products, all choices of sides, all points", "why_tests_cant": "Tests check single operators on a few functions; compositions of any depth must stay exact.", "anchors": ["dec/grid1.py: P, D, H, W, C, boundary_condition", "dec/decform.py: D, H, W, C, R", "dec/symform.py", "dec/grid1_sym_test.py"]}
{"id": "C98", "title": "The documentation converter rewrites exactly the marked places and writes only the .rst file", "statement": "make_rst.py: in any text, every \\cite, every equation label and every picture directive with a .pdf file is rewritten to its Sphinx form and all other text is kept; with at most one [eq:...] per line the same holds for references; \\tabularnewline is replaced by \\\\ iff the text carries its definition. latex2rst hands the prepared text to pandoc and makes all of these substitutions in the result; if pandoc fails it fails. Processing a .tex or .lyx file changes the .rst file of the same name to the conversion and no other file; a missing file or an unknown extension changes nothing; the first failing file ends the run, with the earlier ones already written. Defects: two references on one line are merged into one; any directive that ends with one of the letters of figure|image is rewritten, not only figure and image; the two doctests of latex2rst contradict each other, so one of them fails; when pandoc or lyx fails, the previous .rst file is left empty.", "quantifier": "all texts, all numbers and positions of the marked places, all file systems, all outcomes of the external tools, all lists of files", "why_tests_cant": "Doctests convert one sample text; the substitutions are regular expressions applied to arbitrary documents, and the failure cases depend on external tools.", "anchors": ["make_rst.py: fix_citations, fix_eq_labels, fix_pdf2png, fix_tabularnewline, latex2rst, lyx2rst, process, main"]}
{"id": "C99", "title": "The variants of the notebooks: a star without folding, and piecewise linear bases", "statement": "H0_cheb_new of examples/hodge.ipynb agrees with the primal Chebyshev star at all inner vertices and is zero at both ends, for every array; hence it is singular for every size, unlike the star of the library. In examples/whitney.ipynb, for every number n >= 2 of vertices (the notebook has 5): the two hat functions are the same function; the entries of H are the integrals of the hat functions over the dual cells; H is regular, so np.linalg.inv does not fail; the entries of the inverse alternate in sign, are never zero and decrease at least by the factor 3 per step away from the diagonal; the functions R(h, j) integrate to 1 over the j-th cell and to 0 over the others; reconstructing a piecewise linear function from its integrals over the cells gives the function back, at every point.", "quantifier": "all arrays, all sizes from 2, all points, all piecewise linear functions", "why_tests_cant": "The notebooks show one size and a plot; regularity and duality for every size need the inverse in closed form.", "anchors": ["examples/hodge.ipynb: H0_cheb_new", "examples/whitney.ipynb: p, F, H, Hinv, R", "dec/chebyshev.py: H0_cheb"]}
{"id": "C100", "title": "The derivative as a Toeplitz matrix", "statement": "differentiation_toeplitz(n) raises TypeError for every n, because it raises the constant NotImplemented. The code after that statement would raise AssertionError for odd n; for even n it builds an n by n matrix that takes the values of a trigonometric polynomial the grid resolves at the vertices to twice the values of its derivative there (defect: the factor 1/2 is missing).", "quantifier": "all n >= 1, all functions that n values at the vertices determine, all vertices", "why_tests_cant": "The function is disabled and has no test; what its code computes has to hold for all sizes and functions.", "anchors": ["dec/periodic.py: differentiation_toeplitz"]}
{"id": "C101", "title": "The calculus of reconstructed forms on product grids", "statement": "On products of periodic and Chebyshev grids every array of coefficients of a primal 0- or 1-form reconstructs to a smooth form, and its discrete derivative reconstructs to the exterior derivative (gradient, curl) of that form at every point inside; for dual forms the same after adding g.BC of the reconstructed form. On every grid and every product of grids (Chebyshev up to 927 vertices) the Hodge star of an array reconstructs to the Hodge star of the reconstructed form, in every degree and duality. Hence for any sequence of D and H (derivatives of primal forms; on products of two periodic grids also of dual forms), f.D.H.\u2026 of an array reconstructs to the form that the same sequence of exterior derivatives and Hodge stars makes of the reconstruction of the array.", "quantifier": "all kinds (derivative: periodic and Chebyshev), sizes, degrees, dualities, arrays of coefficients and points of the open rectangle", "why_tests_cant": "An identity between functions of two real variables, for every array.", "anchors": ["dec/grid2.py: Grid_2D, cartesian_product_grids, derivative, hodge_star, symboundary", "dec/spectral.py"]}
{"id": "C102", "title": "What the figures of the documentation show", "statement": "basis_forms.py: on every grid (Chebyshev: H1 up to 927 vertices) each basis form is the combination of the basis forms of the other degree and duality whose coefficients are the column of the inverse of the star matrix (B1d = inv(H0).T B0, B0d = inv(H1).T B1, and the two others), at every point inside; such coefficients exist for every basis form. resample.py: padding the Fourier coefficients of any real array with any number of zeros on both sides (method_in_fourier_space, extend) gives numbers whose real parts are the values of the reconstruction of the array at the vertices of the finer periodic grid, for even and odd lengths.", "quantifier": "all kinds, sizes, degrees, dualities, basis forms and points; all arrays of length >= 1 and paddings >= 0", "why_tests_cant": "The scripts show one size by eye; the identities hold at all points for all sizes and arrays.", "anchors": ["doc/plot/cheb/basis_forms.py", "doc/plot/cheb/resample.py", "dec/spectral.py: extend, method_in_fourier_space, hodge_star_matrix, reconstruction"]}
{"id": "C103", "title": "Hodge decomposition of 1-forms", "statement": "On every product of periodic and regular grids, on primal and dual cells: every array of a 1-form is D(f) + H(D(g)) + h with f a 0-form, g a 0-form on the other kind of cells and h harmonic (D(h) = 0 and D(H(h)) = 0); the three parts are unique and mutually orthogonal for the inner product sum(a_x*Hb_y) - sum(a_y*Hb_x). The harmonic forms are exactly the projections of the constant forms c1*dx + c2*dy with c1 = 0 unless the y direction imposes no values and the x direction imposes none on the other kind of cells, and likewise c2: two dimensions on a torus, one on a cylinder, none on a rectangle.", "quantifier": "all sizes, intervals, primal and dual cells, all real arrays", "why_tests_cant": "A statement about all arrays; a test can decompose one array on one grid.", "anchors": ["dec/grid2.py: Grid_2D.product, D, H", "dec/periodic.py: Grid_1D.periodic", "dec/regular.py: Grid_1D.regular"]}
{"id": "C104", "title": "The stars of periodic and regular grids are uniformly well conditioned", "statement": "On periodic and regular grids of any size, on primal and dual cells, the inner product sum(x*H(x)) of the spectral star lies between fixed multiples of the inner product of the diagonal star of the textbooks (size of the dual cell over size of the cell, from g.delta): between 2/pi and 1 times it for 0-forms and between 1 and pi/2 times it for 1-forms. On products: between (2/pi)^2 and 1 for 0-forms, 2/pi and pi/2 for 1-forms, 1 and (pi/2)^2 for 2-forms. In the norms of the diagonal star H amplifies an error by at most pi/2 (products: (pi/2)^2) and shrinks it by no more, independently of the number of cells.", "quantifier": "all sizes, primal and dual cells, all degrees, all real arrays, all products of periodic and regular grids on their default intervals", "why_tests_cant": "A bound uniform in the number of cells; a test computes the condition number of finitely many matrices.", "anchors": ["dec/periodic.py: Grid_1D.periodic", "dec/regular.py: Grid_1D.regular", "dec/spectral.py: H, Hinv", "dec/grid2.py: Grid_2D.product, H", "dec/grid1.py: delta"]}
{"id": "C105", "title": "The Laplacian of 1-forms", "statement": "On every product grid (Chebyshev factors up to 927 points) the Laplacians composed of D and H commute with both: L1(D0(f)) = D0(L0(f)), D1(L1(a)) = L2(D1(a)) and H1(L1(a)) = L1(H1(a)), the last on the other kind of cells. On products of periodic and regular grids L1 is self-adjoint for the inner product sum(a_x*Hb_y) - sum(a_y*Hb_x), minus the product of L1(a) with a is the energy sum(D1(a)*H2(D1(a))) + sum(D1(H1(a))*H2(D1(H1(a)))) with both terms at least zero, L1(a) = 0 exactly for harmonic a, and L1(a) = b has a solution exactly when b is orthogonal to the harmonic forms; two solutions differ by a harmonic form. On a rectangle with two regular grids there is exactly one solution.", "quantifier": "all sizes, intervals, primal and dual cells, all real arrays", "why_tests_cant": "A statement about all arrays and all sizes; poisson2d_cheb.py plots the errors of two examples.", "anchors": ["dec/grid2.py: Grid_2D.product, D, H", "doc/plot/cheb/poisson2d_cheb.py: L1", "doc/plot/cheb/poisson2d_periodic.py: L1", "doc/plot/cheb/poisson_2d_example.py"]}
{"id": "C106", "title": "Accuracy of the wedge product and the contraction for functions that the grid does not resolve", "statement": "On a periodic grid, or a Chebyshev grid of up to 927 points, on its default interval: if continuous f and g (periodic on periodic grids) are bounded by F and G and the reconstruction g.R of their projections is within eps and delta of them, then g.W of the projections differs from the projection of f*g by at most eps*G + F*delta + eps*delta times the size of each cell, and g.C of two 1-forms by at most eps*G + F*delta + eps*delta at each vertex. For absolutely convergent Fourier (or Chebyshev) series the bound follows from the coefficients, and the errors tend to zero as the grid is refined. On products of such grids the same bound holds for the wedge product and contraction of forms of all degrees, with a factor 2 where two products are added. (On a Chebyshev grid not for the wedge of a primal 0-form with a dual 1-form; on products with a Chebyshev direction for two forms on the same kind of cells.)", "quantifier": "all sizes, degrees, primal and dual arguments and results, all continuous functions and bounds", "why_tests_cant": "Tests compare the product of a few resolved functions with its projection; accuracy for all functions is a statement about all of them.", "anchors": ["dec/common.py: wedge, contraction", "dec/grid1.py: Grid_1D.periodic, Grid_1D.chebyshev", "dec/grid2.py: wedge, contraction", "dec/grid1_test.py: test_wedge, test_wedge_chebyshev"]}
{"id": "C107", "title": "Switching between primal and dual 0-forms", "statement": "switch() returns a pair of functions between primal and dual vertex values. Chebyshev, n >= 2 vertices: dual -> primal -> dual is the identity for every array; primal -> dual -> primal subtracts exactly the multiple of +1, -1, +1, ... given by the alternating sum with half weight at both ends divided by n-1, so two arrays have the same dual values exactly if they differ by a multiple of +1, -1, ...; S_cheb_pinv(b) is the unique array with dual values b whose sum of squares, end points counted half, is least; it is the Moore-Penrose pseudo inverse (least ordinary sum of squares) exactly when n = 2. Periodic: the round trip is the identity for odd n and subtracts the alternating mean for even n, in either order; the switch is injective exactly when n is odd (although the documentation only asks for equal sizes), and the round trip always returns the unique array of least sum of squares with the same dual values.", "quantifier": "every number of points, every real array", "why_tests_cant": "The docstrings check three matrices of sizes two and three, and the defect of the even periodic case and of the pseudo inverse shows only for particular arrays.", "anchors": ["dec/periodic.py: switch", "dec/chebyshev.py: switch, S_cheb, S_cheb_pinv", "dec/spectral.py: S, Sinv"]}
{"id": "C108", "title": "The maps of the diffeomorphism notebook", "statement": "For every differentiable map (x(s,t), y(s,t)) the second and third invariant of the metric J.T*J that the notebook plots are one and the same function, det(J)^2, the first is at least 2|det J| with equality exactly where the map is (anti)conformal. The sine transform in use has determinant 1 and is a bijection of the plane; the wave map has determinant 1 + c*pi*sin(pi*(s+t)) and is a bijection of the plane for |c|*pi < 1 (the notebook has c = 1/5); Flat, Squeeze, Polar and the three maps made of powers have the stated determinants and are one to one on the square [-1,1]^2 (one of them reverses the orientation); the Chebyshev map is a bijection of the square with zero determinant exactly on the boundary, where the plotted logarithm fails; the map 'Square to circle' maps the square one to one onto the closed unit disk, its boundary to the unit circle, with zero determinant exactly at the corners. cartesian_product lists all pairs; plot_grid draws the images of all grid lines, and its axis limits contain every drawn point with a margin of exactly 0.1; the colours of plot_st are symmetric about the centre and cover exactly the values.", "quantifier": "all points, all maps (for the invariants), all sizes of the plotted grid", "why_tests_cant": "The notebook evaluates the map at two points and shows pictures.", "anchors": ["examples/diffeomorphism.ipynb: cells 1-20"]}
{"id": "C109", "title": "The Chebyshev Poisson example: stable, spectrally accurate", "statement": "For every Chebyshev grid on [-1,1] with 2 <= n <= 927 points, in exact arithmetic. Dirichlet: the system of the example, laplace_d(z) = P0d(q) - H1(D0(H1d(bc))), has exactly one solution; it consists of the values at the dual vertices of the polynomial of degree at most n with the prescribed end values whose second derivative is the reconstruction of P0d(q). If that reconstruction is nowhere further than delta from f'', the error at the dual vertex x is at most delta (1 - x^2)/2; for a source that is the sum of a power series a_k it is at most (1 - x^2) times the sum of |a_k| over k >= n - 1, and in the example (f = exp) at most the sum of 1/k! over k >= n - 1. If the reconstruction of the right-hand side is nowhere negative, the solution lies below the line through the boundary values. Every array on the dual vertices is at most 55/12 times the mean absolute value of its Laplacian, whatever n. Neumann: the overdetermined system of the example (first value prescribed, laplace(z) = P0(q) - H1d(bc)) has exactly one least-squares solution, it takes the prescribed value exactly and solves the system with the right-hand side corrected by a multiple of the quadrature weights; if f'' and f' are recovered from their samples up to delta and delta', its error is at most 12 delta + 2 delta', in the example at most 24 times the sum of 1/k! over k >= n plus 4 times the sum over k >= n - 1. Every array on the primal vertices differs from its first number by at most pi^2/2 times the root of the sum of the squares of its Laplacian divided by n - 1.", "quantifier": "all grid sizes from 2 to 927, all right-hand sides, all twice differentiable exact solutions, all arrays", "why_tests_cant": "The example plots the error for one function and thirty sizes; stability independent of the size, and the bound for every function, are statements about all of them.", "anchors": ["doc/plot/cheb/poisson1d_cheb.py: run", "dec/grid1.py: laplacian, Grid_1D.chebyshev"]}
{"id": "C110", "title": "2-D Laplacians act line by line; the left-hand sides of the 2-D Poisson examples reduce to 1-D", "statement": "For every product grid (factors of the three kinds, any sizes, Chebyshev at most 927 points), primal and dual. The Laplacian of a 0-form, H2(D1(H1(D0 .))), at a vertex is the 1-D Laplacian of the row through the vertex plus the 1-D Laplacian of the column through it. The Laplacian of a 1-form does not mix the components: on edges in the x direction it is the 1-D Laplacian of 1-forms along the row plus the 1-D Laplacian of 0-forms along the column, and likewise in the y direction. The left-hand side L0d(P0d f) + H2(D1(H1d(BC0 f))) of the Poisson examples with prescribed values is, for every function f of two variables, the sum of the 1-D left-hand sides Ld(P0d .) + H1(D0(H1d(bc .))) of the restrictions of f to the two lines through the vertex (on a circle the 1-D boundary term is absent). On the default grids the left-hand side L0(P0 f) + H2d(BC1(*grad f)) with prescribed normal derivatives, for f(x,y) = a(x) + b(y) as in the example, is the sum of the 1-D left-hand sides L(P0 a) + H1d(bc a') and L(P0 b) + H1d(bc b').", "quantifier": "all pairs of kinds and sizes, all arrays, all functions, all vertices and edges", "why_tests_cant": "A test compares two arrays on one grid; that the two directions never mix is a statement about all arrays and all grids.", "anchors": ["dec/grid2.py: laplacian2, Grid_2D.product, derivative, hodge_star, boundary_condition", "doc/plot/cheb/poisson2d_cheb.py: run", "doc/plot/cheb/poisson2d_periodic.py: run"]}
{"id": "C111", "title": "The residuals of the Chebyshev Poisson examples decay spectrally", "statement": "On the default Chebyshev grids of n points, 2 <= n <= 927. For a function f that is, with its first two derivatives, the sum of its Chebyshev series on [-1,1] (coefficients c_m, sum of m^4 |c_m| finite), or of a power series with coefficients c_m: the left-hand side Ld(P0d f) + H1(D0(H1d(bc f))) with prescribed values differs from P0d f'' by at most 2 times the sum of m^4 |c_m| over m > n at every vertex, and the left-hand side L(P0 f) + H1d(bc f') with prescribed slopes differs from P0 f'' by at most 10 times the sum of m^4 |c_m| over m >= n at every vertex. In two dimensions the residual of the left-hand side with prescribed values is at most twice the sum of both tails for every f whose restrictions to horizontal and vertical lines are power series with common bounds for the coefficients; with prescribed normal derivatives the residual for f(x,y) = a(x) + b(y) is at most ten times the sum of both tails. In particular for the example f = exp x + exp y the residuals are bounded by tails of the series of m^4/m!.", "quantifier": "all n up to 927 in each direction, all functions with such expansions, all vertices", "why_tests_cant": "A test plots the residual of one function on a few grids; the bound and the rate are statements about all sizes and all functions.", "anchors": ["doc/plot/cheb/poisson1d_cheb.py: run", "doc/plot/cheb/poisson2d_cheb.py: run", "dec/grid1.py: laplacian", "dec/grid2.py: laplacian2"]}
{"id": "C112", "title": "The residuals of the periodic Poisson example decay spectrally, for 0-forms and 1-forms", "statement": "On periodic grids of any size, primal and dual. On the circle the Laplacian D0(H1(D0(H1 .))) of 1-forms applied to the projection of f differs from the projection of f'' on each edge by at most 4 times the sum of m times the amplitudes of the Fourier terms of f with m >= n/2. On the torus the Laplacian of the samples of f(x,y) differs from the samples of f_xx + f_yy by at most twice the sums of m^2 times (common bounds of) the amplitudes of the restrictions of f to horizontal and vertical lines, over m >= n/2; the Laplacian of the projection of a(x)dx + b(y)dy differs from the projection of a''(x)dx + b''(y)dy on each edge by at most four times the sum of m times the amplitudes of a, or of b. For the functions of the example, exp(sin x) + exp(sin y) and exp(sin x)dx + exp(sin y)dy, the errors that the script plots are at most 2 sum m^2/m! + 2 sum m^2/m! and 4 sum m/m!, the sums over m >= n/2.", "quantifier": "all sizes in each direction, primal and dual, all functions with such expansions, all vertices and edges", "why_tests_cant": "A test plots the residual of one function on a few grids; the bound and the rate are statements about all sizes and all functions.", "anchors": ["doc/plot/cheb/poisson2d_periodic.py: run", "dec/grid2.py: laplacian2", "dec/grid1.py: laplacian"]}
{"id": "C113", "title": "The left-hand sides for 1-forms of the Chebyshev Poisson example are the derivatives of those for 0-forms, and their residuals decay spectrally", "statement": "On every product of grids (any kinds, sizes, intervals) and for every continuously differentiable f, periodic where the grid is: the left-hand side for the 1-form f_x dx + f_y dy with prescribed normal component and (zero) curl, L1(P1(f_x,f_y)) + H1d(BC0(0)) + D0(H2d(BC1(-f_y,f_x))), is exactly D0 of the left-hand side for the 0-form with prescribed normal derivative, L0(P0 f) + H2d(BC1(-f_y,f_x)). On dual cells, if f_x and f_y are also continuously differentiable, the left-hand side with prescribed tangential component and divergence q, L1d(P1d(f_x,f_y)) + H1(D0(H2d(BC1(f_x,f_y)))) + BC0(q), is exactly D0d of the left-hand side for the 0-form with prescribed values, L0d(P0d f) + H2(D1(H1d(BC0 f))), plus BC0(q). Consequently, for the fields of the example (f = exp x + exp y) on Chebyshev grids of n by n' vertices, the errors that the script plots for 1-forms are at most 20 (sum over m >= n of m^4/m! + sum over m >= n' of m^4/m!) on primal edges and 4 (sum over m > n + sum over m > n') on dual edges.", "quantifier": "all kinds of grids, sizes (Chebyshev at most 927), intervals and functions for the identities; all sizes and all edges for the bounds", "why_tests_cant": "A test plots the residuals of one field on a few grids; the identity holds for every field and the bound for every size.", "anchors": ["doc/plot/cheb/poisson2d_cheb.py: run", "dec/grid2.py: Grid_2D, boundary_condition", "dec/grid1.py: Grid_1D"]}
{"id": "C114", "title": "The pictures of grids and basis forms show what they say", "statement": "For every kind, size and interval: grid_1d draws one segment per edge, on the axis and from left to right, which together cover exactly [xmin, xmax] and meet only in their ends, and one dot per vertex, in increasing order, inside the interval; every left end of a segment is a dot and so is every right end, except that on a periodic grid there is no dot at xmax; every dot is an end of a segment. plot_bases_1d draws one curve of 100 equidistant points per basis form, in the order 0-forms, 1-forms, dual 0-forms, dual 1-forms. On the standard interval the curve of a 0-form is 1 at its own vertex and 0 at the others, the curve of a 1-form (scaled by its edge length) has mean 1 over its own edge and mean 0 over the others, and the curves of each subplot add up to 1 at every point inside. _plot_scatter labels vertices and dual vertices 0, 1, 2, ... in the order of the arrays: entry m of P[0,t](f) is f at the point labelled m; drawn as in its commented-out calls, the label m of an edge stands at its midpoint and that of a face at its centre, strictly inside.", "quantifier": "all kinds of grids, sizes, intervals, plot ranges, cells and points", "why_tests_cant": "A picture of one grid is looked at by eye; the claims hold for every grid and every point of the curves.", "anchors": ["dec/plot.py: plot_bases_1d, grid_1d, vertices_1d, edges_1d", "dec/grid2.py: _draw, _plot_scatter"]}
{"id": "C115", "title": "Cartan's calculus and the identities of vector analysis hold for symbolic forms", "statement": "For all symbolic forms of one or two dimensions and all vector fields X, Y given as 1-forms: Lie(X, a^b) = Lie(X,a)^b + a^Lie(X,b); C(X, a^b) = C(X,a)^b + (-1)^k a^C(X,b), where contractions of 0-forms drop out; Lie(X, C(X,a)) = C(X, Lie(X,a)); Lie(X, Lie(Y,a)) - Lie(Y, Lie(X,a)) = Lie([X,Y],a) and Lie(X, C(Y,a)) - C(Y, Lie(X,a)) = C([X,Y],a) with [X,Y] = (X.grad)Y - (Y.grad)X; Lie(fX, a) = f Lie(X,a) + D(f)^C(X,a); the Laplacian commutes with H and D and Laplacian(f g) = g Laplacian(f) + f Laplacian(g) + 2 Dot(Df,Dg); Dot(Ha,Hb) = Dot(a,b) and a^H(b) = H(Dot(a,b)). For vector fields: div(fV) = f div V + grad f . V, vort(fV) = f vort V + grad f x V, adv(V) = grad(|V|^2/2) - vort(V) (v,-u), and vort(adv V) = V.grad vort(V) + vort(V) div(V) (the vorticity equation).", "quantifier": "all symbolic forms whose total degree is at most the dimension, all vector fields, all commuting partial derivatives", "why_tests_cant": "The doctests evaluate a few of these identities on generic symbols in one degree; the laws hold in all degrees and for all components.", "anchors": ["dec/symbolic.py: Lie, C, W, D, H, Dot, Laplacian, grad, div, vort, adv", "dec/symform.py: symform_factory"]}
{"id": "C116", "title": "Grids are nested: the points of a grid are the vertices of the grid with twice as many edges", "statement": "g.points of a periodic grid of n vertices is the array of vertices of the periodic grid of 2n vertices on the same interval, and of a regular or Chebyshev grid that of the grid of the same kind with 2n-1 vertices (on product grids in both directions). So P0 and P0d of a function are the even and the odd entries of its P0 on the fine grid; P1 of an integrable function is the sum of two consecutive entries of its fine P1; P1d that of the two entries that meet in the vertex (one at each end of an interval, and for a function of the right period on a circle); P2 of a continuous function of two variables the sum of four entries; D0 of the even entries of a fine 0-form is the sum of pairs of its fine D0. Reconstructing a fine 0-form or 1-form and projecting it to the coarse grid of the default interval gives the even entries, the odd entries, or the sums of pairs; in particular the sum of the two fine basis 1-forms of the halves of an edge (the blue curve of plot_basis_refined.py) has integral 2 over that edge and 0 over all the others.", "quantifier": "all three kinds of grids, all sizes, all intervals; all functions that are integrable (values: all functions); all arrays of coefficients", "why_tests_cant": "The tests use each grid by itself, with a few sizes, and never compare two grids.", "anchors": ["dec/grid1.py: Grid_1D.points, Grid_1D.periodic, Grid_1D.regular, Grid_1D.chebyshev", "dec/grid2.py: points", "doc/plot/cheb/plot_basis_refined.py"]}
{"id": "C117", "title": "Laplacians of grids with Chebyshev points are negative, and Poisson problems for functions and 1-forms are well posed on every product grid", "statement": "On the dual vertices of a Chebyshev grid the sum of z\u00b7L0(z) is at most -1/2 times the sum of the squares of z, so the sum of the squares of z is at most 4 times that of L0(z), and every complex eigenvalue of L0 has real part at most -1/2 whatever the number of points; on a product of two Chebyshev grids the constants are 1, 1 and -1. On every product of two grids, of whatever kinds: a 0-form has Laplacian zero exactly when it is a constant (only zero if a boundary value is imposed: on the dual vertices unless both directions are periodic); if so imposed, L0(a) = b has exactly one solution for every b, and if not, a solution exactly when the sum of H0(b) is 0, unique up to a constant. A 1-form has Laplacian zero exactly when it is P1 of a constant form c1 dx + c2 dy with c1 and c2 arbitrary on a torus, one of them zero on a cylinder, both zero on a rectangle; L1(\u03b1) = \u03b2 has a solution exactly when the integrals of the components of \u03b2 along those directions are 0, and on a rectangle exactly one for every \u03b2: the matrix that Figure 9 (doc/plot/cheb/poisson_2d_example.py, ten by ten Chebyshev points) inverts has an inverse.", "quantifier": "all three kinds of grids in both directions, all sizes (Chebyshev: up to 927 points), all intervals, both sides, all arrays; all complex eigenvalues", "why_tests_cant": "The tests never solve a Poisson problem on a Chebyshev grid, the figure does so for one size; a singular or nearly singular matrix at another size would not be seen.", "anchors": ["dec/grid1.py: Grid_1D.chebyshev, laplacian", "dec/grid2.py: Grid_2D_Cartesian.chebyshev", "dec/chebyshev.py: H0d_cheb, H1_cheb, H0_cheb, H1d_cheb", "doc/plot/cheb/poisson_2d_example.py"]}
{"id": "C118", "title": "The wedge product is associative in the limit of fine grids", "statement": "For functions f, g, h that are sums of absolutely convergent Fourier series (on Chebyshev grids: Chebyshev series), at most one of them the component of a 1-form (on Chebyshev grids: none): (f ^ g) ^ h and f ^ (g ^ h), formed with g.W from their projections, each on any choice of primal and dual cells including those of the intermediate product, are both defined, and each differs from the projection of f g h, on every cell, by at most 26 U times the size of the cell, so they differ from each other by at most 52 U times it. U is the sum of the three products of the total amplitudes of two of the series with the sum of the amplitudes of the third from term (n+3)//4 on (Chebyshev: n//2). As the periodic grid is refined the difference tends to zero uniformly on all cells relative to their size, and geometrically if the coefficients decrease geometrically. This is what doc/wedge.rst claims; that it is not exact on any grid is C64.", "quantifier": "all periodic grids and all Chebyshev grids of up to 927 points, all triples of absolutely convergent series, all choices of primal and dual cells, all cells, all degrees with sum at most 1", "why_tests_cant": "Tests can compare the two products for finitely many forms and sizes; that the error tends to zero for every such triple is a statement about all grids and functions, and the intermediate product is aliased, so that the accuracy of a single product does not settle it.", "anchors": ["dec/common.py: wedge", "dec/grid1.py: wedge, Grid_1D.periodic, Grid_1D.chebyshev", "dec/spectral.py: refine", "doc/wedge.rst"]}
{"id": "C119", "title": "The solutions printed for the example flows", "statement": "doc/sample_advection.rst prints, for the five flows of the tables V and p, a vorticity, a pressure and a time derivative. At every point the printed velocities are those of V, the printed vorticities are what vort(V[i]) computes, and the printed time derivatives are -adv(V[i]) - grad(p[i]). If div(adv(v)) is any finite sum of non-constant waves, dividing the one with wave numbers k, l by k^2 + l^2 gives a pressure with Laplacian -div(adv(v)), and with such a pressure the time derivative of any velocity is divergence-free. Defects: the formula of the page divides by -(k^2 + l^2), which gives the negative of the solution, with Laplacian +div(adv(v)); the printed pressures of examples 1, 3 and 4 are the negatives of p[0], p[2], p[3] and do not solve the pressure equation of the same page (those of examples 2 and 5 are p[1] and p[4] and do); and example 2 is not a flow on the periodic square [-pi, pi] x [-pi, pi] the page is about, its components change sign over a period, while the other four are.", "quantifier": "all five examples, all points of the plane; all finite sums of waves, all smooth velocities", "why_tests_cant": "An identity between functions holds at every point or not at all; sampling it cannot establish it, and nothing in the repository compares the page with the tables.", "anchors": ["doc/sample_advection.rst", "dec/symbolic.py: V, p, adv, grad, div, vort"]}
{"id": "C120", "title": "The antisymmetric basis 1-forms give no inverse star", "statement": "doc/bases.rst says that basis 1-forms should be the odd functions kappa1, 'however, when we do that, the hodge-stars are no longer exact inverses of each other', and asks whether the reason is that the odd forms are no longer combinations of the symmetric 0-forms. On every regular grid with N >= 2 vertices: kappa1 (odd) and kappa1_symm (even) are both dual to the edges (integral one over the own edge, zero over the others). The star of the library for primal 1-forms takes the values at the edge midpoints of the combination of the even forms, for every array. The star made the same way from the odd forms is an inverse of the other star from neither side: it returns the constant 0-form one with its sine component multiplied by (h/2)/sin(h/2) > 1, h the edge length. No odd form agrees between the ends with any reconstruction of a dual 0-form; and any family dual to the edges whose members are such reconstructions is the even family and gives the exact inverse, so the answer to the question is yes.", "quantifier": "all regular grids with N >= 2 vertices, all arrays, all basis forms, all families of functions dual to the edges", "why_tests_cant": "The page states it for every size without a proof and poses the cause as an open question; a test shows one size.", "anchors": ["doc/bases.rst", "dec/spectral.py: kappa1, kappa1_symm, kappad0", "dec/grid1.py: Grid_1D.regular"]}
{"id": "C121", "title": "Intervals given backwards, and the sizes the constructors accept", "statement": "Only the regular grid checks the interval: regular(n, xmin, xmax) raises AssertionError iff xmax <= xmin; periodic and chebyshev accept every interval and every n >= 1, and raise IndexError and ValueError for n = 0 (regular accepts every n). A Chebyshev grid with the ends exchanged is the mirror image of the grid: cells in reverse order, edges reversed, reported lengths negated, the projection of every function mirrored (1-forms with the sign reversed). Its derivatives commute with the projections, with the boundary condition of that grid; its stars ignore the interval, so for resolved functions they give -2/(b-a) times the projection. A periodic grid given backwards has its vertices and edges in decreasing order, except that (defect) the first dual edge starts two lengths of the interval too early, because the length is computed as an absolute value: the first entry of the dual 1-form of every periodic function is off by twice its integral over the circle. Derivatives still commute with the projections, as a derivative of a periodic function has integral zero, but the star of the constant function one is a positive constant while the projection of the 1-form it represents is not constant and negative but for the first entry.", "quantifier": "all grids of the three kinds, all numbers of vertices, all pairs of end points, all (periodic) functions, resolved functions for the stars", "why_tests_cant": "Every size, pair of end points and function; the tests only use intervals given in increasing order.", "anchors": ["dec/periodic.py: make, verts_dual, edges_dual", "dec/regular.py: make", "dec/chebyshev.py: make", "dec/grid1.py: Grid_1D.periodic, regular, chebyshev"]}
{"id": "C122", "title": "The Leibniz rule on grids with boundaries", "statement": "On every product of periodic and Chebyshev grids (Chebyshev grids with 2 to 927 vertices) the Leibniz rule d(a wedge b) = da wedge b + (-1)^(deg a) a wedge db holds exactly for all arrays of coefficients of primal forms a and b whose degrees add up to at most one. On a single Chebyshev grid it holds for 0-forms on any sides, with the results on any side, when the derivative of a dual form includes the boundary term of the function that it represents. For the derivative of dual forms without the boundary term the rule is false on every Chebyshev grid, already for the constant one: d(1 wedge 1) is d1, but d1 wedge 1 + 1 wedge d1 is 2 d1, and d1 is 1 at the first edge.", "quantifier": "all periodic grids, all Chebyshev grids with 2 to 927 vertices and their products, all arrays of coefficients, all sides in one dimension", "why_tests_cant": "Every size and every array of coefficients; the tests check the rule for no arrays on grids with boundaries.", "anchors": ["dec/grid1.py: derivative, boundary_condition", "dec/grid2.py: Grid_2D_Cartesian, derivative, wedge", "dec/chebyshev.py: refine, unrefine", "dec/periodic.py: refine, unrefine"]}
{"id": "C123", "title": "Contraction by means of the wedge product and the Hodge star", "statement": "The contraction notebook states i_X b = H(X ^ H b) for symbolic forms. For the discrete operators, on every periodic grid, every Chebyshev grid with 2 to 927 vertices (not with both forms dual) and every product of two periodic grids: for all arrays of coefficients a (a 1-form) and b (a form of positive degree) on any sides, C(a, b) is the projection of the contraction of the represented forms and W(a, H b) is the projection of the wedge product of the represented form of a with the star of that of b; so C(a, b) = H(W(a, H b)) exactly whenever the grid represents that product. In general the two differ: on every periodic grid with at least two vertices there is a dual 1-form a (the finest cosine) with C(a, a) = 1 at the first vertex but H(W(a, H a)) < 1 there.", "quantifier": "all periodic grids, all Chebyshev grids with 2 to 927 vertices, all products of periodic grids, all arrays of coefficients, all sides, all degrees of b", "why_tests_cant": "Every size and every array of coefficients; the notebook checks the identity for symbolic forms only and no test checks it for arrays.", "anchors": ["examples/contraction.ipynb", "dec/common.py: contraction, wedge", "dec/grid1.py: contraction, wedge, hodge_star", "dec/grid2.py: contraction, wedge, hodge_star"]}
{"id": "C124", "title": "The wedge product does not depend on the metric: pull-backs by affine maps", "statement": "doc/wedge.rst says that the wedge product is independent of the metric, i.e. a homomorphism under a pull-back. For two grids of the same kind and size on intervals [a,b] and [c,d] and the affine map between them: projecting the pull-back of a 0- or 1-form to [a,b] gives the array of the projection of the form to [c,d]; g.D and g.W of pull-backs are therefore those of the forms (likewise 0-, 1- and 2-forms on products of two grids of any kinds, for an affine map in each coordinate), and where the wedge product is exact on one interval it is exact for the pull-backs on the other. So on periodic and Chebyshev grids the wedge product is exact for resolved functions on every interval. The other operators (g.H, g.C, refine, unrefine) are also the same functions of arrays on every interval; for the contraction, which depends on the metric, this is a defect: C of the projections of two resolved 1-forms is their product times the square of (b-a) divided by the default length (2 pi, 2), so on [0,1] the contraction of dx with dx is 1/4 on a Chebyshev grid, not 1.", "quantifier": "all kinds and sizes of grids, all pairs of intervals and of rectangles, all functions (exactness: all resolved functions), degrees and sides", "why_tests_cant": "Every interval, size and function; the tests use the default intervals only.", "anchors": ["doc/wedge.rst", "dec/common.py: wedge, contraction", "dec/grid1.py", "dec/periodic.py", "dec/regular.py", "dec/chebyshev.py"]}
