{"id": "C01", "title": "root_newton result certificate", "statement": "When root_newton returns with success=True, the returned pair (x, f) is coherent (f is the function value obtained at exactly that x) and either |f| <= tolf or the Newton step that was computed from x has length <= tolx. niter = nfeval = number of times the user function was called, and never exceeds maxiter. A zero derivative before convergence gives success=False. If it returns without success, the returned f is still coherent with the last evaluated point.", "quantifier": "all complex-step functions f, all start points, all tolerances and all maxiter (including 0, where the code raises)", "why_tests_cant": "Tests run a handful of smooth functions that converge; the claim is about every user callable, including adversarial ones, and every iteration count.", "anchors": ["src/polykin/math/roots/scalar.py: root_newton", "src/polykin/math/derivatives/ndiff.py: derivative_complex"]}
{"id": "C02", "title": "root_secant result certificate", "statement": "When root_secant returns with success=True, the returned f equals the user function at the returned x and either |f| <= tolf or the last secant step has length <= tolx; nfeval equals the number of calls made to the user function and niter <= maxiter; equal function values on the two current points gives success=False (with x = NaN if this happens in the first iteration).", "quantifier": "all functions, all pairs of start points, all tolerances and iteration limits", "why_tests_cant": "Only a proof covers all callables and all iteration counts, including degenerate slopes hit after an arbitrary number of iterations.", "anchors": ["src/polykin/math/roots/scalar.py: root_secant"]}
{"id": "C03", "title": "root_brent never evaluates the function outside the bracket", "statement": "For a start interval [xa, xb], every point at which root_brent calls the user function, and the returned x, lies between xa and xb. The number of calls is at most maxiter + 2 and is reported exactly by nfeval.", "quantifier": "all functions (no continuity needed), all intervals in either orientation, tolx > 0, tolf >= 0, all iteration limits", "why_tests_cant": "Functions passed by callers (flash, fugacity) are only defined inside the bracket; a single out-of-bracket evaluation raises or returns NaN. Interpolation steps depend on the full history of function values, so sampling cannot exclude it.", "anchors": ["src/polykin/math/roots/scalar.py: root_brent"]}
{"id": "C04", "title": "root_brent accuracy and refusal", "statement": "If root_brent succeeds, the returned f equals f(x) and either |f(x)| <= tolf or the function changes sign between x and a point at distance at most 4*eps*|x| + tolx from x; consequently for continuous f an exact root lies within that distance. If neither end point is within tolf and f(xa), f(xb) have the same strict sign, it raises ValueError and evaluates nothing else.", "quantifier": "all functions (all continuous functions for the exact-root consequence), all intervals, tolerances and iteration limits", "why_tests_cant": "The guarantee quantifies over all continuous functions and all interpolation histories.", "anchors": ["src/polykin/math/roots/scalar.py: root_brent"]}
{"id": "C05", "title": "rootvec_qnewton success is a certificate and (x, f) are coherent", "statement": "When rootvec_qnewton reports success=True, every scaled residual component at the returned x is <= tolf and the returned f is the user function at the returned x. On every return, the returned f is the user function at the returned x. nfeval is the number of calls of the function and niter <= maxiter. With a global method and model-descent directions the solver always terminates (for the dogleg method: with non-vanishing steps) and the point it returns never has a larger scaled residual norm than x0. The reported reason for stopping is the true one (all iterations used, relative step below tolx, five maximal steps in a row with a global method, two failed steps in a row), and there was no reason to stop earlier. An unknown global method and maxiter = 0 are refused.", "quantifier": "all vector functions, dimensions, global methods (none, line search, dogleg), Jacobian modes, linear-algebra results and iteration limits", "why_tests_cant": "The coherence of x and f depends on which internal exit was taken; tests only exercise converging runs.", "anchors": ["src/polykin/math/roots/vector.py: rootvec_qnewton", "src/polykin/math/roots/vector.py: line_search", "src/polykin/math/roots/vector.py: dogleg"]}
{"id": "C06", "title": "Line search: sufficient decrease and termination", "statement": "A successful line search returns a point xc + lambda*p with 0 < lambda <= 1 whose merit satisfies the Armijo condition with alpha = 1e-4; for any descent direction (initial slope < 0) the search stops after finitely many evaluations (each backtrack at least roughly halves lambda and keeps at least a tenth of it) whatever the function returns.", "quantifier": "all functions, dimensions, start points, descent directions", "why_tests_cant": "Termination and sufficient decrease must hold for every user function, including ones that never improve.", "anchors": ["src/polykin/math/roots/vector.py: line_search"]}
{"id": "C07", "title": "Wegstein fixed-point result certificate", "statement": "fixpoint_wegstein returns f = g(x) - x for the very x it returns; success=True implies max_i |sclx_i * f_i| <= tolx, and no earlier iterate met that test; nfeval equals the number of calls of g and is at most maxiter; it raises exactly when maxiter = 0.", "quantifier": "all functions g, dimensions, start points, tolerances, acceleration settings", "why_tests_cant": "All callables and all iteration counts.", "anchors": ["src/polykin/math/fixpoint/wegstein.py: fixpoint_wegstein"]}
{"id": "C08", "title": "Wegstein is exact on affine maps", "statement": "For a scalar affine map g(x) = a*x + b with a != 1 whose acceleration factor a/(a-1) lies in [qmin, qmax], the first accelerated update returns the exact fixed point b/(1-a); each update is an affine combination of x and g(x), so a fixed point is never left.", "quantifier": "all a, b, start points and bounds", "why_tests_cant": "Algebraic identity over all coefficients.", "anchors": ["src/polykin/math/fixpoint/wegstein.py: fixpoint_wegstein"]}
{"id": "C09", "title": "Anderson fixed-point result certificate", "statement": "fixpoint_anderson returns f = g(x) - x for the x it returns; success=True implies max_i |sclx_i * f_i| <= tolx; the number of g calls is reported exactly and bounded by maxiter; this holds no matter what the internal least-squares step returns.", "quantifier": "all functions g, dimensions, memory depths m, least-squares results, tolerances, iteration limits", "why_tests_cant": "Quantifies over all callables and over every possible output of the linear-algebra back end.", "anchors": ["src/polykin/math/fixpoint/anderson.py: fixpoint_anderson"]}
{"id": "C10", "title": "Finite differences are exact on the polynomials they should be exact on", "statement": "derivative_complex is exact for polynomials of degree <= 2; derivative_centered gives the exact derivative for quadratics; jacobian_forward is exact for affine maps; hessian_forward and hessian2_centered are exact for quadratic forms and hessian_forward is always symmetric.", "quantifier": "all polynomials of the stated degree, all points, all non-zero step sizes, all dimensions", "why_tests_cant": "Holds for all coefficients and dimensions; a sign or index slip in one entry escapes spot tests.", "anchors": ["src/polykin/math/derivatives/ndiff.py"]}
{"id": "C11", "title": "ode_rk integrates over exactly [t0, tf] with the promised order", "statement": "For tf >= t0 and h > 0, ode_rk takes finitely many positive steps whose lengths sum to tf - t0 (full steps h and one final shorter step); the order-1, -2 and -4 schemes are exact when f depends on t only and is a polynomial of degree 0, 1 and 3; on y' = lambda*y each step multiplies by the degree-order Taylor polynomial of exp. The error at tf is at most a constant times h, h^2 and h^4 for right-hand sides that are smooth enough (order 4: four times continuously differentiable and Lipschitz in y). Any other order raises ValueError. For tf < t0 the result must not silently be the solution at another time.", "quantifier": "all functions, intervals, step sizes, initial values", "why_tests_cant": "Number of steps is unbounded and floor arithmetic edge cases cannot be sampled exhaustively.", "anchors": ["src/polykin/math/derivatives/ode.py: ode_rk"]}
{"id": "C12", "title": "simplify_polyline returns an ordered subsequence with the end points", "statement": "For tol >= 0 simplify_polyline terminates and returns a strictly order-preserving subsequence of the input that contains the first and last input points; an input of exactly two points is unchanged and shorter inputs are refused.", "quantifier": "all point lists of any length, all tolerances >= 0", "why_tests_cant": "Recursive algorithm over arbitrary length inputs; termination is a universal claim.", "anchors": ["src/polykin/math/misc/filters.py: simplify_polyline"]}
{"id": "C13", "title": "simplify_polyline error bound", "statement": "Every dropped point is within tol (perpendicular distance) of the line through the two consecutive kept points that surround it, provided these are distinct. For closed stretches (coincident surrounding points) the bound must also hold for the polyline to be a faithful simplification.", "quantifier": "all point lists, all tolerances >= 0", "why_tests_cant": "Universal over all shapes; the degenerate closed curve is exactly the case tests omit.", "anchors": ["src/polykin/math/misc/filters.py: simplify_polyline"]}
{"id": "C14", "title": "Argument range checks accept exactly the documented range", "statement": "check_bounds returns its argument unchanged iff every element (scalar, array or iterable) is a number in the closed interval [xmin, xmax], and raises RangeError otherwise; NaN is never accepted; check_in_set accepts exactly the listed items.", "quantifier": "all values incl. NaN and infinities, all containers of any size, all bounds", "why_tests_cant": "Validation guards every constructor; NaN slipping through a comparison is a classic blind spot.", "anchors": ["src/polykin/utils/tools.py: check_bounds, check_in_set, check_valid_range"]}
{"id": "C15", "title": "Temperature and pressure conversion", "statement": "convert_check_temperature returns T in kelvin (C: +273.15; K: unchanged), refuses physically impossible temperatures, warns iff some value lies outside Trange, and never changes values because of Trange; convert_check_pressure is a pure unit scaling. As documented by its error message, T must be strictly positive.", "quantifier": "all temperatures, units, ranges, array sizes", "why_tests_cant": "Boundary and NaN behaviour over all inputs.", "anchors": ["src/polykin/utils/tools.py: convert_check_temperature, convert_check_pressure"]}
{"id": "C16", "title": "add_dicts / enforce_symmetry", "statement": "add_dicts(d1, d2) returns the key-wise sum; with new=True neither argument changes, with new=False d1 is updated in place and returned; the sum is commutative and associative as a map. enforce_symmetry copies the upper triangle to the lower one, keeps the diagonal, is idempotent, and rejects non-square matrices.", "quantifier": "all dictionaries, all matrices of any size", "why_tests_cant": "Universally quantified algebraic laws and aliasing.", "anchors": ["src/polykin/utils/math.py: add_dicts, enforce_symmetry"]}
{"id": "C17", "title": "Flory distribution is normalised and its moments and cdf are exact", "statement": "For every DPn >= 1 the Flory number pdf is >= 0 and sums to 1 over chain lengths k >= 1; every moment that is returned equals sum k^n pdf(k) (orders up to 4 always, higher orders for DPn > 1 given the polylogarithm); the cumulative number and mass fractions equal the partial sums; DPn, DPw and PDI computed from the moments are DPn, 2*DPn - 1 and 2 - 1/DPn.", "quantifier": "all DPn >= 1, all chain lengths", "why_tests_cant": "Infinite sums over all lengths for a continuum of parameters.", "anchors": ["src/polykin/distributions/analyticaldistributions.py: Flory", "src/polykin/distributions/base.py: IndividualDistribution"]}
{"id": "C18", "title": "Poisson distribution is normalised and its moments are exact", "statement": "Same as Flory for the shifted Poisson chain-length distribution (DPn > 1): the pdf is positive and sums to one, moments of every order equal the true moments, the cumulative number and mass fractions are the partial sums, DPn and PDI computed from the moments are DPn and 1 + 1/DPn - 1/DPn^2.", "quantifier": "all DPn > 1, all chain lengths", "why_tests_cant": "Infinite sums for a continuum of parameters.", "anchors": ["src/polykin/distributions/analyticaldistributions.py: Poisson"]}
{"id": "C19", "title": "LogNormal and Schulz-Zimm have the DPn and PDI they were asked for", "statement": "For any DPn > 0 and PDI > 1 the number-average and polydispersity computed by LogNormal and SchulzZimm from their moments are exactly DPn and PDI; their pdf integrates to the closed-form moments of every order; the cumulative number and mass fractions are the partial integrals; the number, mass and gpc pdfs are normalised, as functions of chain length and of molar mass.", "quantifier": "all DPn, PDI; all moment orders", "why_tests_cant": "Improper integrals over a continuum of parameters.", "anchors": ["src/polykin/distributions/analyticaldistributions.py: LogNormal, SchulzZimm"]}
{"id": "C20", "title": "Averages are ordered and mutually consistent", "statement": "For any distribution of positive sizes with finite third moment: DPn <= DPw <= DPz, Mn <= Mw <= Mz, PDI >= 1, Mx = M0*DPx and the recovered M0 is the one given. Mixtures keep Mn <= Mw <= Mz and PDI >= 1.", "quantifier": "all chain-length distributions", "why_tests_cant": "Cauchy-Schwarz style statement over all distributions.", "anchors": ["src/polykin/distributions/base.py: Distribution"]}
{"id": "C21", "title": "Assigning DPn/PDI is all-or-nothing and observable state follows it", "statement": "Setting DPn, PDI or M0 of an analytical distribution to an invalid value raises and leaves every observable unchanged; setting a valid value makes the getter return it; results of moment/pdf/cdf/random queries never depend on the history of earlier queries (memoised values are never stale).", "quantifier": "all histories of assignments and queries on any number of distribution objects", "why_tests_cant": "Interleavings of setters and cached queries over several objects are unbounded.", "anchors": ["src/polykin/distributions/base.py: IndividualDistribution, AnalyticalDistribution, AnalyticalDistributionP2"]}
{"id": "C22", "title": "MixtureDistribution averages and pdf follow the mixing rules", "statement": "For a mixture of components with positive weights: mole fractions sum to 1; Mn = W/sum(w_i/Mn_i); Mw = sum(w_i Mw_i)/W; pdf and cdf are the corresponding convex combinations; all are independent of the order of insertion and of a common scaling of the weights.", "quantifier": "all finite mixtures, all weights", "why_tests_cant": "Arbitrary numbers of components and orders.", "anchors": ["src/polykin/distributions/base.py: MixtureDistribution"]}
{"id": "C23", "title": "Combining distributions does not change the operands", "statement": "w1*D1 + w2*D2 builds a new mixture and evaluating m + c never changes the mixture m that a user still holds.", "quantifier": "all mixtures and sequences of additions", "why_tests_cant": "Aliasing after arbitrary sequences of additions.", "anchors": ["src/polykin/distributions/base.py: MixtureDistribution.__add__", "src/polykin/utils/math.py: add_dicts"]}
{"id": "C24", "title": "convolve_moments gives the moments of the sum", "statement": "If q, r are the moment sequences of two independent sizes then convolve_moments(q, r) is the moment sequence of their sum, for any number of moments; sequences of different lengths raise; convolution is commutative, associative and has the moment sequence of the constant 0 as unit.", "quantifier": "all moment sequences of any length, all distributions with finite moments", "why_tests_cant": "Holds for all lengths and all distributions.", "anchors": ["src/polykin/distributions/misc.py: convolve_moments"]}
{"id": "C25", "title": "convolve_moments_self closed forms equal repeated convolution", "statement": "convolve_moments_self(q, 0) is q, and convolve_moments_self(q, order+1) is convolve_moments of q with convolve_moments_self(q, order), for every order (closed-form branch for up to 3 moments and generic branch); the closed form and the generic path agree.", "quantifier": "all orders >= 1, all moment vectors", "why_tests_cant": "Induction over the order; tests try two or three orders.", "anchors": ["src/polykin/distributions/misc.py: convolve_moments_self"]}
{"id": "C26", "title": "reconstruct_Laguerre reproduces the given moments", "statement": "The chain-length distribution returned by reconstruct_Laguerre from moments [m0..m_{k-1}] has exactly these moments under integration over (0, inf).", "quantifier": "all moment vectors with positive mean, any number of moments", "why_tests_cant": "Any number of moments; involves improper integrals of a sum of Laguerre polynomials.", "anchors": ["src/polykin/distributions/misc.py: reconstruct_Laguerre"]}
{"id": "C27", "title": "convert_polymer_standards is a Mark-Houwink consistent invertible conversion", "statement": "Converted mass has the same hydrodynamic volume (K M^(1+a)); converting with identical constants is the identity; converting there and back is the identity; conversion is strictly increasing and composes.", "quantifier": "all positive masses and constants", "why_tests_cant": "Continuum of inputs.", "anchors": ["src/polykin/distributions/misc.py: convert_polymer_standards"]}
{"id": "C28", "title": "Binary instantaneous copolymer composition is well-behaved", "statement": "inst_copolymer_binary maps [0,1] into [0,1], gives 0 and 1 at the pure ends, is symmetric under exchanging the monomers, is strictly increasing in f1, equals f1 for r1=r2=1, and satisfies the Mayo-Lewis ratio equation.", "quantifier": "all f1 in [0,1], all positive (r1, r2)", "why_tests_cant": "Continuum of inputs.", "anchors": ["src/polykin/copolymerization/binary.py: inst_copolymer_binary"]}
{"id": "C29", "title": "Average propagation rate coefficient", "statement": "kp_average_binary lies between the extreme values, equals k11 and k22 at the pure ends, is symmetric under relabelling, and equals the radical-fraction weighted sum of the four elementary rates at the terminal-model steady state.", "quantifier": "all f1 in [0,1], positive r and k", "why_tests_cant": "Continuum of inputs.", "anchors": ["src/polykin/copolymerization/binary.py: kp_average_binary"]}
{"id": "C30", "title": "TerminalModel.azeotrope: reported compositions are azeotropes", "statement": "The reported azeotrope a satisfies F1(a) = a with 0 < a < 1; when r1 < 1 and r2 < 1 or the ratios lie on opposite sides of 1 the answer is exact (reported iff one exists). The statement that None is reported only if no azeotrope exists is false: for r1, r2 > 1 an azeotrope exists and None is returned.", "quantifier": "all reactivity ratios r1, r2 >= 0", "why_tests_cant": "The \"None\" direction is a universal statement over f1.", "anchors": ["src/polykin/copolymerization/terminal.py: TerminalModel.azeotrope"]}
{"id": "C31", "title": "Terminal model: transition probabilities, triads and sequence lengths are proper distributions", "statement": "P11+P12 = 1 and P21+P22 = 1 with all entries in [0,1]; triads centred on monomer 1 sum to F1 and on monomer 2 to F2 up to the eps that guards the division by P12+P21, consistent with dyads; the sequence length distribution sums to 1 and has mean 1/(1-Pii), the reported mean being 1/(1-Pii+eps), i.e. the same up to the guard against division by zero.", "quantifier": "all compositions in (0,1), positive reactivity ratios, all sequence lengths", "why_tests_cant": "Infinite sums and continuum of inputs.", "anchors": ["src/polykin/copolymerization/terminal.py: TerminalModel.transitions, triads, sequence"]}
{"id": "C32", "title": "Penultimate model reduces to the terminal model", "statement": "With r11=r21, r22=r12, s1=s2=1 the penultimate model gives the same F1, kp, transition probabilities and sequence lengths as the terminal model (means up to the eps guard). The triads differ by normalisation: they sum to 1 for the terminal model and to 1 for each centre monomer in the penultimate model.", "quantifier": "all compositions in (0,1) and positive parameters", "why_tests_cant": "Continuum of inputs; the formulas look entirely different.", "anchors": ["src/polykin/copolymerization/penultimate.py", "src/polykin/copolymerization/terminal.py"]}
{"id": "C33", "title": "Multicomponent composition is the stationary state of the propagation Markov chain", "statement": "inst_copolymer_multi (given r or P) returns F >= 0 summing to 1 that is invariant under the transition matrix P_ij; invalid argument combinations raise ValueError; it agrees with inst_copolymer_ternary for N=3 and inst_copolymer_binary for N=2.", "quantifier": "all numbers of monomers, compositions in the open simplex, positive reactivity ratios", "why_tests_cant": "Arbitrary N; equality of different closed forms over a continuum.", "anchors": ["src/polykin/copolymerization/multicomponent.py: inst_copolymer_multi, inst_copolymer_ternary", "src/polykin/copolymerization/binary.py: inst_copolymer_binary"]}
{"id": "C34", "title": "Radical fractions are the steady state of the cross-propagation balance", "statement": "radical_fractions_ternary and radical_fractions_multi return fractions summing to 1 that satisfy the steady-state balance sum_j k_ij p_i f_j = sum_j k_ji p_j f_i for each radical type; both agree for N=3.", "quantifier": "all N, compositions and positive rate coefficients", "why_tests_cant": "Continuum and arbitrary N.", "anchors": ["src/polykin/copolymerization/multicomponent.py: radical_fractions_ternary, radical_fractions_multi"]}
{"id": "C35", "title": "transitions_multi is row-stochastic", "statement": "Every row of the transition matrix sums to 1 and entries are in [0,1]; for N=2 it coincides with TerminalModel.transitions.", "quantifier": "all N, all compositions with positive entries, positive r", "why_tests_cant": "Arbitrary N.", "anchors": ["src/polykin/copolymerization/multicomponent.py: transitions_multi"]}
{"id": "C36", "title": "sequence_multi is a normalised geometric law with the reported mean", "statement": "For each monomer the sequence length distribution sums to 1 over k >= 1 and has mean 1/(1-Pii), the value returned when k is None being 1/(1-Pii+eps).", "quantifier": "all self-transition probabilities in [0,1)", "why_tests_cant": "Infinite sums.", "anchors": ["src/polykin/copolymerization/multicomponent.py: sequence_multi"]}
{"id": "C37", "title": "tuples_multi partitions the chain statistics", "statement": "The returned probabilities are non-negative and sum to 1; exactly one representative per tuple/reversed-tuple pair is reported, and its value is the sum of the probabilities of both directions; summing out a position gives the shorter tuples.", "quantifier": "all N, all tuple sizes, all stochastic matrices", "why_tests_cant": "N^n keys for every n.", "anchors": ["src/polykin/copolymerization/multicomponent.py: tuples_multi"]}
{"id": "C38", "title": "Q-e scheme reactivity ratios", "statement": "convert_Qe_to_r gives r_ii = 1, r_ij > 0 and r_ij*r_ji = exp(-(e_i - e_j)^2) <= 1; rescaling all Q or shifting all e together has the documented invariances (Q scaling invariant).", "quantifier": "all Q > 0, e, all N", "why_tests_cant": "Continuum, arbitrary N.", "anchors": ["src/polykin/copolymerization/multicomponent.py: convert_Qe_to_r"]}
{"id": "C39", "title": "Fineman-Ross recovers the exact reactivity ratios from exact data", "statement": "If all data points satisfy the Mayo-Lewis equation for (r1, r2) and at least two distinct abscissae exist, fit_Finemann_Ross returns exactly (r1, r2).", "quantifier": "all data sets of any size >= 2 and all positive r1, r2", "why_tests_cant": "Arbitrary data sets.", "anchors": ["src/polykin/copolymerization/fitting.py: fit_Finemann_Ross"]}
{"id": "C40", "title": "CopoModel data bookkeeping", "statement": "add_data never stores the same data set twice, stores only data sets of the right monomer pair, leaves the stored data untouched when a single data set is rejected, preserves the order of first insertion and never moves or removes stored data. A rejected list call is not atomic: the data sets before the offending one stay stored.", "quantifier": "all sequences of add_data calls", "why_tests_cant": "Histories of any length.", "anchors": ["src/polykin/copolymerization/terminal.py: CopoModel.add_data"]}
{"id": "C41", "title": "Step-growth closed forms are consistent special cases of each other", "statement": "Each closed form's Mw satisfies the expected-mass (Macosko-Miller) recursion of its own system; Case_3 with equal conversions equals Case_1; Stockmayer with one A2 and one B2 equals Case_1; Miller_1 with equal conversions and Miller_2 with binomially distributed bonds equal Stockmayer.", "quantifier": "all conversions below the gel point and all stoichiometries", "why_tests_cant": "Different authors' closed forms over a continuum of parameters.", "anchors": ["src/polykin/stepgrowth/solutions.py"]}
{"id": "C42", "title": "Step-growth averages are ordered and diverge only at the gel point", "statement": "Below the gel point Mw >= Mn > 0 for all the closed forms; beyond the gel point the functions must not return a finite average.", "quantifier": "all conversions and stoichiometries", "why_tests_cant": "Continuum of inputs.", "anchors": ["src/polykin/stepgrowth/solutions.py"]}
{"id": "C43", "title": "Arrhenius algebra", "statement": "Products, quotients, powers and scalar multiples of Arrhenius coefficients evaluate to the product, quotient, power and multiple of the values at every temperature; k(T0) = k0; the validity range of a product is the intersection and disjoint ranges are refused.", "quantifier": "all parameters, temperatures and expression trees", "why_tests_cant": "Closed under arbitrary expression trees.", "anchors": ["src/polykin/kinetics/coefficients/arrhenius.py", "src/polykin/properties/equations/base.py"]}
{"id": "C44", "title": "Chain-length dependent termination and propagation coefficients", "statement": "TerminationCompositeModel is symmetric in (i, j), continuous at icrit, equals k11 at i=j=1 and decreasing in chain length; PropagationHalfLength starts at C*kp for i=1, decreases to kp, and the excess over kp halves at each half-length.", "quantifier": "all chain lengths and parameters", "why_tests_cant": "All pairs of lengths.", "anchors": ["src/polykin/kinetics/coefficients/cldtermination.py", "src/polykin/kinetics/coefficients/cldpropagation.py"]}
{"id": "C45", "title": "nbar (Li-Brooks) limits and monotonicity", "statement": "nbar_Li_Brooks is positive for alpha > 0, nondecreasing in alpha, has the zero-one limit 1/2 for m = 0 as alpha -> 0+, returns 0 at alpha = 0 for m > 0 and NaN exactly at alpha = m = 0; it is never above the exact Stockmayer-O'Toole value and never more than 4 % below it (the documented accuracy), and at alpha = 4, m = 0 it is more than 3.8 % below.", "quantifier": "all alpha, m >= 0", "why_tests_cant": "Continuum.", "anchors": ["src/polykin/kinetics/emulsion/nbar.py"]}
{"id": "C46", "title": "RTD functions are consistent densities and distributions", "statement": "For CSTR, tanks-in-series and laminar flow tube: F(0)=0, F is nondecreasing with limit 1, dF/dt = E for every t > 0 (for the laminar tube, every t other than tau/2, where E jumps), mean residence time equals tau, tanks with N=1 is the CSTR.", "quantifier": "all t, tau > 0, N >= 1", "why_tests_cant": "Improper integrals, continuum.", "anchors": ["src/polykin/reactors/rtd.py"]}
{"id": "C47", "title": "Cubic EoS: Z solves the equation of state", "statement": "For every root Z returned by the cubic equations of state, v = Z R T/P gives back P through the pressure equation; roots are real, greater than B and sorted; there is always at least one (Z never fails).", "quantifier": "all temperatures, pressures, compositions; RK, SRK and PR", "why_tests_cant": "Existence claim and round trip over a continuum.", "anchors": ["src/polykin/thermo/eos/cubic.py: CubicEoS.Z, P, Z_cubic_roots"]}
{"id": "C48", "title": "EoS: pressure is minus the volume derivative of the Helmholtz departure", "statement": "P(T, V/n, z) = -d(DA)/dV at constant T and amounts, for the Helmholtz departure DA of every cubic EoS, the virial EoS and the ideal gas; the departures returned by DX satisfy G = H - T S and U = A + T S, and for the ideal gas H = U = 0 and S = -R ln(P/P0).", "quantifier": "all T, V > b, compositions", "why_tests_cant": "Derivative identity over a continuum.", "anchors": ["src/polykin/thermo/eos/cubic.py: DA", "src/polykin/thermo/eos/virial.py", "src/polykin/thermo/eos/idealgas.py"]}
{"id": "C49", "title": "Cubic EoS: fugacity coefficients do not depend on how zero interaction is expressed", "statement": "phi computed with an explicit all-zero binary interaction matrix equals phi computed with k=None; ln phi_i is the composition derivative of the residual Helmholtz energy minus ln Z; and sum_i z_i ln phi_i = G^R/RT.", "quantifier": "all mixtures and states", "why_tests_cant": "Continuum.", "anchors": ["src/polykin/thermo/eos/cubic.py: CubicEoS.phi"]}
{"id": "C50", "title": "Virial EoS consistency", "statement": "P(T, v(T,P)) = P, Z = 1 + BP/RT, Bm is a symmetric quadratic form reducing to the pure-component value, ln phi_i is the composition derivative of n*Bm*P/RT, and B_mixture treats identical components as one.", "quantifier": "all mixtures and states with positive volume", "why_tests_cant": "Continuum.", "anchors": ["src/polykin/thermo/eos/virial.py", "src/polykin/properties/pvt/virial.py"]}
{"id": "C51", "title": "Activity coefficients are thermodynamically consistent with gE", "statement": "For NRTL, Wilson, UNIQUAC and ideal solution: sum_i x_i ln gamma_i = gE/RT, and ln gamma_i is the partial molar derivative of n*gE/RT, for any number of components.", "quantifier": "all N, nonnegative compositions (positive ones for the UNIQUAC derivative), all parameters", "why_tests_cant": "Arbitrary N; derivative identity.", "anchors": ["src/polykin/thermo/acm/nrtl.py", "src/polykin/thermo/acm/wilson.py", "src/polykin/thermo/acm/uniquac.py", "src/polykin/thermo/acm/ideal.py"]}
{"id": "C52", "title": "Pure-component limit of activity models", "statement": "At a pure composition gamma_i = 1, gE = 0 and activities are 1, for NRTL, Wilson and UNIQUAC.", "quantifier": "all N, all parameters, every component", "why_tests_cant": "Arbitrary N.", "anchors": ["src/polykin/thermo/acm/nrtl.py", "src/polykin/thermo/acm/wilson.py", "src/polykin/thermo/acm/uniquac.py"]}
{"id": "C53", "title": "Flory-Huggins consistency", "statement": "The two-component functions equal the general functions with m1 = 1; activities are consistent with the mixing Gibbs energy (sum phi_i/m_i ln a_i = Dgmix/RT, and ln a_i is its derivative with respect to the amount of i); a pure component has activity 1; the solvent activity of a binary solution is strictly increasing in phi1 exactly when chi <= (1 + 1/sqrt(m))^2/2.", "quantifier": "all compositions, chain lengths, chi", "why_tests_cant": "Continuum; arbitrary N.", "anchors": ["src/polykin/thermo/acm/floryhuggins.py"]}
{"id": "C54", "title": "Base activity model identities", "statement": "Dgmix = gE + ideal mixing; Dhmix = hE; Dsmix consistent: Dgmix = Dhmix - T*Dsmix; the ideal mixing Gibbs energy is between -RT ln N and 0 and vanishes only for pure components; d(gE/T)/dT = -hE/T^2 when the numerical derivative is exact.", "quantifier": "all models and compositions", "why_tests_cant": "Continuum.", "anchors": ["src/polykin/thermo/acm/base.py"]}
{"id": "C55", "title": "Rachford-Rice residual is strictly decreasing with a unique physical root", "statement": "Between the two asymptotes the Rachford-Rice function is strictly decreasing, so the vapour fraction is unique; it lies in (0,1) iff sum z_i K_i > 1 and sum z_i/K_i > 1.", "quantifier": "all N, feeds in the open simplex, K > 0 not all 1", "why_tests_cant": "Arbitrary N.", "anchors": ["src/polykin/thermo/flash/vle.py: residual_Rachford_Rice"]}
{"id": "C56", "title": "solve_Rachford_Rice stays in its bracket and certifies its answer", "statement": "solve_Rachford_Rice returns beta in [0,1]; for two-phase feeds every iterate stays in an interval containing the root, success=True implies |F(beta)| <= tolerance at the returned beta, single-phase feeds give 0 or 1 immediately.", "quantifier": "all feeds, K-values, initial guesses, tolerances, iteration limits", "why_tests_cant": "All N and all iteration histories.", "anchors": ["src/polykin/thermo/flash/vle.py: solve_Rachford_Rice"]}
{"id": "C57", "title": "Flash material balances", "statement": "flash2_PT, flash2_PV, flash2_TV return V + L = F, phase compositions summing to 1, x,y,K related by y_i ~ K_i x_i, and the component balance F z_i = L x_i + V y_i whenever the Rachford-Rice residual vanishes (with an explicit bound otherwise).", "quantifier": "all feeds, K-value functions and iteration counts", "why_tests_cant": "Holds for all K-value models.", "anchors": ["src/polykin/thermo/flash/vle.py: flash2_PT, flash2_PV, flash2_TV"]}
{"id": "C58", "title": "Inside-out R-loop is always bracketed", "statement": "The scalar equation solved inside flash2_PV / flash2_TV always has opposite signs at the ends 0 and 1, so the bracketing solver cannot refuse it for 0 < beta < 1.", "quantifier": "all feeds, pseudo K-values", "why_tests_cant": "Universal over states reached in the loop.", "anchors": ["src/polykin/thermo/flash/vle.py: _Rloop"]}
{"id": "C59", "title": "Pressure drop correlations", "statement": "In laminar flow (Re < 2300) DP_tube gives exactly the Hagen-Poiseuille pressure drop, for any nonzero flow including reverse flow. DP_tube is proportional to the length. The Haaland friction factor is nonincreasing in Re and nondecreasing in the roughness. DP_packed_bed is the sum of a viscous part linear in the mass flux and an inertial part growing as its 11/6 power. DP_GL_Lockhart_Martinelli and DP_GL_Mueller_Bonn reduce to the single-phase pressure drop when one phase is absent; with both phases Lockhart-Martinelli is pL + C sqrt(pL pG) + pG with Chisholm's C.", "quantifier": "all fluids and geometries", "why_tests_cant": "Continuum.", "anchors": ["src/polykin/flow/friction.py:27-282", "src/polykin/flow/friction.py:348-398", "src/polykin/flow/friction.py:574-783"]}
{"id": "C60", "title": "Relief valve sizing", "statement": "area_relief_gas reports the critical pressure P1 (2/(k+1))^(k/(k-1)), which is where the isentropic nozzle flow is largest, flags the flow as critical exactly when P2 does not exceed it, and returns the area of that regime; gas, two-phase and subcooled areas are positive and proportional to the flow. The area never decreases when the back pressure rises. The liquid sizing equations have exactly one solution, area_relief_liquid always converges to it, to 0.0031 %. Steam sizing applies Napier's correction and rejects inlet pressures from 220.57 bar. Two-phase sizing: critical pressure below the inlet (and, subcooled, below the saturation) pressure, flag consistent with it; low and high subcooling agree at their transition.", "quantifier": "all positive flows, pressures, fluid properties and correction factors", "why_tests_cant": "Decision boundaries and a fixed-point iteration over a continuum of inputs.", "anchors": ["src/polykin/flow/prv.py"]}
{"id": "C61", "title": "Non-Newtonian viscosity laws are bounded, monotone and have their documented limits", "statement": "Power-law, Cross, modified Cross and Carreau-Yasuda viscosities: the value at zero shear rate is the zero-shear viscosity, the value falls strictly with the shear rate for n < 1 and stays above the infinite-shear viscosity, the shear stress rises, and n = 1 gives a Newtonian fluid with the zero-shear viscosity. aT_WLF is one at T0, strictly decreasing in T above T0 - C2, transforms correctly under a change of reference temperature, uses the universal constants when none are given and rejects only one being given.", "quantifier": "all shear rates and parameters", "why_tests_cant": "Continuum.", "anchors": ["src/polykin/flow/rheology.py"]}
{"id": "C62", "title": "Overall heat-transfer coefficient", "statement": "1/U is the sum of the resistances; U is positive, below each film coefficient (referred to the outer surface for the cylinder) and symmetric in the sides for the plane wall; improving a film, the wall or the fouling never lowers it. U_cylindrical_wall is below the plane-wall value for the same thickness and equal to it for zero thickness.", "quantifier": "all positive parameters", "why_tests_cant": "Continuum.", "anchors": ["src/polykin/hmt/hex.py:13-147"]}
{"id": "C63", "title": "Constant-surface diffusion profiles and uptakes are fractions", "statement": "profile_constc_semiinf/_sheet/_sphere and uptake_constc_sheet/_sphere return values between 0 and 1, are 0 at time zero, 1 at the surface (to within exp(-64) for the series formulas) and tend to 1 at long times; the semi-infinite profile decreases with depth and increases with time, and is NaN at time zero on the surface itself.", "quantifier": "all Fourier numbers >= 0 and dimensionless positions in [0, 1]", "why_tests_cant": "Truncated series behave differently from the true series at extremes not sampled by tests (the code returns -1 at the centre of a sphere at time zero).", "anchors": ["src/polykin/hmt/diffusion.py", "src/polykin/math/special.py"]}
{"id": "C64", "title": "Composite diffusivity limits and bounds", "statement": "diffusivity_composite satisfies the generalised Maxwell relation and is its only nonnegative solution; it equals Dc at fd = 0, Dd at fd = 1, lies between the two, and moves strictly from Dc to Dd as fd grows.", "quantifier": "all diffusivities Dd >= 0, Dc > 0, sphericity in (0,1], fd in [0,1]", "why_tests_cant": "Continuum.", "anchors": ["src/polykin/hmt/diffusion.py:512-565"]}
{"id": "C65", "title": "Tait equation: alpha and beta are the thermodynamic derivatives of the volume", "statement": "For every object Tait accepts and every T, P at which its volume is positive, the isothermal compressibility and the isobaric expansion it returns equal -(1/v) dv/dP and (1/v) dv/dT of the volume it returns; with physically signed parameters the compressibility is positive, so the volume decreases with pressure; the expansion is positive at zero pressure, but at high pressure may be negative, exactly when C*B1*P/(P+B) exceeds the zero-pressure expansion times 1 - C*ln(1+P/B).", "quantifier": "all parameters, T, P in the valid domain", "why_tests_cant": "A derivative identity over a continuum of parameters.", "anchors": ["src/polykin/properties/pvt/tait.py"]}
{"id": "C66", "title": "Mixing rules", "statement": "geometric_interaction_mixing with k=None equals k=0; a mixture of identical components has the pure property; linear/quadratic rules are bounded and reduce at pure ends.", "quantifier": "all N and compositions", "why_tests_cant": "Arbitrary N.", "anchors": ["src/polykin/properties/pvt/mixing_rules.py"]}
{"id": "C67", "title": "Vapour-pressure and enthalpy-of-vaporisation estimates hit their anchor points and are monotone", "statement": "PL_Lee_Kesler returns exactly 101325 Pa at the boiling point it was given and Pc within 0.01 % at Tc; PL_Wilson, PL_Ambrose_Walton, Wagner25 and Wagner36 return Pc at Tc; PL_Wilson and PL_Ambrose_Walton reproduce the definition of the acentric factor at 0.7 Tc; all of them and Antoine (B > 0) strictly increase with temperature in their valid range; DHVL_Watson is the identity at equal temperatures, composes, vanishes at Tc and decreases; DHVL_Pitzer decreases to zero at Tc; DHVL_Kistiakowsky_Vetere raises exactly for an unknown kind or a missing molar mass, and otherwise returns Tb times the entropy of the published correlation for that kind (22.4 kJ/mol for butadiene, as documented).", "quantifier": "all substances (Tb, Tc, Pc, w, coefficients) and temperatures in the stated ranges", "why_tests_cant": "A continuum of substances and temperatures; exact identities between separately fitted coefficients.", "anchors": ["src/polykin/properties/vaporization/pvap.py", "src/polykin/properties/vaporization/dhvl.py", "src/polykin/properties/equations/vapor_pressure.py"]}
{"id": "C68", "title": "Transport-property mixing rules are means of the pure-component values", "statement": "For nonnegative compositions with at least one component present: MUVMX2_Herning_Zipperer and KVMX2_Wassilijewa are the same sqrt(M)-weighted mean; MULMX2_Perry(hydrocarbons=False) <= MULMX2_Perry(hydrocarbons=True) <= arithmetic mean; KLMX2_Li lies between the volume-weighted harmonic and arithmetic means; DVMX is the harmonic mean. Each lies between the smallest and largest pure value of the components present; except for Perry the composition needs no normalisation.", "quantifier": "all numbers of components, compositions and pure-component values", "why_tests_cant": "Inequalities over all compositions and component counts.", "anchors": ["src/polykin/properties/viscosity/liquid.py", "src/polykin/properties/viscosity/vapor.py", "src/polykin/properties/thermal_conductivity/liquid.py", "src/polykin/properties/thermal_conductivity/vapor.py", "src/polykin/properties/diffusion/vapor.py"]}
{"id": "C69", "title": "Free-volume (Vrentas-Duda) diffusion coefficients", "statement": "The self- and mutual diffusion coefficients are those of the documented formulas wherever the denominators do not vanish. For every accepted VrentasDudaBinary with positive free volume the self-diffusion coefficient lies in (0, D0] and never decreases with temperature; mutual diffusion equals self-diffusion at w1 = 0, is zero at w1 = 1 and is nonnegative exactly when 2*X*w1 <= 1; the call raises exactly for w1 outside [0, 1] or negative temperature.", "quantifier": "all parameters, compositions", "why_tests_cant": "Continuum of parameters, compositions and temperatures; the failure region (negative free volume) is only reached by particular parameter sets.", "anchors": ["src/polykin/properties/diffusion/vrentasduda.py"]}
{"id": "C70", "title": "PropertyEquation temperature handling", "statement": "Calling a property equation converts the unit, evaluates the equation at kelvin temperature and warns iff outside Trange; constructing with an empty Trange is refused.", "quantifier": "all equations, temperatures, units and ranges", "why_tests_cant": "Universal decision logic.", "anchors": ["src/polykin/properties/equations/base.py", "src/polykin/utils/tools.py"]}
{"id": "C71", "title": "scalex returns usable scaling factors", "statement": "scalex returns one positive factor per element, depending only on its value: 1 if all elements are zero, otherwise every nonzero element is scaled to a magnitude in (1/10, 1] and zero elements get at least ten times the factor of any nonzero one. The same must hold for arrays of integer dtype.", "quantifier": "all vectors", "why_tests_cant": "Only a few float vectors are ever tested; integer dtype changes the stored factors.", "anchors": ["src/polykin/math/derivatives/ndiff.py: scalex"]}
{"id": "C72", "title": "check_shapes accepts exactly consistent shapes", "statement": "check_shapes(a, b) succeeds exactly when the arrays in the first group all have one common shape and every member of the second group is a scalar or has that shape; otherwise ShapeError.", "quantifier": "all lists of scalars and arrays of any shape", "why_tests_cant": "Finite tests cannot cover all shape combinations.", "anchors": ["src/polykin/utils/tools.py: check_shapes"]}
{"id": "C73", "title": "Dogleg step: sufficient decrease and trust region", "statement": "A successful dogleg step returns a point whose function value is the one returned and whose merit has decreased by at least 1e-4 times the model slope along the step taken; a failed one returns the starting point. Every trial step is the Newton step if it fits, otherwise its scaled length is exactly the trust radius. Exploring a larger trust region never yields a point worse than the one explored before.", "quantifier": "all functions, gradients, Newton steps, R factors and radii", "why_tests_cant": "The step length along the dogleg curve is the root of a quadratic; tests sample a few systems and never inspect the step length.", "anchors": ["src/polykin/math/roots/vector.py: dogleg, _update_trust_region"]}
{"id": "C74", "title": "Broyden update satisfies the secant equation", "statement": "The updated scaled Jacobian maps the last step onto the last change of the scaled residual (up to eps-filtered components) and agrees with the old one on all directions orthogonal, in the x scaling, to the step.", "quantifier": "all matrices, steps, function values and scalings", "why_tests_cant": "An identity for arbitrary dimension and arbitrary data; tests only observe convergence.", "anchors": ["src/polykin/math/roots/vector.py: _update_broyden_qr"]}
{"id": "C75", "title": "PenultimateModel.azeotrope: what a reported value means", "statement": "An azeotrope reported by the general search lies in [1e-4, 0.9999], and either the copolymer composition there differs from the monomer composition by at most 1e-6, or an exact azeotrope lies within the x-tolerance of the solver. It need not be near an azeotrope: a value is reported for parameters for which F1 = f1 has no solution strictly between 0 and 1.", "quantifier": "all parameter values", "why_tests_cant": "The tolerance makes the end point test succeed for a continuum of parameters.", "anchors": ["src/polykin/copolymerization/terminal.py: CopoModel.azeotrope", "src/polykin/math/roots/scalar.py: root_brent"]}
{"id": "C76", "title": "Step-growth Mn is mass over number of molecules", "statement": "Every step-growth closed form returns as Mn the total mass of the reacted units divided by the number of molecules (units minus bonds) implied by the recipe and the conversions.", "quantifier": "all recipes and conversions with a positive number of molecules", "why_tests_cant": "Twelve different closed forms with nested ratios; a wrong ratio shifts results by a few percent, which reference values do not expose.", "anchors": ["src/polykin/stepgrowth/solutions.py"]}
{"id": "C77", "title": "Stockmayer-O'Toole radical number solves the exact recurrence", "statement": "nbar_Stockmayer_OToole satisfies n(alpha,m)*(m + 2*n(alpha,m+1)) = alpha, is positive, lies between the two explicit algebraic bounds obtained from the recurrence, is below alpha/m with desorption, is at least 1/2 without desorption, and tends to 1/2 for m = 0 as alpha -> 0+.", "quantifier": "all alpha > 0, m >= 0", "why_tests_cant": "Bessel functions over a continuum.", "anchors": ["src/polykin/kinetics/emulsion/nbar.py"]}
{"id": "C78", "title": "Combining coefficients is silent", "statement": "Multiplying or dividing two Arrhenius coefficients emits no out-of-range temperature warning, since no temperature is supplied.", "quantifier": "all coefficients", "why_tests_cant": "All validity ranges.", "anchors": ["src/polykin/kinetics/coefficients/arrhenius.py"]}
{"id": "C79", "title": "Dispersion-model RTD", "statement": "E_dispersion_model and F_dispersion_model form a consistent distribution: F(0)=0, nondecreasing, limit 1, F accumulates E, mass 1, and the mean is the documented average residence time; Pe_tube is positive, asks for Sc exactly in laminar flow, and in turbulent flow grows with Re.", "quantifier": "all t, tau > 0, Pe > 0", "why_tests_cant": "Improper integrals, continuum.", "anchors": ["src/polykin/reactors/rtd.py"]}
{"id": "C80", "title": "fit reports what it stores", "statement": "After PropertyEquationT.fit every fitted parameter equals the optimum, other parameters are unchanged, the range is the data range, and the reported parameters equal the stored ones.", "quantifier": "all equations, data, parameter selections, and all sequences of evaluations made by the solver", "why_tests_cant": "Depends on the evaluation history of an external solver.", "anchors": ["src/polykin/properties/equations/base.py: PropertyEquationT.fit"]}
{"id": "C81", "title": "Cubic EoS: Bm is the second virial coefficient", "statement": "CubicEoS.Bm(T, z) is the limit of v (P v/(R T) - 1) as v goes to infinity, P being the pressure equation of the same object.", "quantifier": "all T > 0, compositions, RK/SRK/PR", "why_tests_cant": "A limit.", "anchors": ["src/polykin/thermo/eos/cubic.py: CubicEoS.Bm", "src/polykin/thermo/eos/cubic.py: CubicEoS.P"]}
{"id": "C82", "title": "Activity model constructors leave their arguments alone", "statement": "Constructing an NRTL, Wilson, UNIQUAC or FloryHuggins object does not modify the parameter matrices passed by the caller.", "quantifier": "all matrices with entries in the accepted ranges", "why_tests_cant": "Tests compare results, not the inputs after the call; the matrices used in tests have zero diagonals.", "anchors": ["src/polykin/thermo/acm/nrtl.py", "src/polykin/thermo/acm/wilson.py", "src/polykin/thermo/acm/uniquac.py", "src/polykin/thermo/acm/floryhuggins.py", "src/polykin/utils/math.py"]}
{"id": "C83", "title": "Outer tolerance of the flash is honoured", "statement": "When flash2_PT reports success, the K-values used agree with the K-value model at the returned compositions to the requested relative tolerance rtol_outer.", "quantifier": "all K-value models, feeds and tolerances", "why_tests_cant": "Tests use default tolerances and compare to a few digits.", "anchors": ["src/polykin/thermo/flash/vle.py: flash2_PT"]}
{"id": "C84", "title": "Flash functions do not raise on valid input", "statement": "flash2_PT, flash2_PV and flash2_TV return a FlashResult (possibly with success=False) and raise no exception for nonnegative feeds, 0 <= beta <= 1 and positive K-value models.", "quantifier": "all N >= 1, feeds, K-value models, iteration limits", "why_tests_cant": "Tests use multicomponent mixtures only.", "anchors": ["src/polykin/thermo/flash/vle.py: flash2_PT, flash2_PV, flash2_TV"]}
{"id": "C85", "title": "Pressure drop grows with flow", "statement": "With all other inputs fixed, DP_tube, DP_packed_bed and DP_GL_Lockhart_Martinelli are positive and strictly increasing in the flow rate, including across the laminar/turbulent switch at Re = 2300. DP_GL_Mueller_Bonn is not: it falls where its friction law switches at Re = 1187.", "quantifier": "all fluids, geometries, relative roughness in [0,1] and pairs of flow rates", "why_tests_cant": "Monotonicity over a continuum and across a jump in the friction factor; samples cannot cover all pairs of flow rates.", "anchors": ["src/polykin/flow/friction.py"]}
{"id": "C86", "title": "Implicit equations of vt_sphere and fD_Colebrook", "statement": "A sphere denser than the fluid has exactly one terminal velocity satisfying the drag balance that vt_sphere solves, and it is below the Stokes velocity. The Colebrook equation has at most one solution, has one for Re >= 2300 and relative roughness in [0,1], and the solution grows with roughness and falls with Re. Whatever vt_sphere and fD_Colebrook return satisfies the Newton stopping test for these equations.", "quantifier": "all positive fluid and particle properties; all Re and roughness", "why_tests_cant": "Existence and uniqueness of roots over a continuum.", "anchors": ["src/polykin/flow/friction.py:335-345", "src/polykin/flow/friction.py:401-571"]}
{"id": "C89", "title": "Diffusion profiles solve the diffusion equation", "statement": "The concentration profiles returned by profile_constc_semiinf/_sheet/_sphere satisfy Fick's second law in their geometry at every interior point and time (on both sides of the switch between series), and start from zero.", "quantifier": "all positive times, all positions (sphere: away from the centre)", "why_tests_cant": "A PDE must hold at every point; no table of values can check it.", "anchors": ["src/polykin/hmt/diffusion.py"]}
{"id": "C90", "title": "Uptake is the volume average of the profile", "statement": "uptake_constc_sheet and uptake_constc_sphere equal the volume average of the corresponding concentration profile, to within 1e-13.", "quantifier": "all Fourier numbers >= 0", "why_tests_cant": "Relates two functions through an integral, for a continuum of times and across two different series.", "anchors": ["src/polykin/hmt/diffusion.py", "src/polykin/math/special.py"]}
{"id": "C91", "title": "Uptake with surface resistance is a nondecreasing fraction", "statement": "uptake_convection_sheet/_sphere, with the roots as the library computes them, return values between 0 and 1, never decrease with time, vanish at Fo = 0 or Bi = 0 and tend to 1. For 0 < Bi <= 1e-10 the sheet function returns values below -7e9 instead.", "quantifier": "all Fourier numbers >= 0; all Biot numbers >= 0 (sphere), Biot number 0 or >= 2e-10 (sheet); the failure for all 0 < Bi <= 1e-10 and 0 < Fo <= 1e18", "why_tests_cant": "Needs Bessel's inequality for the eigenfunctions and propagation of the root error; a four-term truncation could overshoot at unsampled Fo, Bi.", "anchors": ["src/polykin/hmt/diffusion.py", "src/polykin/math/special.py"]}
{"id": "C92", "title": "Gas viscosity estimates: domain, sign, pure-component limits, monotonicity", "statement": "MUV_Lucas returns a real number exactly for nonpolar substances or Zc <= 0.292, is positive for T > Tc or P < Pc, and for nonpolar gases above Tc never falls below its zero-pressure value; MUVMX_Lucas of copies of one substance, or of a single component, equals MUV_Lucas; the Jossi and Dean-Stiel density corrections are positive and strictly increase with density.", "quantifier": "all substances, mixtures, temperatures and pressures in range", "why_tests_cant": "Continuum of inputs and any number of components; the absent-component failure needs a specific combination.", "anchors": ["src/polykin/properties/viscosity/vapor.py"]}
{"id": "C93", "title": "Stiel-Thodos pressure correction of gas thermal conductivity", "statement": "KVPC_Stiel_Thodos raises ValueError exactly for reduced density >= 2.8; below it the correction is positive and strictly increases on compression across its three formulas; KVMXPC_Stiel_Thodos of copies of one substance, or of a single component, equals KVPC_Stiel_Thodos when Zc = 0.291 - 0.08 w.", "quantifier": "all substances and molar volumes; any number of components", "why_tests_cant": "Monotonicity across piecewise formulas over a continuum; mixtures of any size.", "anchors": ["src/polykin/properties/thermal_conductivity/vapor.py"]}
{"id": "C94", "title": "Diffusion-coefficient estimates: errors, symmetry, sign, scaling", "statement": "DV_Wilke_Lee raises exactly when one of rhoB, TB is missing, is symmetric in the two species, inversely proportional to pressure, positive and increasing in temperature; DL_Wilke_Chang and DL_Stokes_Einstein are positive with D*mu/T constant; DL_Hayduk_Minhas raises exactly for an unknown method and is positive (aqueous: for molar volumes up to 650 cm3/mol).", "quantifier": "all species and conditions in range", "why_tests_cant": "Continuum of inputs; the negative region of the aqueous correlation is far from typical tests.", "anchors": ["src/polykin/properties/diffusion/liquid.py", "src/polykin/properties/diffusion/vapor.py"]}
{"id": "C87", "title": "Forced-convection Nusselt numbers: limits, sign, monotonicity, warnings", "statement": "Nu_tube is 3.66 for an infinitely long tube in laminar flow and strictly increases with (D/L)*Re*Pr; in turbulent flow it is positive for Pr >= 0.5 and strictly increases with Re for Pr >= 1 (relative roughness up to 0.05). Nu_plate is continuous at Re = 5e5 and strictly increasing. Nu_cylinder, Nu_sphere and Nu_drop equal 0.3, 2 and 2 at rest, exceed these otherwise and strictly increase with Re and Pr. A warning is printed exactly when an argument is outside the stated range.", "quantifier": "all positive Re, Pr, viscosity ratios and geometries; all pairs for monotonicity", "why_tests_cant": "Monotonicity and sign over a continuum, across branch changes, with a friction factor that falls while Re grows.", "anchors": ["src/polykin/hmt/correlations.py"]}
{"id": "C95", "title": "Free-convection and combined Nusselt numbers", "statement": "Nu_cylinder_free, Nu_sphere_free and the vertical Nu_plate_free equal 0.36, 2 and 0.825^2 without buoyancy, exceed these otherwise and strictly increase with Ra and Pr; horizontal plates strictly increase with Ra across the branch change; Nu_plate_free raises ValueError exactly for unknown orientations or a vertical plate with Pr missing or zero; Nu_combined lies between the larger value and the sum (assisted), never exceeds the forced value and vanishes exactly at equality (opposed).", "quantifier": "all positive Ra, Pr; all pairs of Nusselt numbers", "why_tests_cant": "Continuum of inputs; algebraic identities for all reals.", "anchors": ["src/polykin/hmt/correlations.py"]}
{"id": "C96", "title": "Nu_tank: accepted combinations, correlations, sign, monotonicity", "statement": "Nu_tank accepts exactly the documented surface/impeller combinations and raises ValueError for all others, for any numeric arguments; the result is positive for positive arguments except for an anchor below Re = 12; with the reference geometry it is K*Re^a*Pr^b*mur^0.14; for every impeller the coefficients, exponents and geometric corrections are those of a table stated apart, and the example of the documentation (1.6e3 W/m²/K) is reproduced; for all impellers but anchor and helical ribbon it strictly increases with Re.", "quantifier": "all combinations, all positive numeric arguments", "why_tests_cant": "The whole table of combinations times a continuum of arguments; the decreasing steps of anchor and ribbon are at single points.", "anchors": ["src/polykin/hmt/correlations.py"]}
{"id": "C97", "title": "Nu_cylinder_bank: narrowest gap, row correction, monotonicity", "statement": "Nu_cylinder_bank uses the velocity in the narrowest gap, is positive, applies a row correction that never decreases with the number of rows, starts at 0.70 (aligned) or 0.64 (staggered) and is one from 20 rows; for aligned tubes it strictly increases with velocity over all regimes; a warning is printed exactly when Re_max or Pr is out of range.", "quantifier": "all positive flows, tube pitches with open gaps, all numbers of rows", "why_tests_cant": "Continuum of inputs and four regimes; every number of rows.", "anchors": ["src/polykin/hmt/correlations.py"]}
{"id": "C98", "title": "DIPPR and Yaws equations: domain, limits, monotonicity, consistency", "statement": "DIPPR100/104 are linear in their parameters and DIPPR104 tends to A; DIPPR101 and Yaws are positive wherever defined and reduce to Antoine; DIPPR102 lies in (0, A*T^B]; DIPPR105 and DIPPR106 give a real number exactly up to the critical temperature (values A/B and 0 there) and strictly decrease; DIPPR106 with one exponent is the Watson relation; DIPPR107 has a value exactly when T and C are nonzero, lies between A and A+B+D, ignores the signs of C and E, and its vibrational term strictly increases with T. Changing the unit of temperature and rescaling the parameters by the powers of the factor which their units demand changes no value of any of the equations.", "quantifier": "all parameters and temperatures in the stated ranges", "why_tests_cant": "Continuum of parameters; limits and strict monotonicity; undefined points of measure zero.", "anchors": ["src/polykin/properties/equations/dippr.py", "src/polykin/properties/equations/viscosity.py"]}
{"id": "C99", "title": "Weibull-Nycander-Gold chain-length distribution", "statement": "WeibullNycanderGold_pdf(k, v, r): the equation solved for the unreacted fraction p0 is strictly increasing and has exactly one solution in (0,1); the p0 used is accurate to the root finder's tolerance, or in the limiting branch its logarithm to eps|r-1|/r; for r > 1 the values returned are exactly the solution of the living-polymerisation kinetic equations (initiation 1, propagation r) at the time given by p0, hence positive, summing to 1 and with mean v minus the residual; for r < 1 they equal that solution when the direct sum is used and otherwise deviate by at most the first omitted term of the alternating series; within 1e-3 of r = 1 the Poisson distribution is returned. The values are probabilities (at most 1): false, since the tail sum is cut off after 100 terms (k=2, v=2, r=0.01 exceeds 1e30).", "quantifier": "all k in ℕ, v > 0, r > 0", "why_tests_cant": "The identities are infinite sums over all chain lengths and differential equations for all r and times; the failing region (small r, moderate v) is not hit by the doc example or spot checks.", "anchors": ["src/polykin/distributions/gold.py:14-186"]}
{"id": "C88", "title": "roots_xtanx and roots_xcotx find each root once", "statement": "For every a > 0 the equation x tan x = a has exactly one root in each [iπ, iπ+π/2), and 1 - x cot x = a exactly one in each (iπ,(i+1)π). roots_xtanx(a, N, tolx) and roots_xcotx(a, N, tolx) return N values of which the i-th lies in the interval of the i-th root (so none is missed, duplicated or out of order); for a >= 100 (resp. a >= 2) the value is within 1.02 tolx or 1e-20 (resp. 1.5 tolx or 1e-14) of the root; below, the Newton iterates never leave the interval and a reported success bounds the error by 1e-10/slope or tolx times the slope ratio. a = 0, 1, inf are exact. The functions accept any a: false, a = -1 raises ZeroDivisionError. Equal calls return equal roots: false once the caller has written into the first result, since functools.cache hands out the same array.", "quantifier": "all a > 0 (and the limits), all N, i, tolx >= 0", "why_tests_cant": "Infinitely many roots and a continuum of a; Newton could jump to another branch for isolated (a, i), which sampling of a few values cannot exclude.", "anchors": ["src/polykin/math/special.py:74-185"]}
{"id": "C100", "title": "Joint confidence regions", "statement": "confidence_ellipse: the curve handed to matplotlib is exactly the boundary (β-c)ᵀV⁻¹(β-c) = 2F of the documented region, and the individual intervals are sd times the t quantile, whenever the eigenvector matrix returned by eigh is symmetric; for other outputs allowed by the contract of eigh it is false (the code takes the first row of the eigenvector matrix instead of the first column). RangeError exactly for alpha outside [0.001, 0.90] or ndata < 3. confidence_region: returns npoints points on equally spaced rays from the centre, each satisfying the boundary equation to 1e-4 or settled within a factor 1+rtol, or NaN; RangeError / ValueError exactly when arguments are out of range / sse(center) is below eps. The documented default width works for any centre: false, when center[0] <= 0 every point is NaN.", "quantifier": "all centres, covariance matrices, sums of squares, alpha, ndata, npoints, rtol", "why_tests_cant": "The ellipse statement is an equality of curves for all covariance matrices and all admissible eigenvector outputs; a test only sees the signs its LAPACK happens to return.", "anchors": ["src/polykin/math/misc/jcr.py:24-299"]}
{"id": "C101", "title": "Copolymerisation data sets", "statement": "A data set (MayoDataset, DriftDataset, kpDataset) is created exactly when both monomer names are non-empty and differ by more than case (else ValueError) and x, y, sx, sy have matching shapes (else ShapeError). getvar(v, M) returns the stored values for the first monomer, their complement to one for the second, entry by entry, whichever order the monomers have; KeyError for an unknown variable, ValueError for an unknown monomer. Every data set accepted by add_data answers for both monomers of the model. The value of a quantity that is not a composition does not depend on the monomer: false, getvar('kp', M2) = 1 - kp.", "quantifier": "all names, values (scalars or vectors of any length), data set kinds", "why_tests_cant": "A test checks a few names and vectors; the claim covers every combination of names, shapes and order of monomers.", "anchors": ["src/polykin/copolymerization/copodataset.py:23-238", "src/polykin/copolymerization/terminal.py:446-457"]}
{"id": "C102", "title": "Reactions of chain-length distributions", "statement": "Propagation.eval is moment closure: if the three entries of the distribution hold moments 0-2 of any finite chain population, eval adds exactly the moments of dc_n/dt = k M (c_(n-1) - c_n). Monomer disappears at Reaction.rate, the polymer gains as many units, the by-product forms at the same rate, nothing else changes. ReactionSystem.rates is independent of the order of the reactions and defined exactly when all indices fit. A system can be created from distinct reactions, repeated reactions are refused and `system + reaction` yields a usable system: all false (AttributeError for every non-empty list; duplicates are accepted by +, and the dimension stays 0).", "quantifier": "all populations, rate coefficients, states, lists of reactions", "why_tests_cant": "Moment closure is an identity for all distributions; tests can only try single ones. The class has no tests at all.", "anchors": ["src/polykin/kinetics/reaction.py:76-258"]}
{"id": "C103", "title": "Rackett liquid volume", "statement": "VL_Rackett accepts exactly one of ZRA and w (else ValueError), w standing for ZRA = 0.29056 - 0.08775 w. Up to Tc the result is R Tc/Pc ZRA^(1+(1-T/Tc)^(2/7)); for 0 < ZRA < 1 it is positive, strictly increasing with T and lies between R Tc ZRA²/Pc and R Tc ZRA/Pc, the value at Tc. A float is returned for every temperature: false, the result is complex above Tc. The gas constant is that of the SI.", "quantifier": "all real T, Tc, Pc, ZRA, w", "why_tests_cant": "Monotonicity and bounds hold for a continuum of temperatures and substances.", "anchors": ["src/polykin/properties/pvt/volume.py:15-70"]}
{"id": "C104", "title": "Distributions defined by data", "statement": "A DataDistribution keeps exactly the data points with a positive ordinate and a chain length of at least 1 and warns exactly if it drops one; it accepts integer sizes like floats. Each kind of density integrates to one over the range of the data in chain length and in molar mass and vanishes outside; the cdf is its integral, 0 below and 1 above the data; at the data points the density of the given kind is proportional to the data. Densities are non-negative, the cdf is monotone and DPn <= DPw <= DPz lie within the range of the data.", "quantifier": "all data sets, kinds, units, repeating-unit masses and (continuous, interpolating) splines", "why_tests_cant": "Tests use one smooth sample; overshooting splines, dropped points and integer input are never exercised.", "anchors": ["src/polykin/distributions/datadistribution.py:26-105", "src/polykin/distributions/base.py:98-184, 422-445, 502-551"]}
{"id": "C105", "title": "Fitting a distribution to data", "statement": "A successful DataDistribution.fit returns a distribution whose parameters are the optimum found by the optimiser; a failed one returns None; a number of components outside 1..10 is refused with RangeError.", "quantifier": "all optimiser behaviours (sequences of trial points and outcomes), classes and numbers of components", "why_tests_cant": "What is returned depends on the order in which the optimiser happens to evaluate the objective, which a test cannot vary.", "anchors": ["src/polykin/distributions/datadistribution.py:107-210"]}
{"id": "C106", "title": "Saturation pressure from a cubic equation of state", "statement": "CubicEoS.Psat returns the pressure at which liquid and vapour of the pure component coexist (equal pressure and equal-area on the isotherm); a mixture or a temperature at or above critical is refused with ValueError; the K-value at the returned pressure is one within the solver tolerance; the true saturation pressure is a fixed point of the iteration and is unique.", "quantifier": "all pure-component cubic equations of state (RK, SRK, PR), temperatures, guesses", "why_tests_cant": "Tests compare a handful of substances at moderate temperatures with default guesses; the claim is about every isotherm and every guess, and the failing guesses give a plausible positive number.", "anchors": ["src/polykin/thermo/eos/cubic.py:341-385", "src/polykin/thermo/eos/cubic.py:387-424"]}
{"id": "C107", "title": "Monomer composition drift follows the material balance", "statement": "monomer_drift_binary and CopoModel.drift return, for every initial composition and every conversion in [0,1], the comonomer composition that solves df1/dx = (f1-F1)/(1-x) (up to the eps guard of the code), so that unreacted monomer plus copolymer formed adds up to the feed; compositions stay in [0,1]; f1 falls monotonically exactly when the first copolymer is richer in monomer 1 than the feed; for the terminal model the values satisfy the Meyer-Lowry equation and do not depend on which other conversions or feeds are asked for. monomer_drift_multi gives rows summing to 1 that follow the same balance for every monomer and agrees with the binary function for two monomers. Documentation that the code does not follow: result shape (M, N), arbitrary order of conversions, use of the last initial fraction, values never above 1.", "quantifier": "all reactivity ratios, initial compositions, lists of conversions and numbers of monomers, for an exact integrator", "why_tests_cant": "Solutions of a family of differential equations; conservation and monotonicity over a continuum.", "anchors": ["src/polykin/copolymerization/binary.py:147-261", "src/polykin/copolymerization/terminal.py:179-235", "src/polykin/copolymerization/multicomponent.py:395-490"]}
{"id": "C108", "title": "Copolymerisation model objects: validated construction and total methods", "statement": "TerminalModel, ImplicitPenultimateModel and PenultimateModel raise RangeError exactly for a negative ratio, otherwise ValueError exactly for empty or (case-insensitively) equal monomer names, and otherwise hold the arguments; a warning is issued exactly for r1, r2 > 1. from_Qe with positive Q always succeeds without warning and gives r1*r2 = exp(-(e1-e2)^2); a zero Q raises ZeroDivisionError, Q of opposite signs RangeError, two negative Q are accepted. On a built object F1 and kp raise RangeError exactly for f1 outside [0,1], kp ValueError exactly for a missing rate coefficient; F1 lies in [0,1] and is undefined exactly for a pure monomer with zero ratio; kp is positive for positive parameters. s1, s2 do not affect F1, and with s1=s2=1 the implicit penultimate model is the terminal model. A zero s1 or s2 is accepted although kp is then undefined for all compositions.", "quantifier": "all parameters, names, rate coefficients, compositions and temperatures", "why_tests_cant": "Exact error conditions and totality over a continuum of parameters.", "anchors": ["src/polykin/copolymerization/terminal.py:46-146", "src/polykin/copolymerization/terminal.py:502-608", "src/polykin/copolymerization/penultimate.py:87-200", "src/polykin/copolymerization/penultimate.py:453-522"]}
{"id": "C109", "title": "fit_copo_data finds the reactivity ratios that generated the data", "statement": "fit_copo_data raises FitError for fewer than two observations, for ODR with drift data and for an unsuccessful optimisation, ValueError for an unknown method, and otherwise only what the objective or the inversion of the Hessian raises. The least-squares objective is the weighted sum of squared scaled residuals over all F(f), f(x) and F(x) observations (Mayo-Lewis, drift curve, material balance up to 1e-10/x^2); it is non-negative, does not depend on the order or the cutting of data sets, and scales with the weights. Two different feed compositions determine the ratios, so exact data are recovered exactly by a global minimum (inside the box for NLLS, without box for ODR), whatever the guess, with zero covariance. With more than two observations the covariance is the residual variance times the inverse of half the Hessian, symmetric and independent of the scale of the weights; standard errors are roots of its diagonal, intervals are these times the Student quantile; with two observations all of them are None or nan. False of the code and stated as such: recovery at zero conversion for F(x) data, recovery of ratios below 1e-3 by NLLS, equal meaning of weights in both methods, unsorted conversions.", "quantifier": "all lists of data sets, guesses, methods, levels; all optimisers, regressions and integrators meeting the stated contracts", "why_tests_cant": "A test uses a few data sets and one optimiser; identifiability, exact recovery from every guess, and the complete list of failures are statements over all data.", "anchors": ["src/polykin/copolymerization/fitting.py:176-419", "src/polykin/copolymerization/fitting.py:422-484", "src/polykin/copolymerization/fitting.py:487-537"]}
{"id": "C110", "title": "The order in which components are listed does not matter", "statement": "Listing the same components in another order (vectors and matrices of parameters permuted accordingly) gives the same mixture properties and permuted component properties, and the same errors: NRTL, Wilson, UNIQUAC and Flory-Huggins constructors, excess energy, activity coefficients; cubic and virial equations of state (am, bm, B, P, Z, phi, K, departure); mixing rules and mixture viscosities, conductivities and diffusivities; Rachford-Rice and the PT, PV and TV flashes for any K-value function; multicomponent and ternary copolymerisation. For the parameters documented as symmetric this needs a symmetric matrix; a non-symmetric one is accepted without notice, and then the result depends on the order (NRTL c, interaction parameters of cubic equations of state).", "quantifier": "all numbers of components, permutations, parameters, states, feeds, iteration limits", "why_tests_cant": "Tests fix one order of components; the number of permutations grows factorially and triangular loops, replaced rows and in-place symmetrisation break the symmetry only for particular orders.", "anchors": ["src/polykin/thermo/acm/nrtl.py:89-188", "src/polykin/thermo/acm/wilson.py:66-134", "src/polykin/thermo/acm/uniquac.py:85-175", "src/polykin/thermo/acm/floryhuggins.py:72-220", "src/polykin/thermo/eos/cubic.py:100-420", "src/polykin/thermo/eos/virial.py:60-243", "src/polykin/properties/pvt/mixing_rules.py:17-156", "src/polykin/properties/pvt/virial.py:61-123", "src/polykin/properties/viscosity/vapor.py:21", "src/polykin/properties/viscosity/liquid.py:13", "src/polykin/properties/thermal_conductivity/vapor.py:87", "src/polykin/properties/thermal_conductivity/liquid.py:13", "src/polykin/properties/diffusion/vapor.py:128", "src/polykin/thermo/flash/vle.py:89-560", "src/polykin/copolymerization/multicomponent.py:24-395"]}
{"id": "C111", "title": "Activity coefficient models: accepted parameters, documented temperature dependence, limits and phase stability", "statement": "NRTL, Wilson, UNIQUAC and FloryHuggins raise RangeError exactly if some supplied entry (also a diagonal or ignored one) is outside the closed Aspen range, otherwise tau, alpha, Lambda and chi are the documented functions of temperature with the documented diagonal and symmetry. Without parameters the models are ideal. Activity coefficients at infinite dilution are the textbook ones. UNIQUAC with unit sizes is Wilson with transposed parameters. The Gibbs energy of mixing of the Wilson model is convex for all parameters, so it never predicts a liquid-liquid split, whereas NRTL and UNIQUAC can.", "quantifier": "all numbers of components, parameters, temperatures and compositions", "why_tests_cant": "Convexity over the whole simplex for all parameters, and exact boundaries of acceptance, are not reachable by sampling.", "anchors": ["src/polykin/thermo/acm/nrtl.py:21-188", "src/polykin/thermo/acm/wilson.py:15-175", "src/polykin/thermo/acm/uniquac.py:20-243", "src/polykin/thermo/acm/floryhuggins.py:26-388"]}
{"id": "C112", "title": "Second virial coefficient and attraction parameter as functions of temperature", "statement": "For nonnegative acentric factor B_pure grows strictly with temperature, tends to RTc/Pc(0.083+0.139w), and vanishes at exactly one temperature, between Tc and 4Tc; Virial.Z of the pure gas is below 1 exactly below it, at all pressures. Fugacities of IdealGas are partial pressures, those of Virial tend to them at low pressure. The attraction function of the cubic equations is 1 at Tc, grows with the acentric factor below Tc, and falls with temperature: for Redlich-Kwong always, for Soave and Peng-Robinson down to zero at Tc(1+1/m)^2, beyond which it grows again without notice.", "quantifier": "all fluids with 0 <= w (<= 2 for the cubic equations), all temperatures and pressures", "why_tests_cant": "Uniqueness of the Boyle temperature and monotonicity over a continuum.", "anchors": ["src/polykin/properties/pvt/virial.py:19-58", "src/polykin/thermo/eos/virial.py", "src/polykin/thermo/eos/idealgas.py", "src/polykin/thermo/eos/cubic.py:456", "src/polykin/thermo/eos/cubic.py:524", "src/polykin/thermo/eos/cubic.py:594", "src/polykin/thermo/eos/base.py:146", "src/polykin/thermo/eos/base.py:237"]}
{"id": "C113", "title": "flash2_PT is damped successive substitution", "statement": "The K-values returned by flash2_PT result from those at the starting compositions by at most maxiter steps ln K <- alpha ln K(x,y) + (1-alpha) ln K, each with the phases of a phase fraction certified by the Rachford-Rice solver, by exactly maxiter steps if the limit is reported; with alpha = 0 they never move; K-values independent of composition are returned unchanged after one pass for any alpha.", "quantifier": "all feeds, K-value functions, starting values, damping factors and limits", "why_tests_cant": "Observing an iteration requires the internals; the statement holds for every K-value function.", "anchors": ["src/polykin/thermo/flash/vle.py: flash2_PT"]}
{"id": "C114", "title": "Eyring rate coefficient", "statement": "Eyring raises RangeError exactly for negative DSa or DHa, kappa outside [0,1] or an invalid temperature range (so the negative entropies usual for association are refused); calls raise exactly for T <= 0. Values are nonnegative, proportional to kappa, grow strictly with temperature and fall with the barrier; k h/(kappa kB T) is the Boltzmann factor of the Gibbs energy of activation, ln(k/T) is linear in 1/T with slope -DHa/R, the apparent activation energy is DHa+RT, and the Arrhenius object with the same value and slope at T0 lies below it, touching only at T0.", "quantifier": "all parameters and temperatures", "why_tests_cant": "Inequalities and linearity over a continuum; one docstring value is tested.", "anchors": ["src/polykin/kinetics/coefficients/eyring.py:73-126", "src/polykin/kinetics/coefficients/arrhenius.py:103-127"]}
{"id": "C115", "title": "ierfc and i2erfc are the documented integrals", "statement": "ierfc(x) equals the integral of erfc over (x, infinity) and i2erfc(x) the integral of that integral, exactly for x <= 30 and with an error below exp(-900) beyond the cut-off.", "quantifier": "all real x", "why_tests_cant": "Equality with an improper integral for every argument.", "anchors": ["src/polykin/math/special.py:22-70"]}
{"id": "C116", "title": "Memoised parameter functions cannot be noticed unless arrays or attributes are changed", "statement": "NRTL.tau, NRTL.alpha, Wilson.Lambda, UNIQUAC.tau, FloryHuggins.chi, Cubic.a and Cubic.b are memoised per object and temperature. For any history of calls on any number of objects, as long as nobody writes into the parameter arrays of an object or into an array it returned and its attributes are not assigned, every result (also gE, gamma, Dgmix and the pressure) equals the formula for its parameters. A repeated call returns the same array object; a first call at a temperature uses the parameters at that moment. Consequences, proved: a parameter array changed later takes effect only at temperatures not used before; writing into a returned array corrupts later results at that temperature; after assigning Tc, Pc or w of a cubic equation of state the attraction is the new one at new temperatures while the covolume stays the old one.", "quantifier": "all histories of calls, constructions, writes and assignments, all temperatures and parameters", "why_tests_cant": "Aliasing and stale state depend on the order of events; tests use each object once.", "anchors": ["src/polykin/thermo/acm/nrtl.py:135-188", "src/polykin/thermo/acm/wilson.py:105-134", "src/polykin/thermo/acm/uniquac.py:133-175", "src/polykin/thermo/acm/floryhuggins.py:119-175", "src/polykin/thermo/eos/cubic.py:95-231"]}
{"id": "C117", "title": "The Tait database is complete and physically sound", "statement": "Tait.from_database(name) returns an object with exactly the numbers and ranges of the line of that name for each of the 28 names in Tait_parameters.tsv (all lines pass the checks of the constructor, names are distinct) and None for any other string. For every polymer and every temperature and pressure in its stated range the specific volume is between 0.4 and 1.6 L/kg, the thermal expansion coefficient and the compressibility are positive, and the volume rises strictly with temperature and falls strictly with pressure.", "quantifier": "all names; all 28 polymers; all temperatures and pressures in range", "why_tests_cant": "The test looks up one polymer; monotonicity over a rectangle for each of 28 parameter sets is not sampled.", "anchors": ["src/polykin/properties/pvt/tait.py:263-293", "src/polykin/properties/pvt/io.py:12-21", "src/polykin/properties/pvt/Tait_parameters.tsv"]}
{"id": "C118", "title": "Bubble and dew points of ideal mixtures", "statement": "With Raoult's law (K_i = Psat_i(T)/P) flash2_TV with beta = 0 returns success with exactly P = sum z_i*Psat_i, x = z and y_i = z_i*Psat_i/P, and with beta = 1 exactly P = 1/sum(z_i/Psat_i), y = z and x_i = z_i*P/Psat_i, in the first pass, from every starting pressure and every starting compositions; the dew pressure is never above the bubble pressure. With composition-independent K-values rising with temperature, the true bubble temperature (sum z_i*K_i = 1) given as starting value to flash2_PV with beta = 0 is returned as such in the first pass. Only the proportions of the feed matter.", "quantifier": "all numbers of components, feeds, vapour pressures (at least one above 1 Pa), starting values, positive iteration limits, tolerances >= 0", "why_tests_cant": "Tests compare a few mixtures within tolerances; this is exactness for a continuum of mixtures and starting values.", "anchors": ["src/polykin/thermo/flash/vle.py:244-316", "src/polykin/thermo/flash/vle.py:371-455"]}
{"id": "C119", "title": "Law of randomly drawn chain lengths", "statement": "random() of a Flory or Poisson distribution returns k with probability exactly pdf(k) for every k >= 1 and never a length below 1. For LogNormal and SchulzZimm it returns k >= 1 with probability exactly cdf(k+1/2) - cdf(k-1/2), and never a negative length; the length is the nearest whole number to the number drawn, the even one at a tie. Finding: it returns 0, which is not a chain length, with probability cdf(1/2) > 0 for all parameters; for Schulz-Zimm with PDI = 2 this is 1 - exp(-1/(2 DPn)), 4.9 % at DPn = 10.", "quantifier": "all DPn and PDI > 1 (Poisson: DPn > 1), all k, all probability spaces carrying numpy samplers with their documented laws", "why_tests_cant": "A test of a random sampler can only look at samples; the equality of laws is not observable, and a rare zero length is easily missed.", "anchors": ["src/polykin/distributions/base.py:604-624", "src/polykin/distributions/analyticaldistributions.py:117-118", "src/polykin/distributions/analyticaldistributions.py:214-215", "src/polykin/distributions/analyticaldistributions.py:313-316", "src/polykin/distributions/analyticaldistributions.py:417-420"]}
{"id": "C120", "title": "Comparing, searching and iterating distributions", "statement": "For two distributions, individual or mixture, a < b holds exactly if Mw of a is below Mw of b and a > b is its converse; < is a strict weak order, so sorted, min and max are well defined; a mixture with positive weights is never smaller than all of its components nor larger than all of them. After m = w1*D1 + w2*D2 + ... with positive weights, D in m holds exactly for the distributions in the expression. Findings: iterating over any mixture raises TypeError although __iter__ is defined; comparing with the empty mixture that a zero weight produces raises ZeroDivisionError; <= and >= raise TypeError.", "quantifier": "all distributions and mixtures with an Mw, all sums with positive weights", "why_tests_cant": "Order axioms and bounds quantify over all triples of distributions and all mixtures; the tests compare none.", "anchors": ["src/polykin/distributions/base.py:52-56", "src/polykin/distributions/base.py:745-758", "src/polykin/distributions/base.py:817-822"]}
{"id": "C121", "title": "Layout of printed objects", "statement": "custom_repr with one-line attribute texts gives one line per attribute, in order, with the values all starting in the same column, padded by blanks only, at least nspaces of them after the longest name; nothing is cut off, so the text determines the values. Texts of several lines are put below the name, indented by two. pprint_matrix gives one newline-terminated line per row and, after a label of nspaces characters, the elements of all rows start in the same column.", "quantifier": "all attribute names and texts (names without newline), all matrices with at least one row, all numbers of spaces", "why_tests_cant": "Tests compare a few printed objects; this is for all texts.", "anchors": ["src/polykin/utils/tools.py:461-496", "src/polykin/utils/tools.py:499-527"]}
{"id": "C122", "title": "Engineering formulas do not depend on the choice of units", "statement": "Expressing every argument in another consistent system of units (mass, length and time units multiplied by any positive factors) changes the result of the calculation by the corresponding factor and nothing else, and the same calls raise: the pressure drops of DP_Hagen_Poiseuille, DP_Darcy_Weisbach, DP_tube, DP_packed_bed, DP_GL_Lockhart_Martinelli and DP_GL_Mueller_Bonn are multiplied by mass/(length time^2) (the laminar/turbulent and regime decisions are unchanged), vt_Stokes by length/time, the viscosities mu_PowerLaw, mu_Cross, mu_Cross_modified and mu_Carreau_Yasuda by the viscosity factor, aT_WLF is unchanged, U_plane_wall and U_cylindrical_wall are multiplied by the factor of the film coefficients, diffusivity_composite by that of the diffusivities, profile_constc_semiinf is unchanged; the residence-time densities E_* are divided by the time factor and the cumulative F_* are unchanged. For the relief-valve formulas, whose constants fix the units of area, scaling the flow by w, pressures by p, temperature by tau and molar mass by mu multiplies the gas area by (w/p) sqrt(tau/mu) and leaves the critical/subcritical decision alone; likewise w sqrt(nu/p) for two-phase flow with specific volumes scaled by nu, q sqrt(rho/p) for subcooled flow with densities scaled by rho, and q sqrt(gamma/p) for liquids (viscosity scaled so that the Reynolds number is unchanged), iteration included.", "quantifier": "All positive unit factors and all arguments (shear rates not negative for the power law; not steam for the gas valve).", "why_tests_cant": "A metamorphic relation over a continuum of unit systems; a wrong exponent or a threshold compared with a dimensional quantity is invisible to tests in SI units.", "anchors": ["src/polykin/flow/friction.py:14-783", "src/polykin/flow/rheology.py:19-291", "src/polykin/flow/prv.py:42-475", "src/polykin/hmt/hex.py:14-147", "src/polykin/hmt/diffusion.py:17-70", "src/polykin/hmt/diffusion.py:513-565", "src/polykin/reactors/rtd.py:22-346"]}
{"id": "C123", "title": "Principle of corresponding states", "statement": "Two fluids (or mixtures) that differ only in their critical temperatures (ratio tau) and critical pressures (ratio pi) behave alike at the same reduced temperature and pressure. Cubic equations of state (RedlichKwong, Soave, PengRobinson): Z returns the same values, P at corresponding volumes is multiplied by pi, Bm by tau/pi, the departure functions DA, DG, DH, DU by tau and DS by 1. phi and K are the same if no interaction parameters are given; with interaction parameters (even a zero matrix) they are NOT: the fugacity coefficient of a pure gas changes under every rescaling with tau^2 != pi, so it depends on the units of pressure. Virial: Bij, Bm, Z, P, phi. pseudocritical_properties scales accordingly. PL_Wilson, PL_Ambrose_Walton, Wagner25 and Wagner36 are multiplied by pi (PL_Lee_Kesler is unchanged under tau alone), DHVL_Pitzer and DHVL_Vetere by tau, DHVL_Watson is unchanged, VL_Rackett is multiplied by tau/pi.", "quantifier": "All positive tau and pi; any number of components, composition, temperature and pressure; the counterexample for every pure fluid with positive parameters and every root finder returning the exact roots.", "why_tests_cant": "A relation between runs on two different fluids, over all scalings; no test data exist for hypothetical fluids.", "anchors": ["src/polykin/thermo/eos/cubic.py:30-658", "src/polykin/thermo/eos/virial.py:20-243", "src/polykin/thermo/eos/base.py:36-110", "src/polykin/properties/pvt/mixing_rules.py:1-156", "src/polykin/properties/pvt/virial.py:1-123", "src/polykin/properties/pvt/volume.py:12-70", "src/polykin/properties/vaporization/pvap.py:14-173", "src/polykin/properties/vaporization/dhvl.py:14-266", "src/polykin/properties/equations/vapor_pressure.py:130-366"]}
{"id": "C124", "title": "Listing a substance more than once changes nothing", "statement": "Suppose the components of a mixture are listed again as M entries, entry j being the portion w_j >= 0 of substance s(j), the portions of each substance adding up to 1; compositions and feeds are divided accordingly and all parameters of substances and pairs are repeated. Then: NRTL, Wilson, UNIQUAC and Flory-Huggins objects accept the repeated parameters, the excess Gibbs energy is the same and every portion has the activity coefficient of its substance (Flory-Huggins: activities are divided like volume fractions); RK, SRK and PR equations (interaction parameters symmetric with zero diagonal, or none) and the virial equation give the same pressure, compressibility factors, second virial coefficient and Helmholtz departure, and every portion has the fugacity coefficient and K-value of its substance; the quadratic, geometric and pseudocritical mixing rules, MULMX2_Perry, MUVMX2_Herning_Zipperer, MUVMXPC_Dean_Stiel, MUVMX_Lucas, KLMX2_Li, KVMXPC_Stiel_Thodos, KVMX2_Wassilijewa and DVMX give the same value; flash2_PV and flash2_TV return the same temperature or pressure, phase amounts, message or error, with compositions divided; inst_copolymer_multi and radical_fractions_multi divide each monomer's fraction in proportion. Exceptions: the ideal entropy of mixing grows by -R sum x'_j ln w_j; a nonzero diagonal of the interaction parameters, which is irrelevant for the original list, matters for the portions; the Rachford-Rice residual and derivative agree but the iterates of solve_Rachford_Rice need not.", "quantifier": "all maps s : Fin M -> Fin N, all portions, all compositions, parameters, temperatures and pressures", "why_tests_cant": "invariance under arbitrary subdivision relates calls with different numbers of components, and quantifies over all subdivisions; tests compare a few fixed mixtures", "anchors": ["src/polykin/thermo/acm/nrtl.py:99-251", "src/polykin/thermo/acm/wilson.py:81-175", "src/polykin/thermo/acm/uniquac.py:101-243", "src/polykin/thermo/acm/floryhuggins.py:90-322", "src/polykin/thermo/acm/base.py:47-48", "src/polykin/thermo/eos/cubic.py:91-398", "src/polykin/thermo/eos/virial.py:74-243", "src/polykin/properties/pvt/mixing_rules.py:48-156", "src/polykin/properties/pvt/virial.py:107-123", "src/polykin/properties/viscosity/vapor.py:70-345", "src/polykin/properties/thermal_conductivity/vapor.py:144-235", "src/polykin/thermo/flash/vle.py:192-613", "src/polykin/copolymerization/multicomponent.py:221-392"]}
{"id": "C125", "title": "Estimation methods are the published equations", "statement": "Converted to the units of the publication, every estimate of a diffusion coefficient (Wilke-Chang, Hayduk-Minhas, Wilke-Lee, Stokes-Einstein), gas viscosity (Jossi, Dean-Stiel, Lucas pure and mixture), gas conductivity correction (Stiel-Thodos), vapour pressure (Lee-Kesler, Ambrose-Walton, Wilson), enthalpy of vaporisation (Pitzer, Vetere, Kistiakowsky-Vetere, Watson) and second virial coefficient (Abbott) equals the equation of the cited literature at the converted arguments: exactly, or, where the code carries a rounded conversion factor, within the stated relative error (1e-9 for Jossi, 0.1 % for Dean-Stiel, 2 % for the group of Stiel-Thodos against its handbook form, 1 % for the docstring constant of Wilke-Chang).", "quantifier": "all temperatures, pressures, molar masses, critical constants and compositions of the physical range (positive data; below the critical temperature where the equation requires it)", "why_tests_cant": "tests compare a few values with tolerances of 10 % or more with handbook examples; a wrong digit, exponent or unit factor in one regime passes", "anchors": ["src/polykin/properties/diffusion/liquid.py", "src/polykin/properties/diffusion/vapor.py", "src/polykin/properties/viscosity/vapor.py", "src/polykin/properties/thermal_conductivity/vapor.py", "src/polykin/properties/vaporization/pvap.py", "src/polykin/properties/vaporization/dhvl.py", "src/polykin/properties/pvt/virial.py"]}
{"id": "C126", "title": "Functions evaluate the formulas of their documentation", "statement": "Nu_tube (with a friction factor satisfying Haaland's equation), Nu_plate, Nu_cylinder, Nu_sphere, Nu_drop, Nu_cylinder_free, Nu_sphere_free, Nu_plate_free (three orientations), Nu_combined, Nu_cylinder_bank (constants of Zukauskas, row correction, velocity in the narrowest passage), E/F of tanks in series (factorials), laminar flow and the dispersion model, Pe_tube, DP_Hagen_Poiseuille, DP_Darcy_Weisbach, DP_packed_bed, DP_GL_Lockhart_Martinelli, DP_GL_Mueller_Bonn, Cd_sphere, vt_Stokes, the viscosity laws, aT_WLF and the parameters a and b of the cubic equations of state return the value of the formula stated in their docstring, in every regime. Two docstrings are wrong and proved so: Lockhart-Martinelli squares a factor that the code uses once (the returned drop is below the documented one for all positive flows), and F_dispersion_model has a spurious factor 1/t_avg (wrong for every mean residence time other than one). Two constants are roundings: 871 in Nu_plate, and the last coefficient of Graboski and Daubert.", "quantifier": "all arguments of the physical range, all regimes of the piecewise correlations", "why_tests_cant": "tests evaluate each function at one or two points of one regime; a wrong digit, exponent or regime limit elsewhere passes", "anchors": ["src/polykin/hmt/correlations.py", "src/polykin/reactors/rtd.py", "src/polykin/flow/friction.py", "src/polykin/flow/rheology.py", "src/polykin/thermo/eos/cubic.py"]}
{"id": "C127", "title": "Relief-valve areas agree with ideal nozzle flow", "statement": "Against the ideal nozzle (mass flux sqrt(2 * integral of v dp)/v, choking where it is largest): area_relief_gas reports the exact choking pressure of isentropic flow and an area within 0.01 % (choked) or 0.1 % (subcritical) of mass flow / (coefficients * flux); area_relief_liquid is within 0.05 %, with a Reynolds number equal to rho*u*d/mu within 0.05 %; area_relief_2phase, for a fluid with v linear in 1/p through the two given points, is within 0.01 % in subcritical flow, and in choked flow off by exactly the error of the correlation for the critical pressure, which is at most 0.25 % for omega parameters from 0.01 to 1000 but more than 10 % at 0.0001; area_relief_2phase_subcooled, for a liquid flashing at Ps, chokes at Ps exactly when no critical pressure is reported and is within 0.05 % of the flux at the pressure used, if the flow flashes or is highly subcooled; the critical pressure it reports is never above the exact one, and a choked area exceeds the exact one by at most 3.1 %. It is wrong for low subcooling with a back pressure above saturation: the two-phase curve is used for a liquid that does not flash, the flux is overestimated for all such inputs, and the valve comes out less than half the size needed for a liquid at 10 bar saturated at 9.5 bar and discharged to 9.9 bar.", "quantifier": "all pressures, flows, fluid properties and coefficients of the physical range; all regimes", "why_tests_cant": "tests compare with one worked example per function; a wrong unit constant, exponent, regime limit or a regime missed (no flashing) passes", "anchors": ["src/polykin/flow/prv.py"]}
{"id": "C128", "title": "The documented examples come out as printed", "statement": "For the example calls printed in the docstrings, the functions return the recorded numbers, to the digits shown: the step-growth functions; the copolymerisation composition, radical fraction, transition, sequence, triad and Q-e functions for two and three monomers; molar-mass standards; pressure drops, friction factor, drag, relief areas (gas, liquid, two-phase, subcooled, with the reported critical pressure and flow regime), rheology models, heat transfer correlations and wall coefficients; vapour pressures, enthalpies of vaporisation, diffusivities, conductivities, viscosities, Rackett volume, Vrentas-Duda diffusivity; Arrhenius, Eyring and chain-length dependent coefficients (no range warning); averages and densities of the Flory, Poisson, log-normal and Schulz-Zimm distributions; the three orders of ode_rk; the Flory-Huggins activity.", "quantifier": "the fixed arguments of about 90 documented calls; the three-monomer cases for every correct linear solver, the Flory distribution for every implementation of the polylogarithm", "why_tests_cant": "no test runs the docstrings; here the numbers are derived in exact real arithmetic from the formulas, so the documented values are right independently of floating point, and the model the other properties are proved about is checked against the program's recorded behaviour", "anchors": ["src/polykin/stepgrowth/solutions.py", "src/polykin/copolymerization/binary.py", "src/polykin/copolymerization/multicomponent.py", "src/polykin/flow/friction.py", "src/polykin/flow/prv.py", "src/polykin/flow/rheology.py", "src/polykin/hmt/correlations.py", "src/polykin/hmt/hex.py", "src/polykin/properties/vaporization/pvap.py", "src/polykin/properties/vaporization/dhvl.py", "src/polykin/properties/diffusion/liquid.py", "src/polykin/properties/diffusion/vapor.py", "src/polykin/properties/viscosity/vapor.py", "src/polykin/properties/thermal_conductivity/vapor.py", "src/polykin/kinetics/coefficients/eyring.py", "src/polykin/distributions/analyticaldistributions.py", "src/polykin/math/derivatives/ode.py"]}
{"id": "C129", "title": "Accuracy of the friction factor correlations", "statement": "fD_Colebrook converges for every Reynolds number from 2300 to 1e8 and every relative roughness from 0 to 0.05 (it never raises), and returns the solution of Colebrook's equation to within 1.01e-6. The explicit fD_Haaland is within 1.5 % of that solution for Re from 4000, and between 1.5 % below and 3 % above it for Re from 2300.", "quantifier": "all 2300 <= Re <= 1e8, 0 <= er <= 0.05", "why_tests_cant": "a bound over a continuum of two variables, and convergence of an iteration from every starting point; tests check one or two pipes", "anchors": ["src/polykin/flow/friction.py:284-345", "src/polykin/flow/friction.py:348-398", "src/polykin/math/roots/scalar.py"]}
{"id": "C130", "title": "vt_sphere returns the terminal velocity of the sphere", "statement": "vt_sphere converges and returns the terminal velocity of any sphere, to a small relative error. This is false for small particles: for every sphere with a Stokes velocity between 1e-20 and 9e-9 m/s (for example a 200 nm PVC latex particle in water) the value returned is at least thirty times the Stokes velocity, which is an upper bound of the terminal velocity, because the solver stops at an absolute residual of 1e-6 m/s. It is false for fast spheres too: whenever the drag balance has a negative slope (below -0.01) at the first guess of 1 m/s, as for a 2 mm rain drop or a 1 mm steel ball in air, vt_sphere reports success and returns a negative velocity, of -1 m/s or less. What holds: every value returned that is at least 1e-5 m/s is within 4e-6 m/s of the unique solution of the drag balance; and for every sphere with a terminal velocity between 2e-5 and 1.33 m/s, at any Reynolds number, the function converges to such a value; so it does for terminal velocities up to 20 m/s if the Reynolds number at 1 m/s is at least 3000, or if it is at least 160 and the drag balance has a slope of at least 0.01 at the first guess of 1 m/s.", "quantifier": "all positive gravity, diameters, densities (particle denser than the fluid) and viscosities within the stated ranges", "why_tests_cant": "the tests check millimetre particles; the failure and the convergence concern whole ranges of five parameters", "anchors": ["src/polykin/flow/friction.py:401-445", "src/polykin/flow/friction.py:448-498", "src/polykin/flow/friction.py:501-571", "src/polykin/math/roots/scalar.py"]}
{"id": "C131", "title": "Accuracy of the numerical derivatives", "statement": "With function values that carry a relative error of 10^-ndigit (machine precision if ndigit is None), the first ndigit/2 digits of jacobian_forward and the first ndigit/3 digits of hessian_forward are right: the errors are at most 10^(-ndigit/2) and 10^(-ndigit/3) times the magnitudes of the function and of its next derivative over one unit of the variable. derivative_centered and hessian2_centered have errors of second order in the step, and the default step of the former is the documented optimum. derivative_complex is right to the square of machine precision for every analytic function.", "quantifier": "all smooth functions of any number of variables, all points, scalings, ndigit and perturbations of the function values within the stated size", "why_tests_cant": "an error bound for all functions and all roundings of their values; tests compare a few closed-form derivatives", "anchors": ["src/polykin/math/derivatives/ndiff.py:26-72", "src/polykin/math/derivatives/ndiff.py:75-125", "src/polykin/math/derivatives/ndiff.py:128-202", "src/polykin/math/derivatives/ndiff.py:205-299", "src/polykin/math/derivatives/ndiff.py:302-379"]}
{"id": "C132", "title": "Convergence of the open solvers: Newton, secant, Wegstein", "statement": "root_newton: for every function that is analytic near a simple root (slope between m and L in magnitude, Lipschitz with constant K on the interval of radius rho around the root, 4 K rho <= m), the call from any point of the interval succeeds within N+1 evaluations as soon as tolf covers L * 2 rho / 2^(2^N) (quadratic convergence) plus the complex-step error, never reports a zero slope, and its result is within max(tolf/m, 2 tolx) of the root (up to the complex-step error). root_secant: same interval, two starting points more than tolx apart, N+1 iterations as soon as tolf covers L * 2 rho / 2^fib(N+3) (order of the golden ratio), result within max(tolx, tolf/m) of the root. fixpoint_wegstein: with qmin <= 0 <= qmax and uncoupled components of slope at most lam < 1/3, the error shrinks by 2 lam/(1-lam) per iteration from every start; with qmin = qmax = 0 it converges for every contraction, coupled or not. False in general: with its default parameters fixpoint_wegstein does not converge for every contraction. A piecewise linear map of the real line that contracts distances by 0.72 makes it run through 16, 11, -1, 16, ... for ever.", "quantifier": "all functions with a simple root, all radii, slopes, tolerances, starting points of the interval, iteration limits; all uncoupled contractions of any dimension; a concrete contraction for the negative part", "why_tests_cant": "A statement about all functions and all starting points of an interval, with explicit iteration counts; the cycle is proved for every iteration limit.", "anchors": ["src/polykin/math/roots/scalar.py: root_newton, root_secant", "src/polykin/math/fixpoint/wegstein.py: fixpoint_wegstein", "src/polykin/math/derivatives/ndiff.py: derivative_complex"]}
