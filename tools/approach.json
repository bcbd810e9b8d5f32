{
 "C01": "The loop is structural recursion on maxiter over dual numbers (value, derivative), carrying the list of evaluated points; proved by induction against the independent Newton sequence `newtonIter`.",
 "C02": "Same technique; the initial NaN is an option value; induction against `secantSeq`.",
 "C03": "Loop invariant: both bracket ends and every trial point lie in [xa, xb]; induction on the iteration budget.",
 "C04": "Sign-change invariant plus bracket length at exit; the intermediate value theorem turns it into distance to a true root.",
 "C05": "The driver is modelled with arbitrary linear algebra (factor, solve, update oracles), so results hold for any QR; induction over passes with a call trace. Termination of the inner loops from geometric decrease of λ / trust radius.",
 "C06": "Recursion with explicit λ; Armijo condition at exit; λ shrinks by at least a half per backtrack, so it falls below λmin.",
 "C07": "Induction on the iteration budget with the trace of evaluations.",
 "C08": "Field algebra: one secant acceleration of an affine map hits its fixed point.",
 "C09": "Least-squares solution is an oracle; the certificate holds for any value it returns.",
 "C10": "Exact algebra on polynomials; complex step by Taylor expansion of a polynomial at a complex point.",
 "C11": "Step list over an ordered field; telescoping of step lengths; order conditions by polynomial identities; convergence by discrete Gronwall. Order 4: the solution is five times differentiable by bootstrapping, its Taylor expansions and the linearisation of the right-hand side along it give a local error of order five by a calculus of uniform orders of magnitude.",
 "C12": "Ramer-Douglas-Peucker as recursion with fuel; fuel = number of points suffices; strong induction on the stretch length.",
 "C13": "Induction along the recursion; perpendicular distance defined in the specification by orthogonal projection.",
 "C14": "Explicit float type with NaN and infinities; case analysis.",
 "C15": "Case analysis over units, exact arithmetic.",
 "C16": "Association-list dictionaries; induction over the items; matrix entries by cases.",
 "C17": "`HasSum` of geometric series and its derivatives; higher moments through the Eulerian/polylog identity.",
 "C18": "`HasSum` of the exponential series; Stirling numbers of the second kind for the moments; cdf via the incomplete gamma function.",
 "C19": "Gaussian and Gamma integrals (change of variables).",
 "C20": "Cauchy-Schwarz on the moments; algebra for the conversions.",
 "C21": "Labelled transition system with an explicit memo table and cached properties; simulation against a cache-free specification, by induction over the history of operations.",
 "C22": "Finite sums over the list of components.",
 "C23": "Explicit heap of dictionaries; induction over the expression.",
 "C24": "Moments of a sum as double sums; binomial theorem.",
 "C25": "Induction on the number of factors.",
 "C26": "Orthogonality of Laguerre polynomials against the exponential weight (Gamma integrals).",
 "C27": "Real powers.",
 "C28": "Field inequalities; partial derivatives not needed.",
 "C29": "Field algebra; comparison with the steady-state radical balance.",
 "C30": "Field algebra (quadratic F1 = f1).",
 "C31": "Field algebra, `HasSum` of geometric series.",
 "C32": "Substitution of parameters; field algebra.",
 "C33": "The linear solve is an oracle with the contract of numpy; existence and positivity of the stationary state by a determinant argument (irreducible chain).",
 "C34": "Same oracle; ternary closed form by field algebra.",
 "C35": "Finite sums.",
 "C36": "Geometric series.",
 "C37": "Induction over the list of all tuples with the dictionary as accumulator; reversal pairs.",
 "C38": "Algebra of exp.",
 "C39": "Normal equations of least squares on collinear points.",
 "C40": "Induction over the list of data sets.",
 "C41": "Field algebra.",
 "C42": "Field inequalities; gel point by sign of the denominator.",
 "C43": "Structural induction over expression trees built from coefficients.",
 "C44": "Real powers, monotonicity.",
 "C45": "Real analysis of the closed form. Accuracy: the lower side uses the algebraic bounds of C77 in its recurrence. For the upper side the power series gives the Riccati equation of the exact value in alpha; 25/24 times the closed form is a supersolution (a polynomial inequality in alpha and m, certified by a discriminant), and a comparison argument starting near alpha = 0 gives the 4 %.",
 "C46": "`HasDerivAt`, improper integrals, Gamma function.",
 "C47": "np.roots is an exact oracle (complex root multiset); sorting and filtering of lists; cubic has a root above B by the intermediate value theorem.",
 "C48": "`HasDerivAt` of the Helmholtz departure.",
 "C49": "Partial derivatives of explicit formulas; concrete real counterexample with bounds on logarithms.",
 "C50": "`HasDerivAt`, finite sums.",
 "C51": "`HasDerivAt` of the extensive excess Gibbs energy along each mole number.",
 "C52": "Evaluation at a vertex of the simplex.",
 "C53": "`HasDerivAt`, finite sums.",
 "C54": "Finite sums.",
 "C55": "Strict monotonicity of a sum of hyperbolas; intermediate value theorem.",
 "C56": "Invariant of the safeguarded Newton/bisection loop; convergence from halving.",
 "C57": "Finite sums along the control flow of each flash routine, with the K-value model as an arbitrary function.",
 "C58": "Signs at the ends of the R-interval.",
 "C59": "Real powers and logarithms.",
 "C60": "Derivative sign of the nozzle function; contraction estimate for the liquid fixed point; concrete counterexamples with interval bounds.",
 "C61": "Monotonicity of real powers.",
 "C62": "Field algebra.",
 "C63": "Truncated Fourier series bounded by alternating/positive-term estimates, erfc asymptotics, theta-function style comparison between short- and long-time formulas.",
 "C64": "Field inequalities.",
 "C65": "`HasDerivAt`; sign of the expansion from the identity alpha(P) = alpha(0) - C B1 P/(P+B)/(1 - C ln(1+P/B)); the negative case is a concrete accepted object (C65_alpha_positive_false).",
 "C66": "Finite sums; symmetry.",
 "C67": "Real powers, logarithms; numerical witnesses by rational bounds.",
 "C68": "Weighted means.",
 "C69": "Monotonicity of exp of quotients.",
 "C70": "Case analysis over units; chains of conversions.",
 "C71": "Powers of ten; Archimedean floor of the logarithm.",
 "C72": "List induction over shapes.",
 "C73": "Same model as C05; case analysis of the trust-region update and geometry of the dogleg (norm computations in the scaled inner product).",
 "C74": "Rank-one update algebra.",
 "C75": "Certificate of Brent's method (C04) composed with the residual.",
 "C76": "Counting units and bonds; field algebra.",
 "C77": "Power series of the modified Bessel functions and their recurrence; the bounds follow from the recurrence by a contraction argument (the distance to the bound shrinks at each shift of m).",
 "C78": "Warnings are a list in the model.",
 "C79": "Gaussian integrals, improper integrals.",
 "C80": "curve_fit is an oracle that may call the model any number of times; stateful trace.",
 "C81": "Limit / derivative of Z at zero density.",
 "C82": "Caller arrays in an explicit store.",
 "C83": "Control flow of the outer loop; concrete witness.",
 "C84": "Totality of each routine in the exception monad.",
 "C85": "Strict monotonicity across regime switches.",
 "C86": "Certificates C01/C02 composed with the equations.",
 "C87": "Monotonicity of real powers; interval bounds.",
 "C88": "Newton certificate (dual numbers) combined with strict monotonicity of tan/cot on each branch; list induction; explicit cache with aliasing.",
 "C89": "`HasDerivAt` twice in x and once in t, termwise for the truncated series.",
 "C90": "Interval integrals of the profile.",
 "C91": "The call is modelled with the numerical roots (root_newton or fixed-point loop, default tolerance). Bessel's inequality bounds the sum of five coefficients at the exact roots. By C88 the computed roots are either not below the exact ones, which lowers the coefficients, or within 1.5e-6 of them, which the fifth coefficient absorbs. For tiny Bi the starting point of the sheet root passes the residual test (C91_small_biot_false).",
 "C92": "Real powers; option values for complex results.",
 "C93": "Monotonicity across three formulas, boundary comparison.",
 "C94": "Real powers, sign analysis.",
 "C95": "Monotonicity of real powers, numerical bounds at the switch.",
 "C96": "Table of coefficients as a function; exhaustive case analysis; powers compared after clearing exponents.",
 "C97": "Case analysis, real powers.",
 "C98": "Monotonicity and limits of closed forms, hyperbolic functions.",
 "C99": "Poisson-type series, convolution identities; induction on chain length.",
 "C100": "eigh and quantiles are oracles; parametrisation of an ellipse by trigonometry; root-finder certificates.",
 "C101": "Case analysis over names and shapes; entrywise complement.",
 "C102": "In-place update of vectors; sums over populations; fold over reactions.",
 "C103": "Monotonicity of real powers.",
 "C104": "The spline is an oracle function, integrals are exact interval integrals; additivity of integrals and change of variables; Cauchy-Schwarz through non-negative quadratics for the averages.",
 "C105": "The optimiser is the list of its trial points; induction over the list of assignments.",
 "C106": "The isotherm is shown strictly falling outside its two extreme solutions (concavity of an auxiliary polynomial), the K-value is the exponential of the Maxwell area by integrating the isotherm, and monotonicity of that area in the pressure gives uniqueness and the error bound; the counterexample fluid comes from the intermediate value theorem.",
 "C107": "The integrator is an oracle returning a function of conversion; trajectories are differentiable functions satisfying the equation with the code’s right-hand side. Invariance of [0,1], sign of the drift, the balance and uniqueness come from linear differential equations for f1, 1-f1, f1-F1 and differences of solutions (integrating factors); Meyer-Lowry from a conserved logarithmic combination.",
 "C108": "Case analysis over the checks; positivity of the denominators; product of the Q-e ratios by the exponential law.",
 "C109": "The objective is evaluated by induction over lists of observations with exceptions and non-finite values; identifiability is a 2x2 linear system in the ratios whose determinant is positive for different feeds; exact recovery combines it with non-negativity; covariance by matrix algebra; best optimisers are built classically to show that the contracts can be met.",
 "C110": "Every sum over components is reindexed by the permutation; the triangular loops are first rewritten as sums over all pairs (needs symmetry), the double loop of the Stiel-Thodos rule as a double sum, minima over lists as permutation invariants; the flash loops by induction over the iteration with a relation between the two K-value functions; the copolymerisation solvers through uniqueness of the stationary distribution; counterexamples with two components.",
 "C111": "Case analysis of the bound checks; evaluation of the constructed objects; the Wilson mixing energy is a sum of terms u log(u/v) with v linear in composition, jointly convex by the log-sum inequality.",
 "C112": "Monotonicity of real powers, the intermediate value theorem at Tc and 4Tc, squares of linear functions of the root of temperature.",
 "C113": "Induction over the iteration, collecting the K-values in a sequence.",
 "C114": "Logarithms of the closed form; log x <= x-1 for the comparison with Arrhenius.",
 "C115": "Fundamental theorem of calculus on half lines with the closed forms as antiderivatives; Gaussian bound beyond the cut-off.",
 "C116": "Heap model of arrays, object attributes and memo tables; an invariant relating the table of an object to its parameters is preserved by every event that does not touch it; counterexamples are two- or three-event histories.",
 "C117": "The table is transcribed as rationals; a rational certificate per line bounds the logarithm by powers of rationals, is checked by kernel evaluation, and is proved sound for all temperatures and pressures; monotonicity from the signs of the derivatives.",
 "C118": "Evaluation of one pass: the pressure slope B vanishes, the weights of the inside-out parameters do not depend on the pressure at either end of the phase split, the initial guess of the inner Newton solver is its root up to the complex step, and the second evaluation of the parameters repeats the first.",
 "C119": "Samplers are oracle random variables on an arbitrary probability space, with contracts taken from the documentation of numpy.random.Generator (Spec/RandomLength.lean). The event rint(X) = k is squeezed between X in the open and X in the closed interval around k, which have the same probability, so the tie rule does not matter; cdf is the partial integral of the density by C19. The examples construct such random variables, so the contracts are not contradictory.",
 "C120": "The dispatch of the Python operators over the special methods that the classes define is written out (Model/DistProtocol.lean); Mw of a mixture is the weight average of C22; membership follows the keys of the shared dict through the evaluation of the sum.",
 "C121": "Strings are lists of characters; the lines are obtained with List.splitOn, which distributes over the joins.",
 "C122": "Each quotient is shown to scale (pdiv with scaled arguments raises in the same cases), friction factors see the same Reynolds number; the liquid valve by induction over the iterations; the dispersion model by change of variables in the integral.",
 "C123": "a, b, A, B scale by homogeneity of the square roots; the cubic's coefficients are then the same numbers. For the counterexample the two exponents differ by A/(Bd) times a positive logarithm times sqrt(a)(sqrt(tau^2/pi)-1).",
 "C124": "Everything reduces to one identity, sum_j w_j g(s j) = sum_i g i (summation over fibres). Double sums with case distinctions on the diagonal are first written as full double sums: the geometric mean (zero diagonal), the virial cross coefficients (identical components give the pure value) and the Stiel-Thodos loop. The inside-out flashes are followed iteration by iteration as in C110; minima over positive entries only depend on the set of entries. Copolymer composition and radical fractions follow from uniqueness of the stationary solution (C33, C34).",
 "C125": "The equations are written once more in Spec/Published.lean, from the literature and in its units (g/mol, cP, µP, cm³/mol, bar, atm, cm²/s), with powers and quotients arranged as in the publication. The theorems unfold both sides and cancel the conversion factors; rounded factors are bounded by comparing integer powers (sixth powers for Jossi, Dean-Stiel and Stiel-Thodos, tenth for Wilke-Chang) with exact rational arithmetic. Not covered: the factor A of Lucas' mixture rule and quantum factors, which the code leaves out.",
 "C126": "The docstring formulas are an independent specification; the theorems identify the model with it for all arguments and regimes. The constant of Nu_plate is bounded through integer powers; the dispersion integral by a change of variable; the velocity in the bank is shown to be the maximum over the two passages.",
 "C127": "The ideal flux is computed from its integral for the isentrope, the constant volume and the omega fluid; its maximum is located by the sign of the derivative of the squared flux (a strictly monotone function), and the area of the model is compared with it, bounding the rounded constants. The correlation for the critical pressure and the exact ratio both increase with omega, so they are compared on a grid of 1292 points, with enclosures computed recursively in the kernel (Lemmas/OmegaCrit.lean). The closed formula for subcooled inlets is the same equation with the logarithm cut after two terms; the remainder bounds the loss of flux through polynomial inequalities in Bernstein form.",
 "C128": "Rational cases are evaluated by the kernel. Real cases use a verified interval arithmetic (Lemmas/Interval.lean: fixed-point intervals with 128 fractional bits for field operations, powers, exp, log, square root and pi), run by kernel reduction; branch conditions and nonzero divisors are proved by it too.",
 "C129": "On the scale u = 1/sqrt(f) Colebrook's function is concave, with a slope between known limits; the value and slope seen by the complex step are bounded to 1e-20; one Newton pass squares the relative error (3.7 t^2), so that from Haaland's value at most three evaluations are needed. Haaland against Colebrook: on a logarithmic scale the difference is a function of one variable, bounded piecewise with interval arithmetic.",
 "C130": "The drag coefficient at a slightly complex Reynolds number is bounded in a cone, which gives the value and slope seen by the solver; on a logarithmic scale the right-hand side of the balance has an elasticity between 1/4 and 1/2 up to Re = 50, so each Newton pass shrinks the distance to the root by 3/4, from the starting value 1 m/s; beyond, the elasticity is bounded on the ranges up to 60, 100 and 3000 and above, the Newton map is written in logarithms, and a weighted distance (negative deviations count 1.2) shrinks by 0.72 per pass at any Reynolds number, and the plain distance by 0.6 from Re = 3000 on, where the elasticity is within [-0.15, 0.05]; with an upward slope at 1 m/s the first pass lands at between 0.63 and 150 times the root, whence the weighted distance shrinks by 0.65 per pass; the stopping test then bounds the error. For colloids the first iterates are followed explicitly. For fast spheres the drag coefficient is expanded to first order in the complex step (the slope seen by the solver), and at the negative second iterate its imaginary part is bounded below through the branch of the complex powers.",
 "C131": "The loops are reduced to their difference quotients (lemmas of C10); truncation is bounded by integrating a bound on the next derivative, noise by the triangle inequality, and the documented step sizes make the two of the same order. For the complex step, Taylor series and Cauchy's estimates.",
 "C132": "Newton: the mean value theorem gives e' <= 2K/m e^2 + noise, where the noise comes from the analytic complex-step bound of C131; an invariant e_k <= 2 rho/2^(2^k) + 4 noise is carried through the loop. Secant: e'' <= 2K/m e e' gives the Fibonacci exponents; the difference of values cannot count as zero while the points are more than tolx apart. Wegstein: |q| <= lam/(1-lam), so one update multiplies the error by at most 2 lam/(1-lam). The cycle is checked through the three loop states."
}