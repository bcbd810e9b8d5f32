# Formal model of polykin — design

Source: `/repo/src/polykin` (Python, read as text). Model and proofs: `/verif/lean/Verif`.

## Layout

* `Verif/Model/*.lean` – the model: one Lean definition per Python function/method, mirrored branch by
  branch, each with a comment giving the file and the lines it models and the simplifications made.
* `Verif/Spec/*.lean` – small specification vocabulary used by the statements (never used by the model).
* `Verif/Lemmas/*.lean` – helper lemmas, free to change.
* `Verif/Props/*.lean` – the property theorems, named `Cnn_…`, each followed by an `example` that
  instantiates its hypotheses on a concrete non-trivial case. `_partial` marks a theorem that covers only
  part of its property, `_false…`/`_not_…` marks a proved negation (a defect of the code).

## Modelling conventions

* Python `float` arithmetic is modelled by exact arithmetic: a generic linearly ordered field `α` for
  algorithms that need only field operations (so that the model runs on `ℚ`), `ℝ` where `exp`, `log`, `sqrt`,
  powers or limits occur. Rounding, overflow and the resulting platform dependence are **not** modelled.
* NaN and infinities are modelled explicitly where the control flow of the code depends on them
  (argument checks, `root_secant`'s initial NaN, 0/0 in `simplify_polyline`).
* Exceptions are values: `Except Err α` (`ValueError`, `RangeError`, `NameError`, …).
* `for`/`while` loops become structural recursion on the iteration budget or folds over lists.
* User callables (root functions, fixed-point maps, K-value functions, SSE functions) are universally
  quantified Lean functions (pure: calling them has no side effect other than being recorded in a trace).
  Where a property talks about *how often* or *where* a callable is evaluated, the model carries a call trace.
* numpy/scipy/LAPACK calls (linear solves, least squares, `roots`, `eigh`, special functions) are parameters;
  each theorem states the assumption it needs about them, or holds for every return value.
* Broadcasting numpy code is modelled point-wise, vectors as `Fin n → ℝ` or lists, matrices as functions.
* Mutable objects whose aliasing matters (mixtures, caches) are modelled with an explicit store.

## Trusted base

* Lean 4.33.0 kernel; Mathlib as installed. Every property theorem depends at most on `propext`,
  `Classical.choice`, `Quot.sound` (checked with `#print axioms`; no own axioms, no `native_decide`).
* The reading of the Python source in the model comments (the code is never executed here).
* Exact-arithmetic idealisation of floats (see above), numpy/scipy specifications where assumed.

## What is not modelled

* Floating-point rounding, overflow, and platform differences (see above). Where rounding would change which branch is taken the
  theorems speak about the exact computation only.
* Plotting, string representations, docstrings, sample data sets, type aliases.
* The optimisers inside the fitting functions (`curve_fit`, ODR, `least_squares`) and the construction of the spline of
  `DataDistribution`: oracles.
* `thermo/acm/polynrtl.py`: the class is abstract and not exported.
* The numerical quality of numpy/scipy routines: linear solvers, `eigh`, `roots`, `quad`, `curve_fit`, special functions are oracles
  with the contract stated in the theorem that uses them.
* Particular idealisations: `flash2_PV` totalises 1/T; `flash2_TV` theorems require P > 0 because the model logarithm is total; the
  subcooled relief formula is singular at ws = 1/2 in exact arithmetic (excluded by hypothesis); negative `w` in the omega method;
  `MUV_Lucas` with Python floats and Zc > 0.292 gives a complex-typed result; in `gold.py` the factorial overflow for k > 170 and the
  cancellation for r < 1 are outside the model; `functools.cache` is modelled for distributions, root tables, activity models and cubic equations of state;
  `reaction.py` with natural-number indices only.

## How the theorems are tested

`seeded/LOG.jsonl` records mutations of the model (wrong boundary, swapped argument, dropped update, ...), the claim each one
breaks and the theorems that stopped proving. Survivors led to tightened theorems.

The transcription itself was tested by hand: the model definitions were evaluated in floating point (outside this repository) on the
inputs of the examples in docstrings and of the tests of the project, about 140 values from all packages. All agree to the printed
digits, with one exception: the example of `uptake_convection_sheet` prints 0.3528864399, model and code as written give
0.35288617806 (the docstring is stale).

<!-- generated by tools/design.py; do not edit below -->

## Expectations refuted by proof

* `C05_failed_step_coherence_false` (C05) – negation. After a failed global step the reported `f` need not be the function at the reported `x`: here `x = 0`, `f(0) = 1`, but the result holds `f = 2`.
* `C11_wrong_direction_silently_wrong` (C11) – (negative result) If `h` points away from `tf` (for instance `h > 0` and `tf < t0`) nothing is raised and the answer belongs to another time: on `y' = 1` all three orders return a value different from the exact `y0 + (tf - t0)`.
* `C11_backward_false` (C11) – (negative result) concrete.** Integrating `y' = 1` from `t = 1` back to `t = 0` with `h = 1` returns `y(1)`.
* `C13_closed_polyline_collapses` (C13) – (defect) A closed polyline (first point = last point) collapses to its two coincident end points, whatever its shape and however small the tolerance: the error bound fails without the distinctness hypothesis.
* `C13_error_bound_false` (C13) – (defect witness) For the closed triangle and `tol = 1` both corners are dropped although each is at distance 3 from the only remaining points.
* `C13_edge_distance_false` (C13) – (defect witness) The tolerance is documented as point-to-edge distance, but the code measures the distance to the infinite line: here the dropped point is at distance 8 from the remaining edge although `tol = 1`.
* `C14_range_error_false` (C14) – (negative result) For a two-dimensional array the promised `RangeError` is replaced by numpy's generic `ValueError` about ambiguous truth values, and for a zero-dimensional array by a `TypeError`.
* `C15_strictly_positive_false` (C15) – (negative result) The message promises `T > 0 K`, but absolute zero is accepted, and a NaN temperature passes without error or warning for every validity range.
* `C17_flory_high_order_monodisperse_false` (C17) – (finding) For `DPn = 1` (accepted by the constructor) moments of order 5 and above raise `ZeroDivisionError`.
* `C18_poisson_monodisperse_nan_false` (C18) – (finding) For `DPn = 1` (accepted by the constructor) the pdf at chain length 1, where all the mass sits, is NaN.
* `C20_mixture_DP_order_false` (C20) – (finding) The degree-of-polymerisation averages of a mixture need not be ordered when the components have different `M0`: equal masses of two monodisperse polymers, chain length 100 with `M0 = 1/100` and chain length 1 with `M0 = 100`, give `DPn > DPw`.
* `C21_infinite_DPn_accepted_false` (C21) – (finding) The bounds are closed at infinity and `M0` may be zero: `DPn = inf` and `M0 = 0` are accepted.
* `C23_operands_unchanged_false` (C23) – (finding) `m2 = m + d` changes the mixture `m` the user still holds, and so does `m2 = d + m`; moreover `m` and `m2` are then one and the same dict.
* `C30_none_false` (C30) – (counterexample) With `r1 = r2 = 2` the composition `1/2` is azeotropic, but `None` is reported: "reported exactly when one exists" is false.
* `C32_triads_reduce_false` (C32) – (counterexample) The triads do not reduce: those of the terminal model have total one (`C31_triads`), those of the penultimate model with the same parameters total two.
* `C40_atomic_false` (C40) – (counterexample) A rejected list call does not leave the stored data untouched: data sets preceding the offending one are stored although the call raises.
* `C42_miller1_gel_false` (C42) – is false for `Miller_1` beyond the gel point**: there is no gel check, and the returned mass average is a negative number.
* `C42_zero_conversion_false` (C42) – is false at zero conversion**: `Case_1` raises there instead of returning the averages of the unreacted mixture.
* `C43_zero_reference_false` (C43) – A reference temperature of zero is accepted, and every later call fails.
* `C47_nearly_real_false` (C47) – the claim without the restriction is false. A complex pair whose imaginary part is below `eps` passes the filter, and its real part is returned although it does not satisfy the cubic (Redlich-Kwong, `u = 1`, `w = 0`).
* `C49_zero_interaction_false` (C49) – an explicit all-zero interaction matrix changes the fugacity coefficients (the coefficient `δ` lacks the factor `2 √a_i / am`), although it changes neither the mixture parameters nor the compressibility factors. Already for a pure fluid.
* `C56_reported_false` (C56) – (false as the field `F` of the result suggests): when the iteration limit is reached, the reported residual is not the residual at the reported vapour fraction.
* `C59_laminar_false` (C59) – (false as stated) `DP_tube` raises `ZeroDivisionError` for zero flow, where the Hagen-Poiseuille law gives zero.
* `C60_gas_backpressure_false` (C60) – (false as stated) The area is not monotone in the back pressure: for every gas and every inlet condition it falls where the flow stops being choked, because the two formulas' constants do not match (0.03948 √2 17.9 < 1) and, for `Kb < 1`, because `Kb` is dropped from the subcritical formula.
* `C60_gas_isothermal_false` (C60) – (false as stated) A gas with `k = 1` (the isothermal limit, where the nozzle equations have a finite limit) raises `ZeroDivisionError`.
* `C60_liquid_viscous_false` (C60) – (false as stated) For a very viscous liquid `area_relief_liquid` raises `ValueError` although the sizing equations have a solution: the iteration approaches it too slowly for the 50 steps allowed. (0.055 L/min of a 10 kPa s liquid through a pressure drop of 1 kPa.)
* `C60_two_phase_incompressible_false` (C60) – (false as stated) A fluid that does not expand (`v9 = v1`) raises `ZeroDivisionError`.
* `C61_power_law_rest_false` (C61) – (false as stated) At rest a shear-thinning power-law fluid raises `ZeroDivisionError`.
* `C61_cross_newtonian_false` (C61) – (false as stated) With `n = 1` (Newtonian) the Cross model returns half the zero-shear viscosity at every shear rate, zero included.
* `C63_sphere_center_false` (C63) – is false at the centre at short times: `-1` instead of `0` at time zero, and a negative concentration at `Fo = 0.02`.
* `C65_alpha_positive_false` (C65) – The expansion coefficient is not always positive: the constructor accepts an object whose volume shrinks on heating at 0 °C and 1000 bar.
* `C67_watson_supercritical_false` (C67) – fails beyond the critical point: with both temperatures supercritical, where there is no vaporisation, `DHVL_Watson` silently returns a positive enthalpy, which increases with temperature.
* `C67_hydrocarbon_false` (C67) – fails for branched hydrocarbons: for isooctane (2,2,4-trimethylpentane, 372.39 K, 114.23 g/mol) `DHVL_Kistiakowsky_Vetere` returns no real number, because it raises a negative difference to a fractional power.
* `C69_below_glass_false` (C69) – fails below the temperature of vanishing free volume: an accepted object returns a self-diffusion coefficient larger than `D0`.
* `C71_scalex_integer_false` (C71) – (negative result) For an array of integer dtype the factors are truncated to integers: if all elements have magnitude at least 2, every scaling factor is 0 (so `1/sclx`, as used for the finite-difference step, is a division by zero).
* `C75_spurious_false` (C75) – (counterexample) A reported azeotrope need not be near an azeotrope: for `r11 = r21 = 0.5`, `r22 = r12 = 1.005` the value `1e-4` is reported (the residual test is absolute, `1e-6`), although no composition in `(0, 1)` is azeotropic.
* `C76_case5_false` (C76) – is false for `Case_5`**: for the recipe of its own docstring (1.01 mol A₂, 1 mol B₂, 0.01 mol C, conversions 99% and 95%) the returned value is above 6800, while mass over number of molecules is below 6300.
* `C78_silent_false` (C78) – Multiplying or dividing two coefficients warns about an out-of-range temperature although none was supplied.
* `C79_average_false` (C79) – The parameter documented as the average residence time is not the average for `Pe ≤ 100`.
* `C79_start_false` (C79) – For `Pe > 100` the cumulative distribution jumps at time zero, and exceeds the accumulated `E` ever after.
* `C80_reported_false` (C80) – In general they are not: `fit` reports the last parameters the solver tried, here 3 instead of the optimum 2.
* `C82_unchanged_false` (C82) – (false as stated) the constructors write into the matrices of the caller: after `NRTL(2, a=a)`, `Wilson`, `UNIQUAC` or `FloryHuggins` the array `a` of the caller has been changed.
* `C83_tolerance_false` (C83) – (false as stated) `flash2_PT` may report convergence with `rtol_outer = 1e-12` although the K-values used differ from those of the model at the returned compositions by a relative `5e-6`.
* `C84_PV_false` (C84) – (false as stated) For a pure component `flash2_PV` finds the exact boiling temperature in the first iteration and then raises `ValueError` (`min()` of an empty sequence): all volatility parameters `u` are zero and `A` happens to be negative.
* `C85_mueller_bonn_false` (C85) – (false for `DP_GL_Mueller_Bonn`) The friction factor drops at Re = 1187: raising the (liquid) flow from 1187 to 1187.01 lowers the pressure drop.
* `C87_tube_positive_false` (C87) – A positive Nusselt number for every positive Prandtl number: false. A liquid metal (`Pr = 0.01`) in a rough tube gets a negative one.
* `C88_negative_false` (C88) – `x tan x = a` can be solved for negative `a` as well, and `a` is not restricted; false: at `a = -1` the starting point divides by zero.
* `C88_cache_false` (C88) – Two calls with equal arguments return equal roots: false once the caller has written into the first result, because both calls hand out the same array.
* `C91_small_biot_false` (C91) – The uptake is a fraction for every positive Biot number; false: for `Bi ≤ 1e-10` the residual tolerance of the root finder accepts the starting point as the first root, and the sheet uptake comes out as minus billions (up to `Fo = 10¹⁸`).
* `C92_lucas_absent_false` (C92) – fails without that proviso: adding a component with mole fraction zero to pure nitrogen makes `MUVMX_Lucas` return no real number.
* `C92_jossi_rest_false` (C92) – A correction for density should vanish at zero density, but the Jossi correction does not: its constant term is 1.023 instead of 1.
* `C93_pure_false` (C93) – fails for real substances, whose critical compressibility is not exactly `0.291 - 0.08 w`: for pure water (`Zc = 0.229`, `w = 0.345`) passed as a one-component mixture the correction is less than 60 % of the one for the pure substance.
* `C94_hayduk_minhas_false` (C94) – fails for larger molecules: an aqueous diffusion coefficient is negative at a molar volume of 700 cm³/mol.
* `C95_plate_continuous_false` (C95) – The upward jump of the upper-heated plate at `Ra = 1e7`: at least 5 % between the two formulas.
* `C95_combined_nonneg_false` (C95) – A Nusselt number is never negative: false for opposing flows with dominant free convection.
* `C96_anchor_zero_false` (C96) – An anchor below `Re = 12` transfers no heat at all, silently.
* `C96_ribbon_monotone_false` (C96) – Stirring faster never transfers less heat: false. The helical ribbon drops at `Re = 13`, the anchor at `Re = 100`.
* `C96_anchor_monotone_false` (C96) – The same for the anchor: less heat at `Re = 100` than at `Re = 99.99`.
* `C97_staggered_monotone_false` (C97) – With staggered tubes the same is false: the heat transfer drops by some 10 % at a Reynolds number of 100.
* `C98_dippr102_defined_false` (C98) – A denominator of `DIPPR102` can vanish: parameters and temperature with no value.
* `C98_yaws_monotone_false` (C98) – With a positive `C` (as most tabulated liquids have) it does not: the fitted curve rises again above `sqrt(B/C)`.
* `C98_dippr107_constant_false` (C98) – A constant heat capacity entered as `B = C = D = E = 0`: no number (NaN), although nothing depends on `C`.
* `C99_at_most_one_false` (C99) – Fractions are at most one: false for what the code computes. For `r = 0.01`, `v = 2`, `k = 2` the tail sum is cut off after one hundred terms, far from convergence, and the result exceeds `10^30`.
* `C100_ellipse_false` (C100) – The curve is right for every decomposition allowed by the contract of `eigh`: false. The code reads the first row instead of the first column of the eigenvector matrix, so with eigenvectors that form a rotation the ellipse is the mirror image of the right one.
* `C100_default_width_false` (C100) – With the default width the region is found for well-behaved sums of squares: false. The first guess is then a quarter of the first coordinate of the centre, and for a centre with a nonpositive first coordinate all points are NaN, whatever the function.
* `C101_kp_false` (C101) – A propagation coefficient does not depend on which monomer one asks for: false, `getvar('kp', M2)` returns `1 - kp`.
* `C102_system_false` (C102) – A `ReactionSystem` can be created from distinct reactions: false, the constructor raises for every non-empty list; so does adding two reactions.
* `C102_append_false` (C102) – A repeated reaction is refused: false for `system + reaction`, which also leaves the dimension at 0, so that `rates` raises IndexError.
* `C102_add_false` (C102) – Two systems can be added: false unless both are empty.
* `C103_real_false` (C103) – A float is returned for every positive temperature: false, above the critical temperature the result is complex.
* `C104_integers_false` (C104) – false of the code: molar masses given as integers are not accepted, the same numbers as floats are.
* `C104_negative_false` (C104) – false of the code: for positive data the density can be negative and the cdf decreasing, because the interpolant undershoots. Data: sizes 1, 2, 3, 4 with ordinates 10, 1, 1, 10.
* `C105_optimum_false` (C105) – false of the code: the distribution returned by a successful `fit` need not hold the optimum found, but what happened to be tried last. Here the optimiser tries DPn = 10, 100, 1000, in this order, and reports the optimum 100; the fitted distribution has DPn = 1000.
* `C106_guess_false` (C106) – the returned pressure is not determined by the fluid and the temperature, and need not be the saturation pressure.
* `C107_shape_false` (C107) – false of the code: the result is documented as `(M, N)`, conversions by compositions; it is `(N, M)`.
* `C107_unsorted_false` (C107) – false of the code: conversions are documented as any vector; a decreasing or repeated one is refused.
* `C107_multi_last_false` (C107) – false of the code: the last initial fraction given to `monomer_drift_multi` is not used, so the initial condition need not hold.
* `C107_above_one_false` (C107) – false of the code: only negative values are clipped. An integrator within its absolute tolerance `1e-4` of the solution can give a fraction above one.
* `C108_zero_s_false` (C108) – false of the code: a radical reactivity ratio of zero passes the check of the constructor, but then `kp` has no finite value for any composition (it divides by the ratio), although the limit of the formula exists.
* `C109_bounds_false` (C109) – false of the code: the search box excludes ratios below `1e-3`. Exact data of an alternating system (`r1 = r2 = 0`) are never fitted exactly.
* `C109_zero_conversion_false` (C109) – false of the code: an observation of the copolymer formed at zero conversion is compared with the feed composition instead of the instantaneous composition; exact data then have a positive sum of squares.
* `C109_weight_false` (C109) – false of the code: the weight of a data set does not mean the same in the two methods. Doubling it doubles its share of the least-squares objective, but multiplies its weights in the orthogonal distance regression by almost four.
* `C109_unsorted_false` (C109) – false of the code: conversions are not documented to be sorted, but a drift data set with unsorted conversions makes every fit fail.
* `C110_nrtl_false` (C110) – (finding). A non-symmetric `c` is accepted without complaint and its lower triangle ignored: listing the same two components in the other order, with the same matrix, gives other non-randomness factors.
* `C110_cubic_false` (C110) – (finding). A non-symmetric matrix of interaction parameters is accepted, and then the order matters: only the upper triangle enters the mixture parameter.
* `C116_parameters_false` (C116) – (finding) Changing the parameter matrix of a model afterwards (a `Wilson` object keeps the array it was given) takes effect at temperatures not used before, and not at those used before: the same object then describes two different liquids.
* `C116_result_false` (C116) – (finding) The array returned by `Lambda(T)` is the one kept in the table: scaling it in place changes later activity coefficients at that temperature.
* `C116_eos_false` (C116) – (finding) Assigning a public attribute (`Tc`, `Pc`, `w`) of a cubic equation of state after a pressure has been calculated: at the temperature of that calculation nothing changes; at any other temperature the attraction is that of the new fluid and the covolume that of the old one, which is neither fluid.
* `C119_zero_length_false` (C119) – (finding) `random()` of a log-normal or Schulz-Zimm distribution returns chains of length 0 with positive probability, whatever `DPn` and `PDI > 1`.
* `C120_iteration_false` (C120) – (finding) No mixture can be iterated over, although it defines `__iter__` and `in` works: `iter(m)`, and with it `for d in m` and `list(m)`, raises `TypeError`.
* `C120_empty_comparison_false` (C120) – (finding) A weight of zero gives the empty mixture, which is false, and every comparison with it raises `ZeroDivisionError`. `<=` is not supported for any two distributions.
* `C123_interaction_false` (C123) – with interaction parameters (even zero ones) the fugacity coefficients do not obey the principle: the fugacity coefficients of a pure gas change when temperature and pressure units change, unless the change of units leaves `T²/P` alone.
* `C124_cubic_false` (C124) – (finding). The diagonal of the interaction parameters, which does not affect the mixture parameter of the original list, matters for the portions: the code neither sets it to zero nor reports it.
* `C124_rachford_rice_false` (C124) – (finding). The Rachford-Rice solver does not return the same iterate: a feed of which one half has K = 4 and the other half K = 1/4 is solved in one iteration, and needs more if the second half is listed as two equal parts.
* `C126_dispersion_F_false` (C126) – The expression in the docstring of `F_dispersion_model` is not the value returned, unless the mean residence time is one.
* `C126_lockhart_martinelli_false` (C126) – ... whereas the docstring calls that factor `φ_L` and multiplies by `φ_L²`, which is always larger: for *all* positive flows the returned value is below the documented one.
* `C127_two_phase_low_false` (C127) – Outside that range the correlation is useless: for an omega parameter of 0.0001 (a mixture whose volume hardly changes, at 10 bar) the reported critical pressure is more than 10 % below the exact one.
* `C127_subcooled_liquid_false` (C127) – (false as stated) With low subcooling and a back pressure above the saturation pressure the liquid does not flash, but the function still uses the two-phase curve: the flux it works with exceeds the flux `√(2 ρ ΔP)` of the liquid, for all such inputs, ...
* `C127_subcooled_undersized_false` (C127) – ... by more than a factor of two for a liquid at 10 bar, saturated at 9.5 bar, that doubles its volume at 90 % of that, discharged to 9.9 bar: the area is less than half of what the liquid needs.
* `C130_fast_false` (C130) – (false for fast spheres) Whenever the drag balance slopes downwards at the first guess of 1 m/s (by more than 0.01), the first Newton step leads to a negative velocity, where the complex step sees a huge imaginary part and therefore takes the next step for negligible: `vt_sphere` reports success and returns a velocity of -1 m/s or less.
* `C130_raindrop_false` (C130) – (false as stated) A 2 mm rain drop (1000 kg/m³) in air (1.2 kg/m³, 0.018 mPa s): the terminal velocity is positive, the value returned negative.
* `C130_colloid_false` (C130) – For every sphere with a Stokes velocity below 9 nm/s (and `rho Dp / mu ≤ 1 s/m`; for example any particle below 0.2 µm in water), `vt_sphere` returns at least thirty times the Stokes velocity, which is an upper bound of the terminal velocity: the solver stops at an absolute residual of 1e-6 m/s.
* `C132_wegstein_contraction_false` (C132) – The acceleration can destroy convergence: with its default parameters `fixpoint_wegstein` does not converge for every contraction. `bent` contracts distances by 145/204 < 0.72, so direct substitution converges from everywhere, but from 16 the accelerated iterates run through 16, 11, -1, 16, … for ever: whatever the iteration limit, the call reports failure.

## Properties

### C01 root_newton result certificate (proved)

Code: `math/roots/scalar.py: root_newton`, `math/derivatives/ndiff.py: derivative_complex`. Model: `Model/RootsScalar.lean`. Proofs: `Props/RootsScalar.lean`.

The loop is structural recursion on maxiter over dual numbers (value, derivative), carrying the list of evaluated points; proved by induction against the independent Newton sequence `newtonIter`.

* `C01_newton_certificate` – Certificate of `root_newton`: counters, evaluated points (exactly the Newton iterates of `x0`), coherence of `x` and `f`, meaning of `success` and of the message, for every function, start, tolerance and iteration limit.
* `C01_newton_error_iff` – `root_newton` returns a result (never raises) exactly when at least one iteration is allowed; with `maxiter = 0` it fails with an unbound-variable error instead of reporting failure.
* `C01_newton_affine` – On an affine function `a*x + b` (extended to complex arguments) with slope above `eps`, `root_newton` finds the exact root with at most two evaluations.

### C02 root_secant result certificate (proved)

Code: `math/roots/scalar.py: root_secant`. Model: `Model/RootsScalar.lean`. Proofs: `Props/RootsScalar.lean`.

Same technique; the initial NaN is an option value; induction against `secantSeq`.

* `C02_secant_certificate` – Certificate of `root_secant`. `none` stands for NaN. The evaluated points are exactly the secant sequence.
* `C02_secant_error_iff` – With `maxiter = 0` and start points that are no roots the code raises instead of reporting failure; with `maxiter ≥ 1` it never raises.
* `C02_secant_affine` – On an affine function the first secant update is the exact root.

### C03 root_brent never evaluates the function outside the bracket (proved)

Code: `math/roots/scalar.py: root_brent`. Model: `Model/RootsScalar.lean`. Proofs: `Props/RootsScalar.lean`.

Loop invariant: both bracket ends and every trial point lie in [xa, xb]; induction on the iteration budget.

* `C03_brent_stays_in_bracket` – Every call of the user function and the returned point stay in the closed start interval (whatever its orientation); `nfeval` is the exact number of calls, at most `maxiter + 2`. No continuity of `f` is needed.

### C04 root_brent accuracy and refusal (proved)

Code: `math/roots/scalar.py: root_brent`. Model: `Model/RootsScalar.lean`. Proofs: `Props/RootsScalar.lean`.

Sign-change invariant plus bracket length at exit; the intermediate value theorem turns it into distance to a true root.

* `C04_brent_accuracy` – Accuracy: on success either `|f x| ≤ tolf` or `f` changes sign between the returned `x` and an evaluated point within `4·eps·|x| + tolx`; `f` is always the function value at `x`; failure is only reported after `maxiter` iterations.
* `C04_brent_exact_root` – For a continuous real function an exact root lies within `4·eps·|x| + tolx` of the returned `x`, or `|f x| ≤ tolf`.
* `C04_brent_refusal` – Refusal: `ValueError` exactly when neither end is within `tolf` and both ends have the same strict sign; the only other exception is the unbound variable for `maxiter = 0`.
* `C04_brent_converges` – Total correctness: for *every* function with a bracket, `root_brent` succeeds as soon as `maxiter ≥ b² + 6b + 1`, where `b` is the number of halvings that reduce the start interval to `tolx`.

### C05 rootvec_qnewton success is a certificate and (x, f) are coherent (partial)

Code: `math/roots/vector.py: rootvec_qnewton`, `math/roots/vector.py: line_search`, `math/roots/vector.py: dogleg`. Model: `Model/RootsVector.lean`. Proofs: `Props/RootsVector.lean`.

The driver is modelled with arbitrary linear algebra (factor, solve, update oracles), so results hold for any QR; induction over passes with a call trace. Termination of the inner loops from geometric decrease of λ / trust radius.

* `C05_qnewton_certificate` – Every completed call returns an honest result: `success` implies that the reported `f` is the function at the reported `x` and every scaled component is within `tolf`; unless the global step failed the reported `f` is the function at `x`; the evaluation counter is the number of calls of `f`, the first of which is at `x0`; the number of iterations is at most `maxiter`.
* `C05_failed_step_partial` – (partial). When the last global step failed, the reported `f` is the function at a point whose distance to the reported `x` is below `tolx`, relative to the larger of the two or the typical size. What is missing is `r.f = f r.x`, which is false (see `C05_failed_step_coherence_false`).
* `C05_linesearch_never_worse` – With the line search and directions along which the quasi-Newton model does not increase (`gc · p ≤ 0`, which exact linear algebra guarantees), no completed run ends at a point with a larger scaled residual norm than `x0`.
* `C05_dogleg_never_worse` – The same with the dogleg method, if every step is non-zero, the gradient is not annihilated by `R`, and the model does not increase along the Newton direction.
* `C05_reasons` – The reported reason is the true reason. Every completed run has a history of global steps, each starting where the previous one ended, such that the reported `x` is its end, the number of iterations its length (one more if the factorisation failed), and the message says what happened: all iterations used; a successful step that is short relative to the size of `x`; with a global method, five steps of maximal length in a row; two failed steps in a row (or a failed first step). At no earlier step was there a reason to stop.
* `C05_refusal` – Misuse is refused: an unknown global method raises `ValueError` as soon as a step has been computed (so that the only completed runs stop at `x0` because the factorisation failed), and `maxiter = 0` raises `NameError` whatever the function, unless `x0` already solves the system.
* `C05_linesearch_terminates` – The solver always comes to an end, for any function: with line search (and model-descent directions) there is a number of inner iterations after which nothing changes and a result or an exception is delivered.
* `C05_dogleg_terminates` – The same with the dogleg method, if every step and gradient is non-zero and `R` does not annihilate the gradient.
* `C05_failed_step_coherence_false` – negation. After a failed global step the reported `f` need not be the function at the reported `x`: here `x = 0`, `f(0) = 1`, but the result holds `f = 2`.

Note: Success certificate, coherence of all non-failed returns, counters, termination and the meaning of every stop message (C05_reasons) proved; coherence after a failed global step is false (C05_failed_step_coherence_false), the distance bound C05_failed_step_partial is what holds.

### C06 Line search: sufficient decrease and termination (proved)

Code: `math/roots/vector.py: line_search`. Model: `Model/RootsVector.lean`. Proofs: `Props/RootsVector.lean`.

Recursion with explicit λ; Armijo condition at exit; λ shrinks by at least a half per backtrack, so it falls below λmin.

* `C06_line_search_armijo` – A successful line search returns `xp = xc + λ p'`, `0 < λ ≤ 1`, where `p'` is the given direction shortened to scaled length at most `maxlen`, with `fp = f xp` and the sufficient decrease (Armijo) condition; a failed one returns `xc`.
* `C06_backtrack_factor` – Every backtrack multiplies the step by a factor in `[0.1, 0.51]` (first) or `[0.1, 0.5]` (later).
* `C06_line_search_terminates` – The line search stops: if `p = 0`, or `0.51 · 2⁻ᵏ` times the largest relative component of the step is below `tolx`, at most `k + 2` evaluations of `f` are made, for any function.

### C07 Wegstein fixed-point result certificate (proved)

Code: `math/fixpoint/wegstein.py: fixpoint_wegstein`. Model: `Model/FixPoint.lean`, `Model/RootsScalar.lean`. Proofs: `Props/FixPoint.lean`.

Induction on the iteration budget with the trace of evaluations.

* `C07_wegstein_certificate` – Certificate of `fixpoint_wegstein`: the evaluated points are exactly the bounded Wegstein sequence, the returned `f` is `g(x) - x` at the returned `x`, it stops at the first converged iterate, success means the scaled residual is within `tolx` in every component, failure means it is not and the iteration limit was used up.
* `C07_wegstein_error_iff` – `fixpoint_wegstein` raises (unbound variable) exactly when no iteration is allowed.

### C08 Wegstein is exact on affine maps (proved)

Code: `math/fixpoint/wegstein.py: fixpoint_wegstein`. Model: `Model/FixPoint.lean`, `Model/RootsScalar.lean`. Proofs: `Props/FixPoint.lean`.

Field algebra: one secant acceleration of an affine map hits its fixed point.

* `C08_affine_combination` – Each evaluated point but the first is, per component, an affine combination of the one before and its image, with a weight that is 0 (plain substitution) or within the bounds; so a component that does not move under `g` is left alone.
* `C08_fixed_start` – A fixed point given as start is returned at once.
* `C08_wegstein_affine_exact` – On a component-wise affine map `g_i(x) = a_i x_i + b_i` whose factors `a_i/(a_i-1)` lie within the bounds, the first accelerated iterate is the exact fixed point, so the solver succeeds with at most three evaluations.

### C09 Anderson fixed-point result certificate (proved)

Code: `math/fixpoint/anderson.py: fixpoint_anderson`. Model: `Model/FixPoint.lean`, `Model/RootsScalar.lean`. Proofs: `Props/FixPoint.lean`.

Least-squares solution is an oracle; the certificate holds for any value it returns.

* `C09_anderson_certificate` – Certificate of `fixpoint_anderson`, for every result of the linear-algebra back end.
* `C09_anderson_error_iff` – `fixpoint_anderson` raises (unbound `k`) exactly when `maxiter ≤ 1` and the start is not (strictly) solved.
* `C09_anderson_affine_exact` – Finite termination on affine maps `g(x) = A x + b`: if the coefficients returned by the least-squares step of iteration `K` leave no residual (e.g. because the stored differences span it), the next iterate is an exact fixed point and the solver stops with success after at most `K + 2` evaluations (unless the linear algebra fails before).
* `C09_anderson_scalar_affine` – For a scalar affine map with slope `a ≠ 1` and a back end that solves the one-column least-squares problem, the solver finds the exact fixed point `b/(1-a)` with at most three evaluations.

### C10 Finite differences are exact on the polynomials they should be exact on (proved)

Code: `math/derivatives/ndiff.py`. Model: `Model/NDiff.lean`. Proofs: `Props/NDiff.lean`.

Exact algebra on polynomials; complex step by Taylor expansion of a polynomial at a complex point.

* `C10_complex_step` – For every polynomial `p` with real coefficients, the pair returned by `derivative_complex` differs from `(p'(x), p(x))` by at most `eps²` times a sum of Taylor coefficients of order ≥ 3 (derivative) or ≥ 2 (value); in particular the derivative is exact up to degree 2 and the value up to degree 1.
* `C10_centered_difference` – `derivative_centered` returns the exact derivative of a quadratic polynomial for every step, including the default one, and a "mean value" that exceeds `f(x)` by exactly `a s²`, where `s` is the step that was used.
* `C10_centered_difference_order` – Centred difference on cubics: the error is exactly the leading coefficient times `s²` (second order).
* `C10_jacobian_columns` – `jacobian_forward` returns, column by column, the forward difference quotient at `x` (all other components at their original values although the work vector is modified in place), whatever the initial content of `J`.
* `C10_jacobian_affine` – `jacobian_forward` is exact on affine maps.
* `C10_hessian_symmetric` – `hessian_forward` is symmetric for every function.
* `C10_hessian_exact` – `hessian_forward` returns the exact Hessian `A` of a polynomial `c + b·x + ½ xᵀAx` of degree two in any number of variables, at every point and for every (non-zero) scaling.
* `C10_hessian2_exact` – `hessian2_centered` returns the exact (symmetric) Hessian of a quadratic polynomial in two variables.

### C11 ode_rk integrates over exactly [t0, tf] with the promised order (partial)

Code: `math/derivatives/ode.py: ode_rk`. Model: `Model/Ode.lean`. Proofs: `Props/Ode.lean`.

Step list over an ordered field; telescoping of step lengths; order conditions by polynomial identities; convergence by discrete Gronwall. Order 4: the solution is five times differentiable by bootstrapping, its Taylor expansions and the linearisation of the right-hand side along it give a local error of order five by a calculus of uniform orders of magnitude.

* `C11_steps_cover_interval` – When `h` points from `t0` to `tf`, `ode_rk` makes a number `n` of full Runge-Kutta steps of the requested order on the grid `t0 + i h`, followed by one step of length `hf`, a fraction in `[0,1)` of `h`, that ends exactly at `tf`.
* `C11_exact_quadrature` – Orders 1, 2 and 4 integrate right-hand sides that are polynomials in `t` of degree 0, 1 and 3 exactly, for any step size.
* `C11_linear_ode` – On `y' = λ y` every step of length `s` multiplies by the Taylor polynomial of `exp(λ s)` of the degree of the order.
* `C11_refusal` – Any other order is refused with `ValueError`; a zero step with `ZeroDivisionError`.
* `C11_wrong_direction_silently_wrong` – (negative result) If `h` points away from `tf` (for instance `h > 0` and `tf < t0`) nothing is raised and the answer belongs to another time: on `y' = 1` all three orders return a value different from the exact `y0 + (tf - t0)`.
* `C11_backward_false` – (negative result) concrete.** Integrating `y' = 1` from `t = 1` back to `t = 0` with `h = 1` returns `y(1)`.
* `C11_order1_converges` – First-order convergence of order 1: for a right-hand side that is `L`-Lipschitz in `y`, and an exact solution whose slope is `M`-Lipschitz in time, the global error is at most `M e^{L(tf-t0)} (tf-t0) · h`.
* `C11_order2_converges` – Second-order convergence of order 2, for solutions with Lipschitz first and second derivatives.
* `C11_order4_converges` – Fourth-order convergence of order 4: for every four times continuously differentiable right-hand side, Lipschitz in `y`, the error at `tf` is at most a constant times `h⁴`, for all step sizes.

Note: Forward integration proved, with convergence of all three orders; tf < t0 is false of the code (C11_backward_false, C11_wrong_direction_silently_wrong).

### C12 simplify_polyline returns an ordered subsequence with the end points (proved)

Code: `math/misc/filters.py: simplify_polyline`. Model: `Model/Polyline.lean`. Proofs: `Props/Polyline.lean`.

Ramer-Douglas-Peucker as recursion with fuel; fuel = number of points suffices; strong induction on the stretch length.

* `C12_subsequence` – For `tol ≥ 0` the simplification terminates (recursion depth at most the number of points) and returns a strictly increasing list of row indices that starts with the first and ends with the last row.
* `C12_refusal` – Inputs that are refused: fewer than two dimensions or fewer than two points.
* `C12_negative_tol_diverges` – (negative tolerance) `tol ≥ 0` is needed: for `tol < 0` the recursion never ends, whatever the points.

### C13 simplify_polyline error bound (partial)

Code: `math/misc/filters.py: simplify_polyline`. Model: `Model/Polyline.lean`. Proofs: `Props/Polyline.lean`.

Induction along the recursion; perpendicular distance defined in the specification by orthogonal projection.

* `C13_error_bound_partial` – Error bound: for two consecutive kept rows `x < y` that are distinct points, every dropped row in between is within `tol` of the line through them.
* `C13_kept_points_needed` – No needless points: every kept interior row is farther than `tol` from the line through two kept rows that enclose it.
* `C13_closed_polyline_collapses` – (defect) A closed polyline (first point = last point) collapses to its two coincident end points, whatever its shape and however small the tolerance: the error bound fails without the distinctness hypothesis.
* `C13_error_bound_false` – (defect witness) For the closed triangle and `tol = 1` both corners are dropped although each is at distance 3 from the only remaining points.
* `C13_edge_distance_false` – (defect witness) The tolerance is documented as point-to-edge distance, but the code measures the distance to the infinite line: here the dropped point is at distance 8 from the remaining edge although `tol = 1`.

Note: Bound holds for stretches whose end points differ; false for closed polylines (C13_closed_polyline_collapses, C13_error_bound_false) and for the distance to the edge rather than the line (C13_edge_distance_false).

### C14 Argument range checks accept exactly the documented range (partial)

Code: `utils/tools.py: check_bounds, check_in_set, check_valid_range`. Model: `Model/Float.lean`, `Model/Utils.lean`. Proofs: `Props/Utils.lean`.

Explicit float type with NaN and infinities; case analysis.

* `C14_bounds_accepts_iff` – `check_bounds` accepts an argument, and then returns it unchanged, exactly when it is a number or a collection all of whose elements are numbers of the closed interval `[xmin, xmax]`.
* `C14_nan_refused` – NaN is never accepted, whatever the bounds.
* `C14_refusal` – Which error a refused argument gives, for every argument: `RangeError` in the cases listed by `Arg.RefusedByRange`, numpy's `ValueError` for every other array with at least two dimensions, and `TypeError` for arrays without dimensions and for arguments that are neither numbers nor collections.
* `C14_range_error_false` – (negative result) For a two-dimensional array the promised `RangeError` is replaced by numpy's generic `ValueError` about ambiguous truth values, and for a zero-dimensional array by a `TypeError`.
* `C14_in_set_iff` – `check_in_set` accepts exactly the collections (or single items) whose members are all listed.
* `C14_valid_range_iff` – `check_valid_range` accepts exactly the pairs of numbers `r0 < r1` inside `[xmin, xmax]`; everything else is a `RangeError`.

Note: Acceptance is exact. Which error a refused argument gives is proved for every argument (C14_refusal); it is not always the documented RangeError (C14_range_error_false: 0-d and n-d arrays).

### C15 Temperature and pressure conversion (partial)

Code: `utils/tools.py: convert_check_temperature, convert_check_pressure`. Model: `Model/Float.lean`, `Model/Utils.lean`. Proofs: `Props/Utils.lean`.

Case analysis over units, exact arithmetic.

* `C15_temperature` – For finite readings in a known unit, `convert_check_temperature` returns exactly the kelvin values unless one of them is negative (`RangeError`); the validity range only decides about the warning, which is issued iff some value lies outside `[Tmin, Tmax]`.
* `C15_unknown_unit` – An unknown unit is refused, for temperature and pressure.
* `C15_pressure` – `convert_check_pressure` is a pure unit conversion with the same decision logic.
* `C15_strictly_positive_false` – (negative result) The message promises `T > 0 K`, but absolute zero is accepted, and a NaN temperature passes without error or warning for every validity range.

Note: Conversion exact; T = 0 K is accepted although the message says it must be positive (C15_strictly_positive_false).

### C16 add_dicts / enforce_symmetry (proved)

Code: `utils/math.py: add_dicts, enforce_symmetry`. Model: `Model/Float.lean`, `Model/Utils.lean`. Proofs: `Props/Utils.lean`.

Association-list dictionaries; induction over the items; matrix entries by cases.

* `C16_add_dicts` – `add_dicts` returns the key-wise sum (absent keys count as 0); its keys are exactly the keys of both; with `new=True` the first argument is unchanged, with `new=False` it becomes the returned value.
* `C16_add_dicts_comm_assoc` – As a map from keys to values the sum is commutative and associative.
* `C16_enforce_symmetry` – `enforce_symmetry` on a square matrix keeps the diagonal and the upper triangle, makes the matrix symmetric, is idempotent and leaves symmetric matrices alone; other shapes are refused.
* `C16_enforce_symmetry_refusal` – A non-square matrix is refused.

### C17 Flory distribution is normalised and its moments and cdf are exact (proved)

Code: `distributions/analyticaldistributions.py: Flory`, `distributions/base.py: IndividualDistribution`. Model: `Model/Dist.lean`. Proofs: `Props/Dist.lean`.

`HasSum` of geometric series and its derivatives; higher moments through the Eulerian/polylog identity.

* `C17_flory_moments` – For `DPn ≥ 1` the Flory number pdf is non-negative, and whatever order is requested the returned moment is the sum of `k^order * pdf(k)` over all chain lengths `k ≥ 1` (order 0: the pdf is normalised). Orders up to 4 always succeed and do not depend on the polylogarithm; higher orders succeed for `DPn > 1`, given that `mpmath.polylog(-n, a)` is the series `∑ k^n a^k`.
* `C17_flory_low_orders` – Up to order 4 the moments never need the polylogarithm.
* `C17_flory_cdf` – The cumulative number and mass fractions are the partial sums divided by the corresponding moment; any other order raises `ValueError`.
* `C17_flory_averages` – Computed from the moments, the averages of a Flory distribution are the requested `DPn`, `DPw = 2 DPn - 1` and `PDI = 2 - 1/DPn`, for any monomer molar mass.
* `C17_flory_high_order_monodisperse_false` – (finding) For `DPn = 1` (accepted by the constructor) moments of order 5 and above raise `ZeroDivisionError`.

### C18 Poisson distribution is normalised and its moments are exact (proved)

Code: `distributions/analyticaldistributions.py: Poisson`. Model: `Model/Dist.lean`. Proofs: `Props/Dist.lean`.

`HasSum` of the exponential series; Stirling numbers of the second kind for the moments; cdf via the incomplete gamma function.

* `C18_poisson_moments` – For `DPn > 1` and every order, the moment returned for a Poisson distribution is the sum of `k^order pdf(k)` over all chain lengths (order 0: the pdf is normalised), and the pdf is a number, positive for every chain length.
* `C18_poisson_cdf` – The cumulative number and mass fractions of the Poisson distribution are the partial sums divided by the moment; any other order raises `ValueError`.
* `C18_poisson_averages` – Computed from the moments, the averages are the requested `DPn` and `PDI = 1 + 1/DPn - 1/DPn²`.
* `C18_poisson_monodisperse_nan_false` – (finding) For `DPn = 1` (accepted by the constructor) the pdf at chain length 1, where all the mass sits, is NaN.

### C19 LogNormal and Schulz-Zimm have the DPn and PDI they were asked for (proved)

Code: `distributions/analyticaldistributions.py: LogNormal, SchulzZimm`. Model: `Model/Dist.lean`. Proofs: `Props/Dist.lean`.

Gaussian and Gamma integrals (change of variables).

* `C19_lognormal` – For `DPn > 0` and `PDI > 1` the log-normal pdf integrates to the closed-form moment of every order, its averages computed from these moments are exactly the requested `DPn` and `PDI`, and the cumulative fractions are the partial integrals.
* `C19_schulzzimm` – The same for the Schulz-Zimm distribution.
* `C19_pdf_normalised` – The number, mass and GPC pdfs of any continuous distribution are normalised to one, both as functions of the chain length and of the molar mass (`sizeasmass`).
* `C19_cdf_of_pdf` – The number and mass cdfs of a continuous distribution are the integrals of the pdfs of the same kind, both as functions of the chain length and of the molar mass.

### C20 Averages are ordered and mutually consistent (proved)

Code: `distributions/base.py: Distribution`. Model: `Model/Dist.lean`, `Model/Float.lean`, `Model/Mixture.lean`, `Model/Utils.lean`. Proofs: `Props/Dist.lean`, `Props/Mixture.lean`.

Cauchy-Schwarz on the moments; algebra for the conversions.

* `C20_averages_ordered` – For any distribution of sizes (a measure on the positive reals, neither zero nor with infinite third moment: this covers discrete and continuous distributions) the averages are ordered, `PDI ≥ 1`, molar-mass averages are `M0` times the degree-of-polymerisation averages, and the `M0` recovered from the averages is the one given.
* `C20_mixture_mass_averages` – If the mass moments of every component satisfy the moment inequalities of a distribution of positive masses (see `C20_averages_ordered`), so do those of the mixture: `Mn ≤ Mw ≤ Mz` and `PDI ≥ 1`.
* `C20_mixture_DP_order_false` – (finding) The degree-of-polymerisation averages of a mixture need not be ordered when the components have different `M0`: equal masses of two monodisperse polymers, chain length 100 with `M0 = 1/100` and chain length 1 with `M0 = 100`, give `DPn > DPw`.

### C21 Assigning DPn/PDI is all-or-nothing and observable state follows it (proved)

Code: `distributions/base.py: IndividualDistribution, AnalyticalDistribution, AnalyticalDistributionP2`. Model: `Model/DistState.lean`, `Model/Float.lean`, `Model/Utils.lean`. Proofs: `Props/DistState.lean`.

Labelled transition system with an explicit memo table and cached properties; simulation against a cache-free specification, by induction over the history of operations.

* `C21_history_independent` – Whatever the formulas are, and for every sequence of constructions, assignments and queries on any number of distribution objects of any class, every result is the one obtained by recomputing from the values assigned last (the reference semantics has neither memo tables nor derived fields): no memoised moment, internal parameter or default range is ever stale.
* `C21_failed_operation_no_effect` – An operation that raises has no observable effect: whatever is done afterwards gives the results it would have given without it.
* `C21_valid_assignment` – An assignment to `DPn`, `PDI` or `M0` that does not raise was within the documented bounds, and the getter then returns the assigned value.
* `C21_infinite_DPn_accepted_false` – (finding) The bounds are closed at infinity and `M0` may be zero: `DPn = inf` and `M0 = 0` are accepted.

### C22 MixtureDistribution averages and pdf follow the mixing rules (proved)

Code: `distributions/base.py: MixtureDistribution`. Model: `Model/Dist.lean`, `Model/Float.lean`, `Model/Mixture.lean`, `Model/Utils.lean`. Proofs: `Props/Mixture.lean`.

Finite sums over the list of components.

* `C22_molefractions` – The mole fractions of a non-empty mixture are positive and sum to one.
* `C22_averages` – `Mn` of a mixture is the total weight over the sum of `w_i / Mn_i`, `Mw` is the weight average of the `Mw_i`, and `Mz` the average of the `Mz_i` weighted by `w_i Mw_i`. Components are normalised (`mm 0 0 = 1`).
* `C22_pdf_cdf` – The number and mass pdfs and cdfs of a mixture are the convex combinations of those of its components, with mole and weight fractions respectively.
* `C22_insertion_order` – Moments, pdf and cdf do not depend on the order in which the components were inserted.
* `C22_weight_scaling` – Nor do they depend on a common scaling of the weights.

### C23 Combining distributions does not change the operands (partial)

Code: `distributions/base.py: MixtureDistribution.__add__`, `utils/math.py: add_dicts`. Model: `Model/Dist.lean`, `Model/Float.lean`, `Model/Mixture.lean`, `Model/Utils.lean`. Proofs: `Props/Mixture.lean`.

Explicit heap of dictionaries; induction over the expression.

* `C23_sum_expression` – Evaluating `w₁*D₁ + w₂*D₂ + …` with positive weights leaves every existing mixture as it was, and the result holds, for each distribution, the sum of its weights.
* `C23_add` – What `x + y` does, exactly. A resulting mixture holds the sum of the weights. Two distributions give a new mixture. If an operand is a mixture, the result is that very object (the left one if both are), so it holds the sum afterwards; every other mixture is unchanged.
* `C23_operands_unchanged_false` – (finding) `m2 = m + d` changes the mixture `m` the user still holds, and so does `m2 = d + m`; moreover `m` and `m2` are then one and the same dict.

Note: The property is false of the code: `m + d` and `d + m` update the dict of the mixture m in place and share it with the result (C23_operands_unchanged_false). Proved exactly instead: C23_add says for every pair of operands which object is returned, which weights it has and which existing mixture is changed; C23_sum_expression: sums w1*D1 + w2*D2 + ... change no existing mixture and hold the right weights.

### C24 convolve_moments gives the moments of the sum (proved)

Code: `distributions/misc.py: convolve_moments`. Model: `Model/DistMisc.lean`. Proofs: `Props/DistMisc.lean`.

Moments of a sum as double sums; binomial theorem.

* `C24_moments_of_sum` – If `q` and `r` list the first moments of two size distributions (measures on the reals with finite moments, e.g. discrete chain-length distributions), `convolve_moments(q, r)` lists the moments of the sum of two independent sizes, for any number of moments.
* `C24_lengths` – Lists of different lengths raise; otherwise the result has the same length.
* `C24_commutative` – Convolution is commutative.
* `C24_associative` – Convolution is associative.
* `C24_unit` – The moments of the constant size 0, `[1, 0, 0, …]`, are a unit.

### C25 convolve_moments_self closed forms equal repeated convolution (proved)

Code: `distributions/misc.py: convolve_moments_self`. Model: `Model/DistMisc.lean`. Proofs: `Props/DistMisc.lean`.

Induction on the number of factors.

* `C25_self_convolution` – `convolve_moments_self(q, order)` is `q` convolved with itself `order` times, for every order and any number of moments (the closed forms used for up to 3 moments included).
* `C25_recursion` – The same as a recursion on the order: order 0 is `q`, and one more order is one more convolution with `q`.
* `C25_order_one` – Together with C24: applied to the moments of a distribution, the result has the same length and order 1 is the convolution of `q` with itself.

### C26 reconstruct_Laguerre reproduces the given moments (proved)

Code: `distributions/misc.py: reconstruct_Laguerre`. Model: `Model/DistMisc.lean`. Proofs: `Props/DistMisc.lean`.

Orthogonality of Laguerre polynomials against the exponential weight (Gamma integrals).

* `C26_laguerre_moments` – The function returned by `reconstruct_Laguerre` has exactly the moments it was given, under integration over `(0, ∞)`, for any number of moments ≥ 2 with positive zeroth and first moment.

### C27 convert_polymer_standards is a Mark-Houwink consistent invertible conversion (proved)

Code: `distributions/misc.py: convert_polymer_standards`. Model: `Model/DistMisc.lean`. Proofs: `Props/DistMisc.lean`.

Real powers.

* `C27_same_hydrodynamic_volume` – The converted molar mass has the same hydrodynamic volume: `K2 M2^(1+a2) = K1 M1^(1+a1)`.
* `C27_conversion_group` – Converting with identical constants is the identity; converting there and back is the identity; conversions compose.
* `C27_strictly_increasing` – Conversion is strictly increasing in the molar mass.

### C28 Binary instantaneous copolymer composition is well-behaved (proved)

Code: `copolymerization/binary.py: inst_copolymer_binary`. Model: `Model/Copo.lean`, `Model/RootsScalar.lean`. Proofs: `Props/Copo.lean`.

Field inequalities; partial derivatives not needed.

* `C28_range` – The result is a number of `[0, 1]`; exactly `0` and `1` at the pure ends, strictly inside otherwise.
* `C28_finite_iff` – Exactly when there is no finite result, for the reactivity ratios accepted by the models (`r ≥ 0`).
* `C28_exchange` – Exchanging the two monomers gives the complement.
* `C28_strictMono` – Strictly increasing in `f1`.
* `C28_ideal` – With both reactivity ratios equal to one the copolymer has the composition of the monomer mixture.
* `C28_mayo_lewis` – The Mayo-Lewis equation `F1/F2 = (f1/f2)·(r1 f1 + f2)/(r2 f2 + f1)`.

### C29 Average propagation rate coefficient (proved)

Code: `copolymerization/binary.py: kp_average_binary`. Model: `Model/Copo.lean`, `Model/RootsScalar.lean`. Proofs: `Props/Copo.lean`.

Field algebra; comparison with the steady-state radical balance.

* `C29_weighted_sum` – `p1`, `p2` are the fractions of the two radicals at the steady state of the terminal model: the rate of cross propagation is the same in both directions, with `k12 = k11/r1`, `k21 = k22/r2`. The average is the rate per radical and monomer.
* `C29_fractions_exist` – The steady-state fractions exist and are unique.
* `C29_between` – The average lies between any bounds of the four propagation coefficients `k11, k12, k21, k22`.
* `C29_ends` – `k22` and `k11` at the pure ends.
* `C29_exchange` – Relabelling the monomers changes nothing.

### C30 TerminalModel.azeotrope: reported compositions are azeotropes (partial)

Code: `copolymerization/terminal.py: TerminalModel.azeotrope`. Model: `Model/Copo.lean`, `Model/RootsScalar.lean`. Proofs: `Props/Copo.lean`.

Field algebra (quadratic F1 = f1).

* `C30_reported` – A reported azeotrope is one, lies strictly inside `(0, 1)`, and is the only one there.
* `C30_none` – When `None` is right: if nothing is reported, an azeotrope exists after all exactly if both ratios exceed one (a missed azeotrope) or both equal one (every composition is azeotropic).
* `C30_none_false` – (counterexample) With `r1 = r2 = 2` the composition `1/2` is azeotropic, but `None` is reported: "reported exactly when one exists" is false.

Note: Reported values are exact; C30_none: when None is reported, an azeotrope exists after all exactly if both ratios exceed 1 (C30_none_false) or both equal 1.

### C31 Terminal model: transition probabilities, triads and sequence lengths are proper distributions (proved)

Code: `copolymerization/terminal.py: TerminalModel.transitions, triads, sequence`. Model: `Model/Copo.lean`, `Model/RootsScalar.lean`. Proofs: `Props/Copo.lean`.

Field algebra, `HasSum` of geometric series.

* `C31_transitions` – `transitions` succeeds on `[0, 1]`; the entries are probabilities with unit row sums, and `P11/P12 = r1 f1/f2`, `P22/P21 = r2 f2/f1`.
* `C31_range_error` – Outside `[0, 1]` `transitions`, `triads` and `sequence` raise `RangeError`.
* `C31_composition` – The Markov chain has the composition of the Mayo-Lewis equation: `F1 P12 = (1 - F1) P21`.
* `C31_triads` – Triads: non-negative, total exactly one, and consistent with the diads. `F1` is the composition of the chain up to a relative error of `eps`: `0 ≤ F1 - S1 ≤ F1·eps/(P12 + P21)`, where `S1` is the sum of the triads centred on monomer 1.
* `C31_sequence` – Sequence lengths: both distributions sum to one over `k ≥ 1`; their means are `1/(1 - Pii)`, and the reported mean differs from it only through the guard `eps` (smaller by a relative amount of at most `eps` times the mean).

### C32 Penultimate model reduces to the terminal model (partial)

Code: `copolymerization/penultimate.py`, `copolymerization/terminal.py`. Model: `Model/Copo.lean`, `Model/RootsScalar.lean`. Proofs: `Props/CopoPen.lean`.

Substitution of parameters; field algebra.

* `C32_F1_reduces` – With `r11 = r21 = a`, `r22 = r12 = b` the effective ratios are constant, so `F1` is that of the terminal model.
* `C32_kp_reduces` – With `s1 = s2 = 1` also the average propagation coefficient is that of the terminal model (and the same exception is raised when a coefficient is missing or `f1` is out of range).
* `C32_transitions_reduce` – The transition probabilities do not depend on the penultimate unit and are those of the terminal model.
* `C32_sequence_reduces` – The sequence length distributions agree for every length `k ≥ 1`; the reported means agree up to the factor `1 + eps`.
* `C32_triads_group_sums` – Triads of the penultimate model: non-negative and normalised to one within each of the two groups.
* `C32_triads_reduce_false` – (counterexample) The triads do not reduce: those of the terminal model have total one (`C31_triads`), those of the penultimate model with the same parameters total two.
* `C32_sequence` – Sequence lengths of the penultimate model: the distribution over `k ≥ 1` sums to one and has mean `1 + Pjii/(1 - Piii)`; the reported mean is that value up to the guard `eps`.
* `C32_kp_mechanism` – Mechanistic meaning of the penultimate model. The eight rate coefficients `kijk` are those defined by the parameters (`r11 = k111/k112`, `r21 = k211/k212`, `s1 = k211/k111`, …); `pij` are the fractions of radicals with terminal unit `j` and penultimate unit `i` at the steady state. Then `kp` is the total rate of propagation per radical and monomer.

Note: F1, kp, transitions and sequence lengths reduce to the terminal model; triads do not (C32_triads_reduce_false, different normalisation).

### C33 Multicomponent composition is the stationary state of the propagation Markov chain (proved)

Code: `copolymerization/multicomponent.py: inst_copolymer_multi, inst_copolymer_ternary`, `copolymerization/binary.py: inst_copolymer_binary`. Model: `Model/Copo.lean`, `Model/CopoMulti.lean`, `Model/RootsScalar.lean`. Proofs: `Props/CopoMulti.lean`.

The linear solve is an oracle with the contract of numpy; existence and positivity of the stationary state by a determinant argument (irreducible chain).

* `C33_arguments` – Exactly two combinations of arguments are accepted.
* `C33_stationary_P` – Given a row-stochastic matrix with a positive column, the result is the unique stationary distribution of the chain.
* `C33_stationary` – Given compositions and reactivity ratios: the stationary distribution of the propagation chain with transition probabilities proportional to `f_j/r_ij`; absent monomers do not occur in the copolymer.
* `C33_binary` – Two monomers: `F_0` is the value of `inst_copolymer_binary`.
* `C33_ternary` – Three monomers: the result is that of `inst_copolymer_ternary`.

### C34 Radical fractions are the steady state of the cross-propagation balance (proved)

Code: `copolymerization/multicomponent.py: radical_fractions_ternary, radical_fractions_multi`. Model: `Model/Copo.lean`, `Model/CopoMulti.lean`, `Model/RootsScalar.lean`. Proofs: `Props/CopoMulti.lean`.

Same oracle; ternary closed form by field algebra.

* `C34_multi` – `radical_fractions_multi`, any number of monomers: fractions that are non-negative, sum to one and satisfy the steady-state balance of every radical, `Σ_j k_ij p_i f_j = Σ_j k_ji p_j f_i`; they are the only such fractions.
* `C34_ternary` – `radical_fractions_ternary` satisfies the same balances (whatever the homopropagation coefficients `d1, d2, d3`) and agrees with `radical_fractions_multi`.

### C35 transitions_multi is row-stochastic (proved)

Code: `copolymerization/multicomponent.py: transitions_multi`. Model: `Model/Copo.lean`, `Model/CopoMulti.lean`, `Model/RootsScalar.lean`. Proofs: `Props/CopoMulti.lean`.

Finite sums.

* `C35_stochastic` – For any number of monomers, `f ≥ 0` not all zero, positive `r`: the entries are probabilities, the rows sum to one, and the odds of adding `j` rather than `k` to radical `i` are `(f_j/r_ij) : (f_k/r_ik)`.
* `C35_terminal` – For two monomers the matrix is that of `TerminalModel.transitions`.

### C36 sequence_multi is a normalised geometric law with the reported mean (proved)

Code: `copolymerization/multicomponent.py: sequence_multi`. Model: `Model/Copo.lean`, `Model/CopoMulti.lean`, `Model/RootsScalar.lean`. Proofs: `Props/CopoMulti.lean`.

Geometric series.

* `C36_sequence` – For every self-transition probability in `[0, 1)`: the sequence length distribution is a probability distribution over `k ≥ 1`; it has mean `1/(1 - P)`, and the value reported for `k = None` is below it by a relative error of at most `eps/(1 - P)`.
* `C36_mean_guard` – The guard keeps the reported mean finite also for `P = 1` (then it is `1/eps`).

### C37 tuples_multi partitions the chain statistics (proved)

Code: `copolymerization/multicomponent.py: tuples_multi`. Model: `Model/Copo.lean`, `Model/CopoMulti.lean`, `Model/Float.lean`, `Model/RootsScalar.lean`, `Model/Utils.lean`. Proofs: `Props/CopoTuples.lean`.

Induction over the list of all tuples with the dictionary as accumulator; reversal pairs.

* `C37_representatives` – The keys are distinct tuples; of a tuple and its mirror image exactly one is reported (the lexicographically smaller one), with the sum of the probabilities of both directions (once, if they coincide).
* `C37_distribution` – For a stochastic matrix and a composition summing to one, the reported values are non-negative and sum to one.
* `C37_sum_out` – If moreover `F` is stationary (`F P = F`), summing the probabilities of `(n+2)`-tuples over their last unit gives those of the `(n+1)`-tuples.

### C38 Q-e scheme reactivity ratios (proved)

Code: `copolymerization/multicomponent.py: convert_Qe_to_r`. Model: `Model/Copo.lean`, `Model/CopoMulti.lean`, `Model/Float.lean`, `Model/RootsScalar.lean`, `Model/Utils.lean`. Proofs: `Props/CopoTuples.lean`.

Algebra of exp.

* `C38_Qe` – Positive ratios, unit diagonal, `r_ij r_ji = exp(-(e_i-e_j)²) ≤ 1`, with equality exactly when `e_i = e_j`.
* `C38_invariance` – Multiplying all `Q` by the same non-zero factor changes nothing; changing the sign of all `e` changes nothing; shifting all `e` by `c` multiplies `r_ij` by `exp(-c (e_i - e_j))`, so the products `r_ij r_ji` do not change.

### C39 Fineman-Ross recovers the exact reactivity ratios from exact data (proved)

Code: `copolymerization/fitting.py: fit_Finemann_Ross`. Model: `Model/Copo.lean`, `Model/CopoMulti.lean`, `Model/Float.lean`, `Model/RootsScalar.lean`, `Model/Utils.lean`. Proofs: `Props/CopoTuples.lean`.

Normal equations of least squares on collinear points.

* `C39_exact` – For data on the Mayo-Lewis curve of `(r1, r2)`, `0 < f1 < 1`, with at least two different `f1`, `fit_Finemann_Ross` returns exactly `(r1, r2)`.
* `C39_inst_copolymer` – The data computed by `inst_copolymer_binary` are on the Mayo-Lewis curve.
* `C39_one_point` – With a single feed composition there is no fit: the regression raises.

### C40 CopoModel data bookkeeping (partial)

Code: `copolymerization/terminal.py: CopoModel.add_data`. Model: `Model/Copo.lean`, `Model/CopoMulti.lean`, `Model/Float.lean`, `Model/RootsScalar.lean`, `Model/Utils.lean`. Proofs: `Props/CopoTuples.lean`.

Induction over the list of data sets.

* `C40_invariants` – After any history of calls, whatever was stored stays stored in the same position, no data set is stored twice, and all stored data sets belong to the monomer pair of the model and were passed to some call.
* `C40_success` – A call succeeds exactly when all its data sets belong to the monomer pair; then all of them are stored, and the new ones are appended in the order of the argument.
* `C40_single` – A single data set of other monomers is rejected and the stored data are untouched; a duplicate is skipped.
* `C40_atomic_false` – (counterexample) A rejected list call does not leave the stored data untouched: data sets preceding the offending one are stored although the call raises.

Note: All invariants hold; a rejected list call is not atomic (C40_atomic_false).

### C41 Step-growth closed forms are consistent special cases of each other (proved)

Code: `stepgrowth/solutions.py`. Model: `Model/StepGrowth.lean`. Proofs: `Props/StepGrowth.lean`.

Field algebra.

* `C41_case1_recursion` – `Case_1`'s `Mw` is the expected mass of the molecule that a random unit mass belongs to: `EA`, `EB` are the expected masses attached through a random A or B group.
* `C41_case3_recursion` – The same for `Case_3`: an A group is attached to B and C in proportion to their conversions.
* `C41_stockmayer_recursion` – The same for `Stockmayer`: `fe - 1`, `ge - 1` are the numbers of other groups on the unit of a random group.
* `C41_miller1_recursion` – The same for `Miller_1`: the two B groups of a unit have their own conversions.
* `C41_miller2_recursion` – The same for `Miller_2`; here `GA`, `GB` are the expected masses behind a bond, seen from its `Af` and `B2` end.
* `C41_floryAf_recursion` – The same for `Flory_Af`.
* `C41_stockmayer_case1` – `Stockmayer` with one A₂ and one B₂ monomer is `Case_1`.
* `C41_case3_case1` – `Case_3` with equal conversions of B and C is `Case_1`.
* `C41_miller1_stockmayer` – `Miller_1` with equal conversions is `Stockmayer` for A_f + A₂ + B₂.
* `C41_miller2_stockmayer` – `Miller_2` with independent groups (binomial distribution of reacted groups at conversion `q`) is `Stockmayer` for A_f + B₂: for binomial `p` the mean is `f q` and the mean seen from a bond is `1 + (f-1) q` (`binomial_moments`).

### C42 Step-growth averages are ordered and diverge only at the gel point (partial)

Code: `stepgrowth/solutions.py`. Model: `Model/StepGrowth.lean`. Proofs: `Props/StepGrowth.lean`.

Field inequalities; gel point by sign of the denominator.

* `C42_case1` – `Case_1`.
* `C42_case3` – `Case_3`.
* `C42_stockmayer` – `Stockmayer`, any numbers of monomers: the result is NaN exactly from the gel point on, and ordered before it.
* `C42_floryAf` – `Flory_Af`: NaN exactly from the gel point `1/(f-1)` on; `Mn ≤ Mw ≤ Mz` before it.
* `C42_miller2` – `Miller_2` for any distribution of reacted groups: `m` is the mean number of bonds seen from a bond.
* `C42_miller1_partial` – (partial) `Miller_1` below the gel point.
* `C42_miller1_beyond_gel` – What `Miller_1` does from the gel point on, in general: at the gel point it raises, and beyond it the "mass-average molar mass" it returns is smaller than that of the unreacted mixture.
* `C42_miller1_gel_false` – is false for `Miller_1` beyond the gel point**: there is no gel check, and the returned mass average is a negative number.
* `C42_zero_conversion_false` – is false at zero conversion**: `Case_1` raises there instead of returning the averages of the unreacted mixture.

Note: Ordering proved for all forms that return Mw below the gel point, NaN exactly from the gel point on for Stockmayer, Flory_Af, Miller_2. False for Miller_1 from the gel point on: it raises at the gel point and returns a mass average below that of the unreacted mixture beyond it (C42_miller1_beyond_gel, in general; C42_miller1_gel_false: even negative), and at zero conversion (Case_1 raises).

### C43 Arrhenius algebra (partial)

Code: `kinetics/coefficients/arrhenius.py`, `properties/equations/base.py`. Model: `Model/Kinetics.lean`. Proofs: `Props/Kinetics.lean`.

Structural induction over expression trees built from coefficients.

* `C43_expressions` – Whatever expression of products, quotients, powers and multiples is built, calling the result at a temperature `T` returns the same expression of the values at `T`, and warns exactly if `T` is outside the intersection of the validity ranges.
* `C43_reference` – At the reference temperature the value is `k0`.
* `C43_zero_reference_false` – A reference temperature of zero is accepted, and every later call fails.
* `C43_refused` – A coefficient is refused exactly if `k0`, `T0` or the range bounds are negative, or the range is (almost) empty.
* `C43_disjoint` – The product of coefficients whose validity ranges do not overlap is refused.

Note: Pointwise algebra for all expression trees, range intersection, k(T0) = k0 for T0 > 0; T0 = 0 is accepted by the constructor and then every call raises (C43_zero_reference_false).

### C44 Chain-length dependent termination and propagation coefficients (proved)

Code: `kinetics/coefficients/cldtermination.py`, `kinetics/coefficients/cldpropagation.py`. Model: `Model/Kinetics.lean`. Proofs: `Props/Kinetics.lean`.

Real powers, monotonicity.

* `C44_termination_symm` – Symmetric in the two chain lengths.
* `C44_termination_one` – Equal to `kt11` for two radicals of length one.
* `C44_termination_mean` – The cross coefficient is the geometric mean of the like ones.
* `C44_termination_laws` – Short chains follow `kt11 i^(-aS)`, long ones a power law with exponent `-aL`, and the two laws meet at `icrit`.
* `C44_termination_antitone` – Longer radicals terminate more slowly.
* `C44_propagation_half` – `PropagationHalfLength`: `C kp` for monomeric radicals, the excess over `kp` halves at every half-length.
* `C44_propagation_decreases` – It decreases with chain length, stays above `kp` and tends to `kp`.

### C45 nbar (Li-Brooks) limits and monotonicity (proved)

Code: `kinetics/emulsion/nbar.py`. Model: `Model/Kinetics.lean`. Proofs: `Props/Kinetics.lean`.

Real analysis of the closed form. Accuracy: the lower side uses the algebraic bounds of C77 in its recurrence. For the upper side the power series gives the Riccati equation of the exact value in alpha; 25/24 times the closed form is a supersolution (a polynomial inequality in alpha and m, certified by a discriminant), and a comparison argument starting near alpha = 0 gives the 4 %.

* `C45_zero_one_limit` – Without desorption the Li-Brooks formula is `√(2α + 1)/2`, hence 1/2 in the limit of slow entry.
* `C45_monotone` – More frequent entry gives more radicals, more frequent desorption fewer.
* `C45_no_entry` – No entry, no radicals (with desorption). Without entry and without desorption the call returns NaN; everywhere else it is defined.
* `C45_accuracy` – The Li-Brooks formula never exceeds the exact (Stockmayer-O'Toole) number and is at most 4% below it: `0.96 n ≤ n_LB ≤ n`.
* `C45_accuracy_sharp` – The 4% is sharp to two tenths of a percent: at `α = 4`, `m = 0` the formula gives 1.5, more than 3.8% below the exact number.

Note: iv is modelled by its power series.

### C46 RTD functions are consistent densities and distributions (proved)

Code: `reactors/rtd.py`. Model: `Model/Dist.lean`, `Model/Rtd.lean`. Proofs: `Props/Rtd.lean`.

`HasDerivAt`, improper integrals, Gamma function.

* `C46_tanks` – Tanks in series, any number of tanks.
* `C46_one_tank` – One tank in series is the CSTR, also at infinite time.
* `C46_cstr` – CSTR.
* `C46_derivative` – For CSTR and tanks `E` is the derivative of `F` at every positive time.
* `C46_laminar_derivative` – `E` is the derivative of `F` except at half the average, where it is the right derivative.
* `C46_laminar` – Laminar flow in a tube.
* `C46_infinite_time` – The functions accept an infinite time and return the limits there.

Note: For the laminar tube dF/dt = E except at tau/2, where E is the right derivative.

### C47 Cubic EoS: Z solves the equation of state (partial)

Code: `thermo/eos/cubic.py: CubicEoS.Z, P, Z_cubic_roots`. Model: `Model/Eos.lean`, `Model/Mixing.lean`. Proofs: `Props/Eos.lean`.

np.roots is an exact oracle (complex root multiset); sorting and filtering of lists; cubic has a root above B by the intermediate value theorem.

* `C47_roots` – with exact roots `Z` never fails; it returns one or two values in increasing order, all greater than `B = bm P/(R T)`, and every real solution greater than `B` lies between them.
* `C47_pressure` – every returned `Z` gives a molar volume above the co-volume whose pressure misses `P` by at most `P |3 Z - (1 + B - u B)| eps² / ((Z - B) (Z² + u Z B + w B²))`, and gives back `P` exactly if no complex pair of roots lies closer to the real axis than `eps`.
* `C47_nearly_real_false` – the claim without the restriction is false. A complex pair whose imaginary part is below `eps` passes the filter, and its real part is returned although it does not satisfy the cubic (Redlich-Kwong, `u = 1`, `w = 0`).

Note: np.roots as exact oracle. C47_pressure bounds the pressure error of every returned Z by a multiple of eps^2 (and by zero when no complex pair lies within eps of the real axis); C47_nearly_real_false shows that the exact claim is false.

### C48 EoS: pressure is minus the volume derivative of the Helmholtz departure (proved)

Code: `thermo/eos/cubic.py: DA`, `thermo/eos/virial.py`, `thermo/eos/idealgas.py`. Model: `Model/Eos.lean`, `Model/Mixing.lean`. Proofs: `Props/Eos.lean`.

`HasDerivAt` of the Helmholtz departure.

* `C48_cubic` – (cubic) the pressure is minus the volume derivative of the Helmholtz function, at constant temperature and amounts.
* `C48_virial` – (virial) 
* `C48_ideal` – (ideal gas) 
* `C48_departures` – the departure functions returned by `DX` satisfy `G = H - T S` and `U = A + T S`; for the ideal gas `H = U = 0` and `S = -R ln (P/P0)` exactly, in spite of the finite-difference temperature derivative.
* `C48_departures_ideal` – An ideal gas has no departure of enthalpy and internal energy; entropy and Gibbs energy depart by the pressure ratio alone.

### C49 Cubic EoS: fugacity coefficients do not depend on how zero interaction is expressed (partial)

Code: `thermo/eos/cubic.py: CubicEoS.phi`. Model: `Model/Eos.lean`, `Model/Mixing.lean`. Proofs: `Props/Eos.lean`.

Partial derivatives of explicit formulas; concrete real counterexample with bounds on logarithms.

* `C49_gibbs_partial` – (partial: no interaction matrix) `Σ z_i ln φ_i` is the residual Gibbs energy over `R T`, computed from the Helmholtz function against the ideal gas at the same temperature and pressure.
* `C49_derivative_partial` – (partial: no interaction matrix) each `ln φ_i` is the composition derivative of the residual Helmholtz energy over `R T`, minus `ln Z`. Here `DA + n R T ln (V/(n v0))` is the Helmholtz energy relative to the ideal gas at the same temperature and volume.
* `C49_interaction` – (with an interaction matrix, symmetric and with zero diagonal) by how much `ln φ_i` misses the composition derivative of the residual Helmholtz energy. The coefficient `δ_i` in the code lacks the factor `2 √a_i / am`, and nothing else is wrong.
* `C49_zero_interaction_false` – an explicit all-zero interaction matrix changes the fugacity coefficients (the coefficient `δ` lacks the factor `2 √a_i / am`), although it changes neither the mixture parameters nor the compressibility factors. Already for a pure fluid.

Note: False as stated: C49_zero_interaction_false (phi with k=zeros differs from k=None). The two identities are proved for k=None; with a symmetric zero-diagonal interaction matrix C49_interaction gives the exact discrepancy (factor 2 sqrt(a_i)/am missing in delta).

### C50 Virial EoS consistency (proved)

Code: `thermo/eos/virial.py`, `properties/pvt/virial.py`. Model: `Model/Eos.lean`, `Model/Mixing.lean`. Proofs: `Props/Eos.lean`.

`HasDerivAt`, finite sums.

* `C50_coefficients` – the matrix of second virial coefficients is symmetric with the pure-component values on the diagonal, and the mixture coefficient of a pure component is its own.
* `C50_identical` – identical components behave as one.
* `C50_round_trip` – the volume obtained from `Z` gives back the pressure.
* `C50_fugacity` – `ln φ_i` is the composition derivative of `n Bm P/(R T)`.
* `C50_gibbs` – `Σ y_i ln φ_i` is the residual Gibbs energy over `R T`, from the Helmholtz function against the ideal gas at the same temperature and pressure.

### C51 Activity coefficients are thermodynamically consistent with gE (proved)

Code: `thermo/acm/nrtl.py`, `thermo/acm/wilson.py`, `thermo/acm/uniquac.py`, `thermo/acm/ideal.py`. Model: `Model/Acm.lean`. Proofs: `Props/Acm.lean`.

`HasDerivAt` of the extensive excess Gibbs energy along each mole number.

* `C51_ideal` – (ideal solution) 
* `C51_nrtl_sum` – (NRTL) `Σ x_i ln γ_i = gE/(R T)`.
* `C51_nrtl_derivative` – (NRTL) `ln γ_i` is the partial molar excess Gibbs energy over `R T`.
* `C51_wilson_sum` – (Wilson) `Σ x_i ln γ_i = gE/(R T)`.
* `C51_wilson_derivative` – (Wilson) `ln γ_i` is the partial molar excess Gibbs energy over `R T`.
* `C51_uniquac_sum` – (UNIQUAC) `Σ x_i ln γ_i = gE/(R T)`.
* `C51_uniquac_derivative` – (UNIQUAC) `ln γ_i` is the partial molar excess Gibbs energy over `R T` (all components present).
* `C51_objects` – for the objects: `gamma` and `gE` of the same object are consistent at every temperature, whatever its parameters.
* `C51_objects_sum` – sum rule for the objects.

### C52 Pure-component limit of activity models (proved)

Code: `thermo/acm/nrtl.py`, `thermo/acm/wilson.py`, `thermo/acm/uniquac.py`. Model: `Model/Acm.lean`. Proofs: `Props/Acm.lean`.

Evaluation at a vertex of the simplex.

* `C52_nrtl` – (NRTL) the pure-component limits of an object made by the constructor, whatever the diagonals supplied by the caller; `tau_ii = 0` and `alpha` is symmetric.
* `C52_wilson` – (Wilson) 
* `C52_uniquac` – (UNIQUAC) 

### C53 Flory-Huggins consistency (proved)

Code: `thermo/acm/floryhuggins.py`. Model: `Model/Acm.lean`. Proofs: `Props/Acm.lean`.

`HasDerivAt`, finite sums.

* `C53_chi` – the constructor makes `chi` symmetric with zero diagonal.
* `C53_sum` – `Σ (φ_i/m_i) ln a_i` is the Gibbs energy of mixing per mole of sites over `R T`.
* `C53_derivative` – `ln a_i` is the derivative of the total Gibbs energy of mixing (`Σ n_j m_j` sites) with respect to the amount of component `i`.
* `C53_pure` – a pure component has activity 1 (zero diagonal of `chi`).
* `C53_two` – the two-component function is the general one with `m = (1, m)`.
* `C53_stable` – below the critical value `χ_c = (1 + 1/√m)²/2` the solvent activity increases with its volume fraction (no phase separation).
* `C53_unstable` – above the critical value the solution does phase-separate: near the critical composition the activity of the solvent decreases.

### C54 Base activity model identities (proved)

Code: `thermo/acm/base.py`. Model: `Model/Acm.lean`. Proofs: `Props/Acm.lean`.

Finite sums.

* `C54_dgmix` – the Gibbs energy of mixing is `Dhmix - T Dsmix`, whatever the numerical derivative returns.
* `C54_ideal` – for an ideal solution the Gibbs energy of mixing is nonpositive and at least `-R T ln N`; it vanishes for the pure components.
* `C54_gibbs_helmholtz` – Gibbs-Helmholtz: if the numerical derivative is exact, `d(gE/T)/dT = -hE/T²`.

### C55 Rachford-Rice residual is strictly decreasing with a unique physical root (proved)

Code: `thermo/flash/vle.py: residual_Rachford_Rice`. Model: `Model/Flash.lean`, `Model/RootsScalar.lean`. Proofs: `Props/Flash.lean`.

Strict monotonicity of a sum of hyperbolas; intermediate value theorem.

* `C55_decreasing` – Between the asymptotes (all denominators positive) the Rachford-Rice function is strictly decreasing, as soon as one component present in the feed has `K ≠ 1`.
* `C55_unique` – Hence at most one vapour fraction between the asymptotes.
* `C55_derivative` – The derivative returned together with the residual is its derivative.
* `C55_two_phase_iff` – For positive K-values, not all equal to 1, a vapour fraction strictly between 0 and 1 exists if and only if `Σ z K > 1` and `Σ z/K > 1`.

### C56 solve_Rachford_Rice stays in its bracket and certifies its answer (partial)

Code: `thermo/flash/vle.py: solve_Rachford_Rice`. Model: `Model/Flash.lean`, `Model/RootsScalar.lean`. Proofs: `Props/Flash.lean`.

Invariant of the safeguarded Newton/bisection loop; convergence from halving.

* `C56_certified` – Whatever the K-values, feed, initial guess, tolerance and iteration limit, the returned vapour fraction lies in [0, 1]; on success the reported residual is the one at the returned point and is within tolerance, except for single-phase feeds, where the returned point is 0 with a negative residual or 1 with a positive one.
* `C56_single_phase` – Single-phase feeds are recognised at once: subcooled (`Σ z K < 1`) gives 0, superheated (`Σ z/K < 1`) gives 1.
* `C56_error_iff` – The solver only fails to return (unbound local variables) for a two-phase feed with `maxiter = 0`.
* `C56_converges` – Convergence, with an explicit iteration count: for positive K-values and a normalised feed, `3 n + 1` passes suffice as soon as `2/atol Σ z (K-1)²/min(1,K)² ≤ n`; and then the vapour fraction is within `atol / Σ z (K-1)²/max(1,K)²` of the exact root (if there is one in [0, 1]).
* `C56_accuracy` – Accuracy of the vapour fraction.
* `C56_reported_false` – (false as the field `F` of the result suggests): when the iteration limit is reached, the reported residual is not the residual at the reported vapour fraction.

Note: success=False results report F at the previous iterate (C56_reported_false); everything else in the statement is proved.

### C57 Flash material balances (proved)

Code: `thermo/flash/vle.py: flash2_PT, flash2_PV, flash2_TV`. Model: `Model/Flash.lean`, `Model/RootsScalar.lean`. Proofs: `Props/FlashBal.lean`.

Finite sums along the control flow of each flash routine, with the K-value model as an arbitrary function.

* `C57_PT_total` – Overall balance of `flash2_PT`, converged or not: `V + L = F` and `V/F` in [0, 1].
* `C57_PT_balance` – A converged `flash2_PT`: the phase compositions sum to one, `y_i = c K_i x_i` with a common factor `c` (close to 1 for a two-phase result), and the component balances `F z_i = L x_i + V y_i` hold to a relative accuracy `atol/(1 - atol)`, where `atol` is the tolerance of the Rachford-Rice solver (exactly for a single-phase result).
* `C57_PV_TV_total` – Overall balance of `flash2_PV` and `flash2_TV`, converged or not.
* `C57_PV_TV_balance` – A converged `flash2_PV` or `flash2_TV`: the phase compositions are nonnegative and sum to one, the returned K-values are those of the model at the returned state, and the component balances hold with the error given by `IOBalance`.
* `C57_PV_equilibrium` – A converged `flash2_PV`: equilibrium relation. `B` is the slope of an average of `log K` with respect to `1/T` at the initial estimate.
* `C57_TV_equilibrium` – A converged `flash2_TV` with a positive pressure: equilibrium relation. `B` is determined by an average of `log K` at the initial estimate and 1000 Pa above it.

### C58 Inside-out R-loop is always bracketed (proved)

Code: `thermo/flash/vle.py: _Rloop`. Model: `Model/Flash.lean`, `Model/RootsScalar.lean`. Proofs: `Props/Flash.lean`.

Signs at the ends of the R-interval.

* `C58_signs` – The objective of the R-loop has opposite signs at 0 and 1: `-β` and `1 - β`.
* `C58_bracketed` – Consequently the inner loop never raises for `0 ≤ β ≤ 1` and `maxiter ≥ 1`, and the value it returns lies in [0, 1].
* `C58_unique` – The equation has exactly one root in (0, 1), for `0 < β < 1`.

### C59 Pressure drop correlations (partial)

Code: `flow/friction.py:27-282`, `flow/friction.py:348-398`, `flow/friction.py:574-783`. Model: `Model/Flow.lean`, `Model/RootsScalar.lean`. Proofs: `Props/Flow.lean`.

Real powers and logarithms.

* `C59_laminar_partial` – (partial) `DP_tube` in laminar flow is the Hagen-Poiseuille law — for non-zero flow.
* `C59_laminar_false` – (false as stated) `DP_tube` raises `ZeroDivisionError` for zero flow, where the Hagen-Poiseuille law gives zero.
* `C59_length` – The pressure drop of a tube is proportional to its length.
* `C59_haaland` – The friction factor of Haaland decreases with the Reynolds number and increases with the relative roughness.
* `C59_packed_bed` – Sum of a viscous term, linear in the mass flux, and an inertial term growing with its 11/6-th power.
* `C59_lockhart_martinelli_single` – The Lockhart-Martinelli pressure drop with only one phase flowing is that of `DP_tube` for this phase.
* `C59_lockhart_martinelli` – With both phases flowing it is `dPL + C √(dPL dPG) + dPG` per unit length, hence at least the sum of the single-phase pressure drops.
* `C59_mueller_bonn_single` – `DP_GL_Mueller_Bonn` with only one phase flowing is the single-phase pressure drop of this phase; in laminar flow it is the one of `DP_tube`.

Note: DP_tube raises ZeroDivisionError at zero flow (C59_laminar_false); every other part is proved.

### C60 Relief valve sizing (partial)

Code: `flow/prv.py`. Model: `Model/Prv.lean`. Proofs: `Props/PrvGas.lean`, `Props/PrvLiquid.lean`, `Props/PrvTwo.lean`.

Derivative sign of the nozzle function; contraction estimate for the liquid fixed point; concrete counterexamples with interval bounds.

* `C60_gas_choked_max` – The pressure ratio `(2/(k+1))^(k/(k-1))` at which the code switches to choked flow is where the isentropic nozzle flow is largest, and the only such point.
* `C60_gas` – Gas sizing: the reported critical pressure is `P1 (2/(k+1))^(k/(k-1))`, the flow is reported as critical exactly when the back pressure does not exceed it, and the area is the nozzle-flow area of that regime.
* `C60_gas_proportional` – The gas area is positive and proportional to the mass flow.
* `C60_gas_backpressure_partial` – In choked flow the area does not depend on the back pressure; in subcritical flow it grows with it.
* `C60_gas_backpressure_false` – (false as stated) The area is not monotone in the back pressure: for every gas and every inlet condition it falls where the flow stops being choked, because the two formulas' constants do not match (0.03948 √2 17.9 < 1) and, for `Kb < 1`, because `Kb` is dropped from the subcritical formula.
* `C60_gas_isothermal_false` – (false as stated) A gas with `k = 1` (the isothermal limit, where the nozzle equations have a finite limit) raises `ZeroDivisionError`.
* `C60_steam` – Steam sizing in choked flow: Napier's equation, with the correction for inlet pressures above 10339 kPa and a `ValueError` from 22057 kPa on.
* `C60_liquid_unique` – The liquid sizing equations have exactly one solution.
* `C60_liquid_accurate` – Any area returned by `area_relief_liquid` is positive and within 0.0031 % of the solution of the sizing equations.
* `C60_liquid_converges_partial` – The iteration converges within its 50 steps whenever the Reynolds number of the inviscid orifice is at least 0.1.
* `C60_liquid_viscous_false` – (false as stated) For a very viscous liquid `area_relief_liquid` raises `ValueError` although the sizing equations have a solution: the iteration approaches it too slowly for the 50 steps allowed. (0.055 L/min of a 10 kPa s liquid through a pressure drop of 1 kPa.)
* `C60_two_phase` – Two-phase sizing of a flashing mixture (specific volume growing by at most a factor 1389 at 90 % of the inlet pressure): the critical pressure is below the inlet pressure, flow is reported as critical exactly when the back pressure does not exceed it, and the area is positive and proportional to the mass flow.
* `C60_two_phase_incompressible_false` – (false as stated) A fluid that does not expand (`v9 = v1`) raises `ZeroDivisionError`.
* `C60_subcooled_transition` – The critical ratio of the low subcooling region continues that of the high subcooling region: at the transition it equals the saturation ratio.
* `C60_subcooled_critical` – Above the transition it is positive and does not exceed the saturation ratio: the liquid flashes before the flow chokes.
* `C60_subcooled` – Subcooled sizing: the flow is critical exactly when the back pressure does not exceed the saturation pressure (high subcooling) or the reported critical pressure (low subcooling); the area is positive and proportional to the volume flow.
* `C60_subcooled_flux_transition` – The mass fluxes of the two regions agree at the transition up to the rounding of `√2` to 1.414.

Note: False: the gas area drops where flow stops being choked (C60_gas_backpressure_false); k = 1 raises ZeroDivisionError; very viscous liquids do not converge in 50 iterations (C60_liquid_viscous_false; convergence proved for inviscid orifice Re >= 0.1); v9 = v1 raises ZeroDivisionError. Everything else is proved.

### C61 Non-Newtonian viscosity laws are bounded, monotone and have their documented limits (partial)

Code: `flow/rheology.py`. Model: `Model/Rheology.lean`. Proofs: `Props/Rheology.lean`.

Monotonicity of real powers.

* `C61_power_law` – The power law is Newtonian for `n = 1`; for `n < 1` the viscosity falls with the shear rate while, for `n > 0`, the shear stress rises.
* `C61_power_law_rest_false` – (false as stated) At rest a shear-thinning power-law fluid raises `ZeroDivisionError`.
* `C61_cross` – Cross model, `n < 1`: the viscosity at rest is `mu0`, it falls strictly with the shear rate and stays positive; the shear stress rises for `0 ≤ n`.
* `C61_cross_modified` – The modified Cross model is the Cross model with relaxation time `C mu0`.
* `C61_cross_newtonian_false` – (false as stated) With `n = 1` (Newtonian) the Cross model returns half the zero-shear viscosity at every shear rate, zero included.
* `C61_carreau_yasuda` – Carreau-Yasuda model: the viscosity at rest is `mu0`; a Newtonian index gives `mu0` everywhere; for `n < 1` the viscosity falls strictly with the shear rate and stays above `muinf`.
* `C61_wlf` – WLF shift factor: one at the reference temperature, strictly decreasing in temperature above `T0 - C2`, universal constants when none are given, and `ValueError` when only one is.
* `C61_wlf_reference` – Changing the reference temperature: the shift factors with respect to two references differ by a constant factor when `C2' = C2 + T1 - T0` and `C1' = C1 C2 / C2'`.

Note: Cross with n = 1 returns mu0/2 (C61_cross_newtonian_false); the shear-thinning power law at rest raises ZeroDivisionError. The rest is proved.

### C62 Overall heat-transfer coefficient (proved)

Code: `hmt/hex.py:13-147`. Model: `Model/Rheology.lean`. Proofs: `Props/Rheology.lean`.

Field algebra.

* `C62_plane` – Plane wall: the resistances add up, the coefficient is symmetric in the two sides, positive and below each film coefficient and the wall conductance.
* `C62_plane_monotone` – A better film, a thinner or more conductive wall, or less fouling never lowers the coefficient.
* `C62_cylinder` – Cylindrical wall: positive, below both film coefficients referred to the outer surface, and below the plane-wall value for the same wall thickness; with no wall (`do = di`) it is the plane-wall value for zero thickness.

### C63 Constant-surface diffusion profiles and uptakes are fractions (partial)

Code: `hmt/diffusion.py`, `math/special.py`. Model: `Model/Diffusion.lean`, `Model/Dist.lean`. Proofs: `Props/Diffusion.lean`.

Truncated Fourier series bounded by alternating/positive-term estimates, erfc asymptotics, theta-function style comparison between short- and long-time formulas.

* `C63_semiinf_range` – The profile lies in (0, 1], is 1 at the surface, decreases with depth and increases with time.
* `C63_semiinf_monotone` – Deeper points are further from the surface value, later times closer to it.
* `C63_semiinf_start` – At time zero the medium is empty below the surface; at the surface itself the result is NaN.
* `C63_sheet_range` – Sheet profile: between 0 and 1 for every Fourier number and position.
* `C63_sheet_limits` – Sheet: zero at time zero, 1 at the surface (to within `exp(-64)`), 1 at long times.
* `C63_sphere_range` – Sphere profile: between 0 and 1 for every Fourier number and position away from the centre.
* `C63_sphere_center_partial` – At the centre of the sphere, the result is a fraction provided the Fourier number is at least 0.05.
* `C63_sphere_center_false` – is false at the centre at short times: `-1` instead of `0` at time zero, and a negative concentration at `Fo = 0.02`.
* `C63_sphere_limits` – Sphere: zero at time zero away from the centre, 1 at the surface (to within `exp(-64)`), 1 at long times.
* `C63_uptake_sheet_range` – Sheet uptake: between 0 and 1 for every Fourier number, positive after time zero.
* `C63_uptake_sphere_range` – Sphere uptake: between 0 and 1 for every Fourier number, positive after time zero.
* `C63_uptake_limits` – Uptakes are zero at time zero and tend to 1.

Note: False at the centre of the sphere for Fo < 0.0408 (C63_sphere_center_false); everything else proved in full.

### C64 Composite diffusivity limits and bounds (proved)

Code: `hmt/diffusion.py:512-565`. Model: `Model/Rheology.lean`. Proofs: `Props/Rheology.lean`.

Field inequalities.

* `C64_maxwell` – The composite diffusivity satisfies the generalised Maxwell relation and is its only solution among nonnegative values; it is the continuous-phase value without particles and the dispersed-phase value without matrix.
* `C64_monotone` – It moves strictly from the continuous to the dispersed value as the particle fraction grows.

### C65 Tait equation: alpha and beta are the thermodynamic derivatives of the volume (proved)

Code: `properties/pvt/tait.py`. Model: `Model/Tait.lean`. Proofs: `Props/Tait.lean`.

`HasDerivAt`; sign of the expansion from the identity alpha(P) = alpha(0) - C B1 P/(P+B)/(1 - C ln(1+P/B)); the negative case is a concrete accepted object (C65_alpha_positive_false).

* `C65_accepted` – An object exists exactly with parameters inside the documented ranges, and keeps them.
* `C65_accepts` – Conversely parameters in these ranges are accepted if the spans of temperature and pressure are at least the rounding unit; otherwise `RangeError`.
* `C65_beta` – `beta` is the isothermal compressibility `-(1/v) ∂v/∂P` of the volume returned by `eval`.
* `C65_alpha` – `alpha` is the isobaric expansion coefficient `(1/v) ∂v/∂T` of the volume returned by `eval`.
* `C65_physical` – For accepted parameters with nonnegative `A2`, at or above 0 °C and pressures up to a thousand times `B` (at least 10 GPa at 0 °C), the volume is positive, `beta` is positive and the volume strictly decreases with pressure.
* `C65_alpha_sign` – With nonnegative `A2`, at or above 0 °C, the expansion coefficient is positive at zero pressure, and remains so as long as `C B1 P/(P + B)` is below the zero-pressure expansion times `1 - C ln(1 + P/B)`; that condition is also necessary.
* `C65_alpha_positive_false` – The expansion coefficient is not always positive: the constructor accepts an object whose volume shrinks on heating at 0 °C and 1000 bar.

### C66 Mixing rules (proved)

Code: `properties/pvt/mixing_rules.py`. Model: `Model/Mixing.lean`. Proofs: `Props/Mixing.lean`.

Finite sums; symmetry.

* `C66_geometric_double_sum` – for a symmetric interaction matrix with zero diagonal, the upper-triangle loop is the full double sum.
* `C66_zero_interaction` – an all-zero interaction matrix gives the same mixture value as no interaction matrix.
* `C66_pure` – the pure-component ends, whatever the interaction matrix.
* `C66_identical` – a mixture of identical components has the property of the component.
* `C66_bounds` – the mixture value lies between the smallest and the largest entries.
* `C66_pseudocritical` – the pseudocritical properties satisfy `Pc vc = Zc R Tc`, are those of the component at a pure end, and lie within the range of the components.

### C67 Vapour-pressure and enthalpy-of-vaporisation estimates hit their anchor points and are monotone (proved)

Code: `properties/vaporization/pvap.py`, `properties/vaporization/dhvl.py`, `properties/equations/vapor_pressure.py`. Model: `Model/Vaporization.lean`. Proofs: `Props/Vaporization.lean`.

Real powers, logarithms; numerical witnesses by rational bounds.

* `C67_lee_kesler_boiling` – `PL_Lee_Kesler` returns exactly one atmosphere at the normal boiling point it was given.
* `C67_lee_kesler_monotone` – `PL_Lee_Kesler` strictly increases with temperature up to the critical point, for every substance with nonnegative acentric factor.
* `C67_lee_kesler_critical` – At the critical temperature `PL_Lee_Kesler` returns the critical pressure within 0.01 % (but never exactly it, because of rounded coefficients).
* `C67_wilson_critical` – `PL_Wilson` returns the critical pressure at the critical temperature.
* `C67_wilson_monotone` – `PL_Wilson` strictly increases with temperature whenever the acentric factor exceeds -1.
* `C67_wilson_acentric` – `PL_Wilson` is consistent with the definition of the acentric factor, `log10 (P/Pc) = -(1 + w)` at `T = 0.7 Tc`.
* `C67_wagner_critical` – `Wagner25` and `Wagner36` return the critical pressure at the critical temperature, whatever the coefficients.
* `C67_wagner_monotone` – `Wagner25` and `Wagner36` strictly increase with temperature up to the critical point for coefficients of the usual signs: `a` negative and dominating `b`, `c` and `d` not positive.
* `C67_ambrose_walton_critical` – `PL_Ambrose_Walton` returns the critical pressure at the critical temperature, and no real number above it.
* `C67_ambrose_walton_monotone` – `PL_Ambrose_Walton` strictly increases with temperature up to the critical point for acentric factors in `[0, 2]`.
* `C67_ambrose_walton_acentric` – `PL_Ambrose_Walton` is consistent with the definition of the acentric factor, `log10 (P/Pc) = -(1 + w)` at `T = 0.7 Tc`.
* `C67_antoine_monotone` – `Antoine` is positive and strictly increasing with temperature above its pole `T = -C` for `B > 0`, in either base.
* `C67_antoine_base` – The two bases of `Antoine` are the same equation with `A` and `B` multiplied by `ln 10`.
* `C67_watson_composes` – `DHVL_Watson` returns its input at the same temperature, zero at the critical temperature, and going from `T1` to `T3` through `T2` gives the same as going directly.
* `C67_watson_decreasing` – `DHVL_Watson` strictly decreases with the target temperature.
* `C67_watson_supercritical_false` – fails beyond the critical point: with both temperatures supercritical, where there is no vaporisation, `DHVL_Watson` silently returns a positive enthalpy, which increases with temperature.
* `C67_pitzer` – `DHVL_Pitzer` is zero at the critical temperature, and for nonnegative acentric factors positive and strictly decreasing below it.
* `C67_vetere_pos` – `DHVL_Vetere` is positive for substances boiling between half and all of the critical temperature with at least 2 bar critical pressure.
* `C67_kistiakowsky_errors` – `DHVL_Kistiakowsky_Vetere` raises exactly when the kind is unknown or needs a missing molar mass.
* `C67_kistiakowsky_ester` – The value for esters is 1.03 times that for polar compounds.
* `C67_kistiakowsky_values` – The entropy of vaporisation of each kind, with the molar mass in g/mol: the correlations of Reid, Prausnitz and Poling, 4th edition, p. 231; for hydrocarbons from the boiling point `(263 M)^0.581` upwards.
* `C67_kistiakowsky_butadiene` – The documented example: 22.4 kJ/mol for butadiene, i.e. between 22350 and 22450 J/mol.
* `C67_hydrocarbon_false` – fails for branched hydrocarbons: for isooctane (2,2,4-trimethylpentane, 372.39 K, 114.23 g/mol) `DHVL_Kistiakowsky_Vetere` returns no real number, because it raises a negative difference to a fractional power.

Note: Findings: DHVL_Watson returns an increasing positive enthalpy when both temperatures are supercritical (C67_watson_supercritical_false); DHVL_Kistiakowsky_Vetere returns no real number for isooctane (C67_hydrocarbon_false).

### C68 Transport-property mixing rules are means of the pure-component values (proved)

Code: `properties/viscosity/liquid.py`, `properties/viscosity/vapor.py`, `properties/thermal_conductivity/liquid.py`, `properties/thermal_conductivity/vapor.py`, `properties/diffusion/vapor.py`. Model: `Model/Transport.lean`. Proofs: `Props/TransportMix.lean`.

Weighted means.

* `C68_vapor_mean` – The vapour mixing rules `MUVMX2_Herning_Zipperer` and `KVMX2_Wassilijewa` are the same function: the mean of the pure values with weights `y_i sqrt(M_i)`. It lies between the smallest and the largest value of the components present, needs no normalised composition, and does not depend on components that are absent.
* `C68_vapor_empty` – An all-zero composition gives no number.
* `C68_perry` – `MULMX2_Perry` lies between the smallest and the largest viscosity, and its two variants are ordered: the logarithmic rule never exceeds the cubic one, which never exceeds the arithmetic mean.
* `C68_li` – `KLMX2_Li` lies between the harmonic and the arithmetic mean of the pure conductivities, both weighted with the volumes `w_i / rho_i`, hence between their extremes; it needs no normalised composition.
* `C68_dvmx` – `DVMX` is the harmonic mean of the binary diffusion coefficients: its reciprocal resistance formula holds, it lies between the extremes of the components present, never exceeds the arithmetic mean, and needs no normalised composition.

### C69 Free-volume (Vrentas-Duda) diffusion coefficients (partial)

Code: `properties/diffusion/vrentasduda.py`. Model: `Model/VrentasDuda.lean`. Proofs: `Props/VrentasDuda.lean`.

Monotonicity of exp of quotients.

* `C69_formula` – The documented formulas, with `w2 = 1 - w1`, hold wherever their denominators do not vanish.
* `C69_selfd_range` – Self-diffusion is positive and at most `D0` for any accepted object above the temperature of vanishing free volume.
* `C69_selfd_monotone` – Self-diffusion never decreases with temperature.
* `C69_mutual_ends` – Mutual diffusion equals self-diffusion at infinite dilution of the solvent, and vanishes in pure solvent.
* `C69_mutual_range` – Mutual diffusion is between 0 and the self-diffusion coefficient whenever the interaction parameter is in `[0, 1/2]`, and is negative exactly inside the region of instability `2 X w1 > 1`.
* `C69_call` – Compositions outside `[0, 1]` and negative absolute temperatures are rejected.
* `C69_below_glass_false` – fails below the temperature of vanishing free volume: an accepted object returns a self-diffusion coefficient larger than `D0`.

Note: Bounds need a positive free volume, which the constructor and the call do not check; C69_below_glass_false exhibits an accepted object returning a coefficient above D0.

### C70 PropertyEquation temperature handling (proved)

Code: `properties/equations/base.py`, `utils/tools.py`. Model: `Model/Float.lean`, `Model/PropEq.lean`, `Model/Utils.lean`. Proofs: `Props/PropEq.lean`.

Case analysis over units; chains of conversions.

* `C70_call` – Finite readings in a known unit: the equation is evaluated at the kelvin value of every reading, and a warning is issued exactly if one of them lies outside the validity range; a negative absolute temperature is refused.
* `C70_unknown_unit` – An unknown unit is refused.
* `C70_units_agree` – Readings in Celsius and in kelvin that denote the same temperatures give the same answer.
* `C70_range_accepted` – The constructor accepts exactly the ranges of nonnegative numbers with `Tmin` finite and `Tmax` above `Tmin` by at least the machine epsilon (or infinite); the accepted range is stored as given.

### C71 scalex returns usable scaling factors (partial)

Code: `math/derivatives/ndiff.py: scalex`. Model: `Model/NDiff.lean`. Proofs: `Props/NDiff.lean`.

Powers of ten; Archimedean floor of the logarithm.

* `C71_scalex` – `scalex` gives every element a positive factor that depends only on its value: with all elements zero the factor is 1; otherwise every nonzero element is scaled to a magnitude in `(1/10, 1]`, and zero elements get at least ten times the factor of any nonzero one.
* `C71_scalex_integer_false` – (negative result) For an array of integer dtype the factors are truncated to integers: if all elements have magnitude at least 2, every scaling factor is 0 (so `1/sclx`, as used for the finite-difference step, is a division by zero).

Note: Positive factors for float vectors; false for integer arrays (C71_scalex_integer_false).

### C72 check_shapes accepts exactly consistent shapes (proved)

Code: `utils/tools.py: check_shapes`. Model: `Model/Float.lean`, `Model/Utils.lean`. Proofs: `Props/Utils.lean`.

List induction over shapes.

* `C72_shapes_array_iff` – `check_shapes(a, b)` with at least one array in `a` succeeds with shape `s` iff every element of `a` is an array of shape `s` and every array in `b` has shape `s`.
* `C72_shapes_scalar_iff` – With only numbers in `a`, it succeeds (returning no shape) iff there is no array in `b`; any failure is a `ShapeError`.

### C73 Dogleg step: sufficient decrease and trust region (proved)

Code: `math/roots/vector.py: dogleg, _update_trust_region`. Model: `Model/RootsVector.lean`. Proofs: `Props/RootsVector.lean`.

Same model as C05; case analysis of the trust-region update and geometry of the dogleg (norm computations in the scaled inner product).

* `C73_dogleg_decrease` – A successful dogleg step returns `fp = f xp` with the sufficient decrease condition along the step taken; a failed one returns the current point.
* `C73_exploration` – Enlarging the trust region never makes things worse: a trial from the exploratory state that is accepted, or explored further, has a merit no larger than the point explored before (which is returned if the trial is not better).
* `C73_dogleg_step_length` – The dogleg step never leaves the trust region: it is the Newton step when that fits, otherwise its scaled length is exactly the radius.
* `C73_dogleg_descent` – Every dogleg step, for any radius, is a direction along which the model does not increase, if the Newton step is.

### C74 Broyden update satisfies the secant equation (proved)

Code: `math/roots/vector.py: _update_broyden_qr`. Model: `Model/RootsVector.lean`. Proofs: `Props/RootsVector.lean`.

Rank-one update algebra.

* `C74_broyden_secant` – The Broyden update satisfies the secant equation up to the rounding filter: the new scaled Jacobian maps the last step to the last change of the scaled function, with an error below `eps (|fp| + |fc|)` per scaled component; it agrees with the old one on all directions orthogonal (in the `x` scaling) to the step.

### C75 PenultimateModel.azeotrope: what a reported value means (proved)

Code: `copolymerization/terminal.py: CopoModel.azeotrope`, `math/roots/scalar.py: root_brent`. Model: `Model/Copo.lean`, `Model/RootsScalar.lean`. Proofs: `Props/CopoPen.lean`.

Certificate of Brent's method (C04) composed with the residual.

* `C75_reported` – A reported azeotrope of a penultimate model lies in `[1e-4, 0.9999]`, and there the copolymer composition differs from the monomer composition by at most `1e-6`, or an exact azeotrope is within `4·eps + 1e-6`.
* `C75_spurious_false` – (counterexample) A reported azeotrope need not be near an azeotrope: for `r11 = r21 = 0.5`, `r22 = r12 = 1.005` the value `1e-4` is reported (the residual test is absolute, `1e-6`), although no composition in `(0, 1)` is azeotropic.

Note: Certificate proved; reported values can be spurious (C75_spurious_false).

### C76 Step-growth Mn is mass over number of molecules (partial)

Code: `stepgrowth/solutions.py`. Model: `Model/StepGrowth.lean`. Proofs: `Props/StepGrowth.lean`.

Counting units and bonds; field algebra.

* `C76_case1` – `Case_1`: `nA` mol AA, `nB` mol BB, conversions `pB` of B and `pA = pB nB/nA` of A.
* `C76_case3` – `Case_3`: `nA` mol AA, `nB` mol BC, bonds `nB (pB + pC)`.
* `C76_case6` – `Case_6`: `nA` mol AA, `nB` mol BC; every bond uses one C group.
* `C76_case7` – `Case_7`: `n1` mol AB, `n2` mol CD; A and C react with B and D.
* `C76_case8` – `Case_8`: `nA` mol AA, `nB` mol BB, `nC` mol CC.
* `C76_case9` – `Case_9`: `nA`, `nB` mol AA, BB react with `nC`, `nD` mol CC, DD.
* `C76_case10` – `Case_10`: `nA` mol AA, `nB` mol BC, `nD` mol DD.
* `C76_case11` – `Case_11`: `nA` mol AA, `nB` mol BC, `nD` mol DD; A and B react with C and D.
* `C76_case5_false` – is false for `Case_5`**: for the recipe of its own docstring (1.01 mol A₂, 1 mol B₂, 0.01 mol C, conversions 99% and 95%) the returned value is above 6800, while mass over number of molecules is below 6300.
* `C76_case5_partial` – (partial) `Case_5` is correct without the monofunctional reactant C.
* `C76_floryAf` – `Flory_Af`: `n` mol of units, `n f p/2` bonds.
* `C76_miller1` – `Miller_1`.
* `C76_miller2` – `Miller_2`: `p i` is the fraction of `Af` units with `i + 1` bonds.
* `C76_stockmayer` – `Stockmayer`: every reacted B group is one bond.

Note: Proved for all forms except Case_5, which is refuted with its docstring recipe (correct only without C).

### C77 Stockmayer-O'Toole radical number solves the exact recurrence (proved)

Code: `kinetics/emulsion/nbar.py`. Model: `Model/Kinetics.lean`. Proofs: `Props/Kinetics.lean`.

Power series of the modified Bessel functions and their recurrence; the bounds follow from the recurrence by a contraction argument (the distance to the bound shrinks at each shift of m).

* `C77_recurrence` – The Stockmayer-O'Toole number satisfies the exact recurrence in the desorption frequency: `n(α, m) = α/(m + 2 n(α, m + 1))`.
* `C77_bounds` – It is positive, and with desorption it is below `α/m`.
* `C77_no_desorption` – Without desorption there is at least half a radical per particle.
* `C77_explicit_bounds` – Explicit bounds: `2α/(m + √(8α + m²)) ≤ n ≤ 2α/(m - 1 + √(8α + (m + 1)²))`.
* `C77_zero_one_limit` – Zero-one kinetics: without desorption the exact number tends to 1/2 for slow entry.

Note: iv is modelled by its power series.

### C78 Combining coefficients is silent (partial)

Code: `kinetics/coefficients/arrhenius.py`. Model: `Model/Kinetics.lean`. Proofs: `Props/Kinetics.lean`.

Warnings are a list in the model.

* `C78_warns` – When it warns: exactly if the upper temperature bound of a factor is finite.
* `C78_silent_false` – Multiplying or dividing two coefficients warns about an out-of-range temperature although none was supplied.

Note: False: A is read through a call at T = inf, which warns whenever Tmax is finite (C78_silent_false). C78_warns: exactly then.

### C79 Dispersion-model RTD (partial)

Code: `reactors/rtd.py`. Model: `Model/Dist.lean`, `Model/Rtd.lean`. Proofs: `Props/Rtd.lean`.

Gaussian integrals, improper integrals.

* `C79_open_open` – The open-open dispersion model (`0 < Pe ≤ 100`) is a consistent residence time distribution; its average is `τ (1 + 2/Pe)`.
* `C79_average_false` – The parameter documented as the average residence time is not the average for `Pe ≤ 100`.
* `C79_small_deviation_partial` – For `Pe > 100`, `E` is the derivative of `F` at every positive time, `F` is nondecreasing and tends to one. Missing: `F` does not start at zero, see `C79_start_false`.
* `C79_start_false` – For `Pe > 100` the cumulative distribution jumps at time zero, and exceeds the accumulated `E` ever after.
* `C79_peclet` – The tube Péclet number is positive, needs the Schmidt number exactly in laminar flow, where it is at most `√48`.
* `C79_peclet_trend` – In turbulent flow the Péclet number grows with the Reynolds number, in the end like its eighth root; in laminar flow it depends on `Re Sc` only, is `Re Sc` for weak dispersion by convection and `192/(Re Sc)` for strong.

Note: Consistent for Pe <= 100 but with mean tau*(1+2/Pe) (C79_average_false); for Pe > 100 F jumps at t = 0 (C79_start_false). quad is taken as exact.

### C80 fit reports what it stores (partial)

Code: `properties/equations/base.py: PropertyEquationT.fit`. Model: `Model/Float.lean`, `Model/PropEq.lean`, `Model/Utils.lean`. Proofs: `Props/PropEq.lean`.

curve_fit is an oracle that may call the model any number of times; stateful trace.

* `C80_stored` – After a successful fit every fitted parameter of the equation is the optimum found, every other parameter is unchanged, and the validity range is the range of the data.
* `C80_reported_partial` – The parameters reported by `fit` are those stored in the equation if the solver's last evaluation happens to be the optimum. Missing: any other last evaluation, see `C80_reported_false`.
* `C80_reported_false` – In general they are not: `fit` reports the last parameters the solver tried, here 3 instead of the optimum 2.

Note: Stored parameters and range are right; the reported parameters are the last trial of the solver (C80_reported_false). curve_fit is an oracle.

### C81 Cubic EoS: Bm is the second virial coefficient (proved)

Code: `thermo/eos/cubic.py: CubicEoS.Bm`, `thermo/eos/cubic.py: CubicEoS.P`. Model: `Model/Eos.lean`, `Model/Mixing.lean`. Proofs: `Props/Eos.lean`.

Limit / derivative of Z at zero density.

* `C81_second_virial` – `Bm` of a cubic equation is its second virial coefficient: the limit of `v (P v/(R T) - 1)` at infinite dilution.

### C82 Activity model constructors leave their arguments alone (partial)

Code: `thermo/acm/nrtl.py`, `thermo/acm/wilson.py`, `thermo/acm/uniquac.py`, `thermo/acm/floryhuggins.py`, `utils/math.py`. Model: `Model/Acm.lean`. Proofs: `Props/Acm.lean`.

Caller arrays in an explicit store.

* `C82_unchanged_false` – (false as stated) the constructors write into the matrices of the caller: after `NRTL(2, a=a)`, `Wilson`, `UNIQUAC` or `FloryHuggins` the array `a` of the caller has been changed.
* `C82_unchanged_partial` – (partial) matrices with zero diagonals (and, where required, symmetric) are left unchanged.

Note: False as stated: np.fill_diagonal and enforce_symmetry write into the arrays of the caller (C82_unchanged_false). Proved: arrays that already have zero diagonals (and are symmetric where required) are unchanged.

### C83 Outer tolerance of the flash is honoured (partial)

Code: `thermo/flash/vle.py: flash2_PT`. Model: `Model/Flash.lean`, `Model/RootsScalar.lean`. Proofs: `Props/FlashBal.lean`.

Control flow of the outer loop; concrete witness.

* `C83_tolerance_partial` – (partial) What the convergence test of `flash2_PT` does guarantee: the K-values used agree with those of the model at the returned compositions within `rtol_outer` times the smallest one plus **1e-5 of each value** (the default `rtol` of `np.allclose`).
* `C83_tolerance_false` – (false as stated) `flash2_PT` may report convergence with `rtol_outer = 1e-12` although the K-values used differ from those of the model at the returned compositions by a relative `5e-6`.

Note: False as stated: np.allclose keeps its default rtol=1e-5 (C83_tolerance_false). Proved: agreement within rtol_outer*min(K) + 1e-5*K.

### C84 Flash functions do not raise on valid input (partial)

Code: `thermo/flash/vle.py: flash2_PT, flash2_PV, flash2_TV`. Model: `Model/Flash.lean`, `Model/RootsScalar.lean`. Proofs: `Props/FlashBal.lean`.

Totality of each routine in the exception monad.

* `C84_PT_returns` – `flash2_PT` returns a result for every feed and every positive K-value model.
* `C84_PV_TV_returns_partial` – (partial) `flash2_PV` and `flash2_TV` return a result when all components are present and the K-values of the components are never all equal.
* `C84_PV_false` – (false as stated) For a pure component `flash2_PV` finds the exact boiling temperature in the first iteration and then raises `ValueError` (`min()` of an empty sequence): all volatility parameters `u` are zero and `A` happens to be negative.

Note: False for flash2_PV with a pure component (C84_PV_false). Proved for flash2_PT always, and for PV/TV when the K-values are never all equal and every component is present.

### C85 Pressure drop grows with flow (partial)

Code: `flow/friction.py`. Model: `Model/Flow.lean`, `Model/RootsScalar.lean`. Proofs: `Props/Flow.lean`.

Strict monotonicity across regime switches.

* `C85_tube_increasing` – The pressure drop of a tube grows with the flow rate, also across the laminar-turbulent transition, where it jumps upwards.
* `C85_packed_bed_increasing` – The pressure drop of a packed bed grows with the mass flux.
* `C85_lockhart_martinelli_increasing` – The Lockhart-Martinelli pressure drop grows with the flow of each phase.
* `C85_mueller_bonn_false` – (false for `DP_GL_Mueller_Bonn`) The friction factor drops at Re = 1187: raising the (liquid) flow from 1187 to 1187.01 lowers the pressure drop.

Note: False for Mueller-Bonn at Re = 1187 (C85_mueller_bonn_false); proved for the other correlations.

### C86 Implicit equations of vt_sphere and fD_Colebrook (proved)

Code: `flow/friction.py:335-345`, `flow/friction.py:401-571`. Model: `Model/Flow.lean`, `Model/RootsScalar.lean`. Proofs: `Props/FlowRoots.lean`.

Certificates C01/C02 composed with the equations.

* `C86_terminal_unique` – A sphere denser than the fluid has exactly one terminal velocity.
* `C86_below_Stokes` – It is below the Stokes velocity.
* `C86_certificate` – What `vt_sphere` returns satisfies the stopping test of `root_newton` for the drag balance evaluated at `vt + i eps`.
* `C86_colebrook_unique` – The Colebrook equation has at most one solution.
* `C86_colebrook_monotone` – The friction factor solving the Colebrook equation grows with the roughness and decreases with the Reynolds number.
* `C86_colebrook_exists` – It has a solution for every `0 ≤ er ≤ 1` and `Re ≥ 2300`.
* `C86_colebrook_certificate` – What `fD_Colebrook` returns satisfies the stopping test of `root_newton` for the equation evaluated at `f + i eps`.
* `C86_equation` – On the real axis the equation passed to the solver by `vt_sphere` is the drag balance: its real zeros are the terminal velocities.
* `C86_colebrook_equation` – On the real axis the equation passed to the solver by `fD_Colebrook` is the Colebrook equation.

Note: Convergence of the iterations is the subject of C129 and C130; here only the certificate of what is returned.

### C87 Forced-convection Nusselt numbers: limits, sign, monotonicity, warnings (proved)

Code: `hmt/correlations.py`. Model: `Model/Correlations.lean`, `Model/Flow.lean`, `Model/Vaporization.lean`. Proofs: `Props/CorrForced.lean`.

Monotonicity of real powers; interval bounds.

* `C87_warn_iff` – A warning is printed exactly when the argument lies outside the closed range.
* `C87_warn_open_iff` – Without an upper limit only the lower one is checked.
* `C87_tube_laminar` – Below the transition the Nusselt number is 3.66 for an infinitely long tube, larger otherwise, and depends on diameter ratio, Reynolds and Prandtl numbers only through their product, strictly increasing with it.
* `C87_tube_turbulent_pos` – For Prandtl numbers of at least one half and the relative roughnesses of the Moody chart, the turbulent branch is positive.
* `C87_tube_turbulent_mono` – There, for Prandtl numbers of at least one, the Nusselt number increases strictly with the Reynolds number, although the friction factor falls.
* `C87_tube_positive_false` – A positive Nusselt number for every positive Prandtl number: false. A liquid metal (`Pr = 0.01`) in a rough tube gets a negative one.
* `C87_plate` – The two branches for a flat plate agree at the critical Reynolds number, and the Nusselt number is positive and increases strictly with the Reynolds number throughout; it warns exactly outside `0.6 ≤ Pr ≤ 60`.
* `C87_cylinder` – Cross flow over a cylinder: above the conduction value 0.3, strictly increasing with the Reynolds and the Prandtl number.
* `C87_sphere` – Sphere (Whitaker) and drop (Ranz-Marshall): exactly the conduction limit 2 at rest, above it otherwise, strictly increasing with the Reynolds and Prandtl numbers (and the viscosity ratio), warning exactly outside the stated ranges.
* `C87_drop` – Drop: 2 without flow, larger otherwise, strictly increasing in `Re` and `Pr`; silent exactly in the documented range.

Note: Turbulent positivity for every Pr is refuted (liquid metal in a rough tube gives a negative number).

### C88 roots_xtanx and roots_xcotx find each root once (proved)

Code: `math/special.py:74-185`. Model: `Model/RootsScalar.lean`, `Model/SpecialRoots.lean`. Proofs: `Props/SpecialRoots.lean`.

Newton certificate (dual numbers) combined with strict monotonicity of tan/cot on each branch; list induction; explicit cache with aliasing.

* `C88_xtanx_root` – For every `a > 0` there is exactly one root in each interval `[iπ, iπ + π/2)`.
* `C88_xtanx_newton` – Entry `i` of `roots_xtanx(a, N)` for `0 < a < 100`: it lies in the interval of the `i`-th root, and never below the root unless it is the untouched starting point of the first root, which then met a stopping test; when the Newton solver reports success the error is bounded by the residual tolerance over the slope, or by the step tolerance times the ratio of slopes.
* `C88_xtanx_large` – Entry `i` for `a ≥ 100`: the fixed-point loop is always within `1.02 tolx` or `1e-20` of the root.
* `C88_xtanx_limits` – The limiting cases are exact: `x sin x = 0` for `a = 0`, `cos x = 0` for `a = inf`.
* `C88_xtanx_list` – For every positive `a` the call returns `N` values, the `i`-th in the interval of the `i`-th root, hence in increasing order.
* `C88_negative_false` – `x tan x = a` can be solved for negative `a` as well, and `a` is not restricted; false: at `a = -1` the starting point divides by zero.
* `C88_xcotx_root` – For every `a > 0` there is exactly one root in each interval `(iπ, (i+1)π)`.
* `C88_xcotx_newton` – Entry `i` of `roots_xcotx(a, N)` for `0 < a < 2`, `a ≠ 1`: as for `roots_xtanx`; the untouched start, where the function is `a - 1` and the slope `x`, met a stopping test.
* `C88_xcotx_large` – Entry `i` for `a ≥ 2`: the fixed-point loop is always within `1.5 tolx` or `1e-14` of the root.
* `C88_xcotx_list` – For every positive `a` the call returns `N` values, the `i`-th in the interval of the `i`-th root, hence in increasing order.
* `C88_xcotx_limits` – The limiting cases are exact: `cos x = 0` for `a = 1`, `sin x = 0` for `a = inf`.
* `C88_cache` – As long as the caller does not write into a returned array, the cached function returns what the function itself would return.
* `C88_cache_false` – Two calls with equal arguments return equal roots: false once the caller has written into the first result, because both calls hand out the same array.

Note: Exact real arithmetic; the complex-step derivative is taken as the exact derivative (dual numbers). That Newton reaches its tolerance within 50 iterations is not proved.

### C89 Diffusion profiles solve the diffusion equation (proved)

Code: `hmt/diffusion.py`. Model: `Model/Diffusion.lean`, `Model/Dist.lean`. Proofs: `Props/DiffusionPde.lean`.

`HasDerivAt` twice in x and once in t, termwise for the truncated series.

* `C89_semiinf` – The semi-infinite profile solves the diffusion equation with diffusivity `D`.
* `C89_sheet` – The sheet profile solves the dimensionless diffusion equation on both sides of the switch between series.
* `C89_sphere` – The sphere profile solves the dimensionless diffusion equation in spherical coordinates on both sides of the switch between series.
* `C89_initial` – Initial condition: at every interior point the profile starts from zero.

### C90 Uptake is the volume average of the profile (proved)

Code: `hmt/diffusion.py`, `math/special.py`. Model: `Model/Diffusion.lean`, `Model/Dist.lean`. Proofs: `Props/DiffusionUptake.lean`.

Interval integrals of the profile.

* `C90_sheet` – The sheet uptake is the average of the sheet profile over the half thickness, to within `exp(-30)` (< 10⁻¹³).
* `C90_sphere` – The sphere uptake is the volume average of the sphere profile (away from the centre point), to within `exp(-30)` (< 10⁻¹³).

### C91 Uptake with surface resistance is a nondecreasing fraction (proved)

Code: `hmt/diffusion.py`, `math/special.py`. Model: `Model/Diffusion.lean`, `Model/DiffusionRoots.lean`, `Model/Dist.lean`, `Model/RootsScalar.lean`, `Model/SpecialRoots.lean`. Proofs: `Props/DiffusionConv.lean`.

The call is modelled with the numerical roots (root_newton or fixed-point loop, default tolerance). Bessel's inequality bounds the sum of five coefficients at the exact roots. By C88 the computed roots are either not below the exact ones, which lowers the coefficients, or within 1.5e-6 of them, which the fifth coefficient absorbs. For tiny Bi the starting point of the sheet root passes the residual test (C91_small_biot_false).

* `C91_sheet_exact_roots` – If the roots were exact, the sheet uptake would be a nondecreasing fraction for every positive Biot number.
* `C91_sphere_exact_roots` – If the roots were exact, the sphere uptake would be a nondecreasing fraction for every positive Biot number.
* `C91_sheet` – With the roots as computed, the sheet uptake with surface resistance is a fraction that never decreases, for every Biot number of at least `2e-10`.
* `C91_sphere` – With the roots as computed, the sphere uptake with surface resistance is a fraction that never decreases, for every positive Biot number.
* `C91_limits` – No uptake at time zero or without transfer at the surface; complete uptake at long times.
* `C91_small_biot_false` – The uptake is a fraction for every positive Biot number; false: for `Bi ≤ 1e-10` the residual tolerance of the root finder accepts the starting point as the first root, and the sheet uptake comes out as minus billions (up to `Fo = 10¹⁸`).

Note: The claim for every positive Bi is false of the sheet function (C91_small_biot_false); proved from Bi = 2e-10 upward.

### C92 Gas viscosity estimates: domain, sign, pure-component limits, monotonicity (proved)

Code: `properties/viscosity/vapor.py`. Model: `Model/Transport.lean`. Proofs: `Props/TransportVisc.lean`.

Real powers; option values for complex results.

* `C92_lucas_defined` – `MUV_Lucas` returns a real number exactly for nonpolar substances and for polar ones with `Zc ≤ 0.292`.
* `C92_lucas_pos` – `MUV_Lucas` is positive above the critical temperature at any pressure, and below it up to the critical pressure.
* `C92_lucas_dilute` – For a nonpolar gas above its critical temperature, `MUV_Lucas` at any pressure is at least its value at zero pressure.
* `C92_lucas_mixture` – A mixture of copies of one substance has the viscosity of that substance, and a mixture containing only component `k` has the viscosity of `k` provided the correction factors of the absent components are real.
* `C92_lucas_absent_false` – fails without that proviso: adding a component with mole fraction zero to pure nitrogen makes `MUVMX_Lucas` return no real number.
* `C92_jossi` – The Jossi correction is positive and strictly increases with the reduced density.
* `C92_jossi_rest_false` – A correction for density should vanish at zero density, but the Jossi correction does not: its constant term is 1.023 instead of 1.
* `C92_dean_stiel` – The Dean-Stiel correction is positive and strictly decreases with the molar volume.

Note: Pure limit assumes real correction factors of the absent components; C92_lucas_absent_false shows that a component with zero mole fraction can otherwise destroy the result. C92_jossi_rest_false: the Jossi correction does not vanish at zero density.

### C93 Stiel-Thodos pressure correction of gas thermal conductivity (partial)

Code: `properties/thermal_conductivity/vapor.py`. Model: `Model/Transport.lean`. Proofs: `Props/TransportCond.lean`.

Monotonicity across three formulas, boundary comparison.

* `C93_error` – `KVPC_Stiel_Thodos` raises `ValueError` exactly when the reduced density is at least 2.8.
* `C93_monotone` – The correction is positive and strictly increases on compression, across the two changes of formula.
* `C93_mixture` – A mixture of copies of one substance obeying `Zc = 0.291 - 0.08 w` has the conductivity correction of that substance; so has a mixture that contains only one component.
* `C93_pure_false` – fails for real substances, whose critical compressibility is not exactly `0.291 - 0.08 w`: for pure water (`Zc = 0.229`, `w = 0.345`) passed as a one-component mixture the correction is less than 60 % of the one for the pure substance.

Note: The pure-component limit holds only for Zc = 0.291 - 0.08 w; C93_pure_false shows that for water the one-component mixture value is below 60 % of the pure value.

### C94 Diffusion-coefficient estimates: errors, symmetry, sign, scaling (proved)

Code: `properties/diffusion/liquid.py`, `properties/diffusion/vapor.py`. Model: `Model/Transport.lean`. Proofs: `Props/TransportDiff.lean`.

Real powers, sign analysis.

* `C94_wilke_lee_error` – `DV_Wilke_Lee` raises `ValueError` exactly when one of `rhoB`, `TB` is given without the other.
* `C94_wilke_lee_symmetric` – `DV_Wilke_Lee` is symmetric in the two species and inversely proportional to pressure.
* `C94_wilke_lee_monotone` – `DV_Wilke_Lee` is positive and strictly increases with temperature, in air (`rhoB = TB = None`) and in any other gas, when both molar masses exceed 0.11 g/mol.
* `C94_wilke_chang` – `DL_Wilke_Chang` is positive, obeys `D mu / T = const`, and decreases with the molar volume of the solute.
* `C94_stokes_einstein` – `DL_Stokes_Einstein` is positive and obeys `D mu R / T = kB / (6 pi)`.
* `C94_hayduk_minhas` – `DL_Hayduk_Minhas` raises exactly for an unknown method; the paraffin correlation is positive, the aqueous one is positive exactly when the molar volume (in cm³/mol) raised to -0.19 exceeds 0.292.
* `C94_hayduk_minhas_aqueous` – The aqueous correlation is positive for molar volumes up to 650 cm³/mol.
* `C94_hayduk_minhas_false` – fails for larger molecules: an aqueous diffusion coefficient is negative at a molar volume of 700 cm³/mol.

Note: C94_hayduk_minhas_false: negative aqueous diffusion coefficient at 700 cm3/mol.

### C95 Free-convection and combined Nusselt numbers (proved)

Code: `hmt/correlations.py`. Model: `Model/Correlations.lean`, `Model/Flow.lean`, `Model/Vaporization.lean`. Proofs: `Props/CorrFree.lean`.

Monotonicity of real powers, numerical bounds at the switch.

* `C95_cylinder` – Horizontal cylinder: 0.36 without buoyancy, above it otherwise, strictly increasing with the Rayleigh and Prandtl numbers.
* `C95_sphere` – Sphere: 2 without buoyancy, above it otherwise, strictly increasing with the Rayleigh and Prandtl numbers.
* `C95_plate_error` – Plates: `ValueError` exactly for an unknown orientation, or a vertical plate with a missing or zero Prandtl number.
* `C95_plate_vertical` – Vertical plate: the square of 0.825 without buoyancy; above it otherwise; strictly increasing with the Rayleigh and Prandtl numbers; no range check.
* `C95_plate_horizontal` – Horizontal plates: no Prandtl number needed; strictly increasing with the Rayleigh number, also across the change of branch at `1e7`, where the value jumps up; the upper-heated plate exchanges more than the lower-heated one; warnings exactly outside the stated ranges.
* `C95_plate_continuous_false` – The upward jump of the upper-heated plate at `Ra = 1e7`: at least 5 % between the two formulas.
* `C95_combined_assisted` – Assisting flows: at least each of the two, at most their sum, and it does not matter which one is called forced.
* `C95_combined_opposed` – Opposing flows: never above the forced value; zero exactly when both are equal; and negative when free convection dominates.
* `C95_combined_nonneg_false` – A Nusselt number is never negative: false for opposing flows with dominant free convection.

Note: Opposed combination can be negative; jump of 5 % at Ra = 1e7 for upper-heated plates.

### C96 Nu_tank: accepted combinations, correlations, sign, monotonicity (proved)

Code: `hmt/correlations.py`. Model: `Model/Correlations.lean`, `Model/Flow.lean`, `Model/Vaporization.lean`. Proofs: `Props/CorrTank.lean`.

Table of coefficients as a function; exhaustive case analysis; powers compared after clearing exponents.

* `C96_accepted_iff` – Exactly the offered combinations are accepted, whatever the numbers; everything else is a `ValueError`.
* `C96_positive` – For positive arguments the Nusselt number is positive, except for an anchor below `Re = 12`.
* `C96_anchor_zero_false` – An anchor below `Re = 12` transfers no heat at all, silently.
* `C96_reference` – With the reference geometry, all geometric corrections are one (the propeller up to rounding of its constant 1.29/1.29).
* `C96_mono` – For every impeller other than anchor and helical ribbon, the Nusselt number increases strictly with the Reynolds number.
* `C96_geometry` – The correlation of every turbine impeller is the one of the table, with all its geometric corrections; the propeller at the wall has the pitch correction `1.29 (P/D) / (0.29 + P/D)` besides.
* `C96_close` – The close-clearance impellers, piece by piece; the geometry has no influence.
* `C96_example` – The example of the documentation: an HE3 impeller of 2/3 m at 120 rpm in a tank of 2 m with water gives 1.6e3 W/m²/K.
* `C96_ribbon_monotone_false` – Stirring faster never transfers less heat: false. The helical ribbon drops at `Re = 13`, the anchor at `Re = 100`.
* `C96_anchor_monotone_false` – The same for the anchor: less heat at `Re = 100` than at `Re = 99.99`.

Note: Anchor below Re = 12 gives 0; ribbon drops at Re = 13, anchor at Re = 100 (refuted monotonicity).

### C97 Nu_cylinder_bank: narrowest gap, row correction, monotonicity (proved)

Code: `hmt/correlations.py`. Model: `Model/Correlations.lean`, `Model/Flow.lean`, `Model/Vaporization.lean`. Proofs: `Props/CorrTank.lean`.

Case analysis, real powers.

* `C97_rows` – The row correction: between 0.70 (aligned) or 0.64 (staggered) and one, never decreasing with the number of rows, exactly one from 20 rows on.
* `C97_rows_table` – The tabulated values themselves.
* `C97_vmax` – The maximum velocity is that in the narrowest gap: transverse for aligned tubes, transverse or twice the diagonal one for staggered tubes.
* `C97_bank` – Tube banks: positive; warning exactly when the Reynolds number in the narrowest gap or the Prandtl number is out of range; with aligned tubes strictly increasing with the velocity over all four regimes; never decreasing with the number of rows.
* `C97_staggered_monotone_false` – With staggered tubes the same is false: the heat transfer drops by some 10 % at a Reynolds number of 100.

Note: For staggered tubes monotonicity is refuted at Re_max = 100.

### C98 DIPPR and Yaws equations: domain, limits, monotonicity, consistency (proved)

Code: `properties/equations/dippr.py`, `properties/equations/viscosity.py`. Model: `Model/Equations.lean`, `Model/Vaporization.lean`. Proofs: `Props/Equations.lean`.

Monotonicity and limits of closed forms, hyperbolic functions.

* `C98_dippr100` – `DIPPR100` is linear in its parameters, returns `A` at zero temperature, and with `C = D = E = 0` is a straight line.
* `C98_dippr104` – `DIPPR104` is undefined at zero temperature and linear in its parameters everywhere else.
* `C98_dippr104_limit` – `DIPPR104` (second virial coefficients) tends to `A` at high temperature.
* `C98_units` – Change of the unit of temperature (`T` measured in units `1/s` as large): every equation gives the same value if the parameters are rescaled by the powers of `s` which their units demand; at unit temperature the polynomials are the sums of their coefficients.
* `C98_dippr101` – `DIPPR101` gives a number exactly for positive temperatures; it is then positive, and for `C = D = 0` agrees with `Antoine` in base e.
* `C98_dippr102` – `DIPPR102` with positive temperature and nonnegative `C`, `D` is positive for positive `A`, at most `A T^B`, and equal to it for `C = D = 0`.
* `C98_dippr102_defined_false` – A denominator of `DIPPR102` can vanish: parameters and temperature with no value.
* `C98_yaws` – `Yaws` has a value exactly for nonzero temperature; it is positive; the base-10 form is the base-e form with parameters multiplied by `ln 10`; without `C`, `D` it is the `Antoine` equation with `C = 0` and opposite sign of `B`.
* `C98_yaws_anti` – With `B > 0` and `C, D ≤ 0` the Yaws viscosity falls strictly with temperature.
* `C98_yaws_monotone_false` – With a positive `C` (as most tabulated liquids have) it does not: the fitted curve rises again above `sqrt(B/C)`.
* `C98_dippr105` – `DIPPR105` (Rackett) with positive `A`, `C`, `D` and `0 < B < 1`: a real number exactly up to the critical temperature `C`, where it is `A / B`; strictly decreasing below.
* `C98_dippr106` – `DIPPR106` with positive `A`, `B`, `Tc` and nonnegative exponents `C`, `D`, `E`, for temperatures of at least zero: a real number exactly up to the critical temperature; positive below, zero at it; strictly decreasing.
* `C98_dippr106_watson` – Without `C`, `D`, `E` it is the Watson relation: the ratio of two values is the ratio of `Tc - T` to the power `B`.
* `C98_dippr107` – `DIPPR107` (Aly-Lee) has a value exactly when neither `T` nor `C` is zero. For nonnegative `B`, `D` (not both zero) it lies strictly between `A` and `A + B + D` (`A ≤` when `B = 0`), and the signs of `C` and `E` do not matter.
* `C98_dippr107_mono` – The vibrational term rises strictly with temperature.
* `C98_dippr107_constant_false` – A constant heat capacity entered as `B = C = D = E = 0`: no number (NaN), although nothing depends on `C`.

Note: Refuted: a constant heat capacity as DIPPR107 with C = 0 is NaN; DIPPR102 can have a zero denominator; Yaws rises again with temperature for C > 0.

### C99 Weibull-Nycander-Gold chain-length distribution (proved)

Code: `distributions/gold.py:14-186`. Model: `Model/Dist.lean`, `Model/Gold.lean`, `Model/RootsScalar.lean`. Proofs: `Props/Gold.lean`.

Poisson-type series, convolution identities; induction on chain length.

* `C99_kinetics` – The closed form solves the kinetic equations of living polymerisation with initiation (rate constant 1) and propagation (rate constant `r`), starting from initiator only.
* `C99_positive` – All fractions are positive after time zero, for either sign of `r - 1`.
* `C99_normalised` – The fractions add up to one, and the mean chain length is `v = r τ + (1 - r)(1 - p0)`, the equation solved for `p0`.
* `C99_p0_unique` – The equation for `p0` has exactly one solution between zero and one.
* `C99_p0_accuracy` – What is used for `p0` is positive (and in `[eps, 1]` when the root finder is used); if the root finder converged it makes the residual at most `1e-12` or is within `4 eps p0 + 1e-12` of the exact solution; in the limiting case its logarithm is within `eps |r - 1| / r` of the exact one.
* `C99_above` – For `r > 1` the code returns the exact fraction for its `p0`.
* `C99_below` – For `r < 1` the code returns the exact fraction for its `p0` when it uses the direct sum (`k < v` and no heavy cancellation); otherwise the deviation is at most the first omitted term of the alternating series, of index `m + 1` where `m = k + 100` or the term of index `m` was below `100 eps`.
* `C99_pdf` – End to end for `r ≥ 1.001`: the result is the exact fraction at the time given by the computed `p0`, and the mean over all lengths is then `v - find_p0(p0)`.
* `C99_poisson` – Within `1e-3` of `r = 1` the Poisson distribution with mean `v` is returned.
* `C99_at_most_one_false` – Fractions are at most one: false for what the code computes. For `r = 0.01`, `v = 2`, `k = 2` the tail sum is cut off after one hundred terms, far from convergence, and the result exceeds `10^30`.

Note: Exact real arithmetic; factorial overflow (k > 170) and cancellation in the r < 1 sums are outside the model.

### C100 Joint confidence regions (proved)

Code: `math/misc/jcr.py:24-299`. Model: `Model/Jcr.lean`, `Model/RootsScalar.lean`. Proofs: `Props/Jcr.lean`.

eigh and quantiles are oracles; parametrisation of an ellipse by trigonometry; root-finder certificates.

* `C100_ellipse` – If the matrix of eigenvectors happens to be symmetric, the drawn curve is exactly the boundary of the documented region.
* `C100_ellipse_false` – The curve is right for every decomposition allowed by the contract of `eigh`: false. The code reads the first row instead of the first column of the eigenvector matrix, so with eigenvectors that form a rotation the ellipse is the mirror image of the right one.
* `C100_ellipse_checks` – Arguments out of range raise RangeError; the half-widths of the individual intervals are the standard deviations times the t quantile.
* `C100_region` – `npoints` points are returned; the `i`-th lies on the ray of the `i`-th of `npoints` equally spaced angles, at a positive distance from the centre; it satisfies the boundary equation to a relative `1e-4`, or the solver moved the radius by no more than the factor `1 + rtol` in its last step.
* `C100_region_checks` – When the call succeeds and which error it raises otherwise.
* `C100_default_width_false` – With the default width the region is found for well-behaved sums of squares: false. The first guess is then a quarter of the first coordinate of the centre, and for a centre with a nonpositive first coordinate all points are NaN, whatever the function.

Note: F and t quantiles and eigh are oracles. Drawing itself is not modelled. With LAPACK the eigenvector matrix of a 2x2 covariance matrix comes out symmetric in practice, so the row/column slip is masked.

### C101 Copolymerisation data sets (partial)

Code: `copolymerization/copodataset.py:23-238`, `copolymerization/terminal.py:446-457`. Model: `Model/CopoData.lean`, `Model/Float.lean`, `Model/Utils.lean`. Proofs: `Props/CopoData.lean`.

Case analysis over names and shapes; entrywise complement.

* `C101_construct` – A data set is created exactly when both names are non-empty, differ by more than case, and the shapes agree; the shapes are checked after the names.
* `C101_getvar_names` – Which stored data each variable name refers to: `f` is the abscissa of composition and rate data but the ordinate of drift data; every other name is a `KeyError`.
* `C101_getvar` – `getvar(v, M)` refers to monomer `M`, whichever position it has: for the monomer the data were entered for it returns them, for the other one their complement to one, entry by entry.
* `C101_getvar_errors` – An unknown variable raises KeyError, whatever the monomer; an unknown monomer raises ValueError.
* `C101_model_names` – For a data set that `add_data` accepts, asking for the monomers of the model always succeeds (for the variables of its kind), also when they are listed in the opposite order.
* `C101_kp_false` – A propagation coefficient does not depend on which monomer one asks for: false, `getvar('kp', M2)` returns `1 - kp`.

Note: The last clause is false: C101_kp_false. Everything else is proved. str.lower is ASCII lower-casing.

### C102 Reactions of chain-length distributions (partial)

Code: `kinetics/reaction.py:76-258`. Model: `Model/Reaction.lean`. Proofs: `Props/Reaction.lean`.

In-place update of vectors; sums over populations; fold over reactions.

* `C102_moments` – Moment closure: when the entries of the distribution are the moments of chain-length concentrations `c n` (zero from `N` on), `eval` adds to each of them the matching moment of `dc n/dt = k M (c (n-1) - c n)`.
* `C102_balance` – Monomer is consumed at the rate `rate(...)`, the polymer gains as many units, and the by-product forms at the same rate; entries that take no part keep their value.
* `C102_order` – The rates do not depend on the order of the reactions.
* `C102_rates_defined` – Rates are returned exactly when every index is inside the vectors.
* `C102_system_false` – A `ReactionSystem` can be created from distinct reactions: false, the constructor raises for every non-empty list; so does adding two reactions.
* `C102_append_false` – A repeated reaction is refused: false for `system + reaction`, which also leaves the dimension at 0, so that `rates` raises IndexError.
* `C102_add_false` – Two systems can be added: false unless both are empty.

Note: The ReactionSystem clauses are false: C102_system_false, C102_append_false. The statements about eval, rate and rates are proved. Indices are natural numbers (no negative indexing).

### C103 Rackett liquid volume (partial)

Code: `properties/pvt/volume.py:15-70`. Model: `Model/Rackett.lean`, `Model/Vaporization.lean`. Proofs: `Props/Rackett.lean`.

Monotonicity of real powers.

* `C103_arguments` – Exactly one of `ZRA` and `w` must be given; `w` stands for `ZRA = 0.29056 - 0.08775 w`.
* `C103_value` – Up to the critical temperature the value is `R Tc/Pc ZRA^(1 + (1 - T/Tc)^(2/7))`; at the critical temperature `R Tc ZRA / Pc`.
* `C103_si` – The gas constant is that of the SI: Avogadro's number times Boltzmann's constant, joule per mole and kelvin.
* `C103_monotone` – With `0 < ZRA < 1` the liquid expands on heating, from `R Tc/Pc ZRA^2` at 0 K to `R Tc/Pc ZRA` at the critical point.
* `C103_real_false` – A float is returned for every positive temperature: false, above the critical temperature the result is complex.

Note: Last clause false: C103_real_false. Everything else is proved.

### C104 Distributions defined by data (partial)

Code: `distributions/datadistribution.py:26-105`, `distributions/base.py:98-184, 422-445, 502-551`. Model: `Model/DataDist.lean`. Proofs: `Props/DataDist.lean`.

The spline is an oracle function, integrals are exact interval integrals; additivity of integrals and change of variables; Cauchy-Schwarz through non-negative quadratics for the averages.

* `C104_construct` – Construction: data of equal lengths are accepted exactly if at least four points remain and their sizes increase. The points kept are exactly those with a positive ordinate and a chain length of at least 1, in the given order; the warning is printed exactly if some point is dropped.
* `C104_integers_false` – false of the code: molar masses given as integers are not accepted, the same numbers as floats are.
* `C104_density` – Every kind of density, in every unit, integrates to one over the range of the data and vanishes outside it, provided the corresponding moment is not zero.
* `C104_cdf` – The cdf is the integral of the density of the same kind: zero up to the smallest size, one from the largest size on.
* `C104_data` – The distribution reproduces the data: if the routine interpolates, the density of the kind of the data at the size of a retained point is its ordinate, divided by the integral of the interpolant. The densities of the kinds are related by powers of the size.
* `C104_monotone_partial` – (partial). If the interpolant does not become negative between the data points, the cdf increases from 0 to 1. What is missing is that this is so for all data, which is false (`C104_negative_false`).
* `C104_averages` – With such an interpolant the averages are ordered and lie between the smallest and the largest size of the data.
* `C104_negative_false` – false of the code: for positive data the density can be negative and the cdf decreasing, because the interpolant undershoots. Data: sizes 1, 2, 3, 4 with ordinates 10, 1, 1, 10.

Note: Non-negativity and monotonicity are false (C104_negative_false: the spline undershoots between positive data); proved when the interpolant is non-negative. Integer molar masses are refused (C104_integers_false). Spline and integrals are exact oracles.

### C105 Fitting a distribution to data (partial)

Code: `distributions/datadistribution.py:107-210`. Model: `Model/DataDist.lean`. Proofs: `Props/DataDist.lean`.

The optimiser is the list of its trial points; induction over the list of assignments.

* `C105_fit` – Exactly what `fit` does, whatever the optimiser: it raises `RangeError` for a number of components outside 1…10 or if some trial is outside the range of the parameters; otherwise it returns nothing if the optimiser reports failure, and a distribution holding the parameters of the **last trial** if it reports success (the weight is dropped for a single component).
* `C105_optimum_false` – false of the code: the distribution returned by a successful `fit` need not hold the optimum found, but what happened to be tried last. Here the optimiser tries DPn = 10, 100, 1000, in this order, and reports the optimum 100; the fitted distribution has DPn = 1000.

Note: False as stated: the parameters are those of the last trial (C105_optimum_false). C105_fit says exactly what is returned or raised for every behaviour of the optimiser.

### C106 Saturation pressure from a cubic equation of state (partial)

Code: `thermo/eos/cubic.py:341-385`, `thermo/eos/cubic.py:387-424`. Model: `Model/Eos.lean`, `Model/FixPoint.lean`, `Model/Mixing.lean`, `Model/Psat.lean`, `Model/RootsScalar.lean`. Proofs: `Props/Psat.lean`.

The isotherm is shown strictly falling outside its two extreme solutions (concavity of an auxiliary polynomial), the K-value is the exponential of the Maxwell area by integrating the isotherm, and monotonicity of that area in the pressure gives uniqueness and the error bound; the counterexample fluid comes from the intermediate value theorem.

* `C106_errors` – several components, or a temperature at or above critical: `ValueError`. Otherwise, with exact roots, the call raises only if it tries a nonpositive pressure.
* `C106_result` – what a returned pressure satisfies. It is the last of at most 50 trial pressures, the first being the guess; the K-value there is within `10⁻⁶ guess/P` of one, and at no earlier trial.
* `C106_area` – without an interaction matrix, the K-value of a pure fluid is `exp (area / (R T))`, the area being that between the isotherm and the line at `P` from the liquid to the vapour volume.
* `C106_unique` – an isotherm has at most one saturation pressure, with one pair of volumes.
* `C106_accuracy` – error of a returned pressure at which the equation of state has two different solutions: its distance from the true saturation pressure times the difference of volumes is at most `R T |ln K|`, and `K` is within `10⁻⁶ guess/P` of one. If `K = 1` it is the saturation pressure.
* `C106_single_phase` – a guess at which the equation of state has a single solution is returned unchanged as "saturation pressure". Every guess of at least `R T / ((2 + u) b)` is such.
* `C106_saturation` – the saturation pressure is a fixed point: there the equation of state has the two coexisting volumes as its extreme solutions, the K-value is one, and used as the guess it is returned at once.
* `C106_guess_false` – the returned pressure is not determined by the fluid and the temperature, and need not be the saturation pressure.

Note: False as stated: with a guess outside the two-phase window there is one root, K is exactly one and the guess itself is returned (C106_guess_false, C106_single_phase gives the exact condition). Proved: the errors; |K-1| within tolerance at every result; ln K is the signed Maxwell area over RT; uniqueness of the saturation pressure; error bound for a two-root result; the true saturation pressure is a fixed point. Convergence from an arbitrary two-phase guess is not proved. np.roots is an exact oracle where stated.

### C107 Monomer composition drift follows the material balance (partial)

Code: `copolymerization/binary.py:147-261`, `copolymerization/terminal.py:179-235`, `copolymerization/multicomponent.py:395-490`. Model: `Model/Copo.lean`, `Model/CopoDrift.lean`, `Model/CopoMulti.lean`, `Model/RootsScalar.lean`. Proofs: `Props/CopoDrift.lean`.

The integrator is an oracle returning a function of conversion; trajectories are differentiable functions satisfying the equation with the code’s right-hand side. Invariance of [0,1], sign of the drift, the balance and uniqueness come from linear differential equations for f1, 1-f1, f1-F1 and differences of solutions (integrating factors); Meyer-Lowry from a conserved logarithmic combination.

* `C107_trajectory` – `drift` and `monomer_drift_binary` with an exact integrator, initial compositions in `[0, 1]` and conversions in `[0, 1]`: row `i` of the result is the value at the given conversions of a trajectory that starts at `f10[i]`, satisfies the drift equation with the Mayo-Lewis composition, stays in `[0, 1]` (strictly inside if it starts inside, so the lower clamp never acts), and fulfils the balance on monomer 1 up to the machine epsilon added to `1 - x`.
* `C107_direction` – Terminal model: `F1 - f1` has the same sign at all conversions. If the copolymer formed first is richer in monomer 1 than the feed, `f1` falls strictly with conversion; if it is poorer, `f1` rises strictly; at an azeotrope `f1` is constant.
* `C107_meyer_lowry` – Terminal model: every computed composition satisfies the integrated equation of Meyer and Lowry, with `(1 - x + ε)/(1 + ε)` for the fraction of monomer left.
* `C107_multi_shape` – `monomer_drift_multi`: the result has one row per conversion and one column per monomer, and every row sums to one — whatever the integrator does.
* `C107_multi` – `monomer_drift_multi` with an exact integrator and linear solver: each column follows the drift equation with the stationary composition of the propagation chain; fractions that start non-negative, zero or positive stay so; the balance of every monomer holds up to the machine epsilon added to `1 - x`.
* `C107_unique` – Terminal model, exact integrators: the value at a conversion depends only on the initial composition, not on the other conversions or initial compositions in the call, nor on whether `monomer_drift_binary` or the method `drift` is used.
* `C107_multi_binary` – For two monomers `monomer_drift_multi` gives what `monomer_drift_binary` gives.
* `C107_errors` – Conversions that are non-negative, not all zero: `ValueError` exactly if they are not strictly increasing; otherwise the outcome is that of the integrator, whose failure is `ODESolverError` for the functions and an array of `nan` for the method. An empty list of conversions is a `ValueError`, a matrix `r` of the wrong shape a `ShapeError`.
* `C107_shape` – Shape of the binary result: one row per initial composition, one column per conversion; a single row is returned as a vector. All entries are non-negative whatever the integrator does.
* `C107_shape_false` – false of the code: the result is documented as `(M, N)`, conversions by compositions; it is `(N, M)`.
* `C107_unsorted_false` – false of the code: conversions are documented as any vector; a decreasing or repeated one is refused.
* `C107_multi_last_false` – false of the code: the last initial fraction given to `monomer_drift_multi` is not used, so the initial condition need not hold.
* `C107_above_one_false` – false of the code: only negative values are clipped. An integrator within its absolute tolerance `1e-4` of the solution can give a fraction above one.

Note: scipy solve_ivp is an oracle; the trajectory statements assume it exact. False of the code: documented result shape (C107_shape_false), conversions in any order (C107_unsorted_false), initial condition of the last monomer (C107_multi_last_false), fractions at most one with an integrator that is only within tolerance (C107_above_one_false).

### C108 Copolymerisation model objects: validated construction and total methods (proved)

Code: `copolymerization/terminal.py:46-146`, `copolymerization/terminal.py:502-608`, `copolymerization/penultimate.py:87-200`, `copolymerization/penultimate.py:453-522`. Model: `Model/Copo.lean`, `Model/CopoClass.lean`, `Model/RootsScalar.lean`. Proofs: `Props/CopoClass.lean`.

Case analysis over the checks; positivity of the denominators; product of the Q-e ratios by the exponential law.

* `C108_terminal` – `TerminalModel(r1, r2, ...)`: a negative ratio is a `RangeError`, otherwise unusable names are a `ValueError`, otherwise the object holds what was given. A warning is issued exactly if both ratios exceed one.
* `C108_implicit` – `ImplicitPenultimateModel(r1, r2, s1, s2, ...)`.
* `C108_penultimate` – `PenultimateModel(...)`.
* `C108_from_Qe` – From `Q > 0` and any `e` the terminal model is always built (names permitting), never with a warning, and `r1 r2 = exp(-(e1 - e2)²)`.
* `C108_from_Qe_errors` – Whatever the `Q`, no warning is issued; a zero `Q` raises `ZeroDivisionError`, `Q` of opposite signs raise `RangeError`; two negative `Q` are accepted.
* `C108_F1` – `F1` of a terminal (or implicit penultimate) model that was successfully built.
* `C108_implicit_F1` – The radical reactivity ratios do not affect the composition.
* `C108_penultimate_F1` – `F1` of a penultimate model that was successfully built.
* `C108_kp_errors` – `kp`: a composition outside `[0, 1]` is a `RangeError`, otherwise a missing rate coefficient is a `ValueError`; there are no other errors.
* `C108_kp_pos` – With positive parameters and rate coefficients `kp` is a positive number on all of `[0, 1]`.
* `C108_implicit_one` – With `s1 = s2 = 1` the implicit penultimate model has the propagation coefficient of the terminal model.
* `C108_zero_s_false` – false of the code: a radical reactivity ratio of zero passes the check of the constructor, but then `kp` has no finite value for any composition (it divides by the ratio), although the limit of the formula exists.

Note: Names are lower-cased in ASCII only. The last sentence of the statement is C108_zero_s_false.

### C109 fit_copo_data finds the reactivity ratios that generated the data (partial)

Code: `copolymerization/fitting.py:176-419`, `copolymerization/fitting.py:422-484`, `copolymerization/fitting.py:487-537`. Model: `Model/Copo.lean`, `Model/CopoDrift.lean`, `Model/CopoFit.lean`, `Model/CopoMulti.lean`, `Model/RootsScalar.lean`. Proofs: `Props/CopoFit.lean`.

The objective is evaluated by induction over lists of observations with exceptions and non-finite values; identifiability is a 2x2 linear system in the ratios whose determinant is positive for different feeds; exact recovery combines it with non-negativity; covariance by matrix algebra; best optimisers are built classically to show that the contracts can be met.

* `C109_errors` – All the ways the call can fail.
* `C109_statistics` – A result carries the given method and level; the covariance is `None` and errors and intervals are `nan` if there are just two observations; a standard error is the root of the diagonal entry of the covariance, an interval is the error times the quantile of Student's distribution.
* `C109_sse` – The objective is the weighted sum of squared scaled residuals over all observations of all data sets.
* `C109_mean_composition` – The estimate of the cumulative copolymer composition is the material balance `(f10 - f (1 - x))/x` up to `1e-10/x²`.
* `C109_regroup` – The order of the data sets does not matter, and neither does cutting a data set in pieces of the same weight.
* `C109_nonneg` – A finite value of the objective is not negative; it is zero only if every `F(f)` observation of positive weight is met exactly.
* `C109_identifiable` – Two different feed compositions determine the reactivity ratios.
* `C109_recover` – Nonlinear least squares on exact data: with ratios inside the search box, non-negative weights, and two different feed compositions among the `F(f)` observations of positive weight, a global optimiser returns exactly the ratios that generated the data, whatever the guess; the covariance is then zero.
* `C109_covariance` – More than two observations: the covariance times half the finite-difference Hessian of the objective is the residual variance `sse/(n - 2)` times the identity, and the covariance is symmetric. The ratios lie in the search box.
* `C109_stencil` – The covariance is computed from the objective at the fitted ratios and at eight points around them (±2 steps along each axis, ±1 step along both); an exception at any of the nine is not swallowed, and there is no other source of exceptions.
* `C109_hessian` – The Hessian behind the covariance is the central difference of the objective with steps of `1e-4 (1 + |r|)`, two steps along each axis for the diagonal.
* `C109_scale_free` – Multiplying the objective by a positive constant (all weights, or all scales by one factor) changes neither the ratios nor the covariance, if the optimiser stops at the same point.
* `C109_weights_scale` – Multiplying all weights by one factor multiplies the objective by that factor.
* `C109_recover_odr` – Orthogonal distance regression on exact data with two different feed compositions: a global minimum gives back the ratios that generated the data.
* `C109_bounds_false` – false of the code: the search box excludes ratios below `1e-3`. Exact data of an alternating system (`r1 = r2 = 0`) are never fitted exactly.
* `C109_zero_conversion_false` – false of the code: an observation of the copolymer formed at zero conversion is compared with the feed composition instead of the instantaneous composition; exact data then have a positive sum of squares.
* `C109_weight_false` – false of the code: the weight of a data set does not mean the same in the two methods. Doubling it doubles its share of the least-squares objective, but multiplies its weights in the orthogonal distance regression by almost four.
* `C109_unsorted_false` – false of the code: conversions are not documented to be sorted, but a drift data set with unsorted conversions makes every fit fail.

Note: The optimiser, the orthogonal distance regression, the integrator and the Student quantile are given from outside with stated contracts; plots and joint confidence regions are left out. Recovery is false at zero conversion for F(x) data, for ratios below 1e-3 and with unsorted conversions, and the weights of the two methods differ (C109_*_false).

### C110 The order in which components are listed does not matter (proved)

Code: `thermo/acm/nrtl.py:89-188`, `thermo/acm/wilson.py:66-134`, `thermo/acm/uniquac.py:85-175`, `thermo/acm/floryhuggins.py:72-220`, `thermo/eos/cubic.py:100-420`, `thermo/eos/virial.py:60-243`, `properties/pvt/mixing_rules.py:17-156`, `properties/pvt/virial.py:61-123`, `properties/viscosity/vapor.py:21`, `properties/viscosity/liquid.py:13`, `properties/thermal_conductivity/vapor.py:87`, `properties/thermal_conductivity/liquid.py:13`, `properties/diffusion/vapor.py:128`, `thermo/flash/vle.py:89-560`, `copolymerization/multicomponent.py:24-395`. Model: `Model/Acm.lean`, `Model/Copo.lean`, `Model/CopoMulti.lean`, `Model/Eos.lean`, `Model/Flash.lean`, `Model/Mixing.lean`, `Model/RootsScalar.lean`, `Model/Transport.lean`. Proofs: `Props/Relabel.lean`.

Every sum over components is reindexed by the permutation; the triangular loops are first rewritten as sums over all pairs (needs symmetry), the double loop of the Stiel-Thodos rule as a double sum, minima over lists as permutation invariants; the flash loops by induction over the iteration with a relation between the two K-value functions; the copolymerisation solvers through uniqueness of the stationary distribution; counterexamples with two components.

* `C110_nrtl` – NRTL with symmetric `c` and `d`: the constructor accepts or refuses in either order, and excess energy and activity coefficients agree.
* `C110_wilson` – Wilson.
* `C110_uniquac` – UNIQUAC.
* `C110_flory_huggins` – Flory-Huggins with symmetric matrices.
* `C110_nrtl_false` – (finding). A non-symmetric `c` is accepted without complaint and its lower triangle ignored: listing the same two components in the other order, with the same matrix, gives other non-randomness factors.
* `C110_cubic` – Cubic equations of state with symmetric interaction parameters: pressure, compressibility factors, second virial coefficient and Helmholtz departure are the same, fugacity coefficients and K-values come in the new order, and the same errors are raised.
* `C110_cubic_false` – (finding). A non-symmetric matrix of interaction parameters is accepted, and then the order matters: only the upper triangle enters the mixture parameter.
* `C110_virial` – Virial equation of state.
* `C110_mixtures` – Mixing rules and mixture correlations.
* `C110_rachford_rice` – Rachford-Rice.
* `C110_flash` – The three flashes: feed, starting values and K-value function in the new order give the result in the new order, or the same error.
* `C110_copolymer` – Multicomponent copolymerisation: transition probabilities, copolymer composition and radical fractions, though the code replaces the equation of the last monomer.
* `C110_ternary` – The explicit ternary formulas: exchanging the first two, or the last two, monomers.

### C111 Activity coefficient models: accepted parameters, documented temperature dependence, limits and phase stability (proved)

Code: `thermo/acm/nrtl.py:21-188`, `thermo/acm/wilson.py:15-175`, `thermo/acm/uniquac.py:20-243`, `thermo/acm/floryhuggins.py:26-388`. Model: `Model/Acm.lean`. Proofs: `Props/AcmParams.lean`.

Case analysis of the bound checks; evaluation of the constructed objects; the Wilson mixing energy is a sum of terms u log(u/v) with v linear in composition, jointly convex by the log-sum inequality.

* `C111_accepts` – The constructors succeed exactly if all supplied entries (also diagonal and ignored ones) are in the closed ranges of Aspen Plus, and otherwise raise `RangeError`.
* `C111_parameters` – Interaction parameters of a constructed object: the documented functions of temperature; zero or one on the diagonal; for the symmetric parameters the upper triangle counts. Stated for arguments that are all supplied.
* `C111_defaults` – Without arguments the models are ideal: NRTL (although `alpha` is 0.3) and Wilson, UNIQUAC for equal sizes, Flory-Huggins for unit sizes.
* `C111_wilson_stable` – The Wilson model never predicts a liquid-liquid split: the Gibbs energy of mixing is convex for any parameters, temperature and number of components.
* `C111_split` – NRTL and UNIQUAC can: accepted parameters for which the mixture of equal amounts has a higher Gibbs energy of mixing than the pure components.
* `C111_uniquac_wilson` – UNIQUAC with unit sizes is the Wilson model with transposed parameters.
* `C111_infinite_dilution` – Infinite dilution in a binary mixture: the limiting activity coefficients of the textbooks.

### C112 Second virial coefficient and attraction parameter as functions of temperature (proved)

Code: `properties/pvt/virial.py:19-58`, `thermo/eos/virial.py`, `thermo/eos/idealgas.py`, `thermo/eos/cubic.py:456`, `thermo/eos/cubic.py:524`, `thermo/eos/cubic.py:594`, `thermo/eos/base.py:146`, `thermo/eos/base.py:237`. Model: `Model/Eos.lean`, `Model/Mixing.lean`. Proofs: `Props/EosParams.lean`.

Monotonicity of real powers, the intermediate value theorem at Tc and 4Tc, squares of linear functions of the root of temperature.

* `C112_B_increasing` – `B_pure` grows with temperature.
* `C112_boyle` – There is exactly one Boyle temperature; it lies between `Tc` and `4 Tc`; below it the gas is more compressible than an ideal gas, above it less, at all pressures.
* `C112_B_limit` – At high temperature `B` tends to the excluded volume of the correlation.
* `C112_fugacity` – The fugacities of an ideal gas are the partial pressures; those of the virial equation approach them at low pressure, and add up to less than the pressure for a pure gas below its Boyle temperature.
* `C112_alpha_critical` – At the critical temperature the attraction is that of the critical point, whatever the acentric factor.
* `C112_alpha_acentric` – Below the critical temperature, attraction grows with the acentric factor (Soave-Redlich-Kwong with either set of constants, Peng-Robinson).
* `C112_alpha_falls` – Attraction falls with temperature: Redlich-Kwong everywhere, the others up to `Tc (1 + 1/m)²`, where it has fallen to zero.
* `C112_alpha_rises` – (finding). The documented functions are used without limit: for Soave-Redlich-Kwong and Peng-Robinson attraction grows again at high temperature, for every fluid.

### C113 flash2_PT is damped successive substitution (proved)

Code: `thermo/flash/vle.py: flash2_PT`. Model: `Model/Flash.lean`, `Model/RootsScalar.lean`. Proofs: `Props/FlashTrace.lean`.

Induction over the iteration, collecting the K-values in a sequence.

* `C113_trace` – The K-values that `flash2_PT` returns come from those at the starting compositions by at most `maxiter` steps of damped successive substitution, each with a phase fraction for which the Rachford-Rice solver reported success; by exactly `maxiter` steps if the iteration limit is reported.
* `C113_no_step` – With `alpha = 0` the K-values never move from those at the starting compositions.
* `C113_ideal` – K-values that do not depend on composition: one pass suffices, for any damping, and they are returned unchanged.

### C114 Eyring rate coefficient (proved)

Code: `kinetics/coefficients/eyring.py:73-126`, `kinetics/coefficients/arrhenius.py:103-127`. Model: `Model/Kinetics.lean`. Proofs: `Props/Eyring.lean`.

Logarithms of the closed form; log x <= x-1 for the comparison with Arrhenius.

* `C114_accepts` – The constructor succeeds exactly for nonnegative entropy and enthalpy of activation, a transmission coefficient in [0, 1] and a temperature range of nonnegative bounds at least `eps` apart; otherwise `RangeError`. In particular a negative entropy of activation, the usual case for association reactions, is refused.
* `C114_eyring_plot` – `k h / (kappa kB T)` is the Boltzmann factor of the Gibbs energy of activation; hence `ln (k/T)` is linear in `1/T` with slope `-DHa/R` (Eyring plot), and with no barrier `k = kappa kB T/h`.
* `C114_call` – On a constructed object: calls raise exactly for `T ≤ 0`, values are nonnegative, zero exactly for `kappa = 0`, proportional to `kappa`, and grow with temperature (strictly, even without barrier) and fall with the barrier.
* `C114_arrhenius` – The apparent activation energy `R T² d ln k/dT` is `DHa + R T`, and the Eyring coefficient lies above the Arrhenius coefficient that has the same value and slope at `T0`, touching it only there.

### C115 ierfc and i2erfc are the documented integrals (proved)

Code: `math/special.py:22-70`. Model: `Model/Diffusion.lean`, `Model/Dist.lean`. Proofs: `Props/Erfc.lean`.

Fundamental theorem of calculus on half lines with the closed forms as antiderivatives; Gaussian bound beyond the cut-off.

* `C115_ierfc` – `ierfc(x) = ∫_x^∞ erfc`, up to 30 exactly and beyond with an error below `exp(-900)`.
* `C115_i2erfc` – `i2erfc(x)` is the integral of that integral, up to 30 exactly and beyond with an error below `exp(-900)`.

### C116 Memoised parameter functions cannot be noticed unless arrays or attributes are changed (proved)

Code: `thermo/acm/nrtl.py:135-188`, `thermo/acm/wilson.py:105-134`, `thermo/acm/uniquac.py:133-175`, `thermo/acm/floryhuggins.py:119-175`, `thermo/eos/cubic.py:95-231`. Model: `Model/Cache.lean`. Proofs: `Props/Cache.lean`.

Heap model of arrays, object attributes and memo tables; an invariant relating the table of an object to its parameters is preserved by every event that does not touch it; counterexamples are two- or three-event histories.

* `C116_first_call` – A call with a temperature used before gives back the same array object, whatever happened in between; its contents are those at the first return unless it was written into. A call with a temperature not used before computes the formula from the present contents of the parameter arrays into a new array and changes no other array.
* `C116_transparent` – As long as nobody writes into the parameter arrays of an object or into an array one of its methods returned, and its attributes are not assigned, the cache cannot be noticed: whatever else happens, also to other objects, each call returns what the formula gives.
* `C116_models` – Then the methods of the activity models and the pressure of the cubic equations of state, which go through the cache, give the values of the models without cache.
* `C116_parameters_false` – (finding) Changing the parameter matrix of a model afterwards (a `Wilson` object keeps the array it was given) takes effect at temperatures not used before, and not at those used before: the same object then describes two different liquids.
* `C116_result_false` – (finding) The array returned by `Lambda(T)` is the one kept in the table: scaling it in place changes later activity coefficients at that temperature.
* `C116_eos_false` – (finding) Assigning a public attribute (`Tc`, `Pc`, `w`) of a cubic equation of state after a pressure has been calculated: at the temperature of that calculation nothing changes; at any other temperature the attraction is that of the new fluid and the covolume that of the old one, which is neither fluid.

### C117 The Tait database is complete and physically sound (proved)

Code: `properties/pvt/tait.py:263-293`, `properties/pvt/io.py:12-21`, `properties/pvt/Tait_parameters.tsv`. Model: `Model/Tait.lean`, `Model/TaitDb.lean`. Proofs: `Props/TaitDb.lean`.

The table is transcribed as rationals; a rational certificate per line bounds the logarithm by powers of rationals, is checked by kernel evaluation, and is proved sound for all temperatures and pressures; monotonicity from the signs of the derivatives.

* `C117_lookup` – The names in the database are distinct. For a name in the database `from_database` returns an object with the numbers of its line and their ranges: all lines pass the checks of the constructor. For any other string (also one that differs in case) it returns `None`; it never raises.
* `C117_physical` – For every polymer of the database and every temperature and pressure in the range given there, the specific volume is between 0.4 and 1.6 litres per kilogram and thermal expansion and compressibility are positive.
* `C117_monotone` – Hence the volume rises with temperature at fixed pressure and falls with pressure at fixed temperature, strictly, over the whole range.

### C118 Bubble and dew points of ideal mixtures (proved)

Code: `thermo/flash/vle.py:244-316`, `thermo/flash/vle.py:371-455`. Model: `Model/Flash.lean`, `Model/RootsScalar.lean`. Proofs: `Props/FlashIdeal.lean`.

Evaluation of one pass: the pressure slope B vanishes, the weights of the inside-out parameters do not depend on the pressure at either end of the phase split, the initial guess of the inner Newton solver is its root up to the complex step, and the second evaluation of the parameters repeats the first.

* `C118_bubble_pressure` – Bubble pressure of an ideal mixture: `flash2_TV` with `beta = 0` succeeds in the first pass, from any starting pressure and compositions, with the exact value `Σ z_i Psat_i`, the feed as liquid and the vapour of Raoult's law.
* `C118_dew_pressure` – Dew pressure of an ideal mixture: `flash2_TV` with `beta = 1` succeeds in the first pass, from any starting pressure and compositions, with the exact value `1/Σ (z_i/Psat_i)`, the feed as vapour and the liquid of Raoult's law.
* `C118_dew_le_bubble` – The dew pressure is never above the bubble pressure.
* `C118_bubble_temperature` – Bubble temperature, K-values independent of composition and rising with temperature: the true bubble temperature (`Σ z_i K_i = 1`), given as starting value, is returned as such in the first pass of `flash2_PV`, provided the components are all present and not all equally volatile.
* `C118_any_feed` – Feeds need not be normalised: only the proportions matter.

Note: Needs an equilibrium pressure of at least 1e-9 Pa, for the complex step in the Newton solver.

### C119 Law of randomly drawn chain lengths (proved)

Code: `distributions/base.py:604-624`, `distributions/analyticaldistributions.py:117-118`, `distributions/analyticaldistributions.py:214-215`, `distributions/analyticaldistributions.py:313-316`, `distributions/analyticaldistributions.py:417-420`. Model: `Model/Dist.lean`, `Model/RandomLength.lean`. Proofs: `Props/RandomLength.lean`.

Samplers are oracle random variables on an arbitrary probability space, with contracts taken from the documentation of numpy.random.Generator (Spec/RandomLength.lean). The event rint(X) = k is squeezed between X in the open and X in the closed interval around k, which have the same probability, so the tie rule does not matter; cdf is the partial integral of the density by C19. The examples construct such random variables, so the contracts are not contradictory.

* `C119_flory` – A Flory chain length drawn by `random()` equals `k` with probability `pdf(k)` for every `k ≥ 1`, and is never below 1.
* `C119_poisson` – A Poisson chain length drawn by `random()` equals `k` with probability `pdf(k)` for every `k ≥ 1`, and is never below 1.
* `C119_lognormal` – A log-normal chain length drawn by `random()` equals `k ≥ 1` with probability `cdf(k + 1/2) - cdf(k - 1/2)`, equals 0 with probability `cdf(1/2)`, and is never negative.
* `C119_schulzzimm` – The same for the Schulz-Zimm distribution.
* `C119_rounding` – The log-normal and Schulz-Zimm lengths are whole numbers within one half of the number drawn, the even one of the two at a tie.
* `C119_zero_length_false` – (finding) `random()` of a log-normal or Schulz-Zimm distribution returns chains of length 0 with positive probability, whatever `DPn` and `PDI > 1`.
* `C119_zero_length_fraction` – (finding) For the Schulz-Zimm distribution with `PDI = 2` the fraction of chains of length 0 is `1 - exp(-1/(2 DPn))`.

Note: C119_zero_length_false and C119_zero_length_fraction are findings. The laws of the numpy samplers are hypotheses; independence of several draws (shape) is not modelled.

### C120 Comparing, searching and iterating distributions (proved)

Code: `distributions/base.py:52-56`, `distributions/base.py:745-758`, `distributions/base.py:817-822`. Model: `Model/Dist.lean`, `Model/DistProtocol.lean`, `Model/Float.lean`, `Model/Mixture.lean`, `Model/Utils.lean`. Proofs: `Props/DistProtocol.lean`.

The dispatch of the Python operators over the special methods that the classes define is written out (Model/DistProtocol.lean); Mw of a mixture is the weight average of C22; membership follows the keys of the shared dict through the evaluation of the sum.

* `C120_compare` – `<` and `>` compare the mass-average molar masses of distributions (individual or mixture), and are each other's converse.
* `C120_strict_weak_order` – On distributions that have an `Mw`, `<` is a strict weak order: irreflexive, asymmetric, transitive, and "neither is smaller" is transitive. This is what `sorted`, `min` and `max` need.
* `C120_mixture_between` – A mixture with positive weights never compares below all of its components nor above all of them.
* `C120_membership` – After `m = w1*D1 + w2*D2 + …` with positive weights, `D in m` holds exactly for the distributions that appear in the expression, and `m` is true.
* `C120_iteration_false` – (finding) No mixture can be iterated over, although it defines `__iter__` and `in` works: `iter(m)`, and with it `for d in m` and `list(m)`, raises `TypeError`.
* `C120_empty_comparison_false` – (finding) A weight of zero gives the empty mixture, which is false, and every comparison with it raises `ZeroDivisionError`. `<=` is not supported for any two distributions.

Note: C120_iteration_false and C120_empty_comparison_false are findings. Moments are real numbers (no NaN).

### C121 Layout of printed objects (proved)

Code: `utils/tools.py:461-496`, `utils/tools.py:499-527`. Model: `Model/Repr.lean`. Proofs: `Props/Repr.lean`.

Strings are lists of characters; the lines are obtained with List.splitOn, which distributes over the joins.

* `C121_aligned` – `custom_repr` with attribute texts of one line each gives one line per attribute, in order; every line starts with the name and a colon, and the value starts in the same column `width + nspaces + 1` of every line, where `width` is the length of the longest name: nothing is cut off, and between colon and value there are only spaces, at least `nspaces`.
* `C121_read_back` – Hence the values can be read back: the text determines the attribute texts.
* `C121_lines` – With attribute texts of several lines: the name and a colon stand on a line of their own, followed by the lines of the text, each indented by two spaces; single-line attributes are as before.
* `C121_matrix` – `pprint_matrix` of a matrix with `n ≥ 1` rows gives `n` lines, each ended by a newline. Row `i` is the elements separated by blanks between brackets; from the second row on it is preceded by `nspaces + 1` blanks, so that after a label of `nspaces` characters the elements of all rows start in the same column.

Note: The texts of attribute values and formatted elements are inputs; nspaces is a natural number.

### C122 Engineering formulas do not depend on the choice of units (proved)

Code: `flow/friction.py:14-783`, `flow/rheology.py:19-291`, `flow/prv.py:42-475`, `hmt/hex.py:14-147`, `hmt/diffusion.py:17-70`, `hmt/diffusion.py:513-565`, `reactors/rtd.py:22-346`. Model: `Model/Diffusion.lean`, `Model/Flow.lean`, `Model/PDiv.lean`, `Model/Prv.lean`, `Model/Rheology.lean`, `Model/Rtd.lean`. Proofs: `Props/Units.lean`.

Each quotient is shown to scale (pdiv with scaled arguments raises in the same cases), friction factors see the same Reynolds number; the liquid valve by induction over the iterations; the dispersion model by change of variables in the integral.

* `C122_hagen_poiseuille` – laminar pressure drop in other units of mass, length and time.
* `C122_darcy_weisbach` – Darcy–Weisbach pressure drop in other units.
* `C122_tube` – pressure drop in a tube; the friction factor and the choice of regime do not change.
* `C122_packed_bed` – pressure drop of a packed bed in other units.
* `C122_lockhart_martinelli` – two-phase pressure drop of Lockhart and Martinelli; the regimes do not change.
* `C122_mueller_bonn` – two-phase pressure drop of Müller-Steinhagen and Heck (Bonn) in other units.
* `C122_stokes` – terminal velocity of Stokes in other units.
* `C122_power_law` – power-law viscosity; the consistency has the unit viscosity · time^(n-1).
* `C122_cross` – Cross viscosity in other units.
* `C122_cross_modified` – modified Cross viscosity; `C` is a reciprocal stress.
* `C122_carreau_yasuda` – Carreau–Yasuda viscosity in other units.
* `C122_WLF` – the WLF shift factor with temperatures and `C2` in other units of temperature difference.
* `C122_plane_wall` – overall heat transfer coefficient of a plane wall in other units.
* `C122_cylindrical_wall` – overall heat transfer coefficient of a tube wall in other units.
* `C122_composite` – diffusivity of a composite in other units.
* `C122_semiinf` – the concentration profile does not depend on the units of length and time.
* `C122_rtd_density` – residence-time densities have the unit 1/time.
* `C122_rtd_cumulative` – cumulative residence-time distributions have no unit.
* `C122_relief_gas` – gas relief valves: flow, pressure, temperature and molar mass rescaled; the critical/subcritical decision is unchanged.
* `C122_relief_2phase` – two-phase relief valves.
* `C122_relief_subcooled` – relief valves for subcooled liquids.
* `C122_relief_liquid` – liquid relief valves, with the viscosity rescaled so that the Reynolds number is unchanged.

Note: vt_sphere and fD_Colebrook iterate with absolute tolerances and are not included; steam sizing has dimensional constants.

### C123 Principle of corresponding states (partial)

Code: `thermo/eos/cubic.py:30-658`, `thermo/eos/virial.py:20-243`, `thermo/eos/base.py:36-110`, `properties/pvt/mixing_rules.py:1-156`, `properties/pvt/virial.py:1-123`, `properties/pvt/volume.py:12-70`, `properties/vaporization/pvap.py:14-173`, `properties/vaporization/dhvl.py:14-266`, `properties/equations/vapor_pressure.py:130-366`. Model: `Model/Eos.lean`, `Model/Equations.lean`, `Model/Mixing.lean`, `Model/Rackett.lean`, `Model/Vaporization.lean`. Proofs: `Props/Corresponding.lean`.

a, b, A, B scale by homogeneity of the square roots; the cubic's coefficients are then the same numbers. For the counterexample the two exponents differ by A/(Bd) times a positive logarithm times sqrt(a)(sqrt(tau^2/pi)-1).

* `C123_cubic` – two fluids that differ in their critical constants only have, at the same reduced temperature and pressure, the same compressibility factors; pressures at corresponding volumes are in the ratio of the critical pressures, second virial coefficients in that of the critical volumes.
* `C123_fugacity_partial` – without interaction parameters, fugacity coefficients and K-values are the same.
* `C123_interaction_false` – with interaction parameters (even zero ones) the fugacity coefficients do not obey the principle: the fugacity coefficients of a pure gas change when temperature and pressure units change, unless the change of units leaves `T²/P` alone.
* `C123_departures` – departure functions (at corresponding reference pressures): energies are in the ratio of the critical temperatures, entropies are equal.
* `C123_virial` – the virial equation.
* `C123_pseudocritical` – pseudocritical constants of a mixture.
* `C123_vapour_pressure` – vapour pressures.
* `C123_vaporization` – enthalpies of vaporisation.
* `C123_rackett` – saturated liquid volumes.

Note: Proved except where the code breaks the principle: phi (hence K) with interaction parameters, refuted by C123_interaction_false.

### C124 Listing a substance more than once changes nothing (partial)

Code: `thermo/acm/nrtl.py:99-251`, `thermo/acm/wilson.py:81-175`, `thermo/acm/uniquac.py:101-243`, `thermo/acm/floryhuggins.py:90-322`, `thermo/acm/base.py:47-48`, `thermo/eos/cubic.py:91-398`, `thermo/eos/virial.py:74-243`, `properties/pvt/mixing_rules.py:48-156`, `properties/pvt/virial.py:107-123`, `properties/viscosity/vapor.py:70-345`, `properties/thermal_conductivity/vapor.py:144-235`, `thermo/flash/vle.py:192-613`, `copolymerization/multicomponent.py:221-392`. Model: `Model/Acm.lean`, `Model/Copo.lean`, `Model/CopoMulti.lean`, `Model/Eos.lean`, `Model/Flash.lean`, `Model/Mixing.lean`, `Model/RootsScalar.lean`, `Model/Transport.lean`. Proofs: `Props/Split.lean`.

Everything reduces to one identity, sum_j w_j g(s j) = sum_i g i (summation over fibres). Double sums with case distinctions on the diagonal are first written as full double sums: the geometric mean (zero diagonal), the virial cross coefficients (identical components give the pure value) and the Stiel-Thodos loop. The inside-out flashes are followed iteration by iteration as in C110; minima over positive entries only depend on the set of entries. Copolymer composition and radical fractions follow from uniqueness of the stationary solution (C33, C34).

* `C124_nrtl` – NRTL: an object made with the parameters repeated is accepted, has the same excess energy, and every portion has the activity coefficient of its substance.
* `C124_wilson` – Wilson.
* `C124_uniquac` – UNIQUAC, for nonnegative mole fractions.
* `C124_flory_huggins` – Flory-Huggins: the activity of a substance is divided over its portions like its volume fraction.
* `C124_entropy` – The exception: portions of one substance are counted as distinguishable by the ideal entropy of mixing, which grows by `-R Σ x'_j ln w_j`, and with it `Dgmix` and `Dsmix`.
* `C124_cubic` – Cubic equations of state with a symmetric matrix of interaction parameters, zero on the diagonal, or none: pressure, compressibility factors, second virial coefficient, Helmholtz departure; every portion has the fugacity coefficient and the K-value of its substance.
* `C124_cubic_false` – (finding). The diagonal of the interaction parameters, which does not affect the mixture parameter of the original list, matters for the portions: the code neither sets it to zero nor reports it.
* `C124_virial` – Virial equation of state, for positive critical constants.
* `C124_mixtures` – Mixing rules and mixture correlations, for positive gas constant and critical constants.
* `C124_flash` – The flashes at given pressure and vapour fraction, and at given temperature and vapour fraction: with the feed and the starting values divided, and K-values that do not depend on the division, iteration by iteration the same, so that the same temperature or pressure, phase amounts, message or error is returned.
* `C124_rachford_rice_partial` – Rachford-Rice: the residual and its derivative, and with the residuals at 0 and 1 the answers for a feed that is all liquid or all vapour. (The starting interval depends on how the feed is divided, so that the iterates in the two-phase region do, too.)
* `C124_rachford_rice_false` – (finding). The Rachford-Rice solver does not return the same iterate: a feed of which one half has K = 4 and the other half K = 1/4 is solved in one iteration, and needs more if the second half is listed as two equal parts.
* `C124_copolymer` – Multicomponent copolymerisation: each portion of a monomer is incorporated in its proportion.

Note: Proved for everything named in the statement, with the three exceptions proved as such (C124_entropy, C124_cubic_false, C124_rachford_rice_false). Missing: flash2_PT, whose inner Rachford-Rice solve starts from an interval that depends on the individual feed fractions, so that only residual and derivative are invariant.

### C125 Estimation methods are the published equations (proved)

Code: `properties/diffusion/liquid.py`, `properties/diffusion/vapor.py`, `properties/viscosity/vapor.py`, `properties/thermal_conductivity/vapor.py`, `properties/vaporization/pvap.py`, `properties/vaporization/dhvl.py`, `properties/pvt/virial.py`. Model: `Model/Eos.lean`, `Model/Transport.lean`. Proofs: `Props/Published.lean`.

The equations are written once more in Spec/Published.lean, from the literature and in its units (g/mol, cP, µP, cm³/mol, bar, atm, cm²/s), with powers and quotients arranged as in the publication. The theorems unfold both sides and cancel the conversion factors; rounded factors are bounded by comparing integer powers (sixth powers for Jossi, Dean-Stiel and Stiel-Thodos, tenth for Wilke-Chang) with exact rational arithmetic. Not covered: the factor A of Lucas' mixture rule and quantum factors, which the code leaves out.

* `C125_wilke_chang` – `DL_Wilke_Chang` is the equation of Wilke and Chang.
* `C125_wilke_chang_si` – The constant 5.9e-17 of the docstring of `DL_Wilke_Chang`, which works in SI units, agrees within 1 %.
* `C125_hayduk_minhas` – `DL_Hayduk_Minhas` is the equation of Hayduk and Minhas for the system named.
* `C125_wilke_lee` – `DV_Wilke_Lee` is the equation of Wilke and Lee, for two vapours and for a vapour in air.
* `C125_stokes_einstein` – `DL_Stokes_Einstein`: the drag `6π μ R` times the diffusion coefficient is the thermal energy.
* `C125_jossi` – `MUVPC_Jossi` solves the equation of Jossi, Stiel and Thodos for the residual viscosity, with the constant of the unit conversion rounded by less than one part in 10⁹.
* `C125_dean_stiel` – `MUVMXPC_Dean_Stiel` solves the equation of Dean and Stiel, at the pseudocritical constants of the mixture, with the constant of the unit conversion rounded by less than 0.1 %.
* `C125_lucas_polarity` – `_MUV_Lucas_FP0` is the polarity factor of Lucas; for a polar vapour the compressibility factor must not exceed 0.292.
* `C125_lucas` – `MUV_Lucas` is the method of Lucas, in both regimes.
* `C125_lucas_mixture` – `MUVMX_Lucas` is the method of Lucas at the pseudocritical constants, with the mean polarity factor.
* `C125_stiel_thodos` – `KVPC_Stiel_Thodos` solves the equation of Stiel and Thodos for the residual conductivity, and refuses reduced densities from 2.8 on.
* `C125_stiel_thodos_gamma` – The group used by `KVPC_Stiel_Thodos` is the `Γ` of the literature, `210 (Tc M³/Pc⁴)^(1/6)` with g/mol and bar, within 2 %.
* `C125_lee_kesler` – `PL_Lee_Kesler`: the logarithm of the reduced vapour pressure is `f⁽⁰⁾ + ω f⁽¹⁾` with the acentric factor of Lee and Kesler.
* `C125_ambrose_walton` – `PL_Ambrose_Walton`.
* `C125_wilson` – `PL_Wilson`.
* `C125_pitzer` – `DHVL_Pitzer`: `ΔH/(R Tc) = 7.08 (1 - Tr)^0.354 + 10.95 ω (1 - Tr)^0.456`.
* `C125_vetere` – `DHVL_Vetere`.
* `C125_kistiakowsky_vetere` – `DHVL_Kistiakowsky_Vetere`: the entropy of vaporisation `ΔH/Tb` is the published one for the kind of substance; that of esters is 3 % above that of other polar compounds.
* `C125_watson` – `DHVL_Watson`: `ΔH` goes with the power 0.38 of the distance to the critical temperature.
* `C125_abbott` – `B_pure` is Abbott's correlation.

Note: Published equations transcribed from the literature in their own units (Spec/Published.lean).

### C126 Functions evaluate the formulas of their documentation (proved)

Code: `hmt/correlations.py`, `reactors/rtd.py`, `flow/friction.py`, `flow/rheology.py`, `thermo/eos/cubic.py`. Model: `Model/Correlations.lean`, `Model/Dist.lean`, `Model/Eos.lean`, `Model/Flow.lean`, `Model/Rheology.lean`, `Model/RootsScalar.lean`, `Model/Rtd.lean`. Proofs: `Props/Documented.lean`.

The docstring formulas are an independent specification; the theorems identify the model with it for all arguments and regimes. The constant of Nu_plate is bounded through integer powers; the dispersion integral by a change of variable; the velocity in the bank is shown to be the maximum over the two passages.

* `C126_haaland` – `fD_Haaland` satisfies Haaland's equation.
* `C126_tube` – `Nu_tube`: the documented expressions, the turbulent one with a friction factor satisfying Haaland's equation.
* `C126_plate` – `Nu_plate`: laminar below `Re = 5e5` (the docstring has the inequality reversed), mixed above, with a constant that rounds to 871.
* `C126_forced` – `Nu_cylinder`, `Nu_sphere`, `Nu_drop`.
* `C126_free` – `Nu_cylinder_free`, `Nu_sphere_free`.
* `C126_plate_free` – `Nu_plate_free`, for the three orientations.
* `C126_combined` – `Nu_combined`: the cube of the result is the sum or the difference of the cubes.
* `C126_bank` – `Nu_cylinder_bank`: the documented product with the constants of Zukauskas for the layout, the correction for the number of rows, and the Reynolds number of the narrowest passage.
* `C126_tanks` – `E_tanks_series`, `F_tanks_series` at finite times.
* `C126_laminar` – `E_laminar_flow`, `F_laminar_flow` at finite times.
* `C126_dispersion_E` – `E_dispersion_model` at positive times.
* `C126_dispersion_F` – `F_dispersion_model` at positive times. For `Pe ≤ 100` it is the documented integral *without* the factor `1/t̄`, so the documented expression is wrong for every mean residence time other than one.
* `C126_dispersion_F_false` – The expression in the docstring of `F_dispersion_model` is not the value returned, unless the mean residence time is one.
* `C126_Pe_tube` – `Pe_tube`.
* `C126_pressure_drop` – `DP_Hagen_Poiseuille`, `DP_Darcy_Weisbach`, `DP_packed_bed` with the friction factor of the docstring.
* `C126_lockhart_martinelli` – `DP_GL_Lockhart_Martinelli` multiplies the liquid pressure drop by `1 + C/X + 1/X²` once, as in the literature, ...
* `C126_lockhart_martinelli_false` – ... whereas the docstring calls that factor `φ_L` and multiplies by `φ_L²`, which is always larger: for *all* positive flows the returned value is below the documented one.
* `C126_mueller_bonn` – `DP_GL_Mueller_Bonn`: the equation of Müller-Steinhagen and Heck with Blasius' friction factors of the total flow.
* `C126_sphere` – `Cd_sphere`, `vt_Stokes`.
* `C126_rheology` – Rheology.
* `C126_WLF` – `aT_WLF`: `log10` of the shift factor, with the universal constants by default.
* `C126_cubic` – The parameters `a` and `b` of the three equations in reduced form. For Soave's equation with the default option the polynomial agrees with that of Graboski and Daubert up to a rounding of its last coefficient.

Note: Formulas transcribed from the LaTeX of the docstrings in Spec/Documented.lean with their own arrangement (negative exponents, roots as powers, factorials). Docstring errors are refuted by C126_lockhart_martinelli_false and C126_dispersion_F_false.

### C127 Relief-valve areas agree with ideal nozzle flow (partial)

Code: `flow/prv.py`. Model: `Model/Prv.lean`. Proofs: `Props/Nozzle.lean`.

The ideal flux is computed from its integral for the isentrope, the constant volume and the omega fluid; its maximum is located by the sign of the derivative of the squared flux (a strictly monotone function), and the area of the model is compared with it, bounding the rounded constants. The correlation for the critical pressure and the exact ratio both increase with omega, so they are compared on a grid of 1292 points, with enclosures computed recursively in the kernel (Lemmas/OmegaCrit.lean). The closed formula for subcooled inlets is the same equation with the logarithm cut after two terms; the remainder bounds the loss of flux through polynomial inequalities in Bernstein form.

* `C127_gas` – `area_relief_gas`: the reported critical pressure is where the isentropic flow of the gas chokes, and the area is the mass flow divided by the flux of that flow (at the critical pressure, or at the back pressure if larger) within 0.01 % (choked) or 0.1 % (subcritical).
* `C127_liquid` – `area_relief_liquid`: the area solving the sizing equations (which the function returns within 0.0031 %, `C60_liquid_accurate`) passes the flow of a liquid of density `1000 Gl` at the ideal flux `√(2 ρ ΔP)` times the coefficients and the viscosity correction within 0.05 %; and the Reynolds number in that correction is `ρ u d / μ` for the mean velocity in the orifice and its diameter, within 0.05 %.
* `C127_two_phase` – `area_relief_2phase` for the fluid of the omega method (specific volume linear in `1/p` through the two given points): there is a pressure at which its ideal flow chokes. In subcritical flow the area is the mass flow divided by the ideal flux, within 0.01 %. In choked flow it is the mass flow divided by the choked flux times (exact critical pressure / reported critical pressure), within 0.01 %. If the omega parameter `9 (v9 / v1 - 1)` is between 0.01 and 1000, the reported critical pressure is within 0.25 % of the exact one, and the area in choked flow within 0.27 %.
* `C127_two_phase_low_false` – Outside that range the correlation is useless: for an omega parameter of 0.0001 (a mixture whose volume hardly changes, at 10 bar) the reported critical pressure is more than 10 % below the exact one.
* `C127_subcooled_partial` – `area_relief_2phase_subcooled` for a liquid that flashes at `Ps` along the curve of the omega method. If no critical pressure is reported (high subcooling), the ideal flow chokes exactly at the saturation pressure. Otherwise it chokes below. The area is the mass flow divided by the ideal flux at the critical pressure used (saturation pressure or reported critical pressure) or at the back pressure if larger, within 0.05 %, so it is never smaller than the choked area by more than that. The reported critical pressure is never above the exact one, and the area never exceeds the choked area by more than 3.1 % when the flow chokes. Missing: low subcooling with a back pressure above the saturation pressure, see `C127_subcooled_liquid_false`.
* `C127_subcooled_liquid_false` – (false as stated) With low subcooling and a back pressure above the saturation pressure the liquid does not flash, but the function still uses the two-phase curve: the flux it works with exceeds the flux `√(2 ρ ΔP)` of the liquid, for all such inputs, ...
* `C127_subcooled_undersized_false` – ... by more than a factor of two for a liquid at 10 bar, saturated at 9.5 bar, that doubles its volume at 90 % of that, discharged to 9.9 bar: the area is less than half of what the liquid needs.

Note: Specification: Spec/Nozzle.lean (integral of the specific volume). Missing in C127_subcooled_partial: low subcooling with back pressure above saturation, where the claim is false (C127_subcooled_liquid_false, C127_subcooled_undersized_false). The correlation for the critical pressure of two-phase flow is bounded for omega between 0.01 and 1000 (outside: C127_two_phase_low_false).

### C128 The documented examples come out as printed (proved)

Code: `stepgrowth/solutions.py`, `copolymerization/binary.py`, `copolymerization/multicomponent.py`, `flow/friction.py`, `flow/prv.py`, `flow/rheology.py`, `hmt/correlations.py`, `hmt/hex.py`, `properties/vaporization/pvap.py`, `properties/vaporization/dhvl.py`, `properties/diffusion/liquid.py`, `properties/diffusion/vapor.py`, `properties/viscosity/vapor.py`, `properties/thermal_conductivity/vapor.py`, `kinetics/coefficients/eyring.py`, `distributions/analyticaldistributions.py`, `math/derivatives/ode.py`. Model: `Model/Acm.lean`, `Model/Copo.lean`, `Model/CopoMulti.lean`, `Model/Correlations.lean`, `Model/Dist.lean`, `Model/DistMisc.lean`, `Model/Flow.lean`, `Model/Kinetics.lean`, `Model/Ode.lean`, `Model/PDiv.lean`, `Model/Prv.lean`, `Model/Rackett.lean`, `Model/Rheology.lean`, `Model/RootsScalar.lean`, `Model/StepGrowth.lean`, `Model/Transport.lean`, `Model/VrentasDuda.lean`. Proofs: `Props/RecordedEst.lean`, `Props/RecordedFlow.lean`, `Props/RecordedHmt.lean`, `Props/RecordedMisc.lean`, `Props/RecordedPoly.lean`.

Rational cases are evaluated by the kernel. Real cases use a verified interval arithmetic (Lemmas/Interval.lean: fixed-point intervals with 128 fractional bits for field operations, powers, exp, log, square root and pi), run by kernel reduction; branch conditions and nonzero divisors are proved by it too.

* `C128_vaporization` – The recorded outputs: vapour pressures and enthalpies of vaporisation.
* `C128_diffusivity` – The recorded outputs: diffusivities.
* `C128_conductivity` – The recorded outputs: thermal conductivities.
* `C128_viscosity` – The recorded outputs: viscosities.
* `C128_Rackett` – The recorded outputs: `VL_Rackett`.
* `C128_VrentasDuda` – The recorded outputs: `VrentasDudaBinary`.
* `C128_friction` – The recorded outputs: pressure drops, friction factor, drag and Stokes velocity.
* `C128_Lockhart_Martinelli` – The recorded outputs: `DP_GL_Lockhart_Martinelli`.
* `C128_Mueller_Bonn` – The recorded outputs: `DP_GL_Mueller_Bonn`.
* `C128_rheology` – The recorded outputs: viscosity models and the WLF shift factor.
* `C128_walls` – The recorded outputs: wall heat transfer coefficients and composite diffusivity.
* `C128_relief` – The recorded outputs: relief areas of gas, two-phase and subcooled service.
* `C128_relief_liquid` – The recorded outputs: `area_relief_liquid`.
* `C128_Nu` – The recorded outputs: heat transfer correlations.
* `C128_kinetics` – The recorded outputs: kinetic coefficients; that of `Eyring` with the gas constant 8.314462618 of the `scipy` release used then.
* `C128_FloryHuggins` – The recorded outputs: `FloryHuggins2_activity`.
* `C128_Flory` – The recorded outputs: `Flory` (averages, mass pdf and cdf at the number average).
* `C128_LogNormal` – The recorded outputs: `LogNormal.pdf`.
* `C128_SchulzZimm` – The recorded outputs: `SchulzZimm.pdf`.
* `C128_Poisson` – The recorded outputs: `Poisson.pdf`.
* `C128_ode_rk` – The recorded outputs: `ode_rk`.
* `C128_stepgrowth` – The recorded averages of the step-growth functions.
* `C128_binary` – The recorded results of the functions for two monomers and for moments of distributions.
* `C128_multicomponent` – The recorded results of the functions for several monomers.
* `C128_tuples` – The recorded triad fractions.
* `C128_Qe` – The recorded reactivity ratios estimated from Q-e values.
* `C128_standards` – The recorded conversion between polymer standards.

Note: Not covered: examples whose value comes from an iterative solver or special function not evaluated here (Colebrook, vt_sphere, roots, Gold, cdfs other than Flory's, diffusion profiles) and those whose printed digits are rounding noise (finite differences). Floats of the examples are read as exact decimals. The Eyring example reproduces with the gas constant 8.314462618 of older scipy releases, not with the present exact value.

### C129 Accuracy of the friction factor correlations (proved)

Code: `flow/friction.py:284-345`, `flow/friction.py:348-398`, `math/roots/scalar.py`. Model: `Model/Flow.lean`, `Model/RootsScalar.lean`. Proofs: `Props/Colebrook.lean`, `Props/Haaland.lean`.

On the scale u = 1/sqrt(f) Colebrook's function is concave, with a slope between known limits; the value and slope seen by the complex step are bounded to 1e-20; one Newton pass squares the relative error (3.7 t^2), so that from Haaland's value at most three evaluations are needed. Haaland against Colebrook: on a logarithmic scale the difference is a function of one variable, bounded piecewise with interval arithmetic.

* `C129_colebrook` – For every `2300 ≤ Re ≤ 1e8` and relative roughness up to 0.05, `fD_Colebrook` converges (it never raises), to within 1.01e-6 of the solution of Colebrook's equation.
* `C129_haaland` – Haaland's explicit friction factor is within 1.5 % of the solution of Colebrook's equation for `4000 ≤ Re ≤ 1e8` and relative roughness up to 0.05.
* `C129_haaland_transition` – From the end of laminar flow, `2300 ≤ Re`, it is at most 1.5 % below and 3 % above.

Note: Exact real arithmetic; the complex step of root_newton (the equation evaluated at f + i eps) is modelled and its error bounded.

### C130 vt_sphere returns the terminal velocity of the sphere (partial)

Code: `flow/friction.py:401-445`, `flow/friction.py:448-498`, `flow/friction.py:501-571`, `math/roots/scalar.py`. Model: `Model/Flow.lean`, `Model/RootsScalar.lean`. Proofs: `Props/FlowAccuracy.lean`, `Props/FlowConverges.lean`, `Props/FlowConvergesAll.lean`, `Props/FlowConvergesHigh.lean`, `Props/FlowFast.lean`, `Props/FlowSlope.lean`, `Props/FlowSmall.lean`.

The drag coefficient at a slightly complex Reynolds number is bounded in a cone, which gives the value and slope seen by the solver; on a logarithmic scale the right-hand side of the balance has an elasticity between 1/4 and 1/2 up to Re = 50, so each Newton pass shrinks the distance to the root by 3/4, from the starting value 1 m/s; beyond, the elasticity is bounded on the ranges up to 60, 100 and 3000 and above, the Newton map is written in logarithms, and a weighted distance (negative deviations count 1.2) shrinks by 0.72 per pass at any Reynolds number, and the plain distance by 0.6 from Re = 3000 on, where the elasticity is within [-0.15, 0.05]; with an upward slope at 1 m/s the first pass lands at between 0.63 and 150 times the root, whence the weighted distance shrinks by 0.65 per pass; the stopping test then bounds the error. For colloids the first iterates are followed explicitly. For fast spheres the drag coefficient is expanded to first order in the complex step (the slope seen by the solver), and at the negative second iterate its imaginary part is bounded below through the branch of the complex powers.

* `C130_accuracy_partial` – (partial) A terminal velocity returned by `vt_sphere` that is at least 1e-5 m/s is within 4e-6 m/s of the solution of the drag balance. Missing: that it converges, and the accuracy of smaller values, which is refuted by `C130_colloid_false`.
* `C130_converges_partial` – (partial) For every sphere with a terminal velocity between 2e-5 and 1 m/s and a Reynolds number up to 40 at 1 m/s, `vt_sphere` converges, and is within 4e-6 m/s of the solution of the drag balance. Missing: larger spheres (see `C130_converges_all_partial`), and slower ones, for which accuracy is refuted by `C130_colloid_false`.
* `C130_converges_all_partial` – (partial) For every sphere with a terminal velocity between 2e-5 and 1.33 m/s, at any Reynolds number, `vt_sphere` converges, and is within 4e-6 m/s of the solution of the drag balance. Missing: faster spheres, for which convergence is refuted by `C130_fast_false`, and slower ones, for which accuracy is refuted by `C130_colloid_false`.
* `C130_large_partial` – (partial) For every sphere with a Reynolds number of at least 3000 at 1 m/s (in water: 3 mm) and a terminal velocity between 1.33 and 20 m/s, `vt_sphere` converges, and is within 4e-6 m/s of the solution of the drag balance. Missing: smaller spheres faster than 1.33 m/s, for many of which convergence is refuted by `C130_fast_false`, and velocities above 20 m/s.
* `C130_fast_false` – (false for fast spheres) Whenever the drag balance slopes downwards at the first guess of 1 m/s (by more than 0.01), the first Newton step leads to a negative velocity, where the complex step sees a huge imaginary part and therefore takes the next step for negligible: `vt_sphere` reports success and returns a velocity of -1 m/s or less.
* `C130_raindrop_false` – (false as stated) A 2 mm rain drop (1000 kg/m³) in air (1.2 kg/m³, 0.018 mPa s): the terminal velocity is positive, the value returned negative.
* `C130_slope_partial` – (partial) If the drag balance slopes upwards (by at least 0.01) at the first guess of 1 m/s and the Reynolds number there is at least 160, `vt_sphere` converges for every terminal velocity from 2e-5 to 20 m/s, and is within 4e-6 m/s of the solution of the drag balance; if it slopes downwards, see `C130_fast_false`. Missing: slopes within 0.01 of zero, lower Reynolds numbers at terminal velocities above 1.33 m/s, and velocities above 20 m/s.
* `C130_colloid_false` – For every sphere with a Stokes velocity below 9 nm/s (and `rho Dp / mu ≤ 1 s/m`; for example any particle below 0.2 µm in water), `vt_sphere` returns at least thirty times the Stokes velocity, which is an upper bound of the terminal velocity: the solver stops at an absolute residual of 1e-6 m/s.

Note: Relative accuracy refuted for colloids (C130_colloid_false) and for fast spheres, for which a negative velocity is returned (C130_fast_false, C130_raindrop_false). Convergence proved at any Reynolds number for terminal velocities between 2e-5 and 1.33 m/s (C130_converges_all_partial); up to 20 m/s for rho Dp/mu of at least 3000 s/m (C130_large_partial), and for at least 160 s/m if the balance has a slope of at least 0.01 at 1 m/s (C130_slope_partial); not decided for slopes within 0.01 of zero, nor for faster spheres with an upward slope and rho Dp/mu below 160 s/m.

### C131 Accuracy of the numerical derivatives (proved)

Code: `math/derivatives/ndiff.py:26-72`, `math/derivatives/ndiff.py:75-125`, `math/derivatives/ndiff.py:128-202`, `math/derivatives/ndiff.py:205-299`, `math/derivatives/ndiff.py:302-379`. Model: `Model/NDiff.lean`. Proofs: `Props/NDiffAcc.lean`.

The loops are reduced to their difference quotients (lemmas of C10); truncation is bounded by integrating a bound on the next derivative, noise by the triangle inequality, and the documented step sizes make the two of the same order. For the complex step, Taylor series and Cauchy's estimates.

* `C131_jacobian` – Half of the digits of the Jacobian are right. Let `s = max |x_c| |1/sclx_c|` be the magnitude of the variable, `F` that of the function (`f` is `g` up to the unreliable digits of numbers of size `F`), and let the partial derivative `D` change by at most `M` per unit. Then the error of the entry is at most `√η (M s/2 + 2 F/s)`, where `η = 10^(-ndigit)`.
* `C131_hessian` – A third of the digits of the Hessian are right. With `s k = max |x_k| |1/sclx_k|`, values of size `F` with `ndigit` reliable digits, and second derivatives `DD` that change by at most `M` per unit, the error of every entry is at most `η^(1/3) (M (s_i + s_j) + 4 F/(s_i s_j))`.
* `C131_centered` – The centred quotient is of second order: with values of size `F` and the third derivative bounded by `M`, the error is at most `M s²/6 + eps F/s`, where `s` is the step.
* `C131_optimal_step` – The default step is the documented optimum: it minimises that error bound when the third derivative is as large as the function.
* `C131_hessian2_diagonal` – The diagonal of `hessian2_centered` is of second order: with values of size `F` and the fourth derivative along an axis bounded by `M`, the error is at most `M s²/3 + eps F/s²`, where `s` is the step along the axis.
* `C131_hessian2_mixed` – So are the other two entries: the error is at most `M (s₁² + s₂²)/2 + eps F/(s₁ s₂)`.
* `C131_complex` – The complex step is very accurate for every analytic function, not only for polynomials: if `f` is analytic in the disc of radius `R` around `x` (`R ≥ 2 eps`), real on the real axis and bounded by `B` on the circle, the derivative is right to `2 B eps²/R³` and the value to `2 B (eps/R)²`.

Note: Errors of the function values are arbitrary within the bound; the arithmetic of the quotients themselves is exact.

### C132 Convergence of the open solvers: Newton, secant, Wegstein (proved)

Code: `math/roots/scalar.py: root_newton, root_secant`, `math/fixpoint/wegstein.py: fixpoint_wegstein`, `math/derivatives/ndiff.py: derivative_complex`. Model: `Model/FixPoint.lean`, `Model/NDiff.lean`, `Model/RootsScalar.lean`. Proofs: `Props/RootsConv.lean`.

Newton: the mean value theorem gives e' <= 2K/m e^2 + noise, where the noise comes from the analytic complex-step bound of C131; an invariant e_k <= 2 rho/2^(2^k) + 4 noise is carried through the loop. Secant: e'' <= 2K/m e e' gives the Fibonacci exponents; the difference of values cannot count as zero while the points are more than tolx apart. Wegstein: |q| <= lam/(1-lam), so one update multiplies the error by at most 2 lam/(1-lam). The cycle is checked through the three loop states.

* `C132_newton` – `root_newton` converges quadratically. Let `f` be analytic in the discs of radius `R` around the points of the interval, real on the real axis and bounded by `B` there. From every starting point of the interval the call succeeds within `N + 1` iterations as soon as `tolf` covers the error `2ρ/2^(2^N)` of the `N`-th iterate; the result lies within `max (tolf/m) (2 tolx)` of the root. Here `δ` is the error of the complex step, `2 B eps²/R³` or `2 B eps²/R²`.
* `C132_secant` – `root_secant` converges with the order of the golden ratio: from two starting points of the interval more than `tolx` apart, the call succeeds within `N + 1` iterations as soon as `tolf` covers the error `2ρ/2^fib(N+3)`, and the result lies within `max tolx (tolf/m)` of the root. (`tolx` must not be below the rounding threshold `eps·max(Lρ,1)/m` under which a difference of values counts as zero.)
* `C132_wegstein` – `fixpoint_wegstein` converges for every start and every bounds with `qmin ≤ 0 ≤ qmax` (the defaults are -5 and 0) when the components are uncoupled, `g(x)_i = h_i(x_i)`, and the slope of each `h_i` is at most `lam < 1/3` in magnitude: the error shrinks by `2 lam/(1 - lam)` per iteration.
* `C132_substitution` – Without acceleration (`qmin = qmax = 0`) `fixpoint_wegstein` is direct substitution, and it converges for every `g`, coupled or not, that contracts the weighted maximum norm towards the fixed point.
* `C132_wegstein_contraction_false` – The acceleration can destroy convergence: with its default parameters `fixpoint_wegstein` does not converge for every contraction. `bent` contracts distances by 145/204 < 0.72, so direct substitution converges from everywhere, but from 16 the accelerated iterates run through 16, 11, -1, 16, … for ever: whatever the iteration limit, the call reports failure.

Note: Exact arithmetic. The documentation of fixpoint_wegstein describes it as accelerating fixed-point iterations without claiming convergence; the refuted statement is the natural expectation that it converges where direct substitution does.
