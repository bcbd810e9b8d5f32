{
 "C01": {
  "status": "proved",
  "note": ""
 },
 "C02": {
  "status": "proved",
  "note": ""
 },
 "C03": {
  "status": "proved",
  "note": ""
 },
 "C04": {
  "status": "proved",
  "note": ""
 },
 "C05": {
  "status": "partial",
  "note": "Success certificate, coherence of all non-failed returns, counters, termination and the meaning of every stop message (C05_reasons) proved; coherence after a failed global step is false (C05_failed_step_coherence_false), the distance bound C05_failed_step_partial is what holds."
 },
 "C13": {
  "status": "partial",
  "note": "Bound holds for stretches whose end points differ; false for closed polylines (C13_closed_polyline_collapses, C13_error_bound_false) and for the distance to the edge rather than the line (C13_edge_distance_false)."
 },
 "C11": {
  "status": "partial",
  "note": "Forward integration proved, with convergence of all three orders; tf < t0 is false of the code (C11_backward_false, C11_wrong_direction_silently_wrong)."
 },
 "C14": {
  "status": "partial",
  "note": "Acceptance is exact. Which error a refused argument gives is proved for every argument (C14_refusal); it is not always the documented RangeError (C14_range_error_false: 0-d and n-d arrays)."
 },
 "C15": {
  "status": "partial",
  "note": "Conversion exact; T = 0 K is accepted although the message says it must be positive (C15_strictly_positive_false)."
 },
 "C71": {
  "status": "partial",
  "note": "Positive factors for float vectors; false for integer arrays (C71_scalex_integer_false)."
 },
 "C23": {
  "status": "partial",
  "note": "The property is false of the code: `m + d` and `d + m` update the dict of the mixture m in place and share it with the result (C23_operands_unchanged_false). Proved exactly instead: C23_add says for every pair of operands which object is returned, which weights it has and which existing mixture is changed; C23_sum_expression: sums w1*D1 + w2*D2 + ... change no existing mixture and hold the right weights."
 },
 "C30": {
  "status": "partial",
  "note": "Reported values are exact; C30_none: when None is reported, an azeotrope exists after all exactly if both ratios exceed 1 (C30_none_false) or both equal 1."
 },
 "C32": {
  "status": "partial",
  "note": "F1, kp, transitions and sequence lengths reduce to the terminal model; triads do not (C32_triads_reduce_false, different normalisation)."
 },
 "C40": {
  "status": "partial",
  "note": "All invariants hold; a rejected list call is not atomic (C40_atomic_false)."
 },
 "C75": {
  "status": "proved",
  "note": "Certificate proved; reported values can be spurious (C75_spurious_false)."
 },
 "C41": {
  "status": "proved",
  "note": ""
 },
 "C42": {
  "status": "partial",
  "note": "Ordering proved for all forms that return Mw below the gel point, NaN exactly from the gel point on for Stockmayer, Flory_Af, Miller_2. False for Miller_1 from the gel point on: it raises at the gel point and returns a mass average below that of the unreacted mixture beyond it (C42_miller1_beyond_gel, in general; C42_miller1_gel_false: even negative), and at zero conversion (Case_1 raises)."
 },
 "C76": {
  "status": "partial",
  "note": "Proved for all forms except Case_5, which is refuted with its docstring recipe (correct only without C)."
 },
 "C43": {
  "status": "partial",
  "note": "Pointwise algebra for all expression trees, range intersection, k(T0) = k0 for T0 > 0; T0 = 0 is accepted by the constructor and then every call raises (C43_zero_reference_false)."
 },
 "C44": {
  "status": "proved",
  "note": ""
 },
 "C45": {
  "status": "proved",
  "note": "iv is modelled by its power series."
 },
 "C77": {
  "status": "proved",
  "note": "iv is modelled by its power series."
 },
 "C78": {
  "status": "partial",
  "note": "False: A is read through a call at T = inf, which warns whenever Tmax is finite (C78_silent_false). C78_warns: exactly then."
 },
 "C46": {
  "status": "proved",
  "note": "For the laminar tube dF/dt = E except at tau/2, where E is the right derivative."
 },
 "C79": {
  "status": "partial",
  "note": "Consistent for Pe <= 100 but with mean tau*(1+2/Pe) (C79_average_false); for Pe > 100 F jumps at t = 0 (C79_start_false). quad is taken as exact."
 },
 "C70": {
  "status": "proved",
  "note": ""
 },
 "C80": {
  "status": "partial",
  "note": "Stored parameters and range are right; the reported parameters are the last trial of the solver (C80_reported_false). curve_fit is an oracle."
 },
 "C47": {
  "status": "partial",
  "note": "np.roots as exact oracle. C47_pressure bounds the pressure error of every returned Z by a multiple of eps^2 (and by zero when no complex pair lies within eps of the real axis); C47_nearly_real_false shows that the exact claim is false."
 },
 "C48": {
  "status": "proved",
  "note": ""
 },
 "C49": {
  "status": "partial",
  "note": "False as stated: C49_zero_interaction_false (phi with k=zeros differs from k=None). The two identities are proved for k=None; with a symmetric zero-diagonal interaction matrix C49_interaction gives the exact discrepancy (factor 2 sqrt(a_i)/am missing in delta)."
 },
 "C50": {
  "status": "proved",
  "note": ""
 },
 "C66": {
  "status": "proved",
  "note": ""
 },
 "C81": {
  "status": "proved",
  "note": ""
 },
 "C51": {
  "status": "proved",
  "note": ""
 },
 "C52": {
  "status": "proved",
  "note": ""
 },
 "C53": {
  "status": "proved",
  "note": ""
 },
 "C54": {
  "status": "proved",
  "note": ""
 },
 "C82": {
  "status": "partial",
  "note": "False as stated: np.fill_diagonal and enforce_symmetry write into the arrays of the caller (C82_unchanged_false). Proved: arrays that already have zero diagonals (and are symmetric where required) are unchanged."
 },
 "C55": {
  "status": "proved",
  "note": ""
 },
 "C56": {
  "status": "partial",
  "note": "success=False results report F at the previous iterate (C56_reported_false); everything else in the statement is proved."
 },
 "C57": {
  "status": "proved",
  "note": ""
 },
 "C58": {
  "status": "proved",
  "note": ""
 },
 "C83": {
  "status": "partial",
  "note": "False as stated: np.allclose keeps its default rtol=1e-5 (C83_tolerance_false). Proved: agreement within rtol_outer*min(K) + 1e-5*K."
 },
 "C84": {
  "status": "partial",
  "note": "False for flash2_PV with a pure component (C84_PV_false). Proved for flash2_PT always, and for PV/TV when the K-values are never all equal and every component is present."
 },
 "C59": {
  "status": "partial",
  "note": "DP_tube raises ZeroDivisionError at zero flow (C59_laminar_false); every other part is proved."
 },
 "C85": {
  "status": "partial",
  "note": "False for Mueller-Bonn at Re = 1187 (C85_mueller_bonn_false); proved for the other correlations."
 },
 "C86": {
  "status": "proved",
  "note": "Convergence of the iterations is the subject of C129 and C130; here only the certificate of what is returned."
 },
 "C60": {
  "status": "partial",
  "note": "False: the gas area drops where flow stops being choked (C60_gas_backpressure_false); k = 1 raises ZeroDivisionError; very viscous liquids do not converge in 50 iterations (C60_liquid_viscous_false; convergence proved for inviscid orifice Re >= 0.1); v9 = v1 raises ZeroDivisionError. Everything else is proved."
 },
 "C61": {
  "status": "partial",
  "note": "Cross with n = 1 returns mu0/2 (C61_cross_newtonian_false); the shear-thinning power law at rest raises ZeroDivisionError. The rest is proved."
 },
 "C62": {
  "status": "proved",
  "note": ""
 },
 "C64": {
  "status": "proved",
  "note": ""
 },
 "C63": {
  "status": "partial",
  "note": "False at the centre of the sphere for Fo < 0.0408 (C63_sphere_center_false); everything else proved in full."
 },
 "C89": {
  "status": "proved",
  "note": ""
 },
 "C90": {
  "status": "proved",
  "note": ""
 },
 "C91": {
  "status": "proved",
  "note": "The claim for every positive Bi is false of the sheet function (C91_small_biot_false); proved from Bi = 2e-10 upward."
 },
 "C65": {
  "status": "proved",
  "note": ""
 },
 "C69": {
  "status": "partial",
  "note": "Bounds need a positive free volume, which the constructor and the call do not check; C69_below_glass_false exhibits an accepted object returning a coefficient above D0."
 },
 "C67": {
  "status": "proved",
  "note": "Findings: DHVL_Watson returns an increasing positive enthalpy when both temperatures are supercritical (C67_watson_supercritical_false); DHVL_Kistiakowsky_Vetere returns no real number for isooctane (C67_hydrocarbon_false)."
 },
 "C68": {
  "status": "proved",
  "note": ""
 },
 "C92": {
  "status": "proved",
  "note": "Pure limit assumes real correction factors of the absent components; C92_lucas_absent_false shows that a component with zero mole fraction can otherwise destroy the result. C92_jossi_rest_false: the Jossi correction does not vanish at zero density."
 },
 "C93": {
  "status": "partial",
  "note": "The pure-component limit holds only for Zc = 0.291 - 0.08 w; C93_pure_false shows that for water the one-component mixture value is below 60 % of the pure value."
 },
 "C94": {
  "status": "proved",
  "note": "C94_hayduk_minhas_false: negative aqueous diffusion coefficient at 700 cm3/mol."
 },
 "C87": {
  "status": "proved",
  "note": "Turbulent positivity for every Pr is refuted (liquid metal in a rough tube gives a negative number)."
 },
 "C95": {
  "status": "proved",
  "note": "Opposed combination can be negative; jump of 5 % at Ra = 1e7 for upper-heated plates."
 },
 "C96": {
  "status": "proved",
  "note": "Anchor below Re = 12 gives 0; ribbon drops at Re = 13, anchor at Re = 100 (refuted monotonicity)."
 },
 "C97": {
  "status": "proved",
  "note": "For staggered tubes monotonicity is refuted at Re_max = 100."
 },
 "C98": {
  "status": "proved",
  "note": "Refuted: a constant heat capacity as DIPPR107 with C = 0 is NaN; DIPPR102 can have a zero denominator; Yaws rises again with temperature for C > 0."
 },
 "C99": {
  "status": "proved",
  "note": "Exact real arithmetic; factorial overflow (k > 170) and cancellation in the r < 1 sums are outside the model."
 },
 "C88": {
  "status": "proved",
  "note": "Exact real arithmetic; the complex-step derivative is taken as the exact derivative (dual numbers). That Newton reaches its tolerance within 50 iterations is not proved."
 },
 "C100": {
  "status": "proved",
  "note": "F and t quantiles and eigh are oracles. Drawing itself is not modelled. With LAPACK the eigenvector matrix of a 2x2 covariance matrix comes out symmetric in practice, so the row/column slip is masked."
 },
 "C101": {
  "status": "partial",
  "note": "The last clause is false: C101_kp_false. Everything else is proved. str.lower is ASCII lower-casing."
 },
 "C102": {
  "status": "partial",
  "note": "The ReactionSystem clauses are false: C102_system_false, C102_append_false. The statements about eval, rate and rates are proved. Indices are natural numbers (no negative indexing)."
 },
 "C103": {
  "status": "partial",
  "note": "Last clause false: C103_real_false. Everything else is proved."
 },
 "C104": {
  "status": "partial",
  "note": "Non-negativity and monotonicity are false (C104_negative_false: the spline undershoots between positive data); proved when the interpolant is non-negative. Integer molar masses are refused (C104_integers_false). Spline and integrals are exact oracles."
 },
 "C105": {
  "status": "partial",
  "note": "False as stated: the parameters are those of the last trial (C105_optimum_false). C105_fit says exactly what is returned or raised for every behaviour of the optimiser."
 },
 "C106": {
  "status": "partial",
  "note": "False as stated: with a guess outside the two-phase window there is one root, K is exactly one and the guess itself is returned (C106_guess_false, C106_single_phase gives the exact condition). Proved: the errors; |K-1| within tolerance at every result; ln K is the signed Maxwell area over RT; uniqueness of the saturation pressure; error bound for a two-root result; the true saturation pressure is a fixed point. Convergence from an arbitrary two-phase guess is not proved. np.roots is an exact oracle where stated."
 },
 "C107": {
  "status": "partial",
  "note": "scipy solve_ivp is an oracle; the trajectory statements assume it exact. False of the code: documented result shape (C107_shape_false), conversions in any order (C107_unsorted_false), initial condition of the last monomer (C107_multi_last_false), fractions at most one with an integrator that is only within tolerance (C107_above_one_false)."
 },
 "C108": {
  "status": "proved",
  "note": "Names are lower-cased in ASCII only. The last sentence of the statement is C108_zero_s_false."
 },
 "C109": {
  "status": "partial",
  "note": "The optimiser, the orthogonal distance regression, the integrator and the Student quantile are given from outside with stated contracts; plots and joint confidence regions are left out. Recovery is false at zero conversion for F(x) data, for ratios below 1e-3 and with unsorted conversions, and the weights of the two methods differ (C109_*_false)."
 },
 "C110": {
  "status": "proved",
  "note": ""
 },
 "C111": {
  "status": "proved",
  "note": ""
 },
 "C112": {
  "status": "proved",
  "note": ""
 },
 "C113": {
  "status": "proved",
  "note": ""
 },
 "C114": {
  "status": "proved",
  "note": ""
 },
 "C115": {
  "status": "proved",
  "note": ""
 },
 "C116": {
  "status": "proved",
  "note": ""
 },
 "C117": {
  "status": "proved",
  "note": ""
 },
 "C118": {
  "status": "proved",
  "note": "Needs an equilibrium pressure of at least 1e-9 Pa, for the complex step in the Newton solver."
 },
 "C119": {
  "status": "proved",
  "note": "C119_zero_length_false and C119_zero_length_fraction are findings. The laws of the numpy samplers are hypotheses; independence of several draws (shape) is not modelled."
 },
 "C120": {
  "status": "proved",
  "note": "C120_iteration_false and C120_empty_comparison_false are findings. Moments are real numbers (no NaN)."
 },
 "C121": {
  "status": "proved",
  "note": "The texts of attribute values and formatted elements are inputs; nspaces is a natural number."
 },
 "C122": {
  "status": "proved",
  "note": "vt_sphere and fD_Colebrook iterate with absolute tolerances and are not included; steam sizing has dimensional constants."
 },
 "C123": {
  "status": "partial",
  "note": "Proved except where the code breaks the principle: phi (hence K) with interaction parameters, refuted by C123_interaction_false."
 },
 "C124": {
  "status": "partial",
  "note": "Proved for everything named in the statement, with the three exceptions proved as such (C124_entropy, C124_cubic_false, C124_rachford_rice_false). Missing: flash2_PT, whose inner Rachford-Rice solve starts from an interval that depends on the individual feed fractions, so that only residual and derivative are invariant."
 },
 "C125": {
  "status": "proved",
  "note": "Published equations transcribed from the literature in their own units (Spec/Published.lean)."
 },
 "C126": {
  "status": "proved",
  "note": "Formulas transcribed from the LaTeX of the docstrings in Spec/Documented.lean with their own arrangement (negative exponents, roots as powers, factorials). Docstring errors are refuted by C126_lockhart_martinelli_false and C126_dispersion_F_false."
 },
 "C127": {
  "status": "partial",
  "note": "Specification: Spec/Nozzle.lean (integral of the specific volume). Missing in C127_subcooled_partial: low subcooling with back pressure above saturation, where the claim is false (C127_subcooled_liquid_false, C127_subcooled_undersized_false). The correlation for the critical pressure of two-phase flow is bounded for omega between 0.01 and 1000 (outside: C127_two_phase_low_false)."
 },
 "C128": {
  "status": "proved",
  "note": "Not covered: examples whose value comes from an iterative solver or special function not evaluated here (Colebrook, vt_sphere, roots, Gold, cdfs other than Flory's, diffusion profiles) and those whose printed digits are rounding noise (finite differences). Floats of the examples are read as exact decimals. The Eyring example reproduces with the gas constant 8.314462618 of older scipy releases, not with the present exact value."
 },
 "C129": {
  "status": "proved",
  "note": "Exact real arithmetic; the complex step of root_newton (the equation evaluated at f + i eps) is modelled and its error bounded."
 },
 "C130": {
  "status": "partial",
  "note": "Relative accuracy refuted for colloids (C130_colloid_false) and for fast spheres, for which a negative velocity is returned (C130_fast_false, C130_raindrop_false). Convergence proved at any Reynolds number for terminal velocities between 2e-5 and 1.33 m/s (C130_converges_all_partial); up to 20 m/s for rho Dp/mu of at least 3000 s/m (C130_large_partial), and for at least 160 s/m if the balance has a slope of at least 0.01 at 1 m/s (C130_slope_partial); not decided for slopes within 0.01 of zero, nor for faster spheres with an upward slope and rho Dp/mu below 160 s/m."
 },
 "C131": {
  "status": "proved",
  "note": "Errors of the function values are arbitrary within the bound; the arithmetic of the quotients themselves is exact."
 },
 "C132": {
  "status": "proved",
  "note": "Exact arithmetic. The documentation of fixpoint_wegstein describes it as accelerating fixed-point iterations without claiming convergence; the refuted statement is the natural expectation that it converges where direct substitution does."
 }
}