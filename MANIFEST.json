{
 "claims": [
  {
   "property": "C01",
   "status": "proved",
   "theorems": [
    "Verif.C01_newton_certificate",
    "Verif.C01_newton_error_iff",
    "Verif.C01_newton_affine"
   ],
   "note": ""
  },
  {
   "property": "C02",
   "status": "proved",
   "theorems": [
    "Verif.C02_secant_certificate",
    "Verif.C02_secant_error_iff",
    "Verif.C02_secant_affine"
   ],
   "note": ""
  },
  {
   "property": "C03",
   "status": "proved",
   "theorems": [
    "Verif.C03_brent_stays_in_bracket"
   ],
   "note": ""
  },
  {
   "property": "C04",
   "status": "proved",
   "theorems": [
    "Verif.C04_brent_accuracy",
    "Verif.C04_brent_exact_root",
    "Verif.C04_brent_refusal",
    "Verif.C04_brent_converges"
   ],
   "note": ""
  },
  {
   "property": "C05",
   "status": "partial",
   "theorems": [
    "Verif.RootsVector.C05_qnewton_certificate",
    "Verif.RootsVector.C05_failed_step_partial",
    "Verif.RootsVector.C05_linesearch_never_worse",
    "Verif.RootsVector.C05_dogleg_never_worse",
    "Verif.RootsVector.C05_reasons",
    "Verif.RootsVector.C05_refusal",
    "Verif.RootsVector.C05_linesearch_terminates",
    "Verif.RootsVector.C05_dogleg_terminates",
    "Verif.RootsVector.C05_failed_step_coherence_false"
   ],
   "note": "Success certificate, coherence of all non-failed returns, counters, termination and the meaning of every stop message (C05_reasons) proved; coherence after a failed global step is false (C05_failed_step_coherence_false), the distance bound C05_failed_step_partial is what holds."
  },
  {
   "property": "C06",
   "status": "proved",
   "theorems": [
    "Verif.RootsVector.C06_line_search_armijo",
    "Verif.RootsVector.C06_backtrack_factor",
    "Verif.RootsVector.C06_line_search_terminates"
   ],
   "note": ""
  },
  {
   "property": "C07",
   "status": "proved",
   "theorems": [
    "Verif.FixPoint.C07_wegstein_certificate",
    "Verif.FixPoint.C07_wegstein_error_iff"
   ],
   "note": ""
  },
  {
   "property": "C08",
   "status": "proved",
   "theorems": [
    "Verif.FixPoint.C08_affine_combination",
    "Verif.FixPoint.C08_fixed_start",
    "Verif.FixPoint.C08_wegstein_affine_exact"
   ],
   "note": ""
  },
  {
   "property": "C09",
   "status": "proved",
   "theorems": [
    "Verif.FixPoint.C09_anderson_certificate",
    "Verif.FixPoint.C09_anderson_error_iff",
    "Verif.FixPoint.C09_anderson_affine_exact",
    "Verif.FixPoint.C09_anderson_scalar_affine"
   ],
   "note": ""
  },
  {
   "property": "C10",
   "status": "proved",
   "theorems": [
    "Verif.NDiff.C10_complex_step",
    "Verif.NDiff.C10_centered_difference",
    "Verif.NDiff.C10_centered_difference_order",
    "Verif.NDiff.C10_jacobian_columns",
    "Verif.NDiff.C10_jacobian_affine",
    "Verif.NDiff.C10_hessian_symmetric",
    "Verif.NDiff.C10_hessian_exact",
    "Verif.NDiff.C10_hessian2_exact"
   ],
   "note": ""
  },
  {
   "property": "C11",
   "status": "partial",
   "theorems": [
    "Verif.Ode.C11_steps_cover_interval",
    "Verif.Ode.C11_exact_quadrature",
    "Verif.Ode.C11_linear_ode",
    "Verif.Ode.C11_refusal",
    "Verif.Ode.C11_wrong_direction_silently_wrong",
    "Verif.Ode.C11_backward_false",
    "Verif.Ode.C11_order1_converges",
    "Verif.Ode.C11_order2_converges",
    "Verif.Ode.C11_order4_converges"
   ],
   "note": "Forward integration proved, with convergence of all three orders; tf < t0 is false of the code (C11_backward_false, C11_wrong_direction_silently_wrong)."
  },
  {
   "property": "C12",
   "status": "proved",
   "theorems": [
    "Verif.Polyline.C12_subsequence",
    "Verif.Polyline.C12_refusal",
    "Verif.Polyline.C12_negative_tol_diverges"
   ],
   "note": ""
  },
  {
   "property": "C13",
   "status": "partial",
   "theorems": [
    "Verif.Polyline.C13_error_bound_partial",
    "Verif.Polyline.C13_kept_points_needed",
    "Verif.Polyline.C13_closed_polyline_collapses",
    "Verif.Polyline.C13_error_bound_false",
    "Verif.Polyline.C13_edge_distance_false"
   ],
   "note": "Bound holds for stretches whose end points differ; false for closed polylines (C13_closed_polyline_collapses, C13_error_bound_false) and for the distance to the edge rather than the line (C13_edge_distance_false)."
  },
  {
   "property": "C14",
   "status": "partial",
   "theorems": [
    "Verif.Utils.C14_bounds_accepts_iff",
    "Verif.Utils.C14_nan_refused",
    "Verif.Utils.C14_refusal",
    "Verif.Utils.C14_range_error_false",
    "Verif.Utils.C14_in_set_iff",
    "Verif.Utils.C14_valid_range_iff"
   ],
   "note": "Acceptance is exact. Which error a refused argument gives is proved for every argument (C14_refusal); it is not always the documented RangeError (C14_range_error_false: 0-d and n-d arrays)."
  },
  {
   "property": "C15",
   "status": "partial",
   "theorems": [
    "Verif.Utils.C15_temperature",
    "Verif.Utils.C15_unknown_unit",
    "Verif.Utils.C15_pressure",
    "Verif.Utils.C15_strictly_positive_false"
   ],
   "note": "Conversion exact; T = 0 K is accepted although the message says it must be positive (C15_strictly_positive_false)."
  },
  {
   "property": "C16",
   "status": "proved",
   "theorems": [
    "Verif.Utils.C16_add_dicts",
    "Verif.Utils.C16_add_dicts_comm_assoc",
    "Verif.Utils.C16_enforce_symmetry",
    "Verif.Utils.C16_enforce_symmetry_refusal"
   ],
   "note": ""
  },
  {
   "property": "C17",
   "status": "proved",
   "theorems": [
    "Verif.Dist.C17_flory_moments",
    "Verif.Dist.C17_flory_low_orders",
    "Verif.Dist.C17_flory_cdf",
    "Verif.Dist.C17_flory_averages",
    "Verif.Dist.C17_flory_high_order_monodisperse_false"
   ],
   "note": ""
  },
  {
   "property": "C18",
   "status": "proved",
   "theorems": [
    "Verif.Dist.C18_poisson_moments",
    "Verif.Dist.C18_poisson_cdf",
    "Verif.Dist.C18_poisson_averages",
    "Verif.Dist.C18_poisson_monodisperse_nan_false"
   ],
   "note": ""
  },
  {
   "property": "C19",
   "status": "proved",
   "theorems": [
    "Verif.Dist.C19_lognormal",
    "Verif.Dist.C19_schulzzimm",
    "Verif.Dist.C19_pdf_normalised",
    "Verif.Dist.C19_cdf_of_pdf"
   ],
   "note": ""
  },
  {
   "property": "C20",
   "status": "proved",
   "theorems": [
    "Verif.Dist.C20_averages_ordered",
    "Verif.Mixture.C20_mixture_mass_averages",
    "Verif.Mixture.C20_mixture_DP_order_false"
   ],
   "note": ""
  },
  {
   "property": "C21",
   "status": "proved",
   "theorems": [
    "Verif.DistState.C21_history_independent",
    "Verif.DistState.C21_failed_operation_no_effect",
    "Verif.DistState.C21_valid_assignment",
    "Verif.DistState.C21_infinite_DPn_accepted_false"
   ],
   "note": ""
  },
  {
   "property": "C22",
   "status": "proved",
   "theorems": [
    "Verif.Mixture.C22_molefractions",
    "Verif.Mixture.C22_averages",
    "Verif.Mixture.C22_pdf_cdf",
    "Verif.Mixture.C22_insertion_order",
    "Verif.Mixture.C22_weight_scaling"
   ],
   "note": ""
  },
  {
   "property": "C23",
   "status": "partial",
   "theorems": [
    "Verif.Mixture.C23_sum_expression",
    "Verif.Mixture.C23_add",
    "Verif.Mixture.C23_operands_unchanged_false"
   ],
   "note": "The property is false of the code: `m + d` and `d + m` update the dict of the mixture m in place and share it with the result (C23_operands_unchanged_false). Proved exactly instead: C23_add says for every pair of operands which object is returned, which weights it has and which existing mixture is changed; C23_sum_expression: sums w1*D1 + w2*D2 + ... change no existing mixture and hold the right weights."
  },
  {
   "property": "C24",
   "status": "proved",
   "theorems": [
    "Verif.DistMisc.C24_moments_of_sum",
    "Verif.DistMisc.C24_lengths",
    "Verif.DistMisc.C24_commutative",
    "Verif.DistMisc.C24_associative",
    "Verif.DistMisc.C24_unit"
   ],
   "note": ""
  },
  {
   "property": "C25",
   "status": "proved",
   "theorems": [
    "Verif.DistMisc.C25_self_convolution",
    "Verif.DistMisc.C25_recursion",
    "Verif.DistMisc.C25_order_one"
   ],
   "note": ""
  },
  {
   "property": "C26",
   "status": "proved",
   "theorems": [
    "Verif.DistMisc.C26_laguerre_moments"
   ],
   "note": ""
  },
  {
   "property": "C27",
   "status": "proved",
   "theorems": [
    "Verif.DistMisc.C27_same_hydrodynamic_volume",
    "Verif.DistMisc.C27_conversion_group",
    "Verif.DistMisc.C27_strictly_increasing"
   ],
   "note": ""
  },
  {
   "property": "C28",
   "status": "proved",
   "theorems": [
    "Verif.Copo.C28_range",
    "Verif.Copo.C28_finite_iff",
    "Verif.Copo.C28_exchange",
    "Verif.Copo.C28_strictMono",
    "Verif.Copo.C28_ideal",
    "Verif.Copo.C28_mayo_lewis"
   ],
   "note": ""
  },
  {
   "property": "C29",
   "status": "proved",
   "theorems": [
    "Verif.Copo.C29_weighted_sum",
    "Verif.Copo.C29_fractions_exist",
    "Verif.Copo.C29_between",
    "Verif.Copo.C29_ends",
    "Verif.Copo.C29_exchange"
   ],
   "note": ""
  },
  {
   "property": "C30",
   "status": "partial",
   "theorems": [
    "Verif.Copo.C30_reported",
    "Verif.Copo.C30_none",
    "Verif.Copo.C30_none_false"
   ],
   "note": "Reported values are exact; C30_none: when None is reported, an azeotrope exists after all exactly if both ratios exceed 1 (C30_none_false) or both equal 1."
  },
  {
   "property": "C31",
   "status": "proved",
   "theorems": [
    "Verif.Copo.C31_transitions",
    "Verif.Copo.C31_range_error",
    "Verif.Copo.C31_composition",
    "Verif.Copo.C31_triads",
    "Verif.Copo.C31_sequence"
   ],
   "note": ""
  },
  {
   "property": "C32",
   "status": "partial",
   "theorems": [
    "Verif.Copo.C32_F1_reduces",
    "Verif.Copo.C32_kp_reduces",
    "Verif.Copo.C32_transitions_reduce",
    "Verif.Copo.C32_sequence_reduces",
    "Verif.Copo.C32_triads_group_sums",
    "Verif.Copo.C32_triads_reduce_false",
    "Verif.Copo.C32_sequence",
    "Verif.Copo.C32_kp_mechanism"
   ],
   "note": "F1, kp, transitions and sequence lengths reduce to the terminal model; triads do not (C32_triads_reduce_false, different normalisation)."
  },
  {
   "property": "C33",
   "status": "proved",
   "theorems": [
    "Verif.CopoMulti.C33_arguments",
    "Verif.CopoMulti.C33_stationary_P",
    "Verif.CopoMulti.C33_stationary",
    "Verif.CopoMulti.C33_binary",
    "Verif.CopoMulti.C33_ternary"
   ],
   "note": ""
  },
  {
   "property": "C34",
   "status": "proved",
   "theorems": [
    "Verif.CopoMulti.C34_multi",
    "Verif.CopoMulti.C34_ternary"
   ],
   "note": ""
  },
  {
   "property": "C35",
   "status": "proved",
   "theorems": [
    "Verif.CopoMulti.C35_stochastic",
    "Verif.CopoMulti.C35_terminal"
   ],
   "note": ""
  },
  {
   "property": "C36",
   "status": "proved",
   "theorems": [
    "Verif.CopoMulti.C36_sequence",
    "Verif.CopoMulti.C36_mean_guard"
   ],
   "note": ""
  },
  {
   "property": "C37",
   "status": "proved",
   "theorems": [
    "Verif.CopoMulti.C37_representatives",
    "Verif.CopoMulti.C37_distribution",
    "Verif.CopoMulti.C37_sum_out"
   ],
   "note": ""
  },
  {
   "property": "C38",
   "status": "proved",
   "theorems": [
    "Verif.CopoMulti.C38_Qe",
    "Verif.CopoMulti.C38_invariance"
   ],
   "note": ""
  },
  {
   "property": "C39",
   "status": "proved",
   "theorems": [
    "Verif.CopoMulti.C39_exact",
    "Verif.CopoMulti.C39_inst_copolymer",
    "Verif.CopoMulti.C39_one_point"
   ],
   "note": ""
  },
  {
   "property": "C40",
   "status": "partial",
   "theorems": [
    "Verif.CopoMulti.C40_invariants",
    "Verif.CopoMulti.C40_success",
    "Verif.CopoMulti.C40_single",
    "Verif.CopoMulti.C40_atomic_false"
   ],
   "note": "All invariants hold; a rejected list call is not atomic (C40_atomic_false)."
  },
  {
   "property": "C41",
   "status": "proved",
   "theorems": [
    "Verif.StepGrowth.C41_case1_recursion",
    "Verif.StepGrowth.C41_case3_recursion",
    "Verif.StepGrowth.C41_stockmayer_recursion",
    "Verif.StepGrowth.C41_miller1_recursion",
    "Verif.StepGrowth.C41_miller2_recursion",
    "Verif.StepGrowth.C41_floryAf_recursion",
    "Verif.StepGrowth.C41_stockmayer_case1",
    "Verif.StepGrowth.C41_case3_case1",
    "Verif.StepGrowth.C41_miller1_stockmayer",
    "Verif.StepGrowth.C41_miller2_stockmayer"
   ],
   "note": ""
  },
  {
   "property": "C42",
   "status": "partial",
   "theorems": [
    "Verif.StepGrowth.C42_case1",
    "Verif.StepGrowth.C42_case3",
    "Verif.StepGrowth.C42_stockmayer",
    "Verif.StepGrowth.C42_floryAf",
    "Verif.StepGrowth.C42_miller2",
    "Verif.StepGrowth.C42_miller1_partial",
    "Verif.StepGrowth.C42_miller1_beyond_gel",
    "Verif.StepGrowth.C42_miller1_gel_false",
    "Verif.StepGrowth.C42_zero_conversion_false"
   ],
   "note": "Ordering proved for all forms that return Mw below the gel point, NaN exactly from the gel point on for Stockmayer, Flory_Af, Miller_2. False for Miller_1 from the gel point on: it raises at the gel point and returns a mass average below that of the unreacted mixture beyond it (C42_miller1_beyond_gel, in general; C42_miller1_gel_false: even negative), and at zero conversion (Case_1 raises)."
  },
  {
   "property": "C43",
   "status": "partial",
   "theorems": [
    "Verif.Kin.C43_expressions",
    "Verif.Kin.C43_reference",
    "Verif.Kin.C43_zero_reference_false",
    "Verif.Kin.C43_refused",
    "Verif.Kin.C43_disjoint"
   ],
   "note": "Pointwise algebra for all expression trees, range intersection, k(T0) = k0 for T0 > 0; T0 = 0 is accepted by the constructor and then every call raises (C43_zero_reference_false)."
  },
  {
   "property": "C44",
   "status": "proved",
   "theorems": [
    "Verif.Kin.C44_termination_symm",
    "Verif.Kin.C44_termination_one",
    "Verif.Kin.C44_termination_mean",
    "Verif.Kin.C44_termination_laws",
    "Verif.Kin.C44_termination_antitone",
    "Verif.Kin.C44_propagation_half",
    "Verif.Kin.C44_propagation_decreases"
   ],
   "note": ""
  },
  {
   "property": "C45",
   "status": "proved",
   "theorems": [
    "Verif.Kin.C45_zero_one_limit",
    "Verif.Kin.C45_monotone",
    "Verif.Kin.C45_no_entry",
    "Verif.Kin.C45_accuracy",
    "Verif.Kin.C45_accuracy_sharp"
   ],
   "note": "iv is modelled by its power series."
  },
  {
   "property": "C46",
   "status": "proved",
   "theorems": [
    "Verif.Rtd.C46_tanks",
    "Verif.Rtd.C46_one_tank",
    "Verif.Rtd.C46_cstr",
    "Verif.Rtd.C46_derivative",
    "Verif.Rtd.C46_laminar_derivative",
    "Verif.Rtd.C46_laminar",
    "Verif.Rtd.C46_infinite_time"
   ],
   "note": "For the laminar tube dF/dt = E except at tau/2, where E is the right derivative."
  },
  {
   "property": "C47",
   "status": "partial",
   "theorems": [
    "Verif.Eos.C47_roots",
    "Verif.Eos.C47_pressure",
    "Verif.Eos.C47_nearly_real_false"
   ],
   "note": "np.roots as exact oracle. C47_pressure bounds the pressure error of every returned Z by a multiple of eps^2 (and by zero when no complex pair lies within eps of the real axis); C47_nearly_real_false shows that the exact claim is false."
  },
  {
   "property": "C48",
   "status": "proved",
   "theorems": [
    "Verif.Eos.C48_cubic",
    "Verif.Eos.C48_virial",
    "Verif.Eos.C48_ideal",
    "Verif.Eos.C48_departures",
    "Verif.Eos.C48_departures_ideal"
   ],
   "note": ""
  },
  {
   "property": "C49",
   "status": "partial",
   "theorems": [
    "Verif.Eos.C49_gibbs_partial",
    "Verif.Eos.C49_derivative_partial",
    "Verif.Eos.C49_interaction",
    "Verif.Eos.C49_zero_interaction_false"
   ],
   "note": "False as stated: C49_zero_interaction_false (phi with k=zeros differs from k=None). The two identities are proved for k=None; with a symmetric zero-diagonal interaction matrix C49_interaction gives the exact discrepancy (factor 2 sqrt(a_i)/am missing in delta)."
  },
  {
   "property": "C50",
   "status": "proved",
   "theorems": [
    "Verif.Eos.C50_coefficients",
    "Verif.Eos.C50_identical",
    "Verif.Eos.C50_round_trip",
    "Verif.Eos.C50_fugacity",
    "Verif.Eos.C50_gibbs"
   ],
   "note": ""
  },
  {
   "property": "C51",
   "status": "proved",
   "theorems": [
    "Verif.Acm.C51_ideal",
    "Verif.Acm.C51_nrtl_sum",
    "Verif.Acm.C51_nrtl_derivative",
    "Verif.Acm.C51_wilson_sum",
    "Verif.Acm.C51_wilson_derivative",
    "Verif.Acm.C51_uniquac_sum",
    "Verif.Acm.C51_uniquac_derivative",
    "Verif.Acm.C51_objects",
    "Verif.Acm.C51_objects_sum"
   ],
   "note": ""
  },
  {
   "property": "C52",
   "status": "proved",
   "theorems": [
    "Verif.Acm.C52_nrtl",
    "Verif.Acm.C52_wilson",
    "Verif.Acm.C52_uniquac"
   ],
   "note": ""
  },
  {
   "property": "C53",
   "status": "proved",
   "theorems": [
    "Verif.Acm.C53_chi",
    "Verif.Acm.C53_sum",
    "Verif.Acm.C53_derivative",
    "Verif.Acm.C53_pure",
    "Verif.Acm.C53_two",
    "Verif.Acm.C53_stable",
    "Verif.Acm.C53_unstable"
   ],
   "note": ""
  },
  {
   "property": "C54",
   "status": "proved",
   "theorems": [
    "Verif.Acm.C54_dgmix",
    "Verif.Acm.C54_ideal",
    "Verif.Acm.C54_gibbs_helmholtz"
   ],
   "note": ""
  },
  {
   "property": "C55",
   "status": "proved",
   "theorems": [
    "Verif.Flash.C55_decreasing",
    "Verif.Flash.C55_unique",
    "Verif.Flash.C55_derivative",
    "Verif.Flash.C55_two_phase_iff"
   ],
   "note": ""
  },
  {
   "property": "C56",
   "status": "partial",
   "theorems": [
    "Verif.Flash.C56_certified",
    "Verif.Flash.C56_single_phase",
    "Verif.Flash.C56_error_iff",
    "Verif.Flash.C56_converges",
    "Verif.Flash.C56_accuracy",
    "Verif.Flash.C56_reported_false"
   ],
   "note": "success=False results report F at the previous iterate (C56_reported_false); everything else in the statement is proved."
  },
  {
   "property": "C57",
   "status": "proved",
   "theorems": [
    "Verif.Flash.C57_PT_total",
    "Verif.Flash.C57_PT_balance",
    "Verif.Flash.C57_PV_TV_total",
    "Verif.Flash.C57_PV_TV_balance",
    "Verif.Flash.C57_PV_equilibrium",
    "Verif.Flash.C57_TV_equilibrium"
   ],
   "note": ""
  },
  {
   "property": "C58",
   "status": "proved",
   "theorems": [
    "Verif.Flash.C58_signs",
    "Verif.Flash.C58_bracketed",
    "Verif.Flash.C58_unique"
   ],
   "note": ""
  },
  {
   "property": "C59",
   "status": "partial",
   "theorems": [
    "Verif.Flow.C59_laminar_partial",
    "Verif.Flow.C59_laminar_false",
    "Verif.Flow.C59_length",
    "Verif.Flow.C59_haaland",
    "Verif.Flow.C59_packed_bed",
    "Verif.Flow.C59_lockhart_martinelli_single",
    "Verif.Flow.C59_lockhart_martinelli",
    "Verif.Flow.C59_mueller_bonn_single"
   ],
   "note": "DP_tube raises ZeroDivisionError at zero flow (C59_laminar_false); every other part is proved."
  },
  {
   "property": "C60",
   "status": "partial",
   "theorems": [
    "Verif.Prv.C60_gas_choked_max",
    "Verif.Prv.C60_gas",
    "Verif.Prv.C60_gas_proportional",
    "Verif.Prv.C60_gas_backpressure_partial",
    "Verif.Prv.C60_gas_backpressure_false",
    "Verif.Prv.C60_gas_isothermal_false",
    "Verif.Prv.C60_steam",
    "Verif.Prv.C60_liquid_unique",
    "Verif.Prv.C60_liquid_accurate",
    "Verif.Prv.C60_liquid_converges_partial",
    "Verif.Prv.C60_liquid_viscous_false",
    "Verif.Prv.C60_two_phase",
    "Verif.Prv.C60_two_phase_incompressible_false",
    "Verif.Prv.C60_subcooled_transition",
    "Verif.Prv.C60_subcooled_critical",
    "Verif.Prv.C60_subcooled",
    "Verif.Prv.C60_subcooled_flux_transition"
   ],
   "note": "False: the gas area drops where flow stops being choked (C60_gas_backpressure_false); k = 1 raises ZeroDivisionError; very viscous liquids do not converge in 50 iterations (C60_liquid_viscous_false; convergence proved for inviscid orifice Re >= 0.1); v9 = v1 raises ZeroDivisionError. Everything else is proved."
  },
  {
   "property": "C61",
   "status": "partial",
   "theorems": [
    "Verif.Rheology.C61_power_law",
    "Verif.Rheology.C61_power_law_rest_false",
    "Verif.Rheology.C61_cross",
    "Verif.Rheology.C61_cross_modified",
    "Verif.Rheology.C61_cross_newtonian_false",
    "Verif.Rheology.C61_carreau_yasuda",
    "Verif.Rheology.C61_wlf",
    "Verif.Rheology.C61_wlf_reference"
   ],
   "note": "Cross with n = 1 returns mu0/2 (C61_cross_newtonian_false); the shear-thinning power law at rest raises ZeroDivisionError. The rest is proved."
  },
  {
   "property": "C62",
   "status": "proved",
   "theorems": [
    "Verif.Rheology.C62_plane",
    "Verif.Rheology.C62_plane_monotone",
    "Verif.Rheology.C62_cylinder"
   ],
   "note": ""
  },
  {
   "property": "C63",
   "status": "partial",
   "theorems": [
    "Verif.Diffusion.C63_semiinf_range",
    "Verif.Diffusion.C63_semiinf_monotone",
    "Verif.Diffusion.C63_semiinf_start",
    "Verif.Diffusion.C63_sheet_range",
    "Verif.Diffusion.C63_sheet_limits",
    "Verif.Diffusion.C63_sphere_range",
    "Verif.Diffusion.C63_sphere_center_partial",
    "Verif.Diffusion.C63_sphere_center_false",
    "Verif.Diffusion.C63_sphere_limits",
    "Verif.Diffusion.C63_uptake_sheet_range",
    "Verif.Diffusion.C63_uptake_sphere_range",
    "Verif.Diffusion.C63_uptake_limits"
   ],
   "note": "False at the centre of the sphere for Fo < 0.0408 (C63_sphere_center_false); everything else proved in full."
  },
  {
   "property": "C64",
   "status": "proved",
   "theorems": [
    "Verif.Rheology.C64_maxwell",
    "Verif.Rheology.C64_monotone"
   ],
   "note": ""
  },
  {
   "property": "C65",
   "status": "proved",
   "theorems": [
    "Verif.Tait.C65_accepted",
    "Verif.Tait.C65_accepts",
    "Verif.Tait.C65_beta",
    "Verif.Tait.C65_alpha",
    "Verif.Tait.C65_physical",
    "Verif.Tait.C65_alpha_sign",
    "Verif.Tait.C65_alpha_positive_false"
   ],
   "note": ""
  },
  {
   "property": "C66",
   "status": "proved",
   "theorems": [
    "Verif.Mixing.C66_geometric_double_sum",
    "Verif.Mixing.C66_zero_interaction",
    "Verif.Mixing.C66_pure",
    "Verif.Mixing.C66_identical",
    "Verif.Mixing.C66_bounds",
    "Verif.Mixing.C66_pseudocritical"
   ],
   "note": ""
  },
  {
   "property": "C67",
   "status": "proved",
   "theorems": [
    "Verif.Vaporization.C67_lee_kesler_boiling",
    "Verif.Vaporization.C67_lee_kesler_monotone",
    "Verif.Vaporization.C67_lee_kesler_critical",
    "Verif.Vaporization.C67_wilson_critical",
    "Verif.Vaporization.C67_wilson_monotone",
    "Verif.Vaporization.C67_wilson_acentric",
    "Verif.Vaporization.C67_wagner_critical",
    "Verif.Vaporization.C67_wagner_monotone",
    "Verif.Vaporization.C67_ambrose_walton_critical",
    "Verif.Vaporization.C67_ambrose_walton_monotone",
    "Verif.Vaporization.C67_ambrose_walton_acentric",
    "Verif.Vaporization.C67_antoine_monotone",
    "Verif.Vaporization.C67_antoine_base",
    "Verif.Vaporization.C67_watson_composes",
    "Verif.Vaporization.C67_watson_decreasing",
    "Verif.Vaporization.C67_watson_supercritical_false",
    "Verif.Vaporization.C67_pitzer",
    "Verif.Vaporization.C67_vetere_pos",
    "Verif.Vaporization.C67_kistiakowsky_errors",
    "Verif.Vaporization.C67_kistiakowsky_ester",
    "Verif.Vaporization.C67_kistiakowsky_values",
    "Verif.Vaporization.C67_kistiakowsky_butadiene",
    "Verif.Vaporization.C67_hydrocarbon_false"
   ],
   "note": "Findings: DHVL_Watson returns an increasing positive enthalpy when both temperatures are supercritical (C67_watson_supercritical_false); DHVL_Kistiakowsky_Vetere returns no real number for isooctane (C67_hydrocarbon_false)."
  },
  {
   "property": "C68",
   "status": "proved",
   "theorems": [
    "Verif.Transport.C68_vapor_mean",
    "Verif.Transport.C68_vapor_empty",
    "Verif.Transport.C68_perry",
    "Verif.Transport.C68_li",
    "Verif.Transport.C68_dvmx"
   ],
   "note": ""
  },
  {
   "property": "C69",
   "status": "partial",
   "theorems": [
    "Verif.VrentasDuda.C69_formula",
    "Verif.VrentasDuda.C69_selfd_range",
    "Verif.VrentasDuda.C69_selfd_monotone",
    "Verif.VrentasDuda.C69_mutual_ends",
    "Verif.VrentasDuda.C69_mutual_range",
    "Verif.VrentasDuda.C69_call",
    "Verif.VrentasDuda.C69_below_glass_false"
   ],
   "note": "Bounds need a positive free volume, which the constructor and the call do not check; C69_below_glass_false exhibits an accepted object returning a coefficient above D0."
  },
  {
   "property": "C70",
   "status": "proved",
   "theorems": [
    "Verif.PropEq.C70_call",
    "Verif.PropEq.C70_unknown_unit",
    "Verif.PropEq.C70_units_agree",
    "Verif.PropEq.C70_range_accepted"
   ],
   "note": ""
  },
  {
   "property": "C71",
   "status": "partial",
   "theorems": [
    "Verif.NDiff.C71_scalex",
    "Verif.NDiff.C71_scalex_integer_false"
   ],
   "note": "Positive factors for float vectors; false for integer arrays (C71_scalex_integer_false)."
  },
  {
   "property": "C72",
   "status": "proved",
   "theorems": [
    "Verif.Utils.C72_shapes_array_iff",
    "Verif.Utils.C72_shapes_scalar_iff"
   ],
   "note": ""
  },
  {
   "property": "C73",
   "status": "proved",
   "theorems": [
    "Verif.RootsVector.C73_dogleg_decrease",
    "Verif.RootsVector.C73_exploration",
    "Verif.RootsVector.C73_dogleg_step_length",
    "Verif.RootsVector.C73_dogleg_descent"
   ],
   "note": ""
  },
  {
   "property": "C74",
   "status": "proved",
   "theorems": [
    "Verif.RootsVector.C74_broyden_secant"
   ],
   "note": ""
  },
  {
   "property": "C75",
   "status": "proved",
   "theorems": [
    "Verif.Copo.C75_reported",
    "Verif.Copo.C75_spurious_false"
   ],
   "note": "Certificate proved; reported values can be spurious (C75_spurious_false)."
  },
  {
   "property": "C76",
   "status": "partial",
   "theorems": [
    "Verif.StepGrowth.C76_case1",
    "Verif.StepGrowth.C76_case3",
    "Verif.StepGrowth.C76_case6",
    "Verif.StepGrowth.C76_case7",
    "Verif.StepGrowth.C76_case8",
    "Verif.StepGrowth.C76_case9",
    "Verif.StepGrowth.C76_case10",
    "Verif.StepGrowth.C76_case11",
    "Verif.StepGrowth.C76_case5_false",
    "Verif.StepGrowth.C76_case5_partial",
    "Verif.StepGrowth.C76_floryAf",
    "Verif.StepGrowth.C76_miller1",
    "Verif.StepGrowth.C76_miller2",
    "Verif.StepGrowth.C76_stockmayer"
   ],
   "note": "Proved for all forms except Case_5, which is refuted with its docstring recipe (correct only without C)."
  },
  {
   "property": "C77",
   "status": "proved",
   "theorems": [
    "Verif.Kin.C77_recurrence",
    "Verif.Kin.C77_bounds",
    "Verif.Kin.C77_no_desorption",
    "Verif.Kin.C77_explicit_bounds",
    "Verif.Kin.C77_zero_one_limit"
   ],
   "note": "iv is modelled by its power series."
  },
  {
   "property": "C78",
   "status": "partial",
   "theorems": [
    "Verif.Kin.C78_warns",
    "Verif.Kin.C78_silent_false"
   ],
   "note": "False: A is read through a call at T = inf, which warns whenever Tmax is finite (C78_silent_false). C78_warns: exactly then."
  },
  {
   "property": "C79",
   "status": "partial",
   "theorems": [
    "Verif.Rtd.C79_open_open",
    "Verif.Rtd.C79_average_false",
    "Verif.Rtd.C79_small_deviation_partial",
    "Verif.Rtd.C79_start_false",
    "Verif.Rtd.C79_peclet",
    "Verif.Rtd.C79_peclet_trend"
   ],
   "note": "Consistent for Pe <= 100 but with mean tau*(1+2/Pe) (C79_average_false); for Pe > 100 F jumps at t = 0 (C79_start_false). quad is taken as exact."
  },
  {
   "property": "C80",
   "status": "partial",
   "theorems": [
    "Verif.PropEq.C80_stored",
    "Verif.PropEq.C80_reported_partial",
    "Verif.PropEq.C80_reported_false"
   ],
   "note": "Stored parameters and range are right; the reported parameters are the last trial of the solver (C80_reported_false). curve_fit is an oracle."
  },
  {
   "property": "C81",
   "status": "proved",
   "theorems": [
    "Verif.Eos.C81_second_virial"
   ],
   "note": ""
  },
  {
   "property": "C82",
   "status": "partial",
   "theorems": [
    "Verif.Acm.C82_unchanged_false",
    "Verif.Acm.C82_unchanged_partial"
   ],
   "note": "False as stated: np.fill_diagonal and enforce_symmetry write into the arrays of the caller (C82_unchanged_false). Proved: arrays that already have zero diagonals (and are symmetric where required) are unchanged."
  },
  {
   "property": "C83",
   "status": "partial",
   "theorems": [
    "Verif.Flash.C83_tolerance_partial",
    "Verif.Flash.C83_tolerance_false"
   ],
   "note": "False as stated: np.allclose keeps its default rtol=1e-5 (C83_tolerance_false). Proved: agreement within rtol_outer*min(K) + 1e-5*K."
  },
  {
   "property": "C84",
   "status": "partial",
   "theorems": [
    "Verif.Flash.C84_PT_returns",
    "Verif.Flash.C84_PV_TV_returns_partial",
    "Verif.Flash.C84_PV_false"
   ],
   "note": "False for flash2_PV with a pure component (C84_PV_false). Proved for flash2_PT always, and for PV/TV when the K-values are never all equal and every component is present."
  },
  {
   "property": "C85",
   "status": "partial",
   "theorems": [
    "Verif.Flow.C85_tube_increasing",
    "Verif.Flow.C85_packed_bed_increasing",
    "Verif.Flow.C85_lockhart_martinelli_increasing",
    "Verif.Flow.C85_mueller_bonn_false"
   ],
   "note": "False for Mueller-Bonn at Re = 1187 (C85_mueller_bonn_false); proved for the other correlations."
  },
  {
   "property": "C86",
   "status": "proved",
   "theorems": [
    "Verif.Flow.C86_terminal_unique",
    "Verif.Flow.C86_below_Stokes",
    "Verif.Flow.C86_certificate",
    "Verif.Flow.C86_colebrook_unique",
    "Verif.Flow.C86_colebrook_monotone",
    "Verif.Flow.C86_colebrook_exists",
    "Verif.Flow.C86_colebrook_certificate",
    "Verif.Flow.C86_equation",
    "Verif.Flow.C86_colebrook_equation"
   ],
   "note": "Convergence of the iterations is the subject of C129 and C130; here only the certificate of what is returned."
  },
  {
   "property": "C89",
   "status": "proved",
   "theorems": [
    "Verif.Diffusion.C89_semiinf",
    "Verif.Diffusion.C89_sheet",
    "Verif.Diffusion.C89_sphere",
    "Verif.Diffusion.C89_initial"
   ],
   "note": ""
  },
  {
   "property": "C90",
   "status": "proved",
   "theorems": [
    "Verif.Diffusion.C90_sheet",
    "Verif.Diffusion.C90_sphere"
   ],
   "note": ""
  },
  {
   "property": "C91",
   "status": "proved",
   "theorems": [
    "Verif.Diffusion.C91_sheet_exact_roots",
    "Verif.Diffusion.C91_sphere_exact_roots",
    "Verif.Diffusion.C91_sheet",
    "Verif.Diffusion.C91_sphere",
    "Verif.Diffusion.C91_limits",
    "Verif.Diffusion.C91_small_biot_false"
   ],
   "note": "The claim for every positive Bi is false of the sheet function (C91_small_biot_false); proved from Bi = 2e-10 upward."
  },
  {
   "property": "C92",
   "status": "proved",
   "theorems": [
    "Verif.Transport.C92_lucas_defined",
    "Verif.Transport.C92_lucas_pos",
    "Verif.Transport.C92_lucas_dilute",
    "Verif.Transport.C92_lucas_mixture",
    "Verif.Transport.C92_lucas_absent_false",
    "Verif.Transport.C92_jossi",
    "Verif.Transport.C92_jossi_rest_false",
    "Verif.Transport.C92_dean_stiel"
   ],
   "note": "Pure limit assumes real correction factors of the absent components; C92_lucas_absent_false shows that a component with zero mole fraction can otherwise destroy the result. C92_jossi_rest_false: the Jossi correction does not vanish at zero density."
  },
  {
   "property": "C93",
   "status": "partial",
   "theorems": [
    "Verif.Transport.C93_error",
    "Verif.Transport.C93_monotone",
    "Verif.Transport.C93_mixture",
    "Verif.Transport.C93_pure_false"
   ],
   "note": "The pure-component limit holds only for Zc = 0.291 - 0.08 w; C93_pure_false shows that for water the one-component mixture value is below 60 % of the pure value."
  },
  {
   "property": "C94",
   "status": "proved",
   "theorems": [
    "Verif.Transport.C94_wilke_lee_error",
    "Verif.Transport.C94_wilke_lee_symmetric",
    "Verif.Transport.C94_wilke_lee_monotone",
    "Verif.Transport.C94_wilke_chang",
    "Verif.Transport.C94_stokes_einstein",
    "Verif.Transport.C94_hayduk_minhas",
    "Verif.Transport.C94_hayduk_minhas_aqueous",
    "Verif.Transport.C94_hayduk_minhas_false"
   ],
   "note": "C94_hayduk_minhas_false: negative aqueous diffusion coefficient at 700 cm3/mol."
  },
  {
   "property": "C87",
   "status": "proved",
   "theorems": [
    "Verif.Correlations.C87_warn_iff",
    "Verif.Correlations.C87_warn_open_iff",
    "Verif.Correlations.C87_tube_laminar",
    "Verif.Correlations.C87_tube_turbulent_pos",
    "Verif.Correlations.C87_tube_turbulent_mono",
    "Verif.Correlations.C87_tube_positive_false",
    "Verif.Correlations.C87_plate",
    "Verif.Correlations.C87_cylinder",
    "Verif.Correlations.C87_sphere",
    "Verif.Correlations.C87_drop"
   ],
   "note": "Turbulent positivity for every Pr is refuted (liquid metal in a rough tube gives a negative number)."
  },
  {
   "property": "C95",
   "status": "proved",
   "theorems": [
    "Verif.Correlations.C95_cylinder",
    "Verif.Correlations.C95_sphere",
    "Verif.Correlations.C95_plate_error",
    "Verif.Correlations.C95_plate_vertical",
    "Verif.Correlations.C95_plate_horizontal",
    "Verif.Correlations.C95_plate_continuous_false",
    "Verif.Correlations.C95_combined_assisted",
    "Verif.Correlations.C95_combined_opposed",
    "Verif.Correlations.C95_combined_nonneg_false"
   ],
   "note": "Opposed combination can be negative; jump of 5 % at Ra = 1e7 for upper-heated plates."
  },
  {
   "property": "C96",
   "status": "proved",
   "theorems": [
    "Verif.Correlations.C96_accepted_iff",
    "Verif.Correlations.C96_positive",
    "Verif.Correlations.C96_anchor_zero_false",
    "Verif.Correlations.C96_reference",
    "Verif.Correlations.C96_mono",
    "Verif.Correlations.C96_geometry",
    "Verif.Correlations.C96_close",
    "Verif.Correlations.C96_example",
    "Verif.Correlations.C96_ribbon_monotone_false",
    "Verif.Correlations.C96_anchor_monotone_false"
   ],
   "note": "Anchor below Re = 12 gives 0; ribbon drops at Re = 13, anchor at Re = 100 (refuted monotonicity)."
  },
  {
   "property": "C97",
   "status": "proved",
   "theorems": [
    "Verif.Correlations.C97_rows",
    "Verif.Correlations.C97_rows_table",
    "Verif.Correlations.C97_vmax",
    "Verif.Correlations.C97_bank",
    "Verif.Correlations.C97_staggered_monotone_false"
   ],
   "note": "For staggered tubes monotonicity is refuted at Re_max = 100."
  },
  {
   "property": "C98",
   "status": "proved",
   "theorems": [
    "Verif.Equations.C98_dippr100",
    "Verif.Equations.C98_dippr104",
    "Verif.Equations.C98_dippr104_limit",
    "Verif.Equations.C98_units",
    "Verif.Equations.C98_dippr101",
    "Verif.Equations.C98_dippr102",
    "Verif.Equations.C98_dippr102_defined_false",
    "Verif.Equations.C98_yaws",
    "Verif.Equations.C98_yaws_anti",
    "Verif.Equations.C98_yaws_monotone_false",
    "Verif.Equations.C98_dippr105",
    "Verif.Equations.C98_dippr106",
    "Verif.Equations.C98_dippr106_watson",
    "Verif.Equations.C98_dippr107",
    "Verif.Equations.C98_dippr107_mono",
    "Verif.Equations.C98_dippr107_constant_false"
   ],
   "note": "Refuted: a constant heat capacity as DIPPR107 with C = 0 is NaN; DIPPR102 can have a zero denominator; Yaws rises again with temperature for C > 0."
  },
  {
   "property": "C99",
   "status": "proved",
   "theorems": [
    "Verif.Gold.C99_kinetics",
    "Verif.Gold.C99_positive",
    "Verif.Gold.C99_normalised",
    "Verif.Gold.C99_p0_unique",
    "Verif.Gold.C99_p0_accuracy",
    "Verif.Gold.C99_above",
    "Verif.Gold.C99_below",
    "Verif.Gold.C99_pdf",
    "Verif.Gold.C99_poisson",
    "Verif.Gold.C99_at_most_one_false"
   ],
   "note": "Exact real arithmetic; factorial overflow (k > 170) and cancellation in the r < 1 sums are outside the model."
  },
  {
   "property": "C88",
   "status": "proved",
   "theorems": [
    "Verif.SpecialRoots.C88_xtanx_root",
    "Verif.SpecialRoots.C88_xtanx_newton",
    "Verif.SpecialRoots.C88_xtanx_large",
    "Verif.SpecialRoots.C88_xtanx_limits",
    "Verif.SpecialRoots.C88_xtanx_list",
    "Verif.SpecialRoots.C88_negative_false",
    "Verif.SpecialRoots.C88_xcotx_root",
    "Verif.SpecialRoots.C88_xcotx_newton",
    "Verif.SpecialRoots.C88_xcotx_large",
    "Verif.SpecialRoots.C88_xcotx_list",
    "Verif.SpecialRoots.C88_xcotx_limits",
    "Verif.SpecialRoots.C88_cache",
    "Verif.SpecialRoots.C88_cache_false"
   ],
   "note": "Exact real arithmetic; the complex-step derivative is taken as the exact derivative (dual numbers). That Newton reaches its tolerance within 50 iterations is not proved."
  },
  {
   "property": "C100",
   "status": "proved",
   "theorems": [
    "Verif.Jcr.C100_ellipse",
    "Verif.Jcr.C100_ellipse_false",
    "Verif.Jcr.C100_ellipse_checks",
    "Verif.Jcr.C100_region",
    "Verif.Jcr.C100_region_checks",
    "Verif.Jcr.C100_default_width_false"
   ],
   "note": "F and t quantiles and eigh are oracles. Drawing itself is not modelled. With LAPACK the eigenvector matrix of a 2x2 covariance matrix comes out symmetric in practice, so the row/column slip is masked."
  },
  {
   "property": "C101",
   "status": "partial",
   "theorems": [
    "Verif.CopoData.C101_construct",
    "Verif.CopoData.C101_getvar_names",
    "Verif.CopoData.C101_getvar",
    "Verif.CopoData.C101_getvar_errors",
    "Verif.CopoData.C101_model_names",
    "Verif.CopoData.C101_kp_false"
   ],
   "note": "The last clause is false: C101_kp_false. Everything else is proved. str.lower is ASCII lower-casing."
  },
  {
   "property": "C102",
   "status": "partial",
   "theorems": [
    "Verif.Reaction.C102_moments",
    "Verif.Reaction.C102_balance",
    "Verif.Reaction.C102_order",
    "Verif.Reaction.C102_rates_defined",
    "Verif.Reaction.C102_system_false",
    "Verif.Reaction.C102_append_false",
    "Verif.Reaction.C102_add_false"
   ],
   "note": "The ReactionSystem clauses are false: C102_system_false, C102_append_false. The statements about eval, rate and rates are proved. Indices are natural numbers (no negative indexing)."
  },
  {
   "property": "C103",
   "status": "partial",
   "theorems": [
    "Verif.Rackett.C103_arguments",
    "Verif.Rackett.C103_value",
    "Verif.Rackett.C103_si",
    "Verif.Rackett.C103_monotone",
    "Verif.Rackett.C103_real_false"
   ],
   "note": "Last clause false: C103_real_false. Everything else is proved."
  },
  {
   "property": "C104",
   "status": "partial",
   "theorems": [
    "Verif.DataDist.C104_construct",
    "Verif.DataDist.C104_integers_false",
    "Verif.DataDist.C104_density",
    "Verif.DataDist.C104_cdf",
    "Verif.DataDist.C104_data",
    "Verif.DataDist.C104_monotone_partial",
    "Verif.DataDist.C104_averages",
    "Verif.DataDist.C104_negative_false"
   ],
   "note": "Non-negativity and monotonicity are false (C104_negative_false: the spline undershoots between positive data); proved when the interpolant is non-negative. Integer molar masses are refused (C104_integers_false). Spline and integrals are exact oracles."
  },
  {
   "property": "C105",
   "status": "partial",
   "theorems": [
    "Verif.DataDist.C105_fit",
    "Verif.DataDist.C105_optimum_false"
   ],
   "note": "False as stated: the parameters are those of the last trial (C105_optimum_false). C105_fit says exactly what is returned or raised for every behaviour of the optimiser."
  },
  {
   "property": "C106",
   "status": "partial",
   "theorems": [
    "Verif.Psat.C106_errors",
    "Verif.Psat.C106_result",
    "Verif.Psat.C106_area",
    "Verif.Psat.C106_unique",
    "Verif.Psat.C106_accuracy",
    "Verif.Psat.C106_single_phase",
    "Verif.Psat.C106_saturation",
    "Verif.Psat.C106_guess_false"
   ],
   "note": "False as stated: with a guess outside the two-phase window there is one root, K is exactly one and the guess itself is returned (C106_guess_false, C106_single_phase gives the exact condition). Proved: the errors; |K-1| within tolerance at every result; ln K is the signed Maxwell area over RT; uniqueness of the saturation pressure; error bound for a two-root result; the true saturation pressure is a fixed point. Convergence from an arbitrary two-phase guess is not proved. np.roots is an exact oracle where stated."
  },
  {
   "property": "C107",
   "status": "partial",
   "theorems": [
    "Verif.CopoDrift.C107_trajectory",
    "Verif.CopoDrift.C107_direction",
    "Verif.CopoDrift.C107_meyer_lowry",
    "Verif.CopoDrift.C107_multi_shape",
    "Verif.CopoDrift.C107_multi",
    "Verif.CopoDrift.C107_unique",
    "Verif.CopoDrift.C107_multi_binary",
    "Verif.CopoDrift.C107_errors",
    "Verif.CopoDrift.C107_shape",
    "Verif.CopoDrift.C107_shape_false",
    "Verif.CopoDrift.C107_unsorted_false",
    "Verif.CopoDrift.C107_multi_last_false",
    "Verif.CopoDrift.C107_above_one_false"
   ],
   "note": "scipy solve_ivp is an oracle; the trajectory statements assume it exact. False of the code: documented result shape (C107_shape_false), conversions in any order (C107_unsorted_false), initial condition of the last monomer (C107_multi_last_false), fractions at most one with an integrator that is only within tolerance (C107_above_one_false)."
  },
  {
   "property": "C108",
   "status": "proved",
   "theorems": [
    "Verif.CopoClass.C108_terminal",
    "Verif.CopoClass.C108_implicit",
    "Verif.CopoClass.C108_penultimate",
    "Verif.CopoClass.C108_from_Qe",
    "Verif.CopoClass.C108_from_Qe_errors",
    "Verif.CopoClass.C108_F1",
    "Verif.CopoClass.C108_implicit_F1",
    "Verif.CopoClass.C108_penultimate_F1",
    "Verif.CopoClass.C108_kp_errors",
    "Verif.CopoClass.C108_kp_pos",
    "Verif.CopoClass.C108_implicit_one",
    "Verif.CopoClass.C108_zero_s_false"
   ],
   "note": "Names are lower-cased in ASCII only. The last sentence of the statement is C108_zero_s_false."
  },
  {
   "property": "C109",
   "status": "partial",
   "theorems": [
    "Verif.CopoFit.C109_errors",
    "Verif.CopoFit.C109_statistics",
    "Verif.CopoFit.C109_sse",
    "Verif.CopoFit.C109_mean_composition",
    "Verif.CopoFit.C109_regroup",
    "Verif.CopoFit.C109_nonneg",
    "Verif.CopoFit.C109_identifiable",
    "Verif.CopoFit.C109_recover",
    "Verif.CopoFit.C109_covariance",
    "Verif.CopoFit.C109_stencil",
    "Verif.CopoFit.C109_hessian",
    "Verif.CopoFit.C109_scale_free",
    "Verif.CopoFit.C109_weights_scale",
    "Verif.CopoFit.C109_recover_odr",
    "Verif.CopoFit.C109_bounds_false",
    "Verif.CopoFit.C109_zero_conversion_false",
    "Verif.CopoFit.C109_weight_false",
    "Verif.CopoFit.C109_unsorted_false"
   ],
   "note": "The optimiser, the orthogonal distance regression, the integrator and the Student quantile are given from outside with stated contracts; plots and joint confidence regions are left out. Recovery is false at zero conversion for F(x) data, for ratios below 1e-3 and with unsorted conversions, and the weights of the two methods differ (C109_*_false)."
  },
  {
   "property": "C110",
   "status": "proved",
   "theorems": [
    "Verif.Relabel.C110_nrtl",
    "Verif.Relabel.C110_wilson",
    "Verif.Relabel.C110_uniquac",
    "Verif.Relabel.C110_flory_huggins",
    "Verif.Relabel.C110_nrtl_false",
    "Verif.Relabel.C110_cubic",
    "Verif.Relabel.C110_cubic_false",
    "Verif.Relabel.C110_virial",
    "Verif.Relabel.C110_mixtures",
    "Verif.Relabel.C110_rachford_rice",
    "Verif.Relabel.C110_flash",
    "Verif.Relabel.C110_copolymer",
    "Verif.Relabel.C110_ternary"
   ],
   "note": ""
  },
  {
   "property": "C111",
   "status": "proved",
   "theorems": [
    "Verif.Acm.C111_accepts",
    "Verif.Acm.C111_parameters",
    "Verif.Acm.C111_defaults",
    "Verif.Acm.C111_wilson_stable",
    "Verif.Acm.C111_split",
    "Verif.Acm.C111_uniquac_wilson",
    "Verif.Acm.C111_infinite_dilution"
   ],
   "note": ""
  },
  {
   "property": "C112",
   "status": "proved",
   "theorems": [
    "Verif.Eos.C112_B_increasing",
    "Verif.Eos.C112_boyle",
    "Verif.Eos.C112_B_limit",
    "Verif.Eos.C112_fugacity",
    "Verif.Eos.C112_alpha_critical",
    "Verif.Eos.C112_alpha_acentric",
    "Verif.Eos.C112_alpha_falls",
    "Verif.Eos.C112_alpha_rises"
   ],
   "note": ""
  },
  {
   "property": "C113",
   "status": "proved",
   "theorems": [
    "Verif.Flash.C113_trace",
    "Verif.Flash.C113_no_step",
    "Verif.Flash.C113_ideal"
   ],
   "note": ""
  },
  {
   "property": "C114",
   "status": "proved",
   "theorems": [
    "Verif.Kin.C114_accepts",
    "Verif.Kin.C114_eyring_plot",
    "Verif.Kin.C114_call",
    "Verif.Kin.C114_arrhenius"
   ],
   "note": ""
  },
  {
   "property": "C115",
   "status": "proved",
   "theorems": [
    "Verif.Diffusion.C115_ierfc",
    "Verif.Diffusion.C115_i2erfc"
   ],
   "note": ""
  },
  {
   "property": "C116",
   "status": "proved",
   "theorems": [
    "Verif.Cache.C116_first_call",
    "Verif.Cache.C116_transparent",
    "Verif.Cache.C116_models",
    "Verif.Cache.C116_parameters_false",
    "Verif.Cache.C116_result_false",
    "Verif.Cache.C116_eos_false"
   ],
   "note": ""
  },
  {
   "property": "C117",
   "status": "proved",
   "theorems": [
    "Verif.Tait.C117_lookup",
    "Verif.Tait.C117_physical",
    "Verif.Tait.C117_monotone"
   ],
   "note": ""
  },
  {
   "property": "C118",
   "status": "proved",
   "theorems": [
    "Verif.Flash.C118_bubble_pressure",
    "Verif.Flash.C118_dew_pressure",
    "Verif.Flash.C118_dew_le_bubble",
    "Verif.Flash.C118_bubble_temperature",
    "Verif.Flash.C118_any_feed"
   ],
   "note": "Needs an equilibrium pressure of at least 1e-9 Pa, for the complex step in the Newton solver."
  },
  {
   "property": "C119",
   "status": "proved",
   "theorems": [
    "Verif.Dist.C119_flory",
    "Verif.Dist.C119_poisson",
    "Verif.Dist.C119_lognormal",
    "Verif.Dist.C119_schulzzimm",
    "Verif.Dist.C119_rounding",
    "Verif.Dist.C119_zero_length_false",
    "Verif.Dist.C119_zero_length_fraction"
   ],
   "note": "C119_zero_length_false and C119_zero_length_fraction are findings. The laws of the numpy samplers are hypotheses; independence of several draws (shape) is not modelled."
  },
  {
   "property": "C120",
   "status": "proved",
   "theorems": [
    "Verif.Mixture.C120_compare",
    "Verif.Mixture.C120_strict_weak_order",
    "Verif.Mixture.C120_mixture_between",
    "Verif.Mixture.C120_membership",
    "Verif.Mixture.C120_iteration_false",
    "Verif.Mixture.C120_empty_comparison_false"
   ],
   "note": "C120_iteration_false and C120_empty_comparison_false are findings. Moments are real numbers (no NaN)."
  },
  {
   "property": "C121",
   "status": "proved",
   "theorems": [
    "Verif.Repr.C121_aligned",
    "Verif.Repr.C121_read_back",
    "Verif.Repr.C121_lines",
    "Verif.Repr.C121_matrix"
   ],
   "note": "The texts of attribute values and formatted elements are inputs; nspaces is a natural number."
  },
  {
   "property": "C122",
   "status": "proved",
   "theorems": [
    "Verif.Units.C122_hagen_poiseuille",
    "Verif.Units.C122_darcy_weisbach",
    "Verif.Units.C122_tube",
    "Verif.Units.C122_packed_bed",
    "Verif.Units.C122_lockhart_martinelli",
    "Verif.Units.C122_mueller_bonn",
    "Verif.Units.C122_stokes",
    "Verif.Units.C122_power_law",
    "Verif.Units.C122_cross",
    "Verif.Units.C122_cross_modified",
    "Verif.Units.C122_carreau_yasuda",
    "Verif.Units.C122_WLF",
    "Verif.Units.C122_plane_wall",
    "Verif.Units.C122_cylindrical_wall",
    "Verif.Units.C122_composite",
    "Verif.Units.C122_semiinf",
    "Verif.Units.C122_rtd_density",
    "Verif.Units.C122_rtd_cumulative",
    "Verif.Units.C122_relief_gas",
    "Verif.Units.C122_relief_2phase",
    "Verif.Units.C122_relief_subcooled",
    "Verif.Units.C122_relief_liquid"
   ],
   "note": "vt_sphere and fD_Colebrook iterate with absolute tolerances and are not included; steam sizing has dimensional constants."
  },
  {
   "property": "C123",
   "status": "partial",
   "theorems": [
    "Verif.Corresponding.C123_cubic",
    "Verif.Corresponding.C123_fugacity_partial",
    "Verif.Corresponding.C123_interaction_false",
    "Verif.Corresponding.C123_departures",
    "Verif.Corresponding.C123_virial",
    "Verif.Corresponding.C123_pseudocritical",
    "Verif.Corresponding.C123_vapour_pressure",
    "Verif.Corresponding.C123_vaporization",
    "Verif.Corresponding.C123_rackett"
   ],
   "note": "Proved except where the code breaks the principle: phi (hence K) with interaction parameters, refuted by C123_interaction_false."
  },
  {
   "property": "C124",
   "status": "partial",
   "theorems": [
    "Verif.Split.C124_nrtl",
    "Verif.Split.C124_wilson",
    "Verif.Split.C124_uniquac",
    "Verif.Split.C124_flory_huggins",
    "Verif.Split.C124_entropy",
    "Verif.Split.C124_cubic",
    "Verif.Split.C124_cubic_false",
    "Verif.Split.C124_virial",
    "Verif.Split.C124_mixtures",
    "Verif.Split.C124_flash",
    "Verif.Split.C124_rachford_rice_partial",
    "Verif.Split.C124_rachford_rice_false",
    "Verif.Split.C124_copolymer"
   ],
   "note": "Proved for everything named in the statement, with the three exceptions proved as such (C124_entropy, C124_cubic_false, C124_rachford_rice_false). Missing: flash2_PT, whose inner Rachford-Rice solve starts from an interval that depends on the individual feed fractions, so that only residual and derivative are invariant."
  },
  {
   "property": "C125",
   "status": "proved",
   "theorems": [
    "Verif.C125_wilke_chang",
    "Verif.C125_wilke_chang_si",
    "Verif.C125_hayduk_minhas",
    "Verif.C125_wilke_lee",
    "Verif.C125_stokes_einstein",
    "Verif.C125_jossi",
    "Verif.C125_dean_stiel",
    "Verif.C125_lucas_polarity",
    "Verif.C125_lucas",
    "Verif.C125_lucas_mixture",
    "Verif.C125_stiel_thodos",
    "Verif.C125_stiel_thodos_gamma",
    "Verif.C125_lee_kesler",
    "Verif.C125_ambrose_walton",
    "Verif.C125_wilson",
    "Verif.C125_pitzer",
    "Verif.C125_vetere",
    "Verif.C125_kistiakowsky_vetere",
    "Verif.C125_watson",
    "Verif.C125_abbott"
   ],
   "note": "Published equations transcribed from the literature in their own units (Spec/Published.lean)."
  },
  {
   "property": "C126",
   "status": "proved",
   "theorems": [
    "Verif.C126_haaland",
    "Verif.C126_tube",
    "Verif.C126_plate",
    "Verif.C126_forced",
    "Verif.C126_free",
    "Verif.C126_plate_free",
    "Verif.C126_combined",
    "Verif.C126_bank",
    "Verif.C126_tanks",
    "Verif.C126_laminar",
    "Verif.C126_dispersion_E",
    "Verif.C126_dispersion_F",
    "Verif.C126_dispersion_F_false",
    "Verif.C126_Pe_tube",
    "Verif.C126_pressure_drop",
    "Verif.C126_lockhart_martinelli",
    "Verif.C126_lockhart_martinelli_false",
    "Verif.C126_mueller_bonn",
    "Verif.C126_sphere",
    "Verif.C126_rheology",
    "Verif.C126_WLF",
    "Verif.C126_cubic"
   ],
   "note": "Formulas transcribed from the LaTeX of the docstrings in Spec/Documented.lean with their own arrangement (negative exponents, roots as powers, factorials). Docstring errors are refuted by C126_lockhart_martinelli_false and C126_dispersion_F_false."
  },
  {
   "property": "C127",
   "status": "partial",
   "theorems": [
    "Verif.Prv.C127_gas",
    "Verif.Prv.C127_liquid",
    "Verif.Prv.C127_two_phase",
    "Verif.Prv.C127_two_phase_low_false",
    "Verif.Prv.C127_subcooled_partial",
    "Verif.Prv.C127_subcooled_liquid_false",
    "Verif.Prv.C127_subcooled_undersized_false"
   ],
   "note": "Specification: Spec/Nozzle.lean (integral of the specific volume). Missing in C127_subcooled_partial: low subcooling with back pressure above saturation, where the claim is false (C127_subcooled_liquid_false, C127_subcooled_undersized_false). The correlation for the critical pressure of two-phase flow is bounded for omega between 0.01 and 1000 (outside: C127_two_phase_low_false)."
  },
  {
   "property": "C128",
   "status": "proved",
   "theorems": [
    "Verif.Recorded.C128_vaporization",
    "Verif.Recorded.C128_diffusivity",
    "Verif.Recorded.C128_conductivity",
    "Verif.Recorded.C128_viscosity",
    "Verif.Recorded.C128_Rackett",
    "Verif.Recorded.C128_VrentasDuda",
    "Verif.Recorded.C128_friction",
    "Verif.Recorded.C128_Lockhart_Martinelli",
    "Verif.Recorded.C128_Mueller_Bonn",
    "Verif.Recorded.C128_rheology",
    "Verif.Recorded.C128_walls",
    "Verif.Recorded.C128_relief",
    "Verif.Recorded.C128_relief_liquid",
    "Verif.Recorded.C128_Nu",
    "Verif.Recorded.C128_kinetics",
    "Verif.Recorded.C128_FloryHuggins",
    "Verif.Recorded.C128_Flory",
    "Verif.Recorded.C128_LogNormal",
    "Verif.Recorded.C128_SchulzZimm",
    "Verif.Recorded.C128_Poisson",
    "Verif.Recorded.C128_ode_rk",
    "Verif.Recorded.C128_stepgrowth",
    "Verif.Recorded.C128_binary",
    "Verif.Recorded.C128_multicomponent",
    "Verif.Recorded.C128_tuples",
    "Verif.Recorded.C128_Qe",
    "Verif.Recorded.C128_standards"
   ],
   "note": "Not covered: examples whose value comes from an iterative solver or special function not evaluated here (Colebrook, vt_sphere, roots, Gold, cdfs other than Flory's, diffusion profiles) and those whose printed digits are rounding noise (finite differences). Floats of the examples are read as exact decimals. The Eyring example reproduces with the gas constant 8.314462618 of older scipy releases, not with the present exact value."
  },
  {
   "property": "C129",
   "status": "proved",
   "theorems": [
    "Verif.Flow.C129_colebrook",
    "Verif.Flow.C129_haaland",
    "Verif.Flow.C129_haaland_transition"
   ],
   "note": "Exact real arithmetic; the complex step of root_newton (the equation evaluated at f + i eps) is modelled and its error bounded."
  },
  {
   "property": "C130",
   "status": "partial",
   "theorems": [
    "Verif.Flow.C130_accuracy_partial",
    "Verif.Flow.C130_converges_partial",
    "Verif.Flow.C130_converges_all_partial",
    "Verif.Flow.C130_large_partial",
    "Verif.Flow.C130_fast_false",
    "Verif.Flow.C130_raindrop_false",
    "Verif.Flow.C130_slope_partial",
    "Verif.Flow.C130_colloid_false"
   ],
   "note": "Relative accuracy refuted for colloids (C130_colloid_false) and for fast spheres, for which a negative velocity is returned (C130_fast_false, C130_raindrop_false). Convergence proved at any Reynolds number for terminal velocities between 2e-5 and 1.33 m/s (C130_converges_all_partial); up to 20 m/s for rho Dp/mu of at least 3000 s/m (C130_large_partial), and for at least 160 s/m if the balance has a slope of at least 0.01 at 1 m/s (C130_slope_partial); not decided for slopes within 0.01 of zero, nor for faster spheres with an upward slope and rho Dp/mu below 160 s/m."
  },
  {
   "property": "C131",
   "status": "proved",
   "theorems": [
    "Verif.NDiff.C131_jacobian",
    "Verif.NDiff.C131_hessian",
    "Verif.NDiff.C131_centered",
    "Verif.NDiff.C131_optimal_step",
    "Verif.NDiff.C131_hessian2_diagonal",
    "Verif.NDiff.C131_hessian2_mixed",
    "Verif.NDiff.C131_complex"
   ],
   "note": "Errors of the function values are arbitrary within the bound; the arithmetic of the quotients themselves is exact."
  },
  {
   "property": "C132",
   "status": "proved",
   "theorems": [
    "Verif.C132_newton",
    "Verif.C132_secant",
    "Verif.C132_wegstein",
    "Verif.C132_substitution",
    "Verif.C132_wegstein_contraction_false"
   ],
   "note": "Exact arithmetic. The documentation of fixpoint_wegstein describes it as accelerating fixed-point iterations without claiming convergence; the refuted statement is the natural expectation that it converges where direct substitution does."
  }
 ]
}