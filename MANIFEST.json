{
 "claims": [
  {
   "property": "C01",
   "status": "proved",
   "theorems": [
    "Slat.CacheFn.evaluated_at_most_once"
   ],
   "note": "All thread counts, functions (also throwing) and schedules; clearings at any safe moment."
  },
  {
   "property": "C02",
   "status": "proved",
   "theorems": [
    "Slat.CacheFn.returns_function_value"
   ],
   "note": "Answers are matched to the pending call of the thread."
  },
  {
   "property": "C03",
   "status": "proved",
   "theorems": [
    "Slat.CacheFn.never_faults"
   ],
   "note": ""
  },
  {
   "property": "C04",
   "status": "proved",
   "theorems": [
    "Slat.CacheFn.calls_complete"
   ],
   "note": "Step bound 11 per call; stuck states have no pending call except at throwing arguments (C06). Evaluation of the wrapped function is one step (assumed to terminate and not to re-enter the same cache)."
  },
  {
   "property": "C05",
   "status": "partial",
   "theorems": [
    "Slat.CacheFn.overlapping_clear_partial",
    "Slat.CacheFn.overlapping_clear_fails",
    "Slat.CacheFn.racing_clear_fails"
   ],
   "note": "Fails in general: witness schedules. Holds when no critical section is open and no finished computation waits to be picked up."
  },
  {
   "property": "C06",
   "status": "partial",
   "theorems": [
    "Slat.CacheFn.throw_isolated_partial",
    "Slat.CacheFn.throw_blocks_later_calls_fails"
   ],
   "note": "Fails for every throwing argument; other arguments are unaffected."
  },
  {
   "property": "C07",
   "status": "proved",
   "theorems": [
    "Slat.CacheFn.bypass_evaluates_afresh",
    "Slat.CacheFn.bypass_never_waits"
   ],
   "note": ""
  },
  {
   "property": "C08",
   "status": "proved",
   "theorems": [
    "Slat.CacheVal.value_computed_once",
    "Slat.CacheVal.value_shared",
    "Slat.CacheVal.value_calls_complete"
   ],
   "note": "Function evaluation is one step; waiting_lock modelled as transferable between threads."
  },
  {
   "property": "C09",
   "status": "partial",
   "theorems": [
    "Slat.CacheVal.refill_after_clear_partial",
    "Slat.CacheVal.refill_after_clear_fails",
    "Slat.CacheVal.stale_after_clear_fails"
   ],
   "note": "Fails with concurrent callers after a clear (witness schedules); holds for one caller at a time apart from the extra unlock."
  },
  {
   "property": "C10",
   "status": "proved",
   "theorems": [
    "Slat.CacheReg.clear_caches_exact",
    "Slat.CacheReg.clear_caches_total"
   ],
   "note": "Registry operations are atomic (registry lock); any iteration order."
  },
  {
   "property": "C11",
   "status": "proved",
   "theorems": [
    "Slat.Replaceable.notify_exact"
   ],
   "note": ""
  },
  {
   "property": "C12",
   "status": "partial",
   "theorems": [
    "Slat.Replaceable.handles_distinct",
    "Slat.Replaceable.handle_identifies_partial",
    "Slat.Replaceable.handle_identifies_fails"
   ],
   "note": "Fails on objects that received clients through replace."
  },
  {
   "property": "C13",
   "status": "partial",
   "theorems": [
    "Slat.Replaceable.replace_hands_over_partial",
    "Slat.Replaceable.replace_chain_keeps_clients",
    "Slat.Replaceable.replace_self_fails",
    "Slat.Replaceable.replace_keeps_own_clients_fails"
   ],
   "note": "Fails for self replacement and for replacements that already have clients."
  },
  {
   "property": "C14",
   "status": "proved",
   "theorems": [
    "Slat.LogNormalDist.mean_sd_roundtrip",
    "Slat.LogNormalDist.mean_sdln_roundtrip",
    "Slat.LogNormalDist.zero_mean_sdln",
    "Slat.LogNormalDist.median_sdln_roundtrip",
    "Slat.LogNormalDist.rebuild"
   ],
   "note": "Exact real arithmetic (no rounding)."
  },
  {
   "property": "C15",
   "status": "partial",
   "theorems": [
    "Slat.LogNormalDist.p_at_most_is_cdf",
    "Slat.LogNormalDist.exceedance_is_probability",
    "Slat.LogNormalDist.unset_answers_nan",
    "Slat.LogNormalDist.zero_mean_never_exceeds",
    "Slat.LogNormalDist.negative_amount_fails",
    "Slat.LogNormalDist.zero_spread_at_value_fails",
    "Slat.LogNormalDist.half_set_complement_fails"
   ],
   "note": "Holds for non-negative amounts and positive spread; NaN for negative amounts and at the value of a distribution without spread."
  },
  {
   "property": "C16",
   "status": "proved",
   "theorems": [
    "Slat.LogNormalDist.add_adds_moments",
    "Slat.LogNormalDist.add_order_irrelevant"
   ],
   "note": ""
  },
  {
   "property": "C17",
   "status": "proved",
   "theorems": [
    "Slat.LogNormalDist.mixture_of_probabilities",
    "Slat.LogNormalDist.mixture_moments",
    "Slat.LogNormalDist.mixture_rejects_iff",
    "Slat.LogNormalDist.mixture_negative_variance_fails"
   ],
   "note": "Outside the claim: a negative weighted variance is silently reported as its absolute value."
  },
  {
   "property": "C18",
   "status": "proved",
   "theorems": [
    "Slat.LogNormalDist.scaling",
    "Slat.LogNormalDist.scaling_composes"
   ],
   "note": ""
  },
  {
   "property": "C19",
   "status": "partial",
   "theorems": [
    "Slat.LogNormalFn.reports_supplied_partial",
    "Slat.LogNormalFn.usable_terminates",
    "Slat.LogNormalFn.lambdas_agree",
    "Slat.LogNormalFn.construct_accepts_iff",
    "Slat.LogNormalFn.sigma_x_needs_mean_fails",
    "Slat.LogNormalFn.zero_mean_sigma_x_fails"
   ],
   "note": "Fails for mean-of-log or median with plain standard deviation (never returns) and for zero mean with plain standard deviation (unset result)."
  },
  {
   "property": "C20",
   "status": "proved",
   "theorems": [
    "Slat.Functions.nlh_is_rate_curve",
    "Slat.Functions.nlh_negative_fails"
   ],
   "note": ""
  },
  {
   "property": "C21",
   "status": "proved",
   "theorems": [
    "Slat.Functions.linear_constructs_iff",
    "Slat.Functions.linear_faithful"
   ],
   "note": "gsl_interp_linear modelled as documented."
  },
  {
   "property": "C22",
   "status": "proved",
   "theorems": [
    "Slat.Fragility.construct_iff_increasing",
    "Slat.Fragility.construct_nan_fails"
   ],
   "note": "Onsets with NaN location defeat the check (construct_nan_fails)."
  },
  {
   "property": "C23",
   "status": "partial",
   "theorems": [
    "Slat.Fragility.pHighest_are_probabilities",
    "Slat.Fragility.pHighest_sum_partial",
    "Slat.Fragility.pHighest_sum_common_dispersion",
    "Slat.Fragility.pHighest_sum_fails"
   ],
   "note": "The sum bound fails when curves cross."
  },
  {
   "property": "C24",
   "status": "proved",
   "theorems": [
    "Slat.Loss.two_level_interpolates",
    "Slat.Loss.two_level_monotone",
    "Slat.Loss.two_level_overflow_fails"
   ],
   "note": "For non-negative lower counts; negative ones can overflow int."
  },
  {
   "property": "C25",
   "status": "proved",
   "theorems": [
    "Slat.Loss.simple_loss",
    "Slat.Loss.simple_loss_rejects",
    "Slat.Loss.two_level_loss",
    "Slat.Loss.two_level_loss_rejects",
    "Slat.Loss.construct_iff"
   ],
   "note": ""
  },
  {
   "property": "C26",
   "status": "proved",
   "theorems": [
    "Slat.Fates.fates_partition",
    "Slat.Fates.fates_are_probabilities_iff",
    "Slat.Fates.demolition_nonneg_iff",
    "Slat.Fates.settings_independent"
   ],
   "note": "Log-normal collapse/demolition distributions with positive spread or unset; intensities >= 0. pDemolition is non-negative everywhere iff equal spreads and lower demolition median."
  },
  {
   "property": "C27",
   "status": "partial",
   "theorems": [
    "Slat.StructCosts.total_cost_is_mixture",
    "Slat.StructCosts.costs_by_fate_sum",
    "Slat.StructCosts.total_cost_unordered_fails",
    "Slat.StructCosts.empty_total_cost_fails"
   ],
   "note": "Needs demolition at least as likely as collapse; otherwise the total may be NaN (total_cost_unordered_fails). A structure without components dereferences a null IM (empty_total_cost_fails)."
  },
  {
   "property": "C28",
   "status": "partial",
   "theorems": [
    "Slat.discounted_is_present_value",
    "Slat.discounted_grows",
    "Slat.zero_rate_fails"
   ],
   "note": "Exact real arithmetic; rate 0 gives NaN (zero_rate_fails)."
  },
  {
   "property": "C29",
   "status": "proved",
   "theorems": [
    "Slat.CompList.components_refine_list"
   ],
   "note": ""
  },
  {
   "property": "C30",
   "status": "partial",
   "theorems": [
    "Slat.Maq.maq_terminates",
    "Slat.Maq.unbounded_limit_fails"
   ],
   "note": "For limits with 2*search limit + 5 and evaluation limit below 2^32-1, in exact arithmetic. With the evaluation limit 2^32-1 the counter wraps and a constant integrand never returns (unbounded_limit_fails)."
  },
  {
   "property": "C31",
   "status": "proved",
   "theorems": [
    "Slat.Maq.success_is_composite"
   ],
   "note": "Integrands with finite values, finite tolerance; exact arithmetic."
  },
  {
   "property": "C32",
   "status": "proved",
   "theorems": [
    "Slat.Maq.nonneg_integral"
   ],
   "note": ""
  },
  {
   "property": "C33",
   "status": "proved",
   "theorems": [
    "Slat.Maq.exact_for_quintics",
    "Slat.Maq.exact_for_cubics",
    "Slat.Maq.inverse_cube"
   ],
   "note": ""
  },
  {
   "property": "C34",
   "status": "partial",
   "theorems": [
    "Slat.Maq.nan_iff_unsuccessful",
    "Slat.Maq.nan_never_hidden",
    "Slat.Maq.infinite_values_fail"
   ],
   "note": "A successful result is a number when the integrand is finite; with infinities of both signs a NaN is reported as success (infinite_values_fail)."
  },
  {
   "property": "C35",
   "status": "partial",
   "theorems": [
    "Slat.Maq.whole_half_line_partial",
    "Slat.Maq.dropped_mass_fails",
    "Slat.Maq.small_or_negative_fails"
   ],
   "note": "Holds when the integrand exceeds epsilon at 0 or 1; otherwise mass is dropped silently (dropped_mass_fails, small_or_negative_fails)."
  },
  {
   "property": "C36",
   "status": "partial",
   "theorems": [
    "Slat.Stats.counters_are_exact",
    "Slat.Stats.outcomes_add_up",
    "Slat.Stats.statistics_of_integrations",
    "Slat.Stats.maxima_are_attained",
    "Slat.Stats.maxima_exact_partial",
    "Slat.Stats.maximum_race_fails"
   ],
   "note": "Counters and totals are exact under every interleaving; the maxima are exact only when calls do not overlap (maximum_race_fails)."
  },
  {
   "property": "C37",
   "status": "proved",
   "theorems": [
    "Slat.Settings.settings_are_last_requests",
    "Slat.Settings.settings_valid",
    "Slat.Settings.reset_restores",
    "Slat.Settings.tolerance_accepted_iff",
    "Slat.Settings.reachable_settings_terminate"
   ],
   "note": "An infinite tolerance is accepted."
  },
  {
   "property": "C38",
   "status": "partial",
   "theorems": [
    "Slat.Graph.edp_never_stale_partial",
    "Slat.Graph.edp_stale_after_id_clash_fails",
    "Slat.Graph.edp_stale_after_shared_replacement_fails"
   ],
   "note": "Proved for every history in which replacements have no clients of their own, no client registers after ids were carried over, and no second demand function is replaced; counterexamples for the first two clauses."
  },
  {
   "property": "C39",
   "status": "partial",
   "theorems": [
    "Slat.Graph.group_never_stale_partial"
   ],
   "note": "Same discipline as C38; all nine caches, arbitrary calculations."
  },
  {
   "property": "C40",
   "status": "partial",
   "theorems": [
    "Slat.Graph.collapse_rate_never_stale_partial",
    "Slat.Graph.demolition_rate_never_stale_partial",
    "Slat.Graph.collapse_rate_after_set_partial",
    "Slat.Graph.demolition_rate_after_set_partial",
    "Slat.Graph.unread_right_partial",
    "Slat.Graph.collapse_rate_after_hazard_fails",
    "Slat.Graph.demolition_rate_after_hazard_fails",
    "Slat.Graph.demolition_rate_after_collapse_fails"
   ],
   "note": "Never stale while no hazard curve is replaced (and collapse is set before the demolition rate is read); fails otherwise."
  },
  {
   "property": "C41",
   "status": "partial",
   "theorems": [
    "Slat.Graph.annual_cost_never_stale_partial",
    "Slat.Graph.annual_cost_after_change_partial",
    "Slat.Graph.annual_cost_after_add_partial",
    "Slat.Graph.unread_right_partial",
    "Slat.Graph.annual_cost_after_rebuild_fails",
    "Slat.Graph.annual_cost_after_demolition_cost_fails",
    "Slat.Graph.annual_cost_after_removal_fails",
    "Slat.Graph.annual_cost_after_fragility_fails",
    "Slat.Graph.annual_cost_after_demand_fails"
   ],
   "note": "Never stale while every relevant operation is one the structure is told of; fails for the others."
  },
  {
   "property": "C42",
   "status": "partial",
   "theorems": [
    "Slat.Graph.members_follow_partial",
    "Slat.Graph.compound_second_fails"
   ],
   "note": "All members follow replacements under the discipline of C38; the second demand function of a compound EDP does not."
  },
  {
   "property": "C43",
   "status": "partial",
   "theorems": [
    "Slat.Interp.command_means_partial",
    "Slat.Interp.script_means_partial",
    "Slat.Interp.script_errors_from_python_partial",
    "Slat.Interp.variables_last_set_partial",
    "Slat.Interp.integration_variable_fails",
    "Slat.Interp.detfn_loglog_fails",
    "Slat.Interp.detfn_linear_fails",
    "Slat.Interp.probfn_variable_fails",
    "Slat.Interp.quoted_key_fails",
    "Slat.Interp.dictionary_keys_fails",
    "Slat.Interp.annual_without_mu_fails",
    "Slat.Interp.annual_without_sd_fails"
   ],
   "note": "Proved for every command outside the listed defective forms, each of which has a theorem showing how it goes wrong. eval is a parameter; lexer and parser are C83-C85, the composition with the API calls C87 and C88."
  },
  {
   "property": "C44",
   "status": "proved",
   "theorems": [
    "Slat.Grouping.groups_partition",
    "Slat.Grouping.group_is_class",
    "Slat.Grouping.groups_by_key",
    "Slat.Grouping.same_group_iff_same_key"
   ],
   "note": "Pointer order is an arbitrary linear order."
  },
  {
   "property": "C45",
   "status": "partial",
   "theorems": [
    "Slat.ParFor.pure_loop_elementwise",
    "Slat.ParFor.cached_loop_elementwise",
    "Slat.ParFor.value_loop_elementwise",
    "Slat.ParFor.fate_vectors_elementwise",
    "Slat.ParFor.discounted_vector_elementwise",
    "Slat.ParFor.cached_loop_evaluates_once",
    "Slat.ParFor.value_loop_after_clear_fails"
   ],
   "note": "All schedules, thread counts and iteration assignments, composed with the statement-level models of both caches. E_cost(vector) is proved for an annual-cost cache that was never cleared; after a clearing it can mix old and new values (value_loop_after_clear_fails)."
  },
  {
   "property": "C46",
   "status": "proved",
   "theorems": [
    "Slat.LogNormalDist.moments_are_true_moments"
   ],
   "note": ""
  },
  {
   "property": "C47",
   "status": "proved",
   "theorems": [
    "Slat.LogNormalDist.x_at_p_inverts"
   ],
   "note": "gsl_cdf_ugaussian_Pinv is an inverse of the normal distribution function on (0,1) (existence proved)."
  },
  {
   "property": "C48",
   "status": "proved",
   "theorems": [
    "Slat.Functions.power_law"
   ],
   "note": ""
  },
  {
   "property": "C49",
   "status": "proved",
   "theorems": [
    "Slat.Functions.logLog_faithful"
   ],
   "note": "Positive data only."
  },
  {
   "property": "C50",
   "status": "proved",
   "theorems": [
    "Slat.StructCosts.cost_with_collapse"
   ],
   "note": ""
  },
  {
   "property": "C51",
   "status": "proved",
   "theorems": [
    "Slat.annual_cost_reports",
    "Slat.annual_cost_nan",
    "Slat.annual_cost_integrates_pdf",
    "Slat.pdf_nonneg",
    "Slat.annual_cost_nan_without_spread"
   ],
   "note": "The integrator is an arbitrary function here; the model of MAQ is separate."
  },
  {
   "property": "C52",
   "status": "partial",
   "theorems": [
    "Slat.CompList.im_follows_partial",
    "Slat.CompList.emptied_structure_fails",
    "Slat.CompList.replace_group_unchecked_fails"
   ],
   "note": "Holds for histories that never empty the structure and replace groups by groups on the same IM."
  },
  {
   "property": "C53",
   "status": "proved",
   "theorems": [
    "Slat.Maq.error_bound",
    "Slat.Maq.half_line_error"
   ],
   "note": ""
  },
  {
   "property": "C54",
   "status": "partial",
   "theorems": [
    "Slat.Graph.no_dangling_partial",
    "Slat.Graph.registered_iff_partial",
    "Slat.Graph.structure_destroyed_fails",
    "Slat.Graph.compound_destroyed_fails"
   ],
   "note": "Holds for careful histories without destroyed structures; fails for destroyed structures and for compound EDPs whose second demand function was replaced."
  },
  {
   "property": "C55",
   "status": "proved",
   "theorems": [
    "Slat.Rates.edp_rate_is_rate",
    "Slat.Rates.demand_rate_curve",
    "Slat.Rates.edp_rate_curve",
    "Slat.Rates.collapse_and_demolition_rates",
    "Slat.Rates.failed_rate_is_nan",
    "Slat.Rates.actual_integrates"
   ],
   "note": "Relative to an integrator with a stated error; actual_integrates shows that the modelled MAQ is one for integrands smooth apart from the origin."
  },
  {
   "property": "C56",
   "status": "partial",
   "theorems": [
    "Slat.Rates.compound_is_demand",
    "Slat.Rates.compound_has_larger_mean",
    "Slat.Rates.compound_is_maximum_partial",
    "Slat.Rates.compound_is_maximum_fails"
   ],
   "note": "The exceedance probability is the larger of the two for equal spreads; counterexample otherwise."
  },
  {
   "property": "C57",
   "status": "partial",
   "theorems": [
    "Slat.Rates.group_expected_cost",
    "Slat.Rates.group_cost_distribution",
    "Slat.Rates.group_annual_cost",
    "Slat.Rates.group_annual_cost_error",
    "Slat.Rates.empty_group_costs_nothing",
    "Slat.Rates.fallbacks_differentiate",
    "Slat.Rates.failed_cost_is_zero_fails"
   ],
   "note": "All clauses proved for successful integrations with errors as given; a failed integration is reported as zero cost (failed_cost_is_zero_fails). Cost functions are those that do not throw."
  },
  {
   "property": "C58",
   "status": "proved",
   "theorems": [
    "Slat.Nest.slat_queries",
    "Slat.Nest.nested_answers",
    "Slat.Nest.nested_never_bad",
    "Slat.Nest.nested_complete",
    "Slat.Nest.nested_terminates",
    "Slat.Nest.nested_once"
   ],
   "note": "Statement-level models of both caches, call stacks and parallel regions. From construction up to the first clearing; which caches each calculation calls is read off the source (Calls)."
  },
  {
   "property": "C59",
   "status": "proved",
   "theorems": [
    "Slat.Maq.wrong_value_at_origin",
    "Slat.Maq.inverse_cube_origin"
   ],
   "note": ""
  },
  {
   "property": "C60",
   "status": "proved",
   "theorems": [
    "Slat.Rates.damage_state_probability",
    "Slat.Rates.damage_state_rates",
    "Slat.Rates.damage_state_rate_error"
   ],
   "note": "Relative to a differentiation routine without error and an integrator with a stated error."
  },
  {
   "property": "C61",
   "status": "partial",
   "theorems": [
    "Slat.Rates.group_expected_delay",
    "Slat.Rates.group_delay_spread",
    "Slat.Rates.group_delay_distribution_partial",
    "Slat.Rates.group_delay_distribution_fails"
   ],
   "note": "The mean is right for every count, the spread for a single component only."
  },
  {
   "property": "C62",
   "status": "partial",
   "theorems": [
    "Slat.Rec.prints_table_partial",
    "Slat.Rec.probfn_fails",
    "Slat.Rec.edpim_default_fails",
    "Slat.Rec.edpim_probability_fails",
    "Slat.Rec.states_columns_fails",
    "Slat.Rec.edprate_columns_fails",
    "Slat.Rec.detfn_columns_fails",
    "Slat.Rec.group_statistics_fails",
    "Slat.Rec.deagg_fails",
    "Slat.Rec.lossds_fails",
    "Slat.Rec.integer_argument_fails"
   ],
   "note": "Proved for all forms of the command in Spec.Working with arguments of type float; the other forms fail as proved. The text of a number is not modelled."
  },
  {
   "property": "C63",
   "status": "partial",
   "theorems": [
    "Slat.Rec.unknown_object_partial",
    "Slat.Rec.unknown_object_fails"
   ],
   "note": "Proved for columns that are names of statistics."
  },
  {
   "property": "C64",
   "status": "partial",
   "theorems": [
    "Slat.Rec.costs_by_edp_partial",
    "Slat.Rec.costs_by_fragility_partial",
    "Slat.Rec.costs_by_fragility_fails",
    "Slat.Rec.costs_by_fate_partial",
    "Slat.Rec.cost_columns_fails"
   ],
   "note": "Proved for demands and fragility functions with names of their own and the columns mean_x, sd_ln_x, sd_x."
  },
  {
   "property": "C65",
   "status": "partial",
   "theorems": [
    "Slat.Rec.annual_cost_partial",
    "Slat.Rec.annual_cost_fails",
    "Slat.Rec.present_value",
    "Slat.Rec.present_value_fails",
    "Slat.Rec.damage_state_rates",
    "Slat.Rec.collapse_rates",
    "Slat.Rec.density",
    "Slat.Rec.density_normalised_partial",
    "Slat.Rec.density_normalised_fails",
    "Slat.Rec.density_heading_fails"
   ],
   "note": "Proved for columns that are names of statistics and, for normalised densities, a positive value somewhere."
  },
  {
   "property": "C66",
   "status": "proved",
   "theorems": [
    "Slat.Rates.cost_rate_is_rate",
    "Slat.Rates.cost_rate_curve",
    "Slat.Rates.cost_rates_and_annual_cost"
   ],
   "note": "Relative to a differentiation routine without error, exact integrals of the cost at an intensity and an integrator over intensities with a stated error; the cost has positive variance (costs without spread are not covered)."
  },
  {
   "property": "C67",
   "status": "partial",
   "theorems": [
    "Slat.Rates.cost_at_demand",
    "Slat.Rates.cost_from_states_partial",
    "Slat.Rates.annual_cost_from_rates_partial",
    "Slat.Rates.cost_from_states_error_partial",
    "Slat.Rates.annual_cost_from_rates_error_partial",
    "Slat.Rates.cost_from_states_fails"
   ],
   "note": "Proved for damage states of a common dispersion, with exact differentiation, and with exact integration or integration with a stated error; counterexample for different dispersions."
  },
  {
   "property": "C68",
   "status": "partial",
   "theorems": [
    "Slat.Ranges.colon_range_partial",
    "Slat.Ranges.linear_range_partial",
    "Slat.Ranges.log_range",
    "Slat.Ranges.years_partial",
    "Slat.Ranges.colon_order_fails",
    "Slat.Ranges.descending_linear_fails",
    "Slat.Ranges.degenerate_ranges_fails",
    "Slat.Ranges.last_year_fails"
   ],
   "note": "Proved for upward ranges of at least two values and, with colons, an end a whole number of steps away; logarithmic ranges without rounding. The other cases fail as proved."
  },
  {
   "property": "C69",
   "status": "partial",
   "theorems": [
    "Slat.Names.late_binding_partial",
    "Slat.Names.results_of_names_partial",
    "Slat.Names.only_last_definitions_partial",
    "Slat.Names.structure_groups_partial",
    "Slat.Names.names_no_dangling_partial",
    "Slat.Names.definition_refused_partial",
    "Slat.Names.function_redefined_fails",
    "Slat.Names.third_definition_fails",
    "Slat.Names.structure_redefined_fails",
    "Slat.Names.add_raises_fails"
   ],
   "note": "Proved for scripts that do not redefine functions or structures and that do not define further objects with a redefined name; each restriction is needed, as the counterexamples show."
  },
  {
   "property": "C70",
   "status": "partial",
   "theorems": [
    "Slat.Make.dist_is_described_partial",
    "Slat.Make.dist_unsupported_fails",
    "Slat.Make.fragility_is_described_partial",
    "Slat.Make.fragility_unsupported_fails",
    "Slat.Make.fragility_missing_option",
    "Slat.Make.loss_is_described_partial",
    "Slat.Make.loss_zero_state_fails",
    "Slat.Make.loss_zero_log_mean_fails",
    "Slat.Make.bilevel_costs_are_medians_fails",
    "Slat.Make.no_delay_fails",
    "Slat.Make.delay_is_described_partial",
    "Slat.Make.detfn_answers_iff",
    "Slat.Make.detfn_is_described",
    "Slat.Make.power_law_command",
    "Slat.Make.detfn_refused_fails",
    "Slat.Make.hyperbolic_order_fails",
    "Slat.Make.interpolated_command_fails"
   ],
   "note": "Proved for the documented combinations of parameters, positive spreads and (except logarithmic means) positive locations; log-log data positive. The other cases fail as proved."
  },
  {
   "property": "C71",
   "status": "partial",
   "theorems": [
    "Slat.Import.import_fits_rows_partial",
    "Slat.Import.import_demand_partial",
    "Slat.Import.import_results_unordered",
    "Slat.Import.import_units",
    "Slat.Import.import_accepts_iff",
    "Slat.Import.import_hazard",
    "Slat.Import.import_collapsed_row_fails",
    "Slat.Import.import_single_row_fails"
   ],
   "note": "Proved for files of at least two rows with at least two results per row that are not zero; the other files fail as proved. Hazard curves: positive data."
  },
  {
   "property": "C72",
   "status": "partial",
   "theorems": [
    "Slat.Tune.retuned_partial",
    "Slat.Tune.settings_first_partial",
    "Slat.Tune.retuned_ignored_fails",
    "Slat.Tune.settings_change_fails"
   ],
   "note": "Proved for EDPs and component groups when no result is asked for before the last change of settings, or (C++ only) Clear_Caches follows each change; otherwise results calculated before keep the old settings."
  },
  {
   "property": "C73",
   "status": "partial",
   "theorems": [
    "Slat.Output.output_file",
    "Slat.Output.output_directory",
    "Slat.Output.output_file_stable",
    "Slat.Output.output_file_stable_fails",
    "Slat.Output.same_file_iff",
    "Slat.Output.analyze_finishes",
    "Slat.Output.other_files_untouched",
    "Slat.Output.appended",
    "Slat.Output.overwritten",
    "Slat.Output.own_files",
    "Slat.Output.terminal_recorder_fails",
    "Slat.Output.raising_recorder",
    "Slat.Output.first_output_lost_fails",
    "Slat.Output.recorders_of_script"
   ],
   "note": "Proved for recorders with a file; without one, recorder.run raises (terminal_recorder_fails). os.path as on POSIX and opening of files are parameters; different paths of one file (links, \"./a\" and \"a\") are different here."
  },
  {
   "property": "C74",
   "status": "proved",
   "theorems": [
    "Slat.MaqF.float_terminates",
    "Slat.MaqF.float_domain",
    "Slat.MaqF.float_nonneg",
    "Slat.MaqF.float_accuracy",
    "Slat.MaqF.float_exact"
   ],
   "note": "Laws of rounding (structure Rounding: monotone, idempotent, exact on whole numbers up to 2^53 resp. 2^24, on doubling in the unit interval and on signs) are assumptions about the machine, met by truncation to 53 and 24 bits (truncation). float_accuracy assumes no overflow or underflow. int i overflows for search limits above 2^30: not covered."
  },
  {
   "property": "C75",
   "status": "partial",
   "theorems": [
    "Slat.Accel.shared_interpolation_partial",
    "Slat.Accel.shared_interpolation_safe",
    "Slat.Accel.undisturbed_evaluation",
    "Slat.Accel.shared_interpolation_fails"
   ],
   "note": "Element-wise correctness for builds that keep the index in a register, or one thread; in bounds and self-healing for all builds. With the accelerator read again as written in GSL, two threads can exchange intervals (a negative hazard rate)."
  },
  {
   "property": "C76",
   "status": "partial",
   "theorems": [
    "Slat.Context.log_contexts_partial",
    "Slat.Context.log_contexts_progress",
    "Slat.Context.log_contexts_scoped",
    "Slat.Context.log_contexts_fails_sizes",
    "Slat.Context.log_contexts_fails_nested"
   ],
   "note": "Proved when team sizes depend only on the nesting level and regions of one thread enclose none of several. A smaller team followed by a larger one (the two sections of CostDist_IM, then a parallel for) indexes past the end of threads; a region of one thread around one of two makes both threads share a stack. Teams and thread numbers as defined by OpenMP are external."
  },
  {
   "property": "C77",
   "status": "partial",
   "theorems": [
    "Slat.LnF.sum_accurate",
    "Slat.LnF.mixture_accurate",
    "Slat.LnF.cost_accurate",
    "Slat.LnF.totalCost_accurate_partial",
    "Slat.LnF.fates_rounded",
    "Slat.LnF.sum_accurate_double",
    "Slat.LnF.cost_accurate_double",
    "Slat.LnF.totalCost_fails_rounding",
    "Slat.LnF.spread_fails_small"
   ],
   "note": "Sums, mixtures and cost with collapse without reservation, for machines without overflow and underflow (assumption on the machine, met by IEEE binary64 with unbounded exponents, for which the witness is computed). TotalCost takes the square root of a difference without abs: proved when the mean square exceeds the squared mean by a factor a little above one; for costs without spread rounding can make it NaN."
  },
  {
   "property": "C78",
   "status": "partial",
   "theorems": [
    "Slat.Deriv.derivative_close",
    "Slat.Deriv.derivative_of_quartic",
    "Slat.Deriv.derivative_at_kink",
    "Slat.Deriv.derivative_of_table",
    "Slat.Deriv.derivative_of_power_law",
    "Slat.Deriv.derivative_near_zero",
    "Slat.Deriv.derivative_at_right_end",
    "Slat.Deriv.edp_derivative_close",
    "Slat.Deriv.derivative_machine",
    "Slat.Deriv.demand_rate_error",
    "Slat.Deriv.expected_cost_error",
    "Slat.Deriv.derivative_large_fails",
    "Slat.Deriv.large_demand_costs_nothing_fails"
   ],
   "note": "The GSL routines are external and transcribed from their source. The fallbacks are bounded without rounding only; with rounding the central difference, for arguments up to 2E7. Partial because above 2^27 (about 1.3E8) the step of 1E-8 does not change the argument and every derivative is 0."
  },
  {
   "property": "C79",
   "status": "partial",
   "theorems": [
    "Slat.CurveF.hazard_rounded",
    "Slat.CurveF.hazard_accurate",
    "Slat.CurveF.power_rounded",
    "Slat.CurveF.power_fails",
    "Slat.CurveF.interpolated_rounded",
    "Slat.CurveF.fine_rounded",
    "Slat.CurveF.interpolated_accurate",
    "Slat.CurveF.interpolated_fails",
    "Slat.CurveF.loglog_rounded",
    "Slat.CurveF.abscissae_fails",
    "Slat.CurveF.loglog_fails",
    "Slat.CurveF.lognormal_rounded",
    "Slat.CurveF.lognormal_accurate",
    "Slat.CurveF.damage_rounded"
   ],
   "note": "Library functions are assumed monotone (Laws); the error of the hazard curve is bounded without underflow. Partial because the code does not keep all of it: a linear table whose ordinates fall by more than a factor of two may be missed at its last point, so that the curve rises behind it; a log-log curve does not meet its points; close abscissae have the same logarithm, which the GSL rejects by ending the process; the coefficient 0 of a power law gives NaN where the power overflows."
  },
  {
   "property": "C80",
   "status": "partial",
   "theorems": [
    "Slat.CurveF.discounted_rounded",
    "Slat.CurveF.discountedAll_rounded",
    "Slat.CurveF.discounted_accurate",
    "Slat.CurveF.discounted_fails"
   ],
   "note": "The error is bounded without overflow and underflow. Partial because small rates are not handled: with a rate of 2^-60 the cost over up to 32 years is 0 whatever the annual cost, so that a larger rate gives a larger cost; a rate of 0 gives NaN instead of the undiscounted sum."
  },
  {
   "property": "C81",
   "status": "partial",
   "theorems": [
    "Slat.Sink.stderr_copies",
    "Slat.Sink.stderr_partial",
    "Slat.Sink.stderr_fails",
    "Slat.Sink.stdout_exact",
    "Slat.Sink.never_lost",
    "Slat.Sink.silence_fails",
    "Slat.Sink.file_contents",
    "Slat.Sink.files_kept",
    "Slat.Sink.emptied_fails",
    "Slat.Sink.command_quiet"
   ],
   "note": "The core of Boost.Log is external; what is assumed of it is stated at the head of SinkModel. Partial because standard error does not follow the flag once it has been switched on again: LogToStdErr(true) does not keep the sink it registers, so that it cannot be removed and every further call adds another copy of each message. Without a log file, switching off sends messages to the standard output. A log file is emptied by the first message, not by SetLogFile as documented."
  },
  {
   "property": "C82",
   "status": "proved",
   "theorems": [
    "Slat.Safe.loss_returns_iff",
    "Slat.Safe.im_returns",
    "Slat.Safe.edp_returns_iff",
    "Slat.Safe.group_returns_iff",
    "Slat.Safe.print_returns_iff",
    "Slat.Safe.print_fails",
    "Slat.Safe.building_returns_iff",
    "Slat.Safe.empty_fails",
    "Slat.Safe.session_returns_iff",
    "Slat.Safe.mismatch_fails",
    "Slat.Safe.unsound_fails",
    "Slat.Safe.wrong_im_fails"
   ],
   "note": "The statement is exact, so it includes what the code does not check: a cost function with the wrong number of distributions and a probabilistic function from which nothing can be computed are accepted when the model is built, and end the process at the first question; a structure without groups ends the process when asked for its total cost; a group without delay function cannot be printed. Integration and differentiation are arbitrary adaptive routines; GSL calls are assumed to return."
  },
  {
   "property": "C83",
   "status": "proved",
   "theorems": [
    "Slat.Lex.lex_lossless",
    "Slat.Lex.lex_obeys",
    "Slat.Lex.lexes_unique",
    "Slat.Lex.never_crashes",
    "Slat.Lex.written_read",
    "Slat.Lex.layout_free",
    "Slat.Lex.token_read",
    "Slat.Lex.python_text",
    "Slat.Lex.parser_kinds",
    "Slat.Lex.point_number_fails",
    "Slat.Lex.loglog_line_fails",
    "Slat.Lex.loglog_name_fails",
    "Slat.Lex.stray_dropped",
    "Slat.Lex.hyphen_path_fails",
    "Slat.Lex.python_string_fails"
   ],
   "note": "ANTLR itself is trusted to run the rules as documented (longest match, first rule, modes, recovery); the rules of slatLexer.g4 are transcribed. The statement includes the exceptions, so it is exact."
  },
  {
   "property": "C84",
   "status": "partial",
   "theorems": [
    "Slat.Lex.literal_value",
    "Slat.Lex.literal_round_trip",
    "Slat.Lex.double_read",
    "Slat.Lex.single_read_partial",
    "Slat.Lex.backslash_end_fails",
    "Slat.Lex.dropped_escape_fails"
   ],
   "note": "Partial because the code does not do it: preprocess_string strips all quotes at the ends, also those that belong to the text, and turns an escaped quote at the end into a backslash (literal_value is exact for every text, literal_round_trip says which texts come back); a single-quoted literal whose text ends in a backslash swallows the script up to the next quote."
  },
  {
   "property": "C85",
   "status": "proved",
   "theorems": [
    "Slat.Gram.unambiguous",
    "Slat.Gram.parse_iff",
    "Slat.Gram.semicolons",
    "Slat.Gram.empty_script",
    "Slat.Gram.semicolon_needed",
    "Slat.Gram.pieces",
    "Slat.Gram.one_mistake",
    "Slat.Gram.script_read",
    "Slat.Gram.script_run",
    "Slat.Gram.script_writable",
    "Slat.Gram.same_commands",
    "Slat.Gram.accepted_written",
    "Slat.Gram.shape_of_ok",
    "Slat.Gram.number_value",
    "Slat.Gram.integer_value",
    "Slat.Gram.pen_exists",
    "Slat.Gram.number_decimal",
    "Slat.Gram.integer_fails",
    "Slat.Gram.manual_fails",
    "Slat.Gram.words_fails",
    "Slat.Gram.stray_fails"
   ],
   "note": "ANTLR is trusted to accept what the grammar derives and, with BailErrorStrategy, to raise otherwise; the rules of slatParser.g4 are transcribed. Numbers are exact (float(text) rounds). The statement includes the exceptions, so it is exact."
  },
  {
   "property": "C86",
   "status": "partial",
   "theorems": [
    "Slat.Py.curve_number_partial",
    "Slat.Py.curve_list_partial",
    "Slat.Py.rate",
    "Slat.Py.damage_states",
    "Slat.Py.two_arguments_partial",
    "Slat.Py.distributions_partial",
    "Slat.Py.statistic",
    "Slat.Py.setting",
    "Slat.Py.costs_read_back",
    "Slat.Py.wrong_argument_raises",
    "Slat.Py.reports_named_partial",
    "Slat.Py.core_defined",
    "Slat.Py.call_defined",
    "Slat.Py.probfn_fails",
    "Slat.Py.edp_list_fails",
    "Slat.Py.group_cost_fails",
    "Slat.Py.deaggregated_fails",
    "Slat.Py.set_read_cost_fails",
    "Slat.Py.years_fails",
    "Slat.Py.plot_max_fails",
    "Slat.Py.invalid_type_fails"
   ],
   "note": "Partial because the code does not do it: no query of a probabilistic function answers, three statistics of demands raise for lists, compgroup.E_cost always raises, DeaggregatedCost returns objects without the documented methods, costs that were read cannot be set. The proved theorems cover all other methods. SWIG is trusted to convert arguments as documented."
  },
  {
   "property": "C87",
   "status": "partial",
   "theorems": [
    "Slat.Session.session_file_partial",
    "Slat.Session.session_report_partial",
    "Slat.Session.session_table_partial",
    "Slat.Session.session_mistake",
    "Slat.Session.session_files_partial"
   ],
   "note": "session_files_partial has every file of a session, also those that are appended to or shared; session_file_partial covers every kind of report (what the recorder prints), session_report_partial has kind, columns, arguments and options as ordered in the script, session_table_partial says what that is for the reports that work (C62) with arguments and columns written out. Missing: commands that the interpreter gets wrong (C43). Two paths are two files."
  },
  {
   "property": "C88",
   "status": "partial",
   "theorems": [
    "Slat.Session.well_formed_ends_partial",
    "Slat.Session.curve_file_partial",
    "Slat.Session.hazard_file_partial",
    "Slat.Session.fate_file_partial",
    "Slat.Session.demand_file_partial"
   ],
   "note": "well_formed_ends_partial covers structures, their costs and their reports too (the numbers: C90-C92). Missing: interpolated functions (their commands are broken, C43), forms of reports that do not work (C62), a second definition of an intensity measure or demand. Numbers are exact."
  },
  {
   "property": "C89",
   "status": "partial",
   "theorems": [
    "Slat.Session.print_file_partial"
   ],
   "note": "The texts of definitions are C93; values of variables and Python scripts are written as Python writes them (session_files_partial, the text is a parameter). Missing: commands that the interpreter gets wrong (C43). What a string literal stands for is C84."
  },
  {
   "property": "C90",
   "status": "partial",
   "theorems": [
    "Slat.Session.well_formed_ends_partial",
    "Slat.Session.damage_file_partial",
    "Slat.Session.cost_file_partial",
    "Slat.Session.delay_file_partial",
    "Slat.Session.unknown_delay_fails"
   ],
   "note": "Missing: reports at an intensity and rates of groups (found by integration, C91), fragility curves that cross at the demand, losses whose first number is zero (Make.loss_zero_state_fails). A delay function that is not defined is silently left out (unknown_delay_fails). Numbers are exact."
  },
  {
   "property": "C91",
   "status": "partial",
   "theorems": [
    "Slat.Session.demand_rate_file_partial",
    "Slat.Session.documented_rate_fails",
    "Slat.Session.loss_rate_file_partial",
    "Slat.Session.state_file_partial",
    "Slat.Session.intensity_cost_file_partial",
    "Slat.Session.intensity_delay_file_partial",
    "Slat.Session.intensity_delay_moments_partial",
    "Slat.Session.state_rate_file_partial",
    "Slat.Session.cost_rate_file_partial"
   ],
   "note": "Missing: the log-spread of the delay of several components (wrong in the code, C61), rates of amounts that equal a cost found without spread (the code asks a distribution without spread at its value, zero_spread_at_value_fails), errors of the differentiation routines (C78). The sessions are those that remember results (sessionR), with any number of analyses, as long as nothing remembered goes stale (Settled; C95 has the two exceptions). That the integrator answers within an error is a hypothesis (C31-C35 and C53 say when the modelled one does)."
  },
  {
   "property": "C92",
   "status": "partial",
   "theorems": [
    "Slat.Session.total_cost_file_partial",
    "Slat.Session.fate_cost_file_partial",
    "Slat.Session.annual_cost_file_partial",
    "Slat.Session.present_cost_file_partial",
    "Slat.Session.density_file_partial",
    "Slat.Session.normal_density_file_partial",
    "Slat.Session.split_cost_file_partial"
   ],
   "note": "Missing: costs that the integrator finds to be negative, collapse or demolition distributions without a cost (their reports are C96), errors of the differentiation routines (C78). The sessions are those that remember results (sessionR), with any number of analyses, as long as nothing remembered goes stale (Settled; C95: a new cost of rebuilding or demolition does not reach an annual cost computed before). That the integrator answers within an error is a hypothesis, for the annual cost whatever it has found for the groups (C31-C35 and C53 say when the modelled one does)."
  },
  {
   "property": "C93",
   "status": "partial",
   "theorems": [
    "Slat.Session.definition_texts_partial",
    "Slat.Session.detfn_text_fails",
    "Slat.Session.collapsed_text_fails"
   ],
   "note": "Missing: deterministic functions (the text shows placeholders, detfn_text_fails) and intensity measures with a probability of collapse (the text shows that of the function, collapsed_text_fails); commands that the interpreter gets wrong (C43). How Python writes numbers, lists, dictionaries and constants is a parameter."
  },
  {
   "property": "C94",
   "status": "partial",
   "theorems": [
    "Slat.Session.written_out_partial",
    "Slat.Session.written_out_fails"
   ],
   "note": "Missing: the forms the interpreter gets wrong (C43; with a variable for the number of evaluations, number and tolerance change places, written_out_fails), variables in messages, variables whose value is not a number, a list of decimal numbers or a range. Expressions whose value cannot be written stay as they are."
  },
  {
   "property": "C95",
   "status": "partial",
   "theorems": [
    "Slat.Session.remembered_partial",
    "Slat.Session.remembered_fails",
    "Slat.Session.stale_cost_file",
    "Slat.Session.remembered_cost_fails"
   ],
   "note": "Missing: the two exceptions, of which witnesses are proved (remembered_fails: the rate of demolition after a new probability of collapse is too high by the rate of collapse; stale_cost_file: whatever costs of rebuilding and demolition are set after an analysis that reports an annual cost, the next one writes what the first one wrote; remembered_cost_fails: what it should have written), commands that the interpreter gets wrong (C43), second definitions of an intensity measure or demand (outside SessionPlain). What a component group remembers is left out, since nothing in these sessions changes a group; threads are C38-C40."
  },
  {
   "property": "C96",
   "status": "partial",
   "theorems": [
    "Slat.Session.missing_price_total_partial",
    "Slat.Session.missing_price_annual_partial",
    "Slat.Session.missing_price_present_partial",
    "Slat.Session.missing_price_density_partial",
    "Slat.Session.missing_price_normal_partial",
    "Slat.Session.fate_shares_file_partial"
   ],
   "note": "Sessions as in C92 (nothing remembered goes stale, a file of its own, commands the interpreter gets right). For annual and discounted costs the integrator is any that does not take what is not a number at the intensity 1 for a success; the modelled one is such (Maq.nan_noticed). A normalised density stops the session (division by zero) instead of being reported as missing. Missing: intensities with a cost beside intensities without one in a normalised density. A report by fate has no number for demolition even if the structure cannot be demolished."
  },
  {
   "property": "C97",
   "status": "partial",
   "theorems": [
    "Slat.Tally.report_settings",
    "Slat.Tally.report_counts",
    "Slat.Tally.report_maxima_partial",
    "Slat.Tally.report_maximum_fails"
   ],
   "note": "Counts are those of the counters (modulo 2^32 and 2^64); the largest numbers are exact when no two integrations run at the same time, and can be too small otherwise (report_maximum_fails, the race of C36). Integers are written in decimal, the text of the tolerance is a parameter without line breaks. Integrations end before the calculation that started them returns (Complete)."
  },
  {
   "property": "C98",
   "status": "partial",
   "theorems": [
    "Slat.Define.refused_changes_nothing_partial",
    "Slat.Define.name_is_last_made_partial",
    "Slat.Define.replaced_by_next_made",
    "Slat.Define.accepted_partial",
    "Slat.Define.refused_probfn_fails",
    "Slat.Define.database_name_fails",
    "Slat.Define.database_over_user_fails",
    "Slat.Define.unnamed_edp_fails"
   ],
   "note": "Partial because the code does not do it for probabilistic functions of a wrong type (refused_probfn_fails) and for fragility functions from the database (database_name_fails, database_over_user_fails: None is passed on to the library, which reads from a null pointer). Which of the statements that make the library object succeed is a parameter. Identifiers are texts or None. Recorders are left out."
  },
  {
   "property": "C99",
   "status": "partial",
   "theorems": [
    "Slat.Describe.description_tells_partial",
    "Slat.Describe.description_closed",
    "Slat.Describe.demand_unclosed_fails",
    "Slat.Describe.description_silent_fails",
    "Slat.Describe.group_description_tells_partial",
    "Slat.Describe.group_description_fails",
    "Slat.Describe.group_silent_fails"
   ],
   "note": "Partial because the description of a demand leaves a parenthesis open (demand_unclosed_fails) and leaves out the kinds of centre and spread, the tables and a second demand function (description_silent_fails). The description of a group dereferences a null pointer without a function of cost or delay (group_description_fails) and leaves out bi-level losses and adjustment factors (group_silent_fails); names of groups have no colon. The text of a number is a parameter without commas and parentheses (the C locale)."
  },
  {
   "property": "C100",
   "status": "partial",
   "theorems": [
    "Slat.Define.object_found_partial",
    "Slat.Define.unnamed_demand_found",
    "Slat.Define.found_names_differ",
    "Slat.Define.database_object_fails",
    "Slat.Define.database_first_fails"
   ],
   "note": "Partial because with fragility functions from the database the search raises (database_object_fails, database_first_fails). Demands without a name are entered under None (unnamed_edp_fails of C98) and found there until the next one is defined (unnamed_demand_found). Every constructor makes a library object of its own, and pointers are compared (AreSame); objects that have been freed and whose address is used again are not modelled."
  }
 ]
}