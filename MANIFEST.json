{
 "claims": [
  {
   "property": "C01",
   "status": "proved",
   "theorems": [
    "Obp.C01_row_interval",
    "Obp.C01_sample_action_fast",
    "Obp.C01_fallback_zero"
   ],
   "note": "Exact half-open interval per action for every row of weights and every draw; the fallback to action 0 when no cumulative sum exceeds the draw is proved separately."
  },
  {
   "property": "C02",
   "status": "proved",
   "theorems": [
    "Obp.C02_convert_onehot",
    "Obp.C02_convert_passes_check",
    "Obp.C02_convert_out_of_range",
    "Obp.C02_convert_negative"
   ],
   "note": "All integer selections, including negative ids (wrap-around) and IndexError."
  },
  {
   "property": "C03",
   "status": "proved",
   "theorems": [
    "Obp.C03_ci_ordered_in_range",
    "Obp.C03_ci_constant",
    "Obp.C03_ci_mean",
    "Obp.C03_ci_quantiles"
   ],
   "note": "All samples, draws and alpha; bounds are given as interpolated order statistics of the resampled means."
  },
  {
   "property": "C04",
   "status": "proved",
   "theorems": [
    "Obp.C04_ci_nested",
    "Obp.C04_ci_equivariant"
   ],
   "note": "For fixed draws; equivariance under adding a constant and non-negative scaling."
  },
  {
   "property": "C05",
   "status": "partial",
   "theorems": [
    "Obp.C05_accept_iff_partial",
    "Obp.C05_error_kind_partial",
    "Obp.C05_nan_accepted",
    "Obp.C05_nan_interval_raises"
   ],
   "note": "Acceptance is characterised exactly on non-nan alpha; nan alpha is accepted by the code and then fails, which is proved as a counterexample."
  },
  {
   "property": "C06",
   "status": "proved",
   "theorems": [
    "Obp.C06_softmax_value",
    "Obp.C06_softmax_policy",
    "Obp.C06_softmax_no_overflow",
    "Obp.C06_softmax_no_underflow"
   ],
   "note": "Over the reals; also that every exponent is non-positive and the largest is zero."
  },
  {
   "property": "C07",
   "status": "proved",
   "theorems": [
    "Obp.C07_sigmoid_value",
    "Obp.C07_sigmoid_shape",
    "Obp.C07_sigmoid_no_overflow"
   ],
   "note": "Over the reals."
  },
  {
   "property": "C08",
   "status": "partial",
   "theorems": [
    "Obp.C08_accept_iff",
    "Obp.C08_error_kind_partial",
    "Obp.C08_attribute_error"
   ],
   "note": "Acceptance is characterised exactly (iff). The exception class is ValueError except for missing/non-array companions, where the code raises AttributeError (proved)."
  },
  {
   "property": "C09",
   "status": "partial",
   "theorems": [
    "Obp.C09_mismatch_index_error",
    "Obp.C09_rejections_are_value_errors",
    "Obp.C09_accepted_is_log",
    "Obp.C09_no_index_error_partial",
    "Obp.C09_length_mismatch_index_error",
    "Obp.C09_length_one_broadcast"
   ],
   "note": "Proved for aligned arguments (as many actions as rounds in action_dist, at least one position). The unaligned case is false: whenever the numbers of actions and rounds differ (and it is not one action) the nine classes that look up actions raise IndexError; one action is silently broadcast (witness)."
  },
  {
   "property": "C10",
   "status": "proved",
   "theorems": [
    "Obp.C10_accept_iff",
    "Obp.C10_error_kind"
   ],
   "note": "Exact acceptance (iff)."
  },
  {
   "property": "C11",
   "status": "proved",
   "theorems": [
    "Obp.C11_sips_accept_iff",
    "Obp.C11_iips_accept_iff",
    "Obp.C11_rips_accept_iff",
    "Obp.C11_error_kind",
    "Obp.C11_row_order"
   ],
   "note": "Exact acceptance (iff) for the three validators; invariance under every permutation of rows."
  },
  {
   "property": "C12",
   "status": "partial",
   "theorems": [
    "Obp.C12_accept_iff_partial",
    "Obp.C12_error_kind",
    "Obp.C12_qhat_length_unchecked"
   ],
   "note": "Acceptance is characterised exactly. The documented length of the q_hat argument is not: the code compares a floor-divided length, and a witness of an accepted wrong length is proved."
  },
  {
   "property": "C13",
   "status": "proved",
   "theorems": [
    "Obp.C13_ipw_unbiased"
   ],
   "note": "All finite processes with fixed contexts, arbitrary finite reward laws and arbitrary numbers of rounds, actions and positions."
  },
  {
   "property": "C14",
   "status": "proved",
   "theorems": [
    "Obp.C14_dr_unbiased_of_pscore",
    "Obp.C14_dr_unbiased_of_q"
   ],
   "note": "Both directions, on the same class of processes as C13."
  },
  {
   "property": "C15",
   "status": "proved",
   "theorems": [
    "Obp.C15_ipw_interval_onPolicy",
    "Obp.C15_onPolicy_rewards",
    "Obp.C15_ipw_onPolicy",
    "Obp.C15_snipw_onPolicy",
    "Obp.C15_sgIpw_onPolicy",
    "Obp.C15_dr_onPolicy"
   ],
   "note": "Per-round identity and value; interval of IPW too."
  },
  {
   "property": "C16",
   "status": "proved",
   "theorems": [
    "Obp.C16_same_rounds",
    "Obp.C16_dr_zero_model",
    "Obp.C16_dr_lambda_zero",
    "Obp.C16_dr_perfect_fit"
   ],
   "note": "Identities of the returned values for all inputs passing validation."
  },
  {
   "property": "C17",
   "status": "proved",
   "theorems": [
    "Obp.C17_ipw_clip_mono",
    "Obp.C17_ipw_clip_bound",
    "Obp.C17_ipw_clip_eq_iff"
   ],
   "note": "Order theorems on the returned values, exact condition for equality (iff)."
  },
  {
   "property": "C18",
   "status": "proved",
   "theorems": [
    "Obp.C18_snipw_bounds",
    "Obp.C18_snipw_finite_iff",
    "Obp.C18_snipw_affine",
    "Obp.C18_snipw_scale"
   ],
   "note": "Range, affine equivariance, scale invariance, finiteness (iff)."
  },
  {
   "property": "C19",
   "status": "proved",
   "theorems": [
    "Obp.C19_rm_matched_mean",
    "Obp.C19_rm_no_match",
    "Obp.C19_rm_ignores_unmatched"
   ],
   "note": "Both branches of the code."
  },
  {
   "property": "C20",
   "status": "proved",
   "theorems": [
    "Obp.C20_dm_bounds",
    "Obp.C20_dm_linear",
    "Obp.C20_dm_exact",
    "Obp.C20_dm_ignores_log",
    "Obp.C20_dm_rescale"
   ],
   "note": "Range, linearity, exactness, independence of the log, rescaling."
  },
  {
   "property": "C21",
   "status": "proved",
   "theorems": [
    "Obp.C21_same_rounds",
    "Obp.C21_switch_rounds",
    "Obp.C21_switch_eq_dr",
    "Obp.C21_switch_eq_dm"
   ],
   "note": "Per round and for the value."
  },
  {
   "property": "C22",
   "status": "proved",
   "theorems": [
    "Obp.C22_drOs_inf",
    "Obp.C22_drOs_zero",
    "Obp.C22_drOs_zero_nonFinite",
    "Obp.C22_drOs_shrinks",
    "Obp.C22_drOs_mono"
   ],
   "note": "Inequalities on the rounds of the modelled estimator; the square-root bound is stated squared; 0/0 at lambda 0 proved non-finite."
  },
  {
   "property": "C23",
   "status": "proved",
   "theorems": [
    "Obp.C23_sg_zero",
    "Obp.C23_sg_one",
    "Obp.C23_sg_one_nonFinite",
    "Obp.C23_sg_weights"
   ],
   "note": "As C22; lambda 1 with a zero weight proved non-finite."
  },
  {
   "property": "C24",
   "status": "proved",
   "theorems": [
    "Obp.C24_sndr_eq_dr",
    "Obp.C24_sndr_eq_dm",
    "Obp.C24_sndr_bounds",
    "Obp.C24_sndr_shift"
   ],
   "note": "Identities and range; normaliser zero is the non-finite outcome."
  },
  {
   "property": "C25",
   "status": "proved",
   "theorems": [
    "Obp.C25_bIpw_bounds",
    "Obp.C25_bIpw_scale",
    "Obp.C25_bIpw_zero_nonFinite"
   ],
   "note": "Range, scale invariance; zero weights proved non-finite."
  },
  {
   "property": "C26",
   "status": "proved",
   "theorems": [
    "Obp.C26_order_irrelevant"
   ],
   "note": "All estimators at once, every permutation."
  },
  {
   "property": "C27",
   "status": "proved",
   "theorems": [
    "Obp.C27_interval_same_rounds",
    "Obp.C27_interval_brackets"
   ],
   "note": "All estimators, all draws, including failing inputs."
  },
  {
   "property": "C28",
   "status": "proved",
   "theorems": [
    "Obp.C28_estimated_ignores_pscore",
    "Obp.C28_logged_ignores_estimated",
    "Obp.C28_estimated_used",
    "Obp.C28_missing_raises"
   ],
   "note": "Non-interference theorem in both directions, for every estimator with the flag."
  },
  {
   "property": "C29",
   "status": "proved",
   "theorems": [
    "Obp.C29_position_none",
    "Obp.C29_position_required"
   ],
   "note": "None and zeros agree for the five estimators documented; the position argument is proved required otherwise."
  },
  {
   "property": "C30",
   "status": "proved",
   "theorems": [
    "Obp.C30_multi",
    "Obp.C30_unbounded",
    "Obp.C30_unit",
    "Obp.C30_bIpw",
    "Obp.C30_rejects",
    "Obp.C30_tuner",
    "Obp.C30_tuner_candidates",
    "Obp.C30_tuner_order",
    "Obp.C30_tuner_rejects"
   ],
   "note": "Exact acceptance (iff) for all constructors, the tuning classes and the multiple-logger classes."
  },
  {
   "property": "C31",
   "status": "proved",
   "theorems": [
    "Obp.C31_mse_value",
    "Obp.C31_mse_bounds",
    "Obp.C31_unclipped"
   ],
   "note": "Closed form of the score and bounds, over the reals."
  },
  {
   "property": "C32",
   "status": "proved",
   "theorems": [
    "Obp.C32_hoeffding_value",
    "Obp.C32_hoeffding_le_mean",
    "Obp.C32_hoeffding_mono",
    "Obp.C32_hoeffding_negative",
    "Obp.C32_bernstein_value",
    "Obp.C32_bernstein_bounds",
    "Obp.C32_bias_upper_bound"
   ],
   "note": "Closed forms for every sample, bound at most the mean iff x_max is not negative or delta = 1, monotonicity in delta, over the reals. Witness family: samples of negative numbers with x_max omitted (C32_hoeffding_negative)."
  },
  {
   "property": "C33",
   "status": "proved",
   "theorems": [
    "Obp.C33_mse_minimiser",
    "Obp.C33_mse_candidate"
   ],
   "note": "Chosen value is a candidate of minimal score and the first such, for every score function and candidate list."
  },
  {
   "property": "C34",
   "status": "proved",
   "theorems": [
    "Obp.C34_slope_rule",
    "Obp.C34_slope_candidate",
    "Obp.C34_slope_statistics"
   ],
   "note": "Loop invariant for every candidate list; the compared statistics are given in closed form."
  },
  {
   "property": "C35",
   "status": "proved",
   "theorems": [
    "Obp.C35_tuned_value",
    "Obp.C35_tuned_interval",
    "Obp.C35_best_is_candidate"
   ],
   "note": "Value and interval of a first call, for all tuning classes and both methods."
  },
  {
   "property": "C36",
   "status": "partial",
   "theorems": [
    "Obp.C36_first_call_partial",
    "Obp.C36_cached_forever",
    "Obp.C36_history_dependent"
   ],
   "note": "First call tunes on its data (proved). Later calls reuse the cached hyperparameter: proved for every history, with a two-call witness of a different answer."
  },
  {
   "property": "C37",
   "status": "partial",
   "theorems": [
    "Obp.C37_estimated_partial",
    "Obp.C37_subgaussian_raises"
   ],
   "note": "Proved for IPW, DR, Switch-DR, DRos tuning. The two sub-Gaussian classes are proved to raise ValueError on every input."
  },
  {
   "property": "C38",
   "status": "proved",
   "theorems": [
    "Obp.C38_nonneg",
    "Obp.C38_symm",
    "Obp.C38_support",
    "Obp.C38_pos",
    "Obp.C38_integral"
   ],
   "note": "Integrals computed with Mathlib."
  },
  {
   "property": "C39",
   "status": "proved",
   "theorems": [
    "Obp.C39_dr_zero_q",
    "Obp.C39_dr_exact_q",
    "Obp.C39_dr_value",
    "Obp.C39_ipw_value",
    "Obp.C39_snipw_in_range",
    "Obp.C39_snipw_shift",
    "Obp.C39_snipw_no_overlap",
    "Obp.C39_zero_bandwidth",
    "Obp.C39_interval"
   ],
   "note": "Closed forms, range, shift equivariance, no-overlap and zero-bandwidth outcomes, intervals."
  },
  {
   "property": "C40",
   "status": "proved",
   "theorems": [
    "Obp.C40_sips_unbiased"
   ],
   "note": "All finite slate processes; number of slates, positions and actions arbitrary."
  },
  {
   "property": "C41",
   "status": "proved",
   "theorems": [
    "Obp.C41_iips_unbiased",
    "Obp.C41_rips_unbiased"
   ],
   "note": "As C40 under the stated dependence assumption, as hypotheses satisfied by examples."
  },
  {
   "property": "C42",
   "status": "proved",
   "theorems": [
    "Obp.C42_zero_q_is_rips",
    "Obp.C42_zero_q_interval",
    "Obp.C42_cascade_dr_unbiased"
   ],
   "note": "Value and interval for zero predictions; unbiasedness for any predictions under the cascade assumption."
  },
  {
   "property": "C43",
   "status": "partial",
   "theorems": [
    "Obp.C43_value_row_order_partial",
    "Obp.C43_interval_row_order_partial",
    "Obp.C43_cascade_depends_on_order"
   ],
   "note": "Proved for SIPS, IIPS, RIPS and the self-normalised versions (value and interval). Cascade-DR depends on the row order: witness proved."
  },
  {
   "property": "C44",
   "status": "proved",
   "theorems": [
    "Obp.C44_interval_per_slate",
    "Obp.C44_ips_interval",
    "Obp.C44_cascade_interval"
   ],
   "note": "All slate estimators, all ids."
  },
  {
   "property": "C45",
   "status": "proved",
   "theorems": [
    "Obp.C45_sn_value",
    "Obp.C45_position_in_range",
    "Obp.C45_constant_reward",
    "Obp.C45_zero_weight",
    "Obp.C45_snsips_value",
    "Obp.C45_snsips_constant"
   ],
   "note": "Closed form per position; range; zero weights proved non-finite; the joint version too."
  },
  {
   "property": "C46",
   "status": "proved",
   "theorems": [
    "Obp.C46_single_position"
   ],
   "note": "All logs with one position."
  },
  {
   "property": "C47",
   "status": "partial",
   "theorems": [
    "Obp.C47_mips_unbiased_partial",
    "Obp.C47_mips_unbiased_one_dim",
    "Obp.C47_mips_biased_two_dims"
   ],
   "note": "Unbiased when embedding dimensions are independent under both policies (automatic for one dimension). For two or more dimensions the code multiplies marginals and is biased: witness proved (expectation 10/9, value 1)."
  },
  {
   "property": "C48",
   "status": "partial",
   "theorems": [
    "Obp.C48_one_to_one_partial",
    "Obp.C48_redundant_dims_differ",
    "Obp.C48_shared_law",
    "Obp.C48_weight_formula",
    "Obp.C48_impossible_embedding"
   ],
   "note": "Equality with IPW proved for one embedding dimension, weight one for a law shared by all actions in any dimension. For redundant dimensions the equality is false: witness proved."
  },
  {
   "property": "C49",
   "status": "partial",
   "theorems": [
    "Obp.C49_exact_rule_partial",
    "Obp.C49_rules_agree",
    "Obp.C49_all_accepted_differs",
    "Obp.C49_exact_unbound_eq",
    "Obp.C49_exact_unbound_gt",
    "Obp.C49_greedy_unbound",
    "Obp.C49_greedy_rule_partial",
    "Obp.C49_api_value",
    "Obp.C49_api_unbound",
    "Obp.C49_one_dim",
    "Obp.C49_not_last_accepted"
   ],
   "note": "The returned estimate is characterised exactly for both methods. It is not the last accepted subset when all are accepted, and min_emb_dim >= n_emb_dim raises UnboundLocalError: both proved."
  },
  {
   "property": "C50",
   "status": "proved",
   "theorems": [
    "Obp.C50_balanced_ipw_unbiased",
    "Obp.C50_balanced_dr_unbiased",
    "Obp.C50_naive_biased"
   ],
   "note": "Unbiasedness of balanced IPW and balanced DR over all processes with fixed loggers and random contexts; only the mixture needs support. Witness that the naive estimator is biased in such a case."
  },
  {
   "property": "C51",
   "status": "proved",
   "theorems": [
    "Obp.C51_weighted_ipw",
    "Obp.C51_weighted_dr",
    "Obp.C51_weights_unique",
    "Obp.C51_single_stratum"
   ],
   "note": "Closed form with weights that average to one and are inversely proportional to stratum variances, for labels 0..m-1 and non-zero variances (other cases: C53)."
  },
  {
   "property": "C52",
   "status": "partial",
   "theorems": [
    "Obp.C52_interval_same_rounds_partial",
    "Obp.C52_interval_works_partial",
    "Obp.C52_balanced_interval_type_error"
   ],
   "note": "Proved for the naive and weighted classes. The balanced classes are proved to raise TypeError from estimate_interval whenever estimate_policy_value works."
  },
  {
   "property": "C53",
   "status": "partial",
   "theorems": [
    "Obp.C53_bad_labels_value_error",
    "Obp.C53_other_labels_index_error",
    "Obp.C53_accepts_contiguous_partial"
   ],
   "note": "With labels 0..m-1 success is characterised exactly (no stratum of zero variance). All other non-negative integer labels are proved to raise IndexError, and labels that are negative, not integers or of another number than the rounds to raise ValueError."
  },
  {
   "property": "C54",
   "status": "proved",
   "theorems": [
    "Obp.C54_values_report",
    "Obp.C54_intervals_report",
    "Obp.C54_values_total",
    "Obp.C54_multi_values_report",
    "Obp.C54_cont_values_report",
    "Obp.C54_multi_intervals_report",
    "Obp.C54_cont_intervals_report"
   ],
   "note": "Front ends for ordinary, multiple-logger, continuous and slate feedback; estimator objects are arbitrary (name, value method, interval method), the classes are instances."
  },
  {
   "property": "C55",
   "status": "proved",
   "theorems": [
    "Obp.C55_only_own_entry",
    "Obp.C55_dispatch"
   ],
   "note": "Projection theorem: only the estimator's own entries matter, and exactly what is passed."
  },
  {
   "property": "C56",
   "status": "partial",
   "theorems": [
    "Obp.C56_array_unbound",
    "Obp.C56_array_stale",
    "Obp.C56_dict_accepted_partial"
   ],
   "note": "The claim is false of the code for arrays: the shape test reads a stale variable (meta.py:187). Proved: any array gives UnboundLocalError (no dict with entries among the other arguments), or is accepted iff n_rounds = n_actions whatever its shape; dict arguments work."
  },
  {
   "property": "C57",
   "status": "proved",
   "theorems": [
    "Obp.C57_performance",
    "Obp.C57_multi_performance",
    "Obp.C57_slate_performance",
    "Obp.C57_errors",
    "Obp.C57_performance_total",
    "Obp.C57_relative_unit_free",
    "Obp.C57_cont_performance"
   ],
   "note": "Exact values, zero iff exact, unit-freeness, error cases; ordinary, multiple-logger, continuous-action and slate front ends."
  },
  {
   "property": "C58",
   "status": "partial",
   "theorems": [
    "Obp.C58_missing_model",
    "Obp.C58_flag_exact",
    "Obp.C58_tuned_never_ok",
    "Obp.C58_tuned_not_up_front_partial",
    "Obp.C58_performance_not_up_front",
    "Obp.C58_multi_missing_model",
    "Obp.C58_cont_missing_model"
   ],
   "note": "Holds for estimate_policy_values / estimate_intervals and the plain classes; the tuned classes are not recognised and evaluate_performance_of_estimators makes no test (both proved), so earlier estimators run first."
  },
  {
   "property": "C59",
   "status": "proved",
   "theorems": [
    "Obp.C59_each_own",
    "Obp.C59_none_supplied",
    "Obp.C59_cascade_dr_needs",
    "Obp.C59_missing_rejected",
    "Obp.C59_relative_value"
   ],
   "note": "Dispatch, missing inputs and the relative value."
  },
  {
   "property": "C60",
   "status": "proved",
   "theorems": [
    "Obp.C60_counts",
    "Obp.C60_bad_action",
    "Obp.C60_update_ok"
   ],
   "note": "All histories by induction; out-of-range actions raise IndexError."
  },
  {
   "property": "C61",
   "status": "partial",
   "theorems": [
    "Obp.C61_contextfree",
    "Obp.C61_linear_partial",
    "Obp.C61_logistic_partial",
    "Obp.C61_lints_rows_unchecked",
    "Obp.C61_logistic_rows_unchecked"
   ],
   "note": "Proved for every state, generator and tie order for EpsilonGreedy, Random and BernoulliTS, and for the linear and logistic policies on a context of one row. LinTS, LogisticTS and LogisticEpsilonGreedy do not check the number of rows: witnesses of non-existent action ids are proved."
  },
  {
   "property": "C62",
   "status": "proved",
   "theorems": [
    "Obp.C62_egreedy"
   ],
   "note": "All reachable states, all draws, all tie orders."
  },
  {
   "property": "C63",
   "status": "proved",
   "theorems": [
    "Obp.C63_random",
    "Obp.C63_bts",
    "Obp.C63_no_simulation"
   ],
   "note": "Random is uniform; BernoulliTS frequencies are non-negative and sum to one for n_sim >= 1; n_sim = 0 is the non-finite outcome."
  },
  {
   "property": "C64",
   "status": "proved",
   "theorems": [
    "Obp.C64_beta_posterior",
    "Obp.C64_reward_above_one"
   ],
   "note": "For all histories with rewards in [0,1]; a witness shows that rewards above one can make a parameter non-positive."
  },
  {
   "property": "C65",
   "status": "proved",
   "theorems": [
    "Obp.C65_ridge",
    "Obp.C65_any_history",
    "Obp.C65_exploit",
    "Obp.C65_update_ok",
    "Obp.C65_action_counts"
   ],
   "note": "Sherman-Morrison invariant by induction over all histories; C65_any_history covers failing updates and initialize calls too."
  },
  {
   "property": "C66",
   "status": "proved",
   "theorems": [
    "Obp.C66_ucb",
    "Obp.C66_bonus_shrinks",
    "Obp.C66_own_context"
   ],
   "note": "Positive definiteness and antitonicity for every history, initialize calls and failing updates included."
  },
  {
   "property": "C67",
   "status": "partial",
   "theorems": [
    "Obp.C67_contextfree_reset_partial",
    "Obp.C67_learned_parameters_kept",
    "Obp.C67_linear_not_reset",
    "Obp.C67_linear_restarts_partial",
    "Obp.C67_logistic_restarts_partial"
   ],
   "note": "Proved for the context-free policies. False for linear and logistic policies: initialize keeps the learned parameters (all states), with a witness of different behaviour. What is restarted (generator, trials, action counts, pending observations) is proved for both (C67_linear_restarts_partial, C67_logistic_restarts_partial)."
  },
  {
   "property": "C68",
   "status": "proved",
   "theorems": [
    "Obp.C68_each_once",
    "Obp.C68_any_history",
    "Obp.C68_action_counts"
   ],
   "note": "The optimiser is an arbitrary function of the loss, its gradient and the starting point. With initialize calls in between: C68_any_history (an interrupted batch is never fitted)."
  },
  {
   "property": "C69",
   "status": "partial",
   "theorems": [
    "Obp.C69_failures_ignored",
    "Obp.C69_same_minimisers",
    "Obp.C69_signed_labels_partial",
    "Obp.C69_grad_is_gradient"
   ],
   "note": "False as stated, proved: reward-0 observations add the constant log 2 and do not change the minimisers. For labels -1/1 the loss is the negative log-likelihood; grad is the gradient of loss."
  },
  {
   "property": "C70",
   "status": "proved",
   "theorems": [
    "Obp.C70_ipw",
    "Obp.C70_ipw_label_range",
    "Obp.C70_q",
    "Obp.C70_nn",
    "Obp.C70_one_hot"
   ],
   "note": "IPWLearner, QLearner and NNPolicyLearner: exact output on all contexts, models and networks; labels beyond n_actions raise IndexError."
  },
  {
   "property": "C71",
   "status": "proved",
   "theorems": [
    "Obp.C71_ipw",
    "Obp.C71_q",
    "Obp.C71_nn",
    "Obp.C71_ipw_missing_class",
    "Obp.C71_ipw_single_class"
   ],
   "note": "All three learners, for every argsort satisfying its contract, all noise, tau > 0; tau = 0 is a division by zero. A classifier that has not seen all actions makes sample_action raise (proved)."
  },
  {
   "property": "C72",
   "status": "proved",
   "theorems": [
    "Obp.C72_round",
    "Obp.C72_regularised",
    "Obp.C72_loss_gradient",
    "Obp.C72_snipw",
    "Obp.C72_weights"
   ],
   "note": "Loss gradient equals minus the gradient of the modelled estimator's value, for dm, ipw, dr, ipw-os, ipw-subgauss; snipw is the IPW estimate of translated rewards. Without regularisation terms."
  },
  {
   "property": "C73",
   "status": "partial",
   "theorems": [
    "Obp.C73_improving_run",
    "Obp.C73_improving_run_stopped",
    "Obp.C73_worsening_run",
    "Obp.C73_not_stopped_partial",
    "Obp.C73_every_epoch_runs"
   ],
   "note": "False in the code: exact number of optimiser steps of an improving run is proved (C73_improving_run), with a numeric witness; worsening runs are never stopped; only runs no longer than n_iter_no_change steps are safe."
  },
  {
   "property": "C74",
   "status": "partial",
   "theorems": [
    "Obp.C74_weighted_never_fits",
    "Obp.C74_weighted_error",
    "Obp.C74_normal_partial",
    "Obp.C74_default_base_model"
   ],
   "note": "False for 'iw' and 'mrdr' (every input fails, ValueError on well-formed data) and for base_model=None; 'normal' is characterised exactly."
  },
  {
   "property": "C75",
   "status": "proved",
   "theorems": [
    "Obp.C75_recording_transparent",
    "Obp.C75_exactly_once",
    "Obp.C75_never_twice",
    "Obp.C75_on_time",
    "Obp.C75_on_time_from_start"
   ],
   "note": "For every policy, every delays, every sequence of rounds and clears: deliveries are exactly once, never twice, never early, and at t+d if the run lasts and delays are given in that round."
  },
  {
   "property": "C76",
   "status": "proved",
   "theorems": [
    "Obp.C76_bookkeeping",
    "Obp.C76_total",
    "Obp.C76_offline_rejected"
   ],
   "note": "All runs; totality for total policies; offline policies rejected with RuntimeError."
  },
  {
   "property": "C77",
   "status": "partial",
   "theorems": [
    "Obp.C77_always_raises",
    "Obp.C77_updates_on_matches_partial"
   ],
   "note": "As imported (tqdm is a module) every valid call raises TypeError, proved. With a working progress bar the updates on matches are characterised exactly."
  },
  {
   "property": "C78",
   "status": "proved",
   "theorems": [
    "Obp.C78_position_none_raises",
    "Obp.C78_average",
    "Obp.C78_range",
    "Obp.C78_simulations_repeat"
   ],
   "note": "position=None raises TypeError. Every simulation starts from a copy of the policy, so all simulations repeat the same random stream (also proved)."
  },
  {
   "property": "C79",
   "status": "partial",
   "theorems": [
    "Obp.C79_terminates",
    "Obp.C79_row_count",
    "Obp.C79_rows_convex",
    "Obp.C79_rows_range",
    "Obp.C79_zero_rounds",
    "Obp.C79_zero_interval_diverges",
    "Obp.C79_split_partial",
    "Obp.C79_split_at_boundary_partial",
    "Obp.C79_schedule",
    "Obp.C79_split_differs",
    "Obp.C79_intervals"
   ],
   "note": "Termination, row counts, convexity, range and the schedule are proved for all requests after any earlier requests. Splitting a request changes the rows if there is a transition period (witness proved); equality proved without a transition period and for splits at interval ends. Interval 0 never returns, proved."
  },
  {
   "property": "C80",
   "status": "proved",
   "theorems": [
    "Obp.C80_feedback"
   ],
   "note": "All logits, beta, deficient counts, noise orders and draws; the support, the softmax values, the propensities and the inverse-transform interval are given."
  },
  {
   "property": "C81",
   "status": "proved",
   "theorems": [
    "Obp.C81_feedback",
    "Obp.C81_eval_policy",
    "Obp.C81_alpha_refused",
    "Obp.C81_ground_truth",
    "Obp.C81_ground_truth_range"
   ],
   "note": "Feedback, evaluation policy, alpha check and ground truth for labels 0..A-1 (other labels: C82)."
  },
  {
   "property": "C82",
   "status": "partial",
   "theorems": [
    "Obp.C82_index_error",
    "Obp.C82_faithful_iff_partial",
    "Obp.C82_labels_from_zero_partial",
    "Obp.C82_float_labels",
    "Obp.C82_minus_one_one"
   ],
   "note": "False for labels that are not 0..A-1: index error and wrong-reward witnesses are proved. Faithful exactly when labels coincide with their rank (iff)."
  },
  {
   "property": "C83",
   "status": "partial",
   "theorems": [
    "Obp.C83_sizes",
    "Obp.C83_exact_sizes_partial",
    "Obp.C83_partition_partial",
    "Obp.C83_negative_size",
    "Obp.C83_negative_size_positive_rhos",
    "Obp.C83_normalized"
   ],
   "note": "Sizes add up and are within rounding of the proportions for all inputs; partition proved when the last logger is due enough rounds or there are at most two loggers. In general false: negative sizes, with witnesses."
  },
  {
   "property": "C84",
   "status": "proved",
   "theorems": [
    "Obp.C84_weighted_value",
    "Obp.C84_policy_value",
    "Obp.C84_range",
    "Obp.C84_linear",
    "Obp.C84_deterministic",
    "Obp.C84_shape_refused",
    "Obp.C84_zero_weights"
   ],
   "note": "Exact value, range, linearity, deterministic policies and all error cases."
  },
  {
   "property": "C85",
   "status": "proved",
   "theorems": [
    "Obp.C85_slate_propensities",
    "Obp.C85_accepts_iff",
    "Obp.C85_rounds",
    "Obp.C85_refused"
   ],
   "note": "Also for factorizable policies; exact product formula, acceptance condition, flattening over rounds and refused shapes."
  },
  {
   "property": "C86",
   "status": "partial",
   "theorems": [
    "Obp.C86_item_position_partial",
    "Obp.C86_clip_inconsistent"
   ],
   "note": "Marginals of the joint propensities for every logit row when no clip value cuts a logit off; with a binding clip_logit_value false, witness given."
  },
  {
   "property": "C87",
   "status": "partial",
   "theorems": [
    "Obp.C87_cascade_gap",
    "Obp.C87_cascade_overestimates_long",
    "Obp.C87_click_expected_partial",
    "Obp.C87_cascade_two_partial",
    "Obp.C87_cascade_three_gap",
    "Obp.C87_cascade_overestimates",
    "Obp.C87_batches_cover",
    "Obp.C87_batched_average_partial",
    "Obp.C87_context_free_total",
    "Obp.C87_context_free_grows"
   ],
   "note": "Click expectation exact without click model, for the position-based one, and for cascade with two positions; for three positions the exact excess is proved, and for more (expected rewards at most 1/2 from the third position on) that the excess is at least that of the first three (C87_cascade_gap). Batches cover the rounds and the batched value is the average when rewards depend on the own context only (false for len_list > 1, C110). Without base reward function the value is the sum over rounds."
  },
  {
   "property": "C88",
   "status": "partial",
   "theorems": [
    "Obp.C88_random_partial",
    "Obp.C88_epsilon_greedy_mixture_partial",
    "Obp.C88_repeated_refused",
    "Obp.C88_optimal_swapped"
   ],
   "note": "Random and epsilon-greedy propensities are the marginals of the stated mixtures; optimal and anti-optimal are swapped (proved), so the claim itself is false for them."
  },
  {
   "property": "C89",
   "status": "proved",
   "theorems": [
    "Obp.C89_split",
    "Obp.C89_test_size_refused",
    "Obp.C89_on_policy_value",
    "Obp.C89_empty_test"
   ],
   "note": "All logs and all test_size in [0,1], in exact arithmetic for n*(1-test_size); refusals and the empty test part included."
  },
  {
   "property": "C90",
   "status": "partial",
   "theorems": [
    "Obp.C90_propensity",
    "Obp.C90_importance_weight",
    "Obp.C90_regression",
    "Obp.C90_single_fold",
    "Obp.C90_succeeds",
    "Obp.C90_no_leakage_partial",
    "Obp.C90_warm_start_leaks"
   ],
   "note": "For every split and base model, all three fit_predict methods: each round is predicted once, by a model whose last fit used exactly its fold's training rounds. Non-interference of a round's own log needs a base model that forgets earlier fits; with warm_start it is false (witness proved), since the same object is refitted in every fold."
  },
  {
   "property": "C91",
   "status": "proved",
   "theorems": [
    "Obp.C91_fit",
    "Obp.C91_no_data",
    "Obp.C91_bad_dist",
    "Obp.C91_default_pscore"
   ],
   "note": "fit characterised exactly (iff) on valid data: one fit per position on exactly its rounds with the documented weights; ValueError for positions without rounds and for action_dist not summing to one; default pscore is uniform."
  },
  {
   "property": "C92",
   "status": "proved",
   "theorems": [
    "Obp.C92_fit",
    "Obp.C92_exact"
   ],
   "note": "Targets characterised exactly (iff) for all learners; exactness by backward induction for averaging learners under coverage, for both weightings."
  },
  {
   "property": "C93",
   "status": "partial",
   "theorems": [
    "Obp.C93_propensity_partial",
    "Obp.C93_absent_action",
    "Obp.C93_position_none",
    "Obp.C93_weight_value",
    "Obp.C93_density_ratio",
    "Obp.C93_calibrated",
    "Obp.C93_weight_position_none"
   ],
   "note": "IWE: value p/(1-p), density ratio for calibrated classifiers. PSE: probability of the logged action when all actions were seen; absent actions misalign columns, position=None gives zeros (PSE) or ValueError (IWE): all proved."
  },
  {
   "property": "C94",
   "status": "proved",
   "theorems": [
    "Obp.C94_delays_per_round",
    "Obp.C94_delays_weighted",
    "Obp.C94_scale_between",
    "Obp.C94_scale_antitone",
    "Obp.C94_negative_scale"
   ],
   "note": "Exponential draws are arbitrary non-negative numbers."
  },
  {
   "property": "C95",
   "status": "proved",
   "theorems": [
    "Obp.C95_continuous_accept_iff",
    "Obp.C95_continuous_error_kind",
    "Obp.C95_integer_actions_raise"
   ],
   "note": "Exact acceptance (iff)."
  },
  {
   "property": "C96",
   "status": "proved",
   "theorems": [
    "Obp.C96_kipw_expectation",
    "Obp.C96_kipw_random_reward",
    "Obp.C96_kipw_constant",
    "Obp.C96_kipw_bias"
   ],
   "note": "Measure-theoretic expectation with Mathlib integrals, for deterministic rewards and for rewards random given the action; bias bound by the bandwidth and the Lipschitz constant."
  },
  {
   "property": "C97",
   "status": "proved",
   "theorems": [
    "Obp.C97_summary",
    "Obp.C97_multi_summary",
    "Obp.C97_cont_summary",
    "Obp.C97_multi_balanced_fails"
   ],
   "note": "All inputs, with the nan outcome of the ratio; ordinary, multiple-logger and continuous-action front ends. With several loggers a balanced estimator makes the summary fail (C97_multi_balanced_fails), see C52."
  },
  {
   "property": "C98",
   "status": "proved",
   "theorems": [
    "Obp.C98_precisions",
    "Obp.C98_never_decrease"
   ],
   "note": "The optimiser is arbitrary; every history, initialize calls and failing updates included."
  },
  {
   "property": "C99",
   "status": "partial",
   "theorems": [
    "Obp.C99_curvature_is_second_derivative",
    "Obp.C99_shifted_curvature_partial",
    "Obp.C99_not_laplace"
   ],
   "note": "The exact increment is proved: the curvature at the score shifted by one. The unshifted claim is refuted."
  },
  {
   "property": "C100",
   "status": "proved",
   "theorems": [
    "Obp.C100_default_pscore",
    "Obp.C100_default_weights",
    "Obp.C100_ipw_fit",
    "Obp.C100_negative_reward",
    "Obp.C100_ipw_optimal"
   ],
   "note": "Relative to any class of decision rules in which the base classifier is optimal; one example classifier shown to satisfy the contract."
  },
  {
   "property": "C101",
   "status": "proved",
   "theorems": [
    "Obp.C101_ipw",
    "Obp.C101_ipw_lists",
    "Obp.C101_q"
   ],
   "note": "Exact, over the reals."
  },
  {
   "property": "C102",
   "status": "partial",
   "theorems": [
    "Obp.C102_loss_finite_iff_partial",
    "Obp.C102_singleton_batch",
    "Obp.C102_auto_batch",
    "Obp.C102_batches_cover"
   ],
   "note": "The loss is finite exactly for batches of at least two rounds; batches of one round occur for n % batch_size = 1 (proved)."
  },
  {
   "property": "C103",
   "status": "partial",
   "theorems": [
    "Obp.C103_environment_steps_raise",
    "Obp.C103_batch_rounds_partial"
   ],
   "note": "False: the first environment step raises for every policy rejecting 1-D contexts; the batch of rounds works."
  },
  {
   "property": "C104",
   "status": "partial",
   "theorems": [
    "Obp.C104_batches_repeat",
    "Obp.C104_draws_are_rewards"
   ],
   "note": "The code violates the claim: batches repeat and draws equal the expected rewards (both proved). Within one batch the draws select actions correctly (C80)."
  },
  {
   "property": "C105",
   "status": "partial",
   "theorems": [
    "Obp.C105_feedback",
    "Obp.C105_average_over_rounds_partial",
    "Obp.C105_deficient_ignores_betas",
    "Obp.C105_deficient_average_positive"
   ],
   "note": "Proved without deficient actions; averaging over the rounds is exact only for whole-number proportions. With deficient actions false, proved."
  },
  {
   "property": "C106",
   "status": "proved",
   "theorems": [
    "Obp.C106_expected_reward",
    "Obp.C106_factual_range",
    "Obp.C106_no_direct_effect",
    "Obp.C106_direct_effect",
    "Obp.C106_embedding_sampled",
    "Obp.C106_shared_seed"
   ],
   "note": "Law of total expectation, range, no direct effect, sampling; the shared-seed coincidence is proved as a defect."
  },
  {
   "property": "C107",
   "status": "proved",
   "theorems": [
    "Obp.C107_bootstrap_rounds",
    "Obp.C107_sample_size_refused"
   ],
   "note": "All logs, requests and draws; refusal of invalid sizes."
  },
  {
   "property": "C108",
   "status": "partial",
   "theorems": [
    "Obp.C108_z_score_mean",
    "Obp.C108_z_score_witness",
    "Obp.C108_constant_rewards",
    "Obp.C108_zero_mean_partial"
   ],
   "note": "The code violates the claim; the actual result is characterised for all inputs. It holds only up to the missing scaling when the mean is zero."
  },
  {
   "property": "C109",
   "status": "proved",
   "theorems": [
    "Obp.C109_logits_standardized"
   ],
   "note": "For every list of logits with non-zero standard deviation; the square root is a parameter std with std^2 the variance."
  },
  {
   "property": "C110",
   "status": "partial",
   "theorems": [
    "Obp.C110_round_used",
    "Obp.C110_own_context_partial",
    "Obp.C110_wrong_context",
    "Obp.C110_round_used_enumerated"
   ],
   "note": "False: rewards of round i use round i // len_list, proved for logged and enumerated slates; own context only for len_list = 1 or the first round."
  },
  {
   "property": "C111",
   "status": "partial",
   "theorems": [
    "Obp.C111_small_partial",
    "Obp.C111_overflow"
   ],
   "note": "True up to 128 actions; for 128 to 255 the exact wrong action or IndexError is proved."
  },
  {
   "property": "C112",
   "status": "partial",
   "theorems": [
    "Obp.C112_additive_partial",
    "Obp.C112_cascade_ignores_later",
    "Obp.C112_symmetric"
   ],
   "note": "For at most 128 actions and on the transformed scale; rounding to float16 not modelled."
  },
  {
   "property": "C113",
   "status": "proved",
   "theorems": [
    "Obp.C113_sampled_slate",
    "Obp.C113_uniform"
   ],
   "note": "One round; numpy's choice is modelled as inversion of the cumulative probabilities."
  },
  {
   "property": "C114",
   "status": "partial",
   "theorems": [
    "Obp.C114_standard_decay",
    "Obp.C114_cascade_decay_independent",
    "Obp.C114_documented_formula_violated"
   ],
   "note": "False: the code's actual formulas are proved and a witness shows they differ from the documented ones."
  },
  {
   "property": "C115",
   "status": "partial",
   "theorems": [
    "Obp.C115_action_dist_partial",
    "Obp.C115_masked_positive",
    "Obp.C115_masked_dominates"
   ],
   "note": "Exact formula including the masked weight exp(-10000); exact policy for factorizable policies and the first position. Masked actions keep positive mass and dominate for logits far below -10000 (proved), so the stated proportionality holds only up to that mass."
  },
  {
   "property": "C116",
   "status": "partial",
   "theorems": [
    "Obp.C116_linear_policy_ignores_context",
    "Obp.C116_zero_temperature"
   ],
   "note": "False: proved that propensities are the same for all contexts; zero temperature gives no finite logits."
  },
  {
   "property": "C117",
   "status": "proved",
   "theorems": [
    "Obp.C117_on_policy_value"
   ],
   "note": "All rewards, all injective slate ids."
  },
  {
   "property": "C118",
   "status": "partial",
   "theorems": [
    "Obp.C118_slates_enumerated",
    "Obp.C118_pscores_partial",
    "Obp.C118_overflow",
    "Obp.C118_many_actions",
    "Obp.C118_many_actions_value",
    "Obp.C118_value_partial",
    "Obp.C118_context_free",
    "Obp.C118_refused"
   ],
   "note": "Enumeration proved complete and duplicate-free for all sizes. Weights and value proved for at most 128 actions; beyond, the int8 overflow is proved: wrong weights for factorizable policies, IndexError for the others. Without base reward function the sum instead of the average is returned (proved)."
  },
  {
   "property": "C119",
   "status": "partial",
   "theorems": [
    "Obp.C119_accept_iff_partial",
    "Obp.C119_refused",
    "Obp.C119_nan_bandwidth",
    "Obp.C119_infinite_bandwidth"
   ],
   "note": "Exact acceptance (iff) proved. nan, zero and infinite bandwidths are accepted though useless: proved as C119_nan_bandwidth, C39_zero_bandwidth, C119_infinite_bandwidth."
  },
  {
   "property": "C120",
   "status": "proved",
   "theorems": [
    "Obp.C120_ipw_learner",
    "Obp.C120_regression",
    "Obp.C120_q_learner",
    "Obp.C120_not_estimator",
    "Obp.C120_mips",
    "Obp.C120_slate_regression",
    "Obp.C120_importance_weights",
    "Obp.C120_propensity"
   ],
   "note": "Exact acceptance (iff), with the stored configuration."
  },
  {
   "property": "C121",
   "status": "partial",
   "theorems": [
    "Obp.C121_interval_all_dims",
    "Obp.C121_interval_same_rounds_partial",
    "Obp.C121_selection_ignored",
    "Obp.C121_interval_formula",
    "Obp.C121_value_fails_interval_succeeds"
   ],
   "note": "Proved without embedding selection, for every input including failing ones. With selection it is false: the interval always uses all dimensions (witness proved)."
  },
  {
   "property": "C122",
   "status": "proved",
   "theorems": [
    "Obp.C122_accept_iff"
   ],
   "note": "Exact acceptance (iff) on top of C08."
  },
  {
   "property": "C123",
   "status": "partial",
   "theorems": [
    "Obp.C123_fraction",
    "Obp.C123_split_partial",
    "Obp.C123_no_split",
    "Obp.C123_no_training_data"
   ],
   "note": "Proved for fractions below one and any number of rounds; the documented fraction 1 leaves an empty training set (proved). The size of the split follows PyTorch's random_split call; which rounds go where is drawn by the generator."
  },
  {
   "property": "C124",
   "status": "proved",
   "theorems": [
    "Obp.C124_value",
    "Obp.C124_features",
    "Obp.C124_true_weights",
    "Obp.C124_self_normalised"
   ],
   "note": "The classifier is an arbitrary function of its training data; the theorem on true weights assumes its predictions are the posterior probabilities."
  },
  {
   "property": "C125",
   "status": "partial",
   "theorems": [
    "Obp.C125_logistic_hyperparameters",
    "Obp.C125_contextfree",
    "Obp.C125_contextual",
    "Obp.C125_epsilon_greedy_partial",
    "Obp.C125_bernoulli_ts",
    "Obp.C125_linear_partial",
    "Obp.C125_logistic_partial",
    "Obp.C125_nan_accepted",
    "Obp.C125_errors",
    "Obp.C125_integer_arguments"
   ],
   "note": "Acceptance characterised exactly for every constructor; missing from the documented claim: nan is accepted (proved). Length and sign of priors handed to BernoulliTS are not checked by the code; what select_action then does is C64."
  },
  {
   "property": "C126",
   "status": "partial",
   "theorems": [
    "Obp.C126_binary",
    "Obp.C126_support",
    "Obp.C126_sample_reward_partial",
    "Obp.C126_batch_mean_differs",
    "Obp.C126_zero_std",
    "Obp.C126_slate_mean_differs"
   ],
   "note": "Proved for binary rewards and for sample_reward. For continuous rewards logged in a batch the property is false and its negation is proved for every reward function value (C126_batch_mean_differs): the truncation correction is applied to the mean and the corrected mean is then truncated again. The slate dataset never applies the correction (C126_slate_mean_differs). reward_std = 0 is accepted but yields no numbers (C126_zero_std)."
  },
  {
   "property": "C127",
   "status": "partial",
   "theorems": [
    "Obp.C127_round_partial",
    "Obp.C127_first_action",
    "Obp.C127_last_action",
    "Obp.C127_ipw_biased",
    "Obp.C127_slate_comonotone"
   ],
   "note": "False of the code: action and reward are drawn from generators started from the same integer seed and each takes one uniform number per round, so both are functions of the same number. Proved: the first action's logged rewards are biased downwards, the last action's upwards, inverse propensity weighting is biased, and all positions of a slate move together (given that scipy samples by inverting the distribution function). What holds: every round has a supported action and a reward within the bounds."
  },
  {
   "property": "C128",
   "status": "proved",
   "theorems": [
    "Obp.C128_static",
    "Obp.C128_per_round",
    "Obp.C128_features",
    "Obp.C128_linear_features",
    "Obp.C128_sparse",
    "Obp.C128_logistic_range",
    "Obp.C128_functions",
    "Obp.C128_z_score",
    "Obp.C128_behavior"
   ],
   "note": "All six functions, static and per-round coefficients, polynomial features as the set of monomials. Argument checks of degree and ratio are constants at every call and not modelled; coefficient functions returning other shapes only raise in the model."
  },
  {
   "property": "C129",
   "status": "partial",
   "theorems": [
    "Obp.C129_local_partial",
    "Obp.C129_z_score",
    "Obp.C129_behavior"
   ],
   "note": "Proved for all six reward functions with z_score=False. False with z_score=True, the default (C129_z_score), and for the behaviour policy functions (C129_behavior): both shift or scale by statistics of the whole batch."
  },
  {
   "property": "C130",
   "status": "partial",
   "theorems": [
    "Obp.C130_synthetic_partial",
    "Obp.C130_nan_accepted",
    "Obp.C130_multi_partial",
    "Obp.C130_no_loggers",
    "Obp.C130_zero_shares",
    "Obp.C130_embed_partial",
    "Obp.C130_continuous_partial",
    "Obp.C130_environment",
    "Obp.C130_refusal"
   ],
   "note": "Acceptance is characterised exactly (iff) for all five constructors and refusals are TypeError or ValueError. Missing from the claim because the code violates it: nan is accepted (C130_nan_accepted), and so are empty lists of loggers (C130_no_loggers: no batch can then be obtained) and all-zero shares (C130_zero_shares)."
  },
  {
   "property": "C131",
   "status": "partial",
   "theorems": [
    "Obp.C131_gaussian_partial",
    "Obp.C131_gaussian_iff",
    "Obp.C131_zero_noise",
    "Obp.C131_uniform_partial",
    "Obp.C131_default_bounds"
   ],
   "note": "Exact law and density with a behaviour policy function (C131_gaussian_partial) and without it for finite bounds (C131_uniform_partial); success characterised exactly (C131_gaussian_iff). That it works for all accepted settings is false of the code and its negation is proved: default infinite bounds without behaviour policy function give no finite action (C131_default_bounds), zero noise no finite propensity (C131_zero_noise)."
  },
  {
   "property": "C132",
   "status": "partial",
   "theorems": [
    "Obp.C132_reward_mean",
    "Obp.C132_ground_truth",
    "Obp.C132_ground_truth_shapes",
    "Obp.C132_contextfree",
    "Obp.C132_linear_reward",
    "Obp.C132_quadratic_reward",
    "Obp.C132_reward_shapes",
    "Obp.C132_linear_behavior",
    "Obp.C132_policies_partial",
    "Obp.C132_sign_is_sine"
   ],
   "note": "Proved for every seed and input, except that sign_synthetic_policy_continuous returns the sine of the average context, not its sign: proved as C132_sign_is_sine."
  },
  {
   "property": "C133",
   "status": "partial",
   "theorems": [
    "Obp.C133_stream_partial",
    "Obp.C133_actions_repeat",
    "Obp.C133_coefficients_are_context",
    "Obp.C133_reward_ignores_context"
   ],
   "note": "Contexts and reward noise are disjoint consecutive parts of one stream (proved). The rest is false of the code, proved for every generator: actions repeat in every batch without behaviour policy function; the coefficients of linear behaviour policy and linear reward are the same vector and equal the first context of the first batch; with both functions and no bounds the reported expected rewards do not depend on the contexts at all."
  },
  {
   "property": "C134",
   "status": "partial",
   "theorems": [
    "Obp.C134_q_func_partial",
    "Obp.C134_q_func_continuous_partial",
    "Obp.C134_q_func_no_actions",
    "Obp.C134_policy_learner_partial",
    "Obp.C134_nan_accepted",
    "Obp.C134_continuous_learner_partial",
    "Obp.C134_bad_space_accepted",
    "Obp.C134_optimizer_iff",
    "Obp.C134_documented_but_refused",
    "Obp.C134_auto_batch"
   ],
   "note": "Acceptance characterised exactly for all four constructors, with the layer sizes of the network built. Missing because the code violates it: nan is accepted, the number of actions of QFuncEstimator is not checked, output spaces of wrong length or order are accepted, the documented momentum 0.0 (sgd with default Nesterov) and beta_1 = 1.0 make fit raise, and batch size 'auto' is the minimum of 200 and the data size, not the documented maximum."
  },
  {
   "property": "C135",
   "status": "proved",
   "theorems": [
    "Obp.C135_forward",
    "Obp.C135_wrong_size",
    "Obp.C135_policy_network",
    "Obp.C135_activations"
   ],
   "note": "Over the reals, so without underflow of the softmax. C135_activations also shows that the documented formula of the logistic activation has the wrong sign."
  },
  {
   "property": "C136",
   "status": "proved",
   "theorems": [
    "Obp.C136_ipw",
    "Obp.C136_dr",
    "Obp.C136_dpg",
    "Obp.C136_output_space",
    "Obp.C136_infinite_bounds",
    "Obp.C136_bad_space",
    "Obp.C136_nan_bandwidth"
   ],
   "note": "Proved for positive propensities and bandwidth and an ordered output space of two numbers. For the other spaces the constructor accepts (unordered, too short) and bandwidth nan, the behaviour is stated in C136_bad_space and C136_nan_bandwidth."
  },
  {
   "property": "C137",
   "status": "partial",
   "theorems": [
    "Obp.C137_feedback_accept_iff",
    "Obp.C137_training_data_partial",
    "Obp.C137_reward_model_predict",
    "Obp.C137_training_data_only_if",
    "Obp.C137_different_lengths"
   ],
   "note": "Accepted inputs are exactly the well-formed ones and the training rounds are as stated. Missing because the code violates it: without propensities, arrays of different lengths are reported as AssertionError with ipw (C137_different_lengths)."
  },
  {
   "property": "C138",
   "status": "proved",
   "theorems": [
    "Obp.C138_egreedy",
    "Obp.C138_linear_explore",
    "Obp.C138_ucb",
    "Obp.C138_ts",
    "Obp.C138_lints"
   ],
   "note": "All contexts, histories and hyperparameters; random draws are arbitrary inputs."
  },
  {
   "property": "C139",
   "status": "proved",
   "theorems": [
    "Obp.C139_temperature",
    "Obp.C139_temperature_proba",
    "Obp.C139_regression_shape",
    "Obp.C139_regression_normal",
    "Obp.C139_normal_sliced",
    "Obp.C139_iwe_dist",
    "Obp.C139_propensity_no_data",
    "Obp.C139_other_positions",
    "Obp.C139_positions_needed",
    "Obp.C139_slate_accepts"
   ],
   "note": "Base models are arbitrary functions; folds are arbitrary."
  },
  {
   "property": "C140",
   "status": "proved",
   "theorems": [
    "Obp.C140_rejects",
    "Obp.C140_accepts",
    "Obp.C140_multi_rejects",
    "Obp.C140_multi_accepts",
    "Obp.C140_cont_rejects",
    "Obp.C140_cont_accepts"
   ],
   "note": "Rejection exactly of the misshapen arguments. p_e_a as a single array is the subject of C56 (UnboundLocalError)."
  },
  {
   "property": "C141",
   "status": "partial",
   "theorems": [
    "Obp.C141_embed_bar_height_partial",
    "Obp.C141_embed_no_positions",
    "Obp.C141_embed_no_plot",
    "Obp.C141_mixed_plot_partial",
    "Obp.C141_embed_selection_ignored",
    "Obp.C141_embed_bar_without_estimate",
    "Obp.C141_multi_bar_height_partial",
    "Obp.C141_multi_plot_partial",
    "Obp.C141_cont_plot",
    "Obp.C141_relative",
    "Obp.C141_estimated_differs",
    "Obp.C141_bar_height_partial",
    "Obp.C141_no_positions",
    "Obp.C141_estimated_ignored",
    "Obp.C141_cont_bar_height",
    "Obp.C141_no_plot",
    "Obp.C141_tuned_no_plot",
    "Obp.C141_plot_partial"
   ],
   "note": "Proved for continuous actions, for several loggers, for the eleven single-logger classes when the logged propensities are used (single logger: with positions, or a class that defaults them), for the embedding estimators without embedding selection on logs with positions, and for any mix of these in one plot (C141_mixed_plot_partial). The rest is false of the code: estimated propensities are ignored by the plots (C141_estimated_ignored, witness C141_estimated_differs); without positions five classes and both embedding classes cannot be plotted (C141_no_positions, C141_no_plot, C141_embed_no_plot); tuned estimators cannot be plotted (C141_tuned_no_plot); with embedding selection the bar shows all dimensions instead of the selected ones (C141_embed_selection_ignored, C141_embed_bar_without_estimate)."
  },
  {
   "property": "C142",
   "status": "partial",
   "theorems": [
    "Obp.C142_names_mismatch",
    "Obp.C142_names_mismatch_others",
    "Obp.C142_more_estimators_than_policies",
    "Obp.C142_multi_more_estimators",
    "Obp.C142_cont_more_estimators",
    "Obp.C142_columns_partial",
    "Obp.C142_heights_partial",
    "Obp.C142_multi_heights_partial",
    "Obp.C142_cont_heights_partial",
    "Obp.C142_succeeds",
    "Obp.C142_multi_succeeds",
    "Obp.C142_cont_succeeds"
   ],
   "note": "All three front ends that have the plot (single logger, several loggers, continuous actions). Columns and heights proved whenever the call succeeds, and success for at most as many estimators as policies on valid logs that the estimators can evaluate (C142_succeeds, C142_multi_succeeds, C142_cont_succeeds). False of the code otherwise: with more estimators than policies the call never succeeds, because the grid of subplots has one row per policy (C142_more_estimators_than_policies, C142_multi_more_estimators, C142_cont_more_estimators). Distinct names assumed."
  },
  {
   "property": "C143",
   "status": "partial",
   "theorems": [
    "Obp.C143_bars_partial"
   ],
   "note": "False of the code: the bar extends by the full width of the interval to either side of the mean, so it is twice as long and coincides with the interval only if that is a single point. Proved: the exact length, the height, and that the bar encloses the interval when that contains the mean."
  },
  {
   "property": "C144",
   "status": "proved",
   "theorems": [
    "Obp.C144_visits_all",
    "Obp.C144_nested_loops",
    "Obp.C144_next_needs_iter",
    "Obp.C144_short_arrays",
    "Obp.C144_steps"
   ],
   "note": "`next` before `iter` raises AttributeError (C144_next_needs_iter)."
  },
  {
   "property": "C145",
   "status": "partial",
   "theorems": [
    "Obp.C145_batch",
    "Obp.C145_contextfree",
    "Obp.C145_rejects",
    "Obp.C145_reward_type_ignored",
    "Obp.C145_one_round",
    "Obp.C145_simulation",
    "Obp.C145_delay_functions"
   ],
   "note": "False: reward_type and reward_std are ignored, rewards are always binary (C145_reward_type_ignored); next_bandit_round returns the action context of the first action only and a context with the batch axis (C145_one_round). Everything else is proved."
  },
  {
   "property": "C146",
   "status": "partial",
   "theorems": [
    "Obp.C146_rewards_partial",
    "Obp.C146_enumerated_partial",
    "Obp.C146_range",
    "Obp.C146_independent",
    "Obp.C146_log_odds",
    "Obp.C146_rejects"
   ],
   "note": "The formula holds with the base rewards of round i // len_list instead of round i (C110), and for up to 128 actions (C111). Base rewards 0 and 1 of binary rewards have infinite log-odds and are excluded."
  },
  {
   "property": "C147",
   "status": "proved",
   "theorems": [
    "Obp.C147_reward_model_data",
    "Obp.C147_policy_data",
    "Obp.C147_positions_needed",
    "Obp.C147_batches",
    "Obp.C147_split",
    "Obp.C147_training",
    "Obp.C147_step_count",
    "Obp.C147_reward_model_loss",
    "Obp.C147_unknown_action",
    "Obp.C147_reward_model_predict"
   ],
   "note": "Network and optimiser are arbitrary; loaders are lists of batches of an arbitrary permutation. Positions are refused as missing with TypeError when len_list > 1 (C147_positions_needed)."
  },
  {
   "property": "C148",
   "status": "partial",
   "theorems": [
    "Obp.C148_only_drops_rounds",
    "Obp.C148_validation_ignored",
    "Obp.C148_never_terminates"
   ],
   "note": "False in the code. The validation losses never have an effect: the result is that of training without early stopping on the training rounds (C148_only_drops_rounds, C148_validation_ignored); every epoch is trained whatever the losses (C148_never_terminates; witness not_C148_stops_when_validation_stalls)."
  },
  {
   "property": "C149",
   "status": "proved",
   "theorems": [
    "Obp.C149_slope_oracle",
    "Obp.C149_tuned_value"
   ],
   "note": "For the selection (C149_slope_oracle) and for the estimate of a tuned estimator on logged data (C149_tuned_value). The validity of the Student-t half-widths is a hypothesis, as in the method's paper."
  },
  {
   "property": "C150",
   "status": "partial",
   "theorems": [
    "Obp.C150_hoeffding_partial",
    "Obp.C150_policy_value"
   ],
   "note": "Proved for numbers between 0 and a given x_max (C150_hoeffding_partial), and from it: the bound of the per-round values of IPW exceeds the value of the policy with probability at most delta (C150_policy_value). False for bounded numbers that may be negative, which the docstring allows: the width uses x_max where the range is needed (not_C150_negative, violated with probability 1/2 at delta=0.05). x_max=None is not covered."
  },
  {
   "property": "C151",
   "status": "proved",
   "theorems": [
    "Obp.C151_ipw",
    "Obp.C151_snipw",
    "Obp.C151_dr",
    "Obp.C151_sndr",
    "Obp.C151_dm",
    "Obp.C151_replay"
   ],
   "note": "Contexts in any measurable space, rewards any integrable random variables given by their conditional mean. Finite lambda_ is covered if no weight exceeds it (IPW, DR)."
  },
  {
   "property": "C152",
   "status": "proved",
   "theorems": [
    "Obp.C152_ipw",
    "Obp.C152_q",
    "Obp.C152_nn",
    "Obp.C152_temperature"
   ],
   "note": "Gumbel noise is any family of independent random variables with distribution function exp(-exp(-x)); its existence is proved (exGumbel)."
  },
  {
   "property": "C153",
   "status": "partial",
   "theorems": [
    "Obp.C153_ipw_partial",
    "Obp.C153_q_partial",
    "Obp.C153_nn_partial"
   ],
   "note": "True for IPWLearner and QLearner. False for NNPolicyLearner: `sample_action` uses the probabilities themselves as scores and so applies a second softmax to them (C153_nn_partial says which distribution results; not_C153_nn is a witness)."
  },
  {
   "property": "C154",
   "status": "proved",
   "theorems": [
    "Obp.C154_synthetic",
    "Obp.C154_synthetic_unbiased",
    "Obp.C154_multiclass"
   ],
   "note": "Conditional on the contexts. The assumption on the draws is what a generator with separate streams provides; the restarts of the generator from the same seed in the code are the subject of C104, C126 and C127."
  },
  {
   "property": "C155",
   "status": "proved",
   "theorems": [
    "Obp.C155_given_contexts",
    "Obp.C155_population",
    "Obp.C155_estimates_exist"
   ],
   "note": "C155_given_contexts also gives the exact expectation of the balanced estimates for fixed contexts. The assumption on the draws is what a generator with separate streams provides (see C104, C127 for the restarts in the code)."
  },
  {
   "property": "C156",
   "status": "proved",
   "theorems": [
    "Obp.C156_propensities",
    "Obp.C156_estimates"
   ],
   "note": "Stated for given logits (that is, given the contexts) and independent draws. Support is automatic: softmax probabilities are positive. That item-position propensities are not marginals when a logit is clipped is C86; that the reward functions of the dataset read the wrong row of base rewards is C110."
  },
  {
   "property": "C157",
   "status": "partial",
   "theorems": [
    "Obp.C157_constructor",
    "Obp.C157_feedback",
    "Obp.C157_ipw_dr",
    "Obp.C157_mips_partial",
    "Obp.C157_mips_biased_two_dims"
   ],
   "note": "Log, category distributions and the statements for IPW and DR are proved in full; MIPS for one observed dimension. With two observed dimensions MIPS with the reported p_e_a is biased although nothing is hidden: witness with all rewards one and expectation 17/16."
  },
  {
   "property": "C158",
   "status": "partial",
   "theorems": [
    "Obp.C158_log",
    "Obp.C158_context",
    "Obp.C158_affinities_ignored",
    "Obp.C158_split_in_time",
    "Obp.C158_action_context_partial",
    "Obp.C158_items_unsorted",
    "Obp.C158_items_never_shown",
    "Obp.C158_files"
   ],
   "note": "Proved except where the code violates the claim: affinity scores are not part of the context (C158_affinities_ignored), action_context keeps the order of the item file (C158_items_unsorted), and n_actions counts up to the largest logged item (C158_items_never_shown)."
  },
  {
   "property": "C159",
   "status": "proved",
   "theorems": [
    "Obp.C159_ipw",
    "Obp.C159_dr",
    "Obp.C159_ipw_bias",
    "Obp.C159_dr_exact",
    "Obp.C159_limit",
    "Obp.C159_edge",
    "Obp.C159_rewards",
    "Obp.C159_limit_builtin"
   ],
   "note": "Conditional on the contexts; the draws of the two generators are taken to be independent of each other (the code starts both from the same seed)."
  },
  {
   "property": "C160",
   "status": "proved",
   "theorems": [
    "Obp.C160_ips",
    "Obp.C160_sn",
    "Obp.C160_snsips",
    "Obp.C160_cascade_dr"
   ],
   "note": "Real arithmetic; for logs whose rows are ordered by slate and position (the cascade doubly robust estimator depends on the order, C43)."
  },
  {
   "property": "C161",
   "status": "proved",
   "theorems": [
    "Obp.C161_ipw",
    "Obp.C161_snipw",
    "Obp.C161_dr",
    "Obp.C161_bias"
   ],
   "note": "Real arithmetic. The self-normalised and doubly robust estimators need that the logging density is positive where the kernel around the evaluation action is."
  },
  {
   "property": "C162",
   "status": "proved",
   "theorems": [
    "Obp.C162_naive_ipw",
    "Obp.C162_naive_dr",
    "Obp.C162_weighted_ipw",
    "Obp.C162_weighted_dr",
    "Obp.C162_balanced_ipw",
    "Obp.C162_balanced_dr"
   ],
   "note": "Real arithmetic, given propensity scores; the average propensity score of the balanced estimators uses the limit shares. Finite lambda_ is covered if no weight exceeds it. A logger whose terms are all equal has an estimated variance of zero, on which the weighted estimators give nan (C53)."
  },
  {
   "property": "C163",
   "status": "proved",
   "theorems": [
    "Obp.C163_mips",
    "Obp.C163_snmips",
    "Obp.C163_one_dim"
   ],
   "note": "Real arithmetic, p_e_a given, no embedding selection. Without independent dimensions the estimates are biased (C47)."
  },
  {
   "property": "C164",
   "status": "proved",
   "theorems": [
    "Obp.C164_clipped",
    "Obp.C164_dr_best",
    "Obp.C164_dr_ipw",
    "Obp.C164_balanced_ipw",
    "Obp.C164_balanced_dr",
    "Obp.C164_mips"
   ],
   "note": "Variance over the product of the per-round distributions; the numbers compared are what the model's estimate_policy_value returns on every log of positive probability. The claims about lambda_ are for the IPW estimator; embeddings as in C47 (independent dimensions, or one dimension)."
  },
  {
   "property": "C165",
   "status": "partial",
   "theorems": [
    "Obp.C165_bernstein_partial",
    "Obp.C165_policy_value"
   ],
   "note": "Proved for numbers between 0 and a given x_max (C165_bernstein_partial), and from it for the per-round values of IPW (C165_policy_value). False for bounded numbers that may be negative, as with C150: a witness is proved (not_C165_negative). Not covered: x_max=None and samples that are not identically distributed."
  },
  {
   "property": "C166",
   "status": "partial",
   "theorems": [
    "Obp.C166_bias_bound_partial"
   ],
   "note": "False of the code: mean square and maximum of the weights are taken from the log, so logs without the rare large weights get a bound of zero whatever the bias is; for every number of rounds and delta this can happen with probability as close to one as wanted (not_C166_unseen_weights). Proved: among logs whose weights are representative (mean square not below the expected one, largest weight seen) the bound fails with probability at most delta (C166_bias_bound_partial)."
  },
  {
   "property": "C167",
   "status": "proved",
   "theorems": [
    "Obp.C167_egreedy_learns",
    "Obp.C167_random",
    "Obp.C167_zero_epsilon"
   ],
   "note": "The generator is ideal: independent uniform numbers and independent random lists with each action equally likely in front. C167_zero_epsilon shows that epsilon > 0 is needed."
  },
  {
   "property": "C168",
   "status": "partial",
   "theorems": [
    "Obp.C168_replay_online_partial"
   ],
   "note": "Proved for the loop of run_bandit_replay (lines 49-76); the table of selections built after the loop and its evaluation is C184. Missing: the function raises before the loop because the name tqdm is bound to a module (C77)."
  },
  {
   "property": "C169",
   "status": "proved",
   "theorems": [
    "Obp.C169_bias",
    "Obp.C169_bias_size",
    "Obp.C169_subgaussian_size",
    "Obp.C169_exact_predictions",
    "Obp.C169_large_lambda",
    "Obp.C169_clipped_ipw"
   ],
   "note": "Exact expectation of each estimator without support assumption; size, sign and monotonicity as consequences."
  },
  {
   "property": "C170",
   "status": "proved",
   "theorems": [
    "Obp.C170_linucb_regret",
    "Obp.C170_linucb_average"
   ],
   "note": "Noise-free linear rewards; for noisy rewards see C171."
  },
  {
   "property": "C171",
   "status": "proved",
   "theorems": [
    "Obp.C171_linucb_noise",
    "Obp.C171_linucb_bounded",
    "Obp.C171_linucb_expected"
   ],
   "note": "Contexts are fixed before the run; argsort orders ties in a measurable way."
  },
  {
   "property": "C172",
   "status": "proved",
   "theorems": [
    "Obp.C172_bts_learns"
   ],
   "note": "the generator's Beta draws are random functions of the two parameters, independent over rounds and actions; argsort is any correct argsort whose preimages are measurable"
  },
  {
   "property": "C173",
   "status": "proved",
   "theorems": [
    "Obp.C173_linegreedy_regret",
    "Obp.C173_linegreedy_learns"
   ],
   "note": "Contexts are fixed before the run; argsort orders ties in a measurable way; randomly picked lists put each action in front equally often."
  },
  {
   "property": "C174",
   "status": "proved",
   "theorems": [
    "Obp.C174_ipw",
    "Obp.C174_dr",
    "Obp.C174_snipw",
    "Obp.C174_sndr"
   ],
   "note": "Central limit theorem and Slutsky's theorem applied to what the estimators average; the self-normalised ones through the ratio of averages."
  },
  {
   "property": "C175",
   "status": "partial",
   "theorems": [
    "Obp.C175_coverage_partial",
    "Obp.C175_coverage_exact_partial",
    "Obp.C175_many_resamples",
    "Obp.C175_default_undercovers",
    "Obp.C175_no_noise",
    "Obp.C175_ipw_partial",
    "Obp.C175_dr_partial"
   ],
   "note": "The claim fails for finite B (not_C175_ipw_default, C175_default_undercovers): in the limit the coverage is (1 - alpha)(B - 1)/(B + 1) when (alpha/2)(B - 1) is whole, and between two such fractions otherwise. With the defaults alpha = 0.05, n_bootstrap_samples = 100 of OffPolicyEvaluation it is below 0.942. Proved: the limits, and that coverage is within 5/(B + 1) of 1 - alpha for large logs (C175_many_resamples)."
  },
  {
   "property": "C176",
   "status": "partial",
   "theorems": [
    "Obp.C176_snipw_partial"
   ],
   "note": "The claim fails (not_C176_snipw, not_C176_snipw_odd): the normaliser of the whole log is kept in every bootstrap sample. For two actions with rewards 1 and 3, logged with probability 1/2, and evaluation probabilities 3/4 and 1/4, the interval never contains the value on a log with an odd number of rounds, for any alpha, number of bootstrap samples and draws. Proved: exactly when the interval contains a number (C176_snipw_partial)."
  },
  {
   "property": "C177",
   "status": "partial",
   "theorems": [
    "Obp.C177_mse_near_unmodified",
    "Obp.C177_mse",
    "Obp.C177_mse_consistent",
    "Obp.C177_slope_partial"
   ],
   "note": "Proved for tuning_method=\"mse\" in full. For \"slope\" the returned value tends to the limit of the candidate with the largest variance per round (C177_slope_partial); the claim itself is false for \"slope\" (not_C177_slope: plain IPW is among the candidates and exact, yet SLOPE tends to a wrong value)."
  },
  {
   "property": "C178",
   "status": "proved",
   "theorems": [
    "Obp.C178_dr_bias",
    "Obp.C178_ipw_bias",
    "Obp.C178_dr_bias_size",
    "Obp.C178_dr_limit",
    "Obp.C178_ipw_limit",
    "Obp.C178_dr_consistent"
   ],
   "note": "The estimated propensities are a fixed model of context and action (fitted on other data, as cross-fitting does)."
  },
  {
   "property": "C179",
   "status": "proved",
   "theorems": [
    "Obp.C179_regret",
    "Obp.C179_consistent",
    "Obp.C179_predicts"
   ],
   "note": "scikit-learn classifiers do not promise to reach the best accuracy in their class; that is a hypothesis (OptimalIn, StaysIn)."
  },
  {
   "property": "C180",
   "status": "partial",
   "theorems": [
    "Obp.C180_accepted_partial",
    "Obp.C180_refused",
    "Obp.C180_nan_eta",
    "Obp.C180_click_weights",
    "Obp.C180_decay_weights",
    "Obp.C180_interaction_weights"
   ],
   "note": "False for eta=nan: the constructor accepts it (C180_nan_eta proves that no batch can be drawn afterwards). C180_accepted_partial says that this is the only exception; everything else holds in full. That cascade_decay weights are on the wrong side of the diagonal is part of C111."
  },
  {
   "property": "C181",
   "status": "proved",
   "theorems": [
    "Obp.C181_batch",
    "Obp.C181_well_formed",
    "Obp.C181_estimates",
    "Obp.C181_on_policy",
    "Obp.C181_refused"
   ],
   "note": "With a base reward function the base rewards of round i // len_list enter (C110), which C181_batch states. Clipped logits change item-position propensities (C86), so the item column is stated for clips that cut off nothing."
  },
  {
   "property": "C182",
   "status": "proved",
   "theorems": [
    "Obp.C182_cross_fitted_dr",
    "Obp.C182_training_succeeds",
    "Obp.C182_single_fold_biased"
   ],
   "note": "C182_cross_fitted_dr composes the models of fit_predict and DoublyRobust and takes the expectation over all logs of positive probability; success of training on those logs is a hypothesis, discharged by C182_training_succeeds for base models that accept all data when each fold keeps rounds of every position. C182_single_fold_biased: with n_folds=1 and a base model predicting the mean training reward the expectation is 1/4 where the policy value is 0."
  },
  {
   "property": "C183",
   "status": "proved",
   "theorems": [
    "Obp.C183_cascade_dr",
    "Obp.C183_cascade_coverage",
    "Obp.C183_kernel_ipw",
    "Obp.C183_kernel_dr",
    "Obp.C183_kernel_snipw",
    "Obp.C183_kernel_ipw_coverage",
    "Obp.C183_kernel_dr_coverage",
    "Obp.C183_mips",
    "Obp.C183_mips_coverage",
    "Obp.C183_snmips",
    "Obp.C183_slate_ips",
    "Obp.C183_slate_coverage",
    "Obp.C183_slate_sn",
    "Obp.C183_slate_snsips"
   ],
   "note": "Coverage is stated with NearlyCovers, the two fractions of C175; C175_many_resamples turns it into the distance 5/(B + 1). Intervals of the self-normalised estimators are not claimed: their normaliser is not resampled (C176)."
  },
  {
   "property": "C184",
   "status": "partial",
   "theorems": [
    "Obp.C184_replay_estimate_partial",
    "Obp.C184_conditional_unbiased_partial"
   ],
   "note": "Proved with tqdm bound to the function and for logs in which the last action occurs. Missing: as imported the call raises TypeError (C77); if the last action never occurs in the log the returned table has too few actions (or the call raises IndexError), so the estimate there is that of the recorded selections and not of the table."
  },
  {
   "property": "C185",
   "status": "partial",
   "theorems": [
    "Obp.C185_weighted_ipw",
    "Obp.C185_weighted_ipw_between",
    "Obp.C185_weighted_dr_partial",
    "Obp.C185_weighted_dr_same_model_partial"
   ],
   "note": "True for inverse propensity weighting. False for doubly robust estimation: only the corrections are weighted by precision, the predictions of the reward model by numbers of rounds, so the result can lie outside the range of the loggers' estimates (not_C185_weighted_dr: 94/37 instead of 129/37, loggers' estimates 3 and 7/2). C185_weighted_dr_partial says what is computed; C185_weighted_dr_same_model_partial that it is the documented average if the mean prediction is the same for all loggers."
  },
  {
   "property": "C186",
   "status": "partial",
   "theorems": [
    "Obp.C186_naive_ipw",
    "Obp.C186_naive_dr",
    "Obp.C186_weighted_ipw",
    "Obp.C186_precision_smallest",
    "Obp.C186_weighted_ipw_no_worse",
    "Obp.C186_weighted_dr_partial",
    "Obp.C186_balanced_ipw",
    "Obp.C186_balanced_dr"
   ],
   "note": "Normality is proved for all six estimators (balanced: if the shares tend to their limits faster than one over the square root of the number of rounds). Smallest variance: true for inverse propensity weighting (C186_precision_smallest, C186_weighted_ipw_no_worse). False for doubly robust estimation, which weights only the corrections by precisions of the whole terms (not_C186_weighted_dr: 189.1\u2026 instead of 30.6\u2026 without weights; C186_weighted_dr_partial gives the variance). Real arithmetic, given propensity scores; finite lambda_ is covered if no weight exceeds it."
  },
  {
   "property": "C187",
   "status": "proved",
   "theorems": [
    "Obp.C187_naive_ipw",
    "Obp.C187_naive_dr",
    "Obp.C187_weighted_ipw",
    "Obp.C187_weighted_dr",
    "Obp.C187_many_resamples"
   ],
   "note": "C187_naive_ipw, C187_naive_dr, C187_weighted_ipw, C187_weighted_dr give the limits in terms of the position of the lower bound among the sorted bootstrap averages; C175_many_resamples and C187_many_resamples turn them into the 5/(B + 1) of the statement. The intervals of the balanced variants always raise TypeError (C52)."
  },
  {
   "property": "C188",
   "status": "partial",
   "theorems": [
    "Obp.C188_single_partial",
    "Obp.C188_single_unclipped",
    "Obp.C188_dros_partial",
    "Obp.C188_multi_partial",
    "Obp.C188_balanced_dr_partial",
    "Obp.C188_kernel_partial",
    "Obp.C188_kernel_snipw_partial"
   ],
   "note": "Proved for RM, IPW, SNIPW, DM, DR, SNDR, Switch-DR, SG-IPW, SG-DR, B-IPW, the naive estimators and balanced IPW for several loggers, Kernel-IPW and Kernel-DR. False for DRos (an extra factor w in the formula), balanced DR (a missing + in the formula) and Kernel-SNIPW (the reward also in the denominator): witnesses not_C188_dros, not_C188_balanced_dr, not_C188_kernel_snipw, and what is computed instead. The precision-weighted estimators are C185, embeddings C47."
  },
  {
   "property": "C189",
   "status": "proved",
   "theorems": [
    "Obp.C189_ipw",
    "Obp.C189_ipw_bounded",
    "Obp.C189_dr",
    "Obp.C189_snipw",
    "Obp.C189_sndr",
    "Obp.C189_sample_size",
    "Obp.C189_slate_ips",
    "Obp.C189_slate_snsips",
    "Obp.C189_slate_sn",
    "Obp.C189_kernel_ipw",
    "Obp.C189_kernel_dr",
    "Obp.C189_kernel_snipw",
    "Obp.C189_mips",
    "Obp.C189_snmips",
    "Obp.C189_cascade_dr",
    "Obp.C189_naive_ipw",
    "Obp.C189_naive_dr",
    "Obp.C189_balanced_ipw",
    "Obp.C189_balanced_dr",
    "Obp.C189_replay",
    "Obp.C189_dm"
   ],
   "note": "Weighted multi-logger estimates have data-dependent weights and are not covered (C186, C187 treat them)."
  },
  {
   "property": "C190",
   "status": "proved",
   "theorems": [
    "Obp.C190_around_bias",
    "Obp.C190_bias_le",
    "Obp.C190_error",
    "Obp.C190_lost_fades",
    "Obp.C190_growing"
   ],
   "note": "For the limit with growing lambda_, common support is assumed; the bounds for a fixed lambda_ need none."
  },
  {
   "property": "C191",
   "status": "proved",
   "theorems": [
    "Obp.C191_predict",
    "Obp.C191_predict_proba",
    "Obp.C191_value",
    "Obp.C191_value_proba"
   ],
   "note": "The error of the predictions is a parameter: nothing is claimed about what base models learn."
  },
  {
   "property": "C192",
   "status": "proved",
   "theorems": [
    "Obp.C192_student",
    "Obp.C192_not_for_given_size",
    "Obp.C192_ipw",
    "Obp.C192_dr"
   ],
   "note": "The quantiles of Student's t distribution (scipy) are a parameter of which it is assumed that they tend to the normal quantile as the degrees of freedom grow."
  },
  {
   "property": "C193",
   "status": "proved",
   "theorems": [
    "Obp.C193_slope"
   ],
   "note": "Quantiles of Student's t distribution as in C192."
  },
  {
   "property": "C194",
   "status": "proved",
   "theorems": [
    "Obp.C194_close",
    "Obp.C194_variance",
    "Obp.C194_standard_error"
   ],
   "note": "C194_close: difference of two estimates; C194_variance: variances, over any ordered field; C194_standard_error: the statement. Contexts are fixed, and training must succeed on the logs that can occur (C182_training_succeeds)."
  },
  {
   "property": "C195",
   "status": "proved",
   "theorems": [
    "Obp.C195_from_errors",
    "Obp.C195_ipw",
    "Obp.C195_snipw",
    "Obp.C195_dr",
    "Obp.C195_biased",
    "Obp.C195_sample_size",
    "Obp.C195_eventually",
    "Obp.C195_eventually_ipw",
    "Obp.C195_eventually_dr"
   ],
   "note": "One log, independent rounds (LogStream). The candidates must be fixed before the log is seen: candidates learned from the same log are not covered."
  },
  {
   "property": "C196",
   "status": "proved",
   "theorems": [
    "Obp.C196_expected_gradient",
    "Obp.C196_unbiased",
    "Obp.C196_dm"
   ],
   "note": "Contexts of the batch are given; the derivative is along any curve in the space of network parameters. Reward models trained on the same rounds depend on the batch and are not covered."
  },
  {
   "property": "C197",
   "status": "partial",
   "theorems": [
    "Obp.C197_common_probability",
    "Obp.C197_loss_rises_with_estimate",
    "Obp.C197_variance_partial",
    "Obp.C197_penalty_without_variance",
    "Obp.C197_policy_penalty_unbounded"
   ],
   "note": "False in the code: the loss contains weights times the logarithms of the probabilities. If all logged actions have probability s under the policy, the estimate is c s and the loss -c s log s (C197_common_probability), so that the loss goes up when the estimate is multiplied by four (C197_loss_rises_with_estimate). The variance penalty is positive for terms without variance (C197_penalty_without_variance); it is proportional to the variance of the terms if the logged actions have a common probability (C197_variance_partial). The policy penalty is the logarithm of the mean weight with a positive sign: the loss is unbounded below, towards policies that never play the logged actions (C197_policy_penalty_unbounded)."
  },
  {
   "property": "C198",
   "status": "proved",
   "theorems": [
    "Obp.C198_ipw",
    "Obp.C198_dm",
    "Obp.C198_dr",
    "Obp.C198_no_gain",
    "Obp.C198_ipw_clipped",
    "Obp.C198_snipw",
    "Obp.C198_rm_matched",
    "Obp.C198_rm_zero",
    "Obp.C198_clipped_gain",
    "Obp.C198_multi",
    "Obp.C198_slate",
    "Obp.C198_mips_one_dim",
    "Obp.C198_mips_two_dims"
   ],
   "note": "Stated for rows that sum to one exactly. C198_clipped_gain is a concrete log on which clipped IPW prefers the mixture to both candidates, C198_mips_two_dims one on which MIPS gives the mixture less than both."
  },
  {
   "property": "C199",
   "status": "proved",
   "theorems": [
    "Obp.C199_rounds",
    "Obp.C199_snipw",
    "Obp.C199_sndr",
    "Obp.C199_bIpw",
    "Obp.C199_rm",
    "Obp.C199_doubled",
    "Obp.C199_multi",
    "Obp.C199_cont",
    "Obp.C199_cont_snipw",
    "Obp.C199_slate",
    "Obp.C199_slate_distinct_ids",
    "Obp.C199_slate_repeated",
    "Obp.C199_slate_merged"
   ],
   "note": "Covers all estimators for single actions. The self-normalised slate estimators and Cascade-DR are covered only by the acceptance of the joined log and by the refusal of repeated ids."
  },
  {
   "property": "C200",
   "status": "proved",
   "theorems": [
    "Obp.C200_exchange",
    "Obp.C200_ipw_cut",
    "Obp.C200_dr_cut",
    "Obp.C200_dm",
    "Obp.C200_snipw",
    "Obp.C200_sndr",
    "Obp.C200_bIpw",
    "Obp.C200_rm",
    "Obp.C200_unbounded",
    "Obp.C200_slate_exchange",
    "Obp.C200_slate_bound",
    "Obp.C200_multi_exchange",
    "Obp.C200_balanced_bound",
    "Obp.C200_cont_exchange",
    "Obp.C200_kernel_peak",
    "Obp.C200_cont_bound"
   ],
   "note": "Exact arithmetic; the bounds of the doubly robust estimators are not claimed to be the smallest possible."
  },
  {
   "property": "C201",
   "status": "proved",
   "theorems": [
    "Obp.C201_renamed",
    "Obp.C201_permuted",
    "Obp.C201_shift",
    "Obp.C201_shift_rm",
    "Obp.C201_shift_ipw",
    "Obp.C201_slate_names",
    "Obp.C201_multi_renamed",
    "Obp.C201_loggers",
    "Obp.C201_multi_shift"
   ],
   "note": "Exact arithmetic. SlateCascadeDoublyRobust is not included in the renaming of slate ids (it depends on the row order, C43)."
  },
  {
   "property": "C202",
   "status": "proved",
   "theorems": [
    "Obp.C202_axis",
    "Obp.C202_shift"
   ],
   "note": "Exact real arithmetic."
  },
  {
   "property": "C203",
   "status": "proved",
   "theorems": [
    "Obp.C203_scale",
    "Obp.C203_monotone",
    "Obp.C203_dm_monotone",
    "Obp.C203_cont_scale",
    "Obp.C203_cont_monotone",
    "Obp.C203_dr_falls",
    "Obp.C203_slate_scale",
    "Obp.C203_slate_monotone",
    "Obp.C203_multi_monotone",
    "Obp.C203_multi_scale",
    "Obp.C203_weighted_falls"
   ],
   "note": "Exact arithmetic."
  }
 ]
}