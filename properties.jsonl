{"id": "C01", "title": "sample_action_fast is exact inverse-CDF sampling", "statement": "When every row of action_dist is a probability distribution, sample_action_fast returns for each round an action in range; the set of uniform draws u in [0,1) mapped to action a is exactly the interval [F(a-1), F(a)) of the row's cumulative sums, so it has length action_dist[i,a], and an action of probability zero is never returned.", "quantifier": "every number of rounds, every number of actions, every row-stochastic matrix and every vector of uniform draws", "why_tests_cant": "The claim is about an uncountable set of uniform draws and all distributions; a test only sees a finite seeded sample and cannot establish exact probabilities or that zero-probability actions are impossible.", "anchors": ["obp/utils.py:sample_action_fast"]}
{"id": "C02", "title": "convert_to_action_dist builds a valid deterministic policy", "statement": "convert_to_action_dist returns an array of shape (n_rounds, n_actions, len_list) whose every (round, position) slice is one-hot at the selected action, hence sums to one and passes the action_dist check of the OPE estimators; selecting an id outside [-n_actions, n_actions) raises IndexError instead of giving a wrong distribution.", "quantifier": "every n_actions, every table of selected actions of every shape", "why_tests_cant": "Must hold for every table of selections, including repeated actions at different positions and boundary ids.", "anchors": ["obp/utils.py:convert_to_action_dist", "obp/utils.py:check_ope_inputs"]}
{"id": "C03", "title": "Bootstrap confidence interval is ordered and inside the sample range", "statement": "For every sample array, every sequence of bootstrap resamples and every alpha in [0,1], estimate_confidence_interval_by_bootstrap returns lower bound <= upper bound, and the lower bound, the upper bound and the mean all lie between the minimum and the maximum of the samples; for a constant array all three equal that constant.", "quantifier": "all sample arrays, all alpha in [0,1], all n_bootstrap_samples >= 1 and all outcomes of the resampling RNG", "why_tests_cant": "RNG outcomes and alpha are unbounded; a seeded test checks one resampling history.", "anchors": ["obp/utils.py:estimate_confidence_interval_by_bootstrap"]}
{"id": "C04", "title": "Bootstrap intervals are nested in alpha and equivariant", "statement": "With the same resampling draws, a smaller alpha gives an interval containing the one for a larger alpha; adding a constant to all samples or multiplying them by a nonnegative constant moves the mean and both bounds in the same way.", "quantifier": "all sample arrays, pairs alpha <= alpha' in [0,1], shifts, nonnegative scales and resampling outcomes", "why_tests_cant": "Relational property between two runs over all inputs.", "anchors": ["obp/utils.py:estimate_confidence_interval_by_bootstrap"]}
{"id": "C05", "title": "Confidence-interval arguments are rejected exactly when invalid", "statement": "check_confidence_interval_arguments accepts exactly alpha a float with 0 <= alpha <= 1, n_bootstrap_samples a positive int (and random_state a valid seed) and raises otherwise, TypeError for a wrong type and ValueError for a value out of range or NaN.", "quantifier": "all argument values of every type the checker distinguishes", "why_tests_cant": "An if-and-only-if over unbounded argument values.", "anchors": ["obp/utils.py:check_confidence_interval_arguments"]}
{"id": "C06", "title": "softmax is a stable probability map", "statement": "softmax returns rows that are strictly positive and sum to one, is invariant to adding a constant to a row, preserves the order of the logits, and only ever exponentiates non-positive numbers (no overflow).", "quantifier": "all matrices of real logits with at least one column", "why_tests_cant": "Continuous input domain; invariance is relational.", "anchors": ["obp/utils.py:softmax"]}
{"id": "C07", "title": "sigmoid is the logistic function computed without overflow", "statement": "sigmoid(x) equals 1/(1+exp(-x)), lies strictly between 0 and 1, satisfies sigmoid(-x) = 1 - sigmoid(x), is strictly increasing, and only exponentiates non-positive numbers.", "quantifier": "every real x", "why_tests_cant": "Holds on the whole real line.", "anchors": ["obp/utils.py:sigmoid"]}
{"id": "C08", "title": "check_ope_inputs accepts exactly the documented inputs", "statement": "check_ope_inputs returns normally if and only if the documented shape, range, type and positivity conditions all hold (action_dist three-dimensional with slices summing to one up to np.allclose tolerance; position in range or omitted only when len_list is 1; model predictions of the same shape; importance weights non-negative; action an integer array in range; pscore positive; equal lengths), and raises ValueError otherwise.", "quantifier": "all shapes and contents of all optional arguments", "why_tests_cant": "If-and-only-if over arbitrary shapes, lengths and contents.", "anchors": ["obp/utils.py:check_ope_inputs"]}
{"id": "C09", "title": "Inputs accepted by the OPE validation never cause an indexing failure", "statement": "If an estimator's estimate_policy_value passes its input validation then the fancy indexing of action_dist (and of the regression predictions) by action and position is in bounds, so no IndexError or broadcasting error escapes to the user.", "quantifier": "all inputs accepted by the validation layer", "why_tests_cant": "A safety claim about every accepted input; the code actually does not compare the number of rounds of action and action_dist, which single tests on well-formed data do not reveal.", "anchors": ["obp/utils.py:check_ope_inputs", "obp/ope/estimators.py:InverseProbabilityWeighting.estimate_policy_value", "obp/ope/estimators.py:ReplayMethod.estimate_policy_value"]}
{"id": "C10", "title": "check_bandit_feedback_inputs accepts exactly the documented inputs", "statement": "check_bandit_feedback_inputs returns normally iff context is 2D, action/reward 1D (action integer and non-negative), expected_reward 2D with enough columns, all lengths equal, pscore positive, position a non-negative integer vector, action_context 2D with more rows than the largest action; otherwise it raises ValueError.", "quantifier": "all shapes and contents of all arguments", "why_tests_cant": "If-and-only-if over arbitrary shapes and contents.", "anchors": ["obp/utils.py:check_bandit_feedback_inputs"]}
{"id": "C11", "title": "Slate validators accept exactly well-formed slate logs", "statement": "check_sips_inputs, check_iips_inputs and check_rips_inputs return normally iff lengths agree, pscores lie in (0,1], evaluation pscores in [0,1], slate_id/position are non-negative integers, no (slate_id, position) pair repeats, joint pscores are constant within a slate (sips), and cascade pscores are non-increasing in position within a slate (rips); the verdict does not depend on the order of the rows.", "quantifier": "all slate logs, any number of slates/positions, rows in any order", "why_tests_cant": "Quantifies over all logs and all row permutations.", "anchors": ["obp/utils.py:check_sips_inputs", "obp/utils.py:check_iips_inputs", "obp/utils.py:check_rips_inputs", "obp/utils.py:_check_slate_ope_inputs"]}
{"id": "C12", "title": "check_cascade_dr_inputs accepts exactly well-formed cascade-DR inputs", "statement": "check_cascade_dr_inputs, beyond the rips checks, accepts iff actions are integers in [0, n_unique_action), q_hat and evaluation_policy_action_dist have length n_rounds*len_list*n_unique_action, and each block of n_unique_action evaluation probabilities sums to one.", "quantifier": "all slate logs and model predictions", "why_tests_cant": "If-and-only-if over all inputs.", "anchors": ["obp/utils.py:check_cascade_dr_inputs"]}
{"id": "C13", "title": "IPW is exactly unbiased under full support", "statement": "With true propensities, no clipping (lambda_=inf) and full support, the expectation of InverseProbabilityWeighting.estimate_policy_value over the logged actions and rewards equals the value of the evaluation policy.", "quantifier": "all numbers of rounds and actions, all contexts' reward distributions with finite support, all behaviour policies with full support, all evaluation policies", "why_tests_cant": "Expectation over all data-generating processes; simulation only gives an approximate check for one process.", "anchors": ["obp/ope/estimators.py:InverseProbabilityWeighting"]}
{"id": "C14", "title": "DR is doubly robust", "statement": "The expectation of DoublyRobust.estimate_policy_value (lambda_=inf) equals the evaluation policy's value if the propensities are correct (for any q_hat), and also if q_hat is the true expected reward (for any positive propensities).", "quantifier": "all data-generating processes with finite support, all reward models q_hat, all positive pscore tables", "why_tests_cant": "Quantifies over every reward model and every process.", "anchors": ["obp/ope/estimators.py:DoublyRobust"]}
{"id": "C15", "title": "IPW/SNIPW/DR on-policy consistency", "statement": "If the evaluation policy assigns to every logged action exactly its logged propensity, IPW, SNIPW, SGIPW and the balanced estimators return exactly the mean logged reward and DR with q_hat=0 does too; the bootstrapped samples are the rewards themselves.", "quantifier": "all logs with positive propensities", "why_tests_cant": "Universal equality over logs.", "anchors": ["obp/ope/estimators.py:InverseProbabilityWeighting", "obp/ope/estimators.py:SelfNormalizedInverseProbabilityWeighting", "obp/ope/estimators.py:DoublyRobust", "obp/ope/estimators.py:SubGaussianInverseProbabilityWeighting"]}
{"id": "C16", "title": "DR nests IPW and DM", "statement": "DR with q_hat identically zero and lambda_=l gives the same round rewards as IPW with lambda_=l; DR with lambda_=0 gives DM; when the logged rewards equal q_hat at the logged actions, DR equals DM for every lambda_.", "quantifier": "all logs, all lambda_ in [0,inf], all q_hat", "why_tests_cant": "Equality of two estimators over all inputs.", "anchors": ["obp/ope/estimators.py:DoublyRobust", "obp/ope/estimators.py:InverseProbabilityWeighting", "obp/ope/estimators.py:DirectMethod"]}
{"id": "C17", "title": "Clipping behaves as documented", "statement": "For non-negative rewards the clipped IPW estimate is non-decreasing in lambda_, between 0 and the unclipped estimate, at most lambda_ times the mean reward, and equals the unclipped estimate exactly when lambda_ is at least every importance weight with positive reward.", "quantifier": "all logs and all pairs of lambda_ in [0, inf]", "why_tests_cant": "Monotonicity over a continuous hyperparameter and all logs.", "anchors": ["obp/ope/estimators.py:InverseProbabilityWeighting._estimate_round_rewards"]}
{"id": "C18", "title": "SNIPW is a weighted average of rewards", "statement": "Whenever some logged action has positive evaluation probability, SelfNormalizedInverseProbabilityWeighting.estimate_policy_value lies between the smallest and largest logged reward; it is equivariant to affine changes of the reward and unchanged when all propensities are multiplied by a positive constant.", "quantifier": "all logs with positive total importance weight", "why_tests_cant": "Bounds and relational laws over all logs.", "anchors": ["obp/ope/estimators.py:SelfNormalizedInverseProbabilityWeighting"]}
{"id": "C19", "title": "ReplayMethod averages exactly the matched rewards", "statement": "ReplayMethod.estimate_policy_value equals the arithmetic mean of the rewards of rounds whose logged action has evaluation probability exactly one, and is 0 when there is no such round; changing rewards of unmatched rounds never changes it.", "quantifier": "all logs and evaluation policies", "why_tests_cant": "Universal characterisation including the no-match branch.", "anchors": ["obp/ope/estimators.py:ReplayMethod"]}
{"id": "C20", "title": "DirectMethod is an expectation under the evaluation policy", "statement": "DirectMethod.estimate_policy_value lies between the smallest and largest predicted reward of actions, is linear in the predictions, equals the true value when predictions are exact, ignores logged actions/rewards/propensities entirely, and does not change if action_dist rows are rescaled by positive constants.", "quantifier": "all evaluation policies (nonnegative rows with positive sum) and predictions", "why_tests_cant": "Universal over predictions.", "anchors": ["obp/ope/estimators.py:DirectMethod"]}
{"id": "C21", "title": "Switch-DR interpolates between DM and DR", "statement": "SwitchDoublyRobust equals DR on rounds whose importance weight is at most lambda_ and DM on the others; with lambda_ >= max weight it equals unclipped DR; with lambda_ below every weight it equals DM.", "quantifier": "all logs, all lambda_ in [0, inf]", "why_tests_cant": "Boundary (<= vs <) behaviour for every weight/threshold pair.", "anchors": ["obp/ope/estimators.py:SwitchDoublyRobust"]}
{"id": "C22", "title": "DRos weights shrink the importance weights", "statement": "The DoublyRobustWithShrinkage weight lambda*w/(w^2+lambda) lies in [0, w], is at most sqrt(lambda)/2, is non-decreasing in lambda_, equals the IPW weight at lambda_=inf and gives DM at lambda_=0 when all logged weights are positive; lambda_=0 with a zero weight is not a finite number.", "quantifier": "all importance weights >= 0 and all lambda_ in [0, inf]", "why_tests_cant": "Continuous inequalities.", "anchors": ["obp/ope/estimators.py:DoublyRobustWithShrinkage"]}
{"id": "C23", "title": "Sub-Gaussian weights are bounded and interpolate", "statement": "The SGIPW/SGDR weight w/(1-lambda+lambda*w) equals w at lambda_=0 and 1 at lambda_=1 (w>0), is at most 1/lambda_, is between min(1,w) and max(1,w), and keeps the order of weights for lambda_<1; lambda_=1 with w=0 is not a finite number.", "quantifier": "all importance weights >= 0 and all lambda_ in [0,1]", "why_tests_cant": "Continuous inequalities.", "anchors": ["obp/ope/estimators.py:SubGaussianInverseProbabilityWeighting", "obp/ope/estimators.py:SubGaussianDoublyRobust"]}
{"id": "C24", "title": "SNDR normalisation", "statement": "SelfNormalizedDoublyRobust equals DR when the mean importance weight is one, equals DM when q_hat fits the logged rewards, is equivariant to shifting rewards and q_hat together, and stays within [min q_hat + min residual, max q_hat + max residual].", "quantifier": "all logs with positive total importance weight", "why_tests_cant": "Universal law over logs.", "anchors": ["obp/ope/estimators.py:SelfNormalizedDoublyRobust"]}
{"id": "C25", "title": "BalancedIPW is a weighted average of rewards", "statement": "BalancedInverseProbabilityWeighting.estimate_policy_value lies within the range of logged rewards and is invariant to rescaling the estimated importance weights when lambda_=inf, whenever the clipped weights do not all vanish.", "quantifier": "all logs, all non-negative estimated weights, all lambda_ > 0", "why_tests_cant": "Universal bound.", "anchors": ["obp/ope/estimators.py:BalancedInverseProbabilityWeighting"]}
{"id": "C26", "title": "Estimates do not depend on the order of the logged rounds", "statement": "For every estimator of obp.ope.estimators, permuting all logged arrays by the same permutation leaves estimate_policy_value unchanged.", "quantifier": "all logs and all permutations of rounds", "why_tests_cant": "n! permutations for every n.", "anchors": ["obp/ope/estimators.py:InverseProbabilityWeighting", "obp/ope/estimators.py:SelfNormalizedInverseProbabilityWeighting", "obp/ope/estimators.py:DirectMethod", "obp/ope/estimators.py:DoublyRobust", "obp/ope/estimators.py:ReplayMethod", "obp/ope/estimators.py:SwitchDoublyRobust", "obp/ope/estimators.py:DoublyRobustWithShrinkage", "obp/ope/estimators.py:SelfNormalizedDoublyRobust", "obp/ope/estimators.py:SubGaussianInverseProbabilityWeighting", "obp/ope/estimators.py:SubGaussianDoublyRobust", "obp/ope/estimators.py:BalancedInverseProbabilityWeighting"]}
{"id": "C27", "title": "estimate_interval is centred on the same per-round estimates as estimate_policy_value", "statement": "For every estimator estimate_interval bootstraps the very same per-round values whose mean is estimate_policy_value, so with any resampling draws the reported bounds lie in the range of those per-round values and rejects/accepts the same inputs.", "quantifier": "all inputs and all resampling outcomes", "why_tests_cant": "Relational property between two API methods.", "anchors": ["obp/ope/estimators.py:InverseProbabilityWeighting.estimate_interval", "obp/utils.py:estimate_confidence_interval_by_bootstrap"]}
{"id": "C28", "title": "use_estimated_pscore selects the propensities", "statement": "With use_estimated_pscore=True an estimator's result depends only on estimated_pscore (pscore is ignored and may be absent), with False only on pscore; a missing required array raises ValueError.", "quantifier": "all inputs", "why_tests_cant": "Non-interference over all values of the ignored argument.", "anchors": ["obp/ope/estimators.py:InverseProbabilityWeighting.estimate_policy_value", "obp/ope/estimators.py:DoublyRobust.estimate_policy_value"]}
{"id": "C29", "title": "Omitted position means position zero", "statement": "For len_list = 1, IPW, SNIPW, RM, DM and DR called with position=None give the same value as with an all-zero position array.", "quantifier": "all inputs with len_list = 1", "why_tests_cant": "Universal equality between calls.", "anchors": ["obp/ope/estimators.py:InverseProbabilityWeighting.estimate_policy_value"]}
{"id": "C30", "title": "Constructor validation of lambda_", "statement": "Estimators with a hyperparameter accept exactly real lambda_ in the documented range ([0,inf] for IPW, DR, SwitchDR, DRos, BIPW; [0,1] for SGIPW, SGDR), rejecting negative values and NaN.", "quantifier": "all lambda_ values including inf and NaN", "why_tests_cant": "All values of a continuous domain plus special values.", "anchors": ["obp/ope/estimators.py:InverseProbabilityWeighting.__post_init__", "obp/ope/estimators.py:SubGaussianInverseProbabilityWeighting.__post_init__"]}
{"id": "C31", "title": "MSE score used for tuning is a non-negative upper bound", "statement": "_estimate_mse_score of the tunable estimators is the sample variance of the round rewards divided by n plus the square of a non-negative bias bound; so it is never negative and is at least the estimated variance term; with use_bias_upper_bound the bias term is at least the direct bias estimate.", "quantifier": "all logs, all lambda_, all delta in (0,1]", "why_tests_cant": "Inequality over all data.", "anchors": ["obp/ope/estimators.py:InverseProbabilityWeighting._estimate_mse_score", "obp/ope/helper.py:estimate_bias_in_ope", "obp/ope/helper.py:estimate_high_probability_upper_bound_bias"]}
{"id": "C32", "title": "High-probability bounds are ordered", "statement": "estimate_hoeffding_lower_bound and estimate_bernstein_lower_bound never exceed the empirical mean and are non-decreasing in delta, whenever x_max (by default the largest number of the sample) is not negative; if it is negative and delta < 1, the Hoeffding bound exceeds the mean. The bias upper bound is at least the bias estimate and non-increasing in delta.", "quantifier": "all non-empty samples of real numbers (at least two for Bernstein), all x_max at least the largest number or omitted, and all delta in (0,1]", "why_tests_cant": "Continuous parameters.", "anchors": ["obp/ope/helper.py:estimate_hoeffding_lower_bound", "obp/ope/helper.py:estimate_bernstein_lower_bound", "obp/ope/helper.py:estimate_high_probability_upper_bound_bias"]}
{"id": "C33", "title": "MSE tuning picks a minimiser", "statement": "With tuning_method='mse' the chosen hyperparameter is one of the candidates and no candidate has a smaller estimated MSE; the first candidate in the estimator's own order wins ties.", "quantifier": "all candidate lists and all estimated-MSE functions", "why_tests_cant": "Argmin over arbitrary candidate lists.", "anchors": ["obp/ope/estimators_tuning.py:BaseOffPolicyEstimatorTuning._tune_hyperparam_with_mse"]}
{"id": "C34", "title": "SLOPE tuning follows Lepski's rule", "statement": "With tuning_method='slope' the chosen hyperparameter is a candidate; every candidate up to and including the chosen one in order of decreasing confidence width is compatible with all earlier ones (|theta_j - theta_i| <= cnf_i + (sqrt 6 - 1) cnf_j), and the next one, if any, is not.", "quantifier": "all candidate lists and all estimates/width functions", "why_tests_cant": "Loop invariant over arbitrary candidate lists.", "anchors": ["obp/ope/estimators_tuning.py:BaseOffPolicyEstimatorTuning._tune_hyperparam_with_slope"]}
{"id": "C35", "title": "Tuned estimators equal the base estimator at the chosen hyperparameter", "statement": "A *Tuning estimator's estimate_policy_value equals the base estimator with lambda_ set to the chosen candidate, on the same data.", "quantifier": "all data, all candidate lists", "why_tests_cant": "Refinement between two classes for all data.", "anchors": ["obp/ope/estimators_tuning.py:BaseOffPolicyEstimatorTuning.estimate_policy_value_with_tuning"]}
{"id": "C36", "title": "Tuning adapts to each data set", "statement": "Calling a *Tuning estimator on a new data set tunes the hyperparameter on that data set. (The code caches the first hyperparameter for the life of the object, so the result on a data set depends on the call history.)", "quantifier": "all sequences of calls on one estimator object", "why_tests_cant": "A claim about arbitrary call histories.", "anchors": ["obp/ope/estimators_tuning.py:BaseOffPolicyEstimatorTuning.estimate_policy_value_with_tuning"]}
{"id": "C37", "title": "Tuning works with estimated propensities", "statement": "Every *Tuning estimator built with use_estimated_pscore=True accepts a call that supplies estimated_pscore and uses it. (The sub-Gaussian tuning classes do not.)", "quantifier": "all inputs with estimated_pscore", "why_tests_cant": "Needs all inputs: the claim is that no input works.", "anchors": ["obp/ope/estimators_tuning.py:SubGaussianInverseProbabilityWeightingTuning.estimate_policy_value", "obp/ope/estimators_tuning.py:SubGaussianDoublyRobustTuning.estimate_policy_value"]}
{"id": "C38", "title": "Kernels are proper densities", "statement": "Triangular, Epanechnikov, cosine and Gaussian kernels are non-negative, symmetric, integrate to one over the real line, and (except Gaussian) vanish outside [-1,1].", "quantifier": "every real argument", "why_tests_cant": "Integrals and inequalities over the real line.", "anchors": ["obp/ope/estimators_continuous.py:triangular_kernel", "obp/ope/estimators_continuous.py:epanechnikov_kernel", "obp/ope/estimators_continuous.py:cosine_kernel", "obp/ope/estimators_continuous.py:gaussian_kernel"]}
{"id": "C39", "title": "Kernelised estimators relate as in the discrete case", "statement": "KernelizedDoublyRobust with q_hat=0 equals KernelizedInverseProbabilityWeighting; with q_hat equal to the rewards it returns the mean of q_hat; KernelizedSelfNormalizedIPW stays in the range of the rewards when some kernel weight is positive and is shift-equivariant.", "quantifier": "all logs, all bandwidths > 0, all four kernels", "why_tests_cant": "Universal equalities/bounds.", "anchors": ["obp/ope/estimators_continuous.py:KernelizedInverseProbabilityWeighting", "obp/ope/estimators_continuous.py:KernelizedSelfNormalizedInverseProbabilityWeighting", "obp/ope/estimators_continuous.py:KernelizedDoublyRobust"]}
{"id": "C40", "title": "SlateStandardIPS is unbiased", "statement": "With true joint propensities and full support, the expectation of SlateStandardIPS.estimate_policy_value over logged slates and rewards equals the expected sum of slot rewards under the evaluation policy, whatever the reward interaction structure.", "quantifier": "all slate processes with finite support", "why_tests_cant": "Expectation over all processes.", "anchors": ["obp/ope/estimators_slate.py:SlateStandardIPS"]}
{"id": "C41", "title": "SlateIndependentIPS and SlateRewardInteractionIPS are unbiased under their assumptions", "statement": "SlateIndependentIPS is unbiased when each slot reward depends only on the action at that slot, and SlateRewardInteractionIPS when it depends only on the actions at that slot and above.", "quantifier": "all slate processes with finite support satisfying the stated dependence", "why_tests_cant": "Expectation over all processes.", "anchors": ["obp/ope/estimators_slate.py:SlateIndependentIPS", "obp/ope/estimators_slate.py:SlateRewardInteractionIPS"]}
{"id": "C42", "title": "SlateCascadeDoublyRobust nests RIPS and is unbiased for any q_hat", "statement": "With q_hat identically zero SlateCascadeDoublyRobust equals SlateRewardInteractionIPS; for logs whose rows are grouped by slate in position order the value with any q_hat has the RIPS expectation under the cascade assumption.", "quantifier": "all grouped slate logs and all q_hat", "why_tests_cant": "Universal over reward models.", "anchors": ["obp/ope/estimators_slate.py:SlateCascadeDoublyRobust"]}
{"id": "C43", "title": "Slate estimates do not depend on row order", "statement": "Permuting the rows of the slate log leaves the estimate unchanged. (True for SIPS, IIPS, RIPS and self-normalised versions; SlateCascadeDoublyRobust silently assumes rows sorted by slate and position.)", "quantifier": "all slate logs and all row permutations", "why_tests_cant": "All permutations.", "anchors": ["obp/ope/estimators_slate.py:SlateStandardIPS", "obp/ope/estimators_slate.py:SlateCascadeDoublyRobust"]}
{"id": "C44", "title": "Slate interval bootstraps per-slate sums", "statement": "For the slate estimators, the per-slate sums that estimate_interval bootstraps have mean equal to estimate_policy_value, so its bounds bracket within the range of the per-slate values.", "quantifier": "all slate logs with arbitrary slate ids", "why_tests_cant": "Relation between two code paths for all id patterns.", "anchors": ["obp/ope/estimators_slate.py:BaseSlateInverseProbabilityWeighting._estimate_slate_confidence_interval_by_bootstrap"]}
{"id": "C45", "title": "Self-normalised slate estimators", "statement": "SelfNormalizedSlateIndependentIPS/RewardInteractionIPS normalise weights per position so that with all rewards equal to c the estimate is c times the number of positions, and per-position contributions lie in the reward range.", "quantifier": "all slate logs with positive total weight per position", "why_tests_cant": "Universal.", "anchors": ["obp/ope/estimators_slate.py:SelfNormalizedSlateIndependentIPS", "obp/ope/estimators_slate.py:SelfNormalizedSlateRewardInteractionIPS", "obp/ope/estimators_slate.py:SelfNormalizedSlateStandardIPS"]}
{"id": "C46", "title": "All slate estimators coincide for slates of length one", "statement": "With len_list = 1 and equal pscores SIPS, IIPS, RIPS and CascadeDR with q_hat = 0 return the same number, namely the IPW estimate.", "quantifier": "all logs with one position per slate", "why_tests_cant": "Universal equality.", "anchors": ["obp/ope/estimators_slate.py:SlateStandardIPS", "obp/ope/estimators_slate.py:SlateIndependentIPS", "obp/ope/estimators_slate.py:SlateRewardInteractionIPS", "obp/ope/estimators_slate.py:SlateCascadeDoublyRobust"]}
{"id": "C47", "title": "MIPS is unbiased without direct effects", "statement": "If rewards depend on the action only through the embedding and p_e_a is the true embedding law, the expectation of MarginalizedInverseProbabilityWeighting equals the evaluation policy's value, needing support only on embeddings.", "quantifier": "all finite processes satisfying no direct effect and common embedding support", "why_tests_cant": "Expectation over all processes.", "anchors": ["obp/ope/estimators_embed.py:MarginalizedInverseProbabilityWeighting"]}
{"id": "C48", "title": "MIPS equals IPW for one-to-one embeddings and has constant weight for constant embeddings", "statement": "If each action has its own embedding with probability one, MIPS weights equal IPW weights; if all actions share the same embedding law, all weights are one and the estimate is the mean reward.", "quantifier": "all logs", "why_tests_cant": "Universal equality.", "anchors": ["obp/ope/estimators_embed.py:MarginalizedInverseProbabilityWeighting._estimate_round_rewards"]}
{"id": "C49", "title": "Embedding selection returns a definite estimate", "statement": "With embedding_selection_method set, estimate_policy_value returns the estimate of the last accepted embedding subset and never fails for min_emb_dim <= n_emb_dim. (The code raises UnboundLocalError when min_emb_dim >= n_emb_dim and returns the second-to-last estimate when every subset is accepted.)", "quantifier": "all embedding dimensions, all min_emb_dim, all estimates and widths", "why_tests_cant": "Loop behaviour for all numbers of dimensions.", "anchors": ["obp/ope/estimators_embed.py:MarginalizedInverseProbabilityWeighting._estimate_with_exact_pruning", "obp/ope/estimators_embed.py:MarginalizedInverseProbabilityWeighting._estimate_with_greedy_pruning"]}
{"id": "C50", "title": "Balanced multi-logger IPW is unbiased for mixed loggers", "statement": "With pscore_avg the logger-mixture propensity, the expectation of MultiLoggersBalancedInverseProbabilityWeighting over data pooled from all loggers equals the evaluation policy's value even if no single logger has full support.", "quantifier": "all finite processes with mixture support", "why_tests_cant": "Expectation over all processes.", "anchors": ["obp/ope/estimators_multi.py:MultiLoggersBalancedInverseProbabilityWeighting"]}
{"id": "C51", "title": "Weighted multi-logger weights", "statement": "The stratum weights of MultiLoggersWeightedIPW/DR average to one over the pooled log, are inversely proportional to the estimated stratum variances, and with a single stratum the estimator is the ordinary IPW/DR.", "quantifier": "all stratified logs with positive stratum variances", "why_tests_cant": "Universal identity.", "anchors": ["obp/ope/estimators_multi.py:MultiLoggersWeightedInverseProbabilityWeighting", "obp/ope/estimators_multi.py:MultiLoggersWeightedDoublyRobust"]}
{"id": "C52", "title": "Every multi-logger estimator supports estimate_interval", "statement": "estimate_interval works on every input on which estimate_policy_value works. (For the two balanced estimators it always raises TypeError.)", "quantifier": "all inputs", "why_tests_cant": "The failure is for all inputs; the success claim is for all inputs.", "anchors": ["obp/ope/estimators_multi.py:MultiLoggersBalancedInverseProbabilityWeighting.estimate_interval", "obp/ope/estimators_multi.py:MultiLoggersBalancedDoublyRobust.estimate_interval"]}
{"id": "C53", "title": "Stratum indices may be arbitrary non-negative integers", "statement": "Weighted multi-logger estimators accept every stratum_idx their validation accepts. (Labels that are not 0..K-1 raise IndexError.)", "quantifier": "all stratum labelings", "why_tests_cant": "All labelings.", "anchors": ["obp/ope/estimators_multi.py:MultiLoggersWeightedInverseProbabilityWeighting._estimate_round_rewards", "obp/utils.py:check_multi_loggers_ope_inputs"]}
{"id": "C54", "title": "OffPolicyEvaluation reports exactly one entry per estimator name", "statement": "estimate_policy_values returns a mapping whose keys are exactly the estimator names given, each mapped to that estimator's own value on the logged data and the evaluation policy; with duplicate names the last one wins.", "quantifier": "all lists of estimators and all data", "why_tests_cant": "All lists, including duplicate names.", "anchors": ["obp/ope/meta.py:OffPolicyEvaluation.estimate_policy_values", "obp/ope/meta.py:OffPolicyEvaluation.__post_init__"]}
{"id": "C55", "title": "Per-estimator model dispatch", "statement": "When estimated_rewards_by_reg_model (or estimated_pscore, estimated_importance_weights) is a dict, each estimator receives its own entry and only its own entry, and estimators not named receive None; an array is passed to all.", "quantifier": "all dictionaries and estimator lists", "why_tests_cant": "All dictionaries.", "anchors": ["obp/ope/meta.py:OffPolicyEvaluation._create_estimator_inputs"]}
{"id": "C56", "title": "p_e_a may be given as an array", "statement": "A p_e_a array passed to OffPolicyEvaluation reaches the estimators. (The code stores a stale variable or raises UnboundLocalError.)", "quantifier": "all inputs", "why_tests_cant": "All inputs.", "anchors": ["obp/ope/meta.py:OffPolicyEvaluation._create_estimator_inputs"]}
{"id": "C57", "title": "Estimator accuracy metrics", "statement": "evaluate_performance_of_estimators returns for each estimator |V-hat - V|/|V| (relative-ee) or (V-hat - V)^2 (se): non-negative, zero iff the estimate is exact; relative-ee is unchanged by rescaling rewards; V = 0 with relative-ee and an unknown metric raise ValueError.", "quantifier": "all estimates and ground truths", "why_tests_cant": "Continuous domain.", "anchors": ["obp/ope/meta.py:OffPolicyEvaluation.evaluate_performance_of_estimators", "obp/ope/meta_slate.py:SlateOffPolicyEvaluation.evaluate_performance_of_estimators"]}
{"id": "C58", "title": "Missing model inputs are rejected up front", "statement": "If any estimator needs a regression model, estimate_policy_values without one raises ValueError and no estimator is run. (Tuned model-dependent estimators are not recognised, and evaluate_performance_of_estimators does not check.)", "quantifier": "all estimator lists", "why_tests_cant": "All estimator lists.", "anchors": ["obp/ope/meta.py:OffPolicyEvaluation.estimate_policy_values", "obp/ope/meta_multi.py:MultiLoggersOffPolicyEvaluation"]}
{"id": "C59", "title": "Slate OPE front end feeds each estimator its own propensities", "statement": "SlateOffPolicyEvaluation passes to each estimator the evaluation pscore it needs, raises when none is supplied, and skips or rejects estimators whose inputs are missing; the reported behaviour-policy value is the total logged reward per slate.", "quantifier": "all slate logs and argument subsets", "why_tests_cant": "All argument subsets.", "anchors": ["obp/ope/meta_slate.py:SlateOffPolicyEvaluation"]}
{"id": "C60", "title": "Context-free policies count each observation exactly once", "statement": "After any history of update_params calls, n_trial equals the number of calls, and the counts and mean rewards used for action selection are exactly those of the history up to the last completed batch.", "quantifier": "all histories, all batch sizes >= 1", "why_tests_cant": "Invariant over arbitrarily long histories.", "anchors": ["obp/policy/contextfree.py:EpsilonGreedy.update_params", "obp/policy/contextfree.py:BernoulliTS.update_params", "obp/policy/base.py:BaseContextFreePolicy"]}
{"id": "C61", "title": "select_action returns a valid ranking", "statement": "Every policy's select_action returns len_list distinct action ids in [0, n_actions), for every internal state and random draw.", "quantifier": "all reachable states and random outcomes", "why_tests_cant": "All states and RNG outcomes.", "anchors": ["obp/policy/contextfree.py:EpsilonGreedy.select_action", "obp/policy/contextfree.py:Random", "obp/policy/contextfree.py:BernoulliTS.select_action", "obp/policy/linear.py:LinUCB.select_action"]}
{"id": "C62", "title": "EpsilonGreedy exploits the empirically best actions", "statement": "In an exploitation step of EpsilonGreedy the returned actions are the len_list actions of highest average observed reward in order; exploitation happens only once every action has been observed.", "quantifier": "all histories and draws", "why_tests_cant": "All histories.", "anchors": ["obp/policy/contextfree.py:EpsilonGreedy.select_action"]}
{"id": "C63", "title": "compute_batch_action_dist returns a policy", "statement": "Random.compute_batch_action_dist is uniform and BernoulliTS.compute_batch_action_dist is the empirical frequency of n_sim selections: non-negative and summing to one over actions at every position.", "quantifier": "all n_rounds, n_sim >= 1, random outcomes and states", "why_tests_cant": "All RNG outcomes.", "anchors": ["obp/policy/contextfree.py:Random.compute_batch_action_dist", "obp/policy/contextfree.py:BernoulliTS.compute_batch_action_dist"]}
{"id": "C64", "title": "BernoulliTS posterior parameters are the Beta posterior", "statement": "For rewards in [0,1] the Beta parameters used by BernoulliTS are always positive and equal alpha + sum of rewards and beta + sum of (1 - reward) for each action up to the last completed batch.", "quantifier": "all histories with rewards in [0,1]", "why_tests_cant": "All histories.", "anchors": ["obp/policy/contextfree.py:BernoulliTS.select_action"]}
{"id": "C65", "title": "Linear policies solve ridge regression exactly", "statement": "After any history of updates the linear policies' coefficients for each action are the unique solution theta of (I + sum x x^T) theta = sum r x over the observations of that action up to the last completed batch, and the stored inverse is the true inverse.", "quantifier": "all histories of real contexts and rewards, all dimensions, all batch sizes", "why_tests_cant": "Inductive invariant of Sherman-Morrison updates over unbounded histories.", "anchors": ["obp/policy/linear.py:BaseLinPolicy.update_params", "obp/policy/linear.py:LinUCB.select_action", "obp/policy/linear.py:LinEpsilonGreedy.select_action"]}
{"id": "C66", "title": "LinUCB bonus is well-defined and shrinks", "statement": "The LinUCB exploration bonus is the square root of a positive number for every non-zero context, and observing another context for an action never increases that action's bonus.", "quantifier": "all histories and contexts", "why_tests_cant": "All histories.", "anchors": ["obp/policy/linear.py:LinUCB.select_action"]}
{"id": "C67", "title": "initialize() resets a policy", "statement": "After initialize() a policy behaves like a freshly constructed one. (Linear and logistic policies keep their learned parameters.)", "quantifier": "all histories before the reset", "why_tests_cant": "All histories.", "anchors": ["obp/policy/base.py:BaseContextualPolicy.initialize", "obp/policy/linear.py:BaseLinPolicy"]}
{"id": "C68", "title": "Logistic policies learn from each observation once", "statement": "For every history the logistic policies pass each (context, reward) pair to the model of its action in exactly one batch fit, in order, and none before its batch is complete.", "quantifier": "all histories and batch sizes", "why_tests_cant": "All histories.", "anchors": ["obp/policy/logistic.py:BaseLogisticPolicy.update_params"]}
{"id": "C69", "title": "Online logistic regression learns from failures", "statement": "MiniBatchLogisticRegression's loss depends on observations with reward 0. (With y in {0,1} fed directly, a zero reward contributes the constant log 2 whatever the context.)", "quantifier": "all contexts and weights", "why_tests_cant": "All real inputs.", "anchors": ["obp/policy/logistic.py:MiniBatchLogisticRegression.loss", "obp/policy/logistic.py:MiniBatchLogisticRegression.fit"]}
{"id": "C70", "title": "Offline learners output deterministic policies", "statement": "IPWLearner.predict and QLearner.predict return, for every round and position, a one-hot distribution at the model's best action.", "quantifier": "all model predictions", "why_tests_cant": "All predictions.", "anchors": ["obp/policy/offline.py:IPWLearner.predict", "obp/policy/offline.py:QLearner.predict"]}
{"id": "C71", "title": "sample_action draws rankings without repetition", "statement": "IPWLearner/QLearner/NNPolicyLearner.sample_action return per round one-hot choices at each position with all chosen actions distinct, whatever the scores and Gumbel noise.", "quantifier": "all scores, temperatures > 0, noise; for IPWLearner every classifier that has seen all actions (otherwise sample_action raises)", "why_tests_cant": "All RNG outcomes.", "anchors": ["obp/policy/offline.py:IPWLearner.sample_action", "obp/policy/offline.py:QLearner.sample_action", "obp/policy/offline.py:NNPolicyLearner.sample_action"]}
{"id": "C72", "title": "NNPolicyLearner objective gradients match the estimators", "statement": "The score-function weights used by off_policy_objective 'ipw-os' and 'ipw-subgauss' are w times the derivative of the DRos and sub-Gaussian weight functions, so the policy gradient is the gradient of the corresponding estimator.", "quantifier": "all importance weights and lambda", "why_tests_cant": "Derivatives on a continuous domain.", "anchors": ["obp/policy/offline.py:NNPolicyLearner._estimate_policy_gradient"]}
{"id": "C73", "title": "Early stopping stops only when the loss stops improving", "statement": "With early_stopping a run in which the training loss decreases by more than tol at every epoch is never stopped. (The training-loss counter counts such epochs as not improving.)", "quantifier": "all loss sequences", "why_tests_cant": "All sequences.", "anchors": ["obp/policy/offline.py:NNPolicyLearner.fit"]}
{"id": "C74", "title": "QLearner works with every fitting_method", "statement": "QLearner.fit accepts the fitting methods it documents. (With 'iw' or 'mrdr' every call raises ValueError because the action distribution it builds does not sum to one.)", "quantifier": "all data", "why_tests_cant": "All inputs.", "anchors": ["obp/policy/offline.py:QLearner.fit"]}
{"id": "C75", "title": "Delayed rewards are delivered exactly once and never early", "statement": "In BanditPolicySimulator with delays, after any run followed by clear_delayed_queue every round's (context, action, reward) has been passed to the policy exactly once; a round whose chosen action has delay d is delivered at round t+d if the run lasts that long, and never before.", "quantifier": "all run lengths, all delay tables, all policies and interleavings of step/steps/run calls", "why_tests_cant": "Queue invariant over arbitrarily long runs.", "anchors": ["obp/simulator/simulator.py:BanditPolicySimulator.step", "obp/simulator/simulator.py:BanditPolicySimulator.clear_delayed_queue"]}
{"id": "C76", "title": "Simulator bookkeeping", "statement": "After any run total_reward equals the sum of the obtained rewards, selected_actions, obtained_rewards, contexts and ground_truth_rewards all have one entry per round, and obtained_rewards[t] = ground_truth_rewards[t, selected_actions[t]].", "quantifier": "all policies, environments and run lengths", "why_tests_cant": "Invariant over arbitrarily long runs.", "anchors": ["obp/simulator/simulator.py:BanditPolicySimulator"]}
{"id": "C77", "title": "run_bandit_replay updates only on matches", "statement": "run_bandit_replay updates the policy exactly on the rounds where its selection at the logged position equals the logged action, in order, with the logged reward, and records each round's selection. (As imported, tqdm is a module and the call raises TypeError on every input that passes validation.)", "quantifier": "all logs and policies", "why_tests_cant": "All logs.", "anchors": ["obp/simulator/replay.py:run_bandit_replay"]}
{"id": "C78", "title": "calc_ground_truth_policy_value averages simulated expected rewards", "statement": "calc_ground_truth_policy_value returns the average over simulations and rounds of the expected reward of the selected action, hence within the range of expected_reward, and never changes the policy object passed in.", "quantifier": "all policies, logs and n_sim", "why_tests_cant": "All policies and RNG outcomes.", "anchors": ["obp/simulator/simulator.py:calc_ground_truth_policy_value"]}
{"id": "C79", "title": "CoefficientDrifter returns exactly the requested rounds", "statement": "get_coefficients(n) returns n rows, each a convex combination of base, current and next coefficients, and terminates for every drift_interval >= 1; asking for n rounds in pieces gives the same rows as asking at once. (The last part fails; drift_interval = 0 never terminates.)", "quantifier": "all request sizes and sequences", "why_tests_cant": "Loop termination and call-splitting for all sizes.", "anchors": ["obp/simulator/coefficient_drifter.py:CoefficientDrifter.get_coefficients"]}
{"id": "C80", "title": "Logged propensities are the behaviour policy's probabilities", "statement": "In SyntheticBanditDataset.obtain_batch_bandit_feedback, pi_b rows are probability distributions, pscore[i] = pi_b[i, action[i]] > 0, and with deficient support the removed actions have probability 0 and are never logged.", "quantifier": "all contexts, beta, n_deficient_actions and random outcomes", "why_tests_cant": "All random outcomes.", "anchors": ["obp/dataset/synthetic.py:SyntheticBanditDataset.obtain_batch_bandit_feedback"]}
{"id": "C81", "title": "Classification-to-bandit reduction is faithful", "statement": "MultiClassToBanditReduction logs reward 1 exactly when the logged action is the true class, pscore = behaviour probability of the action, behaviour and evaluation policies have rows summing to one with probability alpha + (1-alpha)/k on the base prediction, and the ground-truth value is the mean evaluation probability of the true class.", "quantifier": "all labels, predictions, alpha and random outcomes", "why_tests_cant": "All data.", "anchors": ["obp/dataset/multiclass.py:MultiClassToBanditReduction"]}
{"id": "C82", "title": "Class labels need not be 0..k-1", "statement": "MultiClassToBanditReduction works for arbitrary integer labels. (One-hot coding indexes by the raw label: IndexError or silent mislabelling when labels are not 0..k-1.)", "quantifier": "all label sets", "why_tests_cant": "All label sets.", "anchors": ["obp/dataset/multiclass.py:MultiClassToBanditReduction.__post_init__"]}
{"id": "C83", "title": "Multi-logger strata partition the rounds", "statement": "SyntheticMultiLoggersBanditDataset assigns n_rounds rounds to loggers with sizes proportional to rhos that add up to n_rounds. (Rounding can make the last size negative and the call crash.)", "quantifier": "all rhos and n_rounds", "why_tests_cant": "All rho vectors.", "anchors": ["obp/dataset/synthetic_multi.py:SyntheticMultiLoggersBanditDataset.obtain_batch_bandit_feedback"]}
{"id": "C84", "title": "calc_ground_truth_policy_value of datasets is the exact policy value", "statement": "The dataset methods calc_ground_truth_policy_value return the mean over rounds of the expectation of expected_reward under action_dist: within the range of expected rewards, linear in expected_reward, and equal to the mean reward of a deterministic policy.", "quantifier": "all expected_reward and action_dist arrays", "why_tests_cant": "All arrays.", "anchors": ["obp/dataset/synthetic.py:SyntheticBanditDataset.calc_ground_truth_policy_value"]}
{"id": "C85", "title": "Slate propensities form a probability distribution over rankings", "statement": "For non-factorizable slate policies the joint propensities over all ordered slates without repetition sum to one and are positive; the cascade propensity at position k equals the marginal probability of the length-k prefix, so it is non-increasing in k, and its last value is the joint propensity.", "quantifier": "all logits, n_unique_action and len_list <= n_unique_action", "why_tests_cant": "Induction over slate length for all logits.", "anchors": ["obp/dataset/synthetic_slate.py:SyntheticSlateBanditDataset._calc_pscore_given_policy_logit", "obp/dataset/synthetic_slate.py:SyntheticSlateBanditDataset.sample_action_and_obtain_pscore"]}
{"id": "C86", "title": "Item-position propensities are true marginals", "statement": "pscore_item_position equals the sum of the joint propensities of all slates having that action at that position; for each position these sum to one over actions.", "quantifier": "all logits, sizes", "why_tests_cant": "Sum over all n!/(n-k)! slates for all sizes.", "anchors": ["obp/dataset/synthetic_slate.py:SyntheticSlateBanditDataset.obtain_pscore_given_evaluation_policy_logit"]}
{"id": "C87", "title": "Slate ground-truth values", "statement": "calc_ground_truth_policy_value of the slate dataset is the evaluation policy's expected slate reward per round. (Without a base_reward_function it is the sum over rounds; for the cascade click model with len_list >= 3 the product of expectations is not the expectation.)", "quantifier": "all logits, reward functions", "why_tests_cant": "All models.", "anchors": ["obp/dataset/synthetic_slate.py:SyntheticSlateBanditDataset.calc_ground_truth_policy_value"]}
{"id": "C88", "title": "Named slate evaluation policies do what they say", "statement": "generate_evaluation_policy_pscore('optimal') follows the actions of highest expected reward and 'anti-optimal' the lowest, 'random' the uniform policy, with propensities consistent with the epsilon-greedy policy of parameter epsilon. (optimal and anti-optimal are swapped.)", "quantifier": "all base expected rewards", "why_tests_cant": "All reward tables.", "anchors": ["obp/dataset/synthetic_slate.py:SyntheticSlateBanditDataset.generate_evaluation_policy_pscore"]}
{"id": "C89", "title": "Time-series split partitions the log", "statement": "With is_timeseries_split=True, train and test parts of the Open Bandit Dataset are disjoint, consecutive, cover all rounds in order and have sizes fixed by test_size.", "quantifier": "all log lengths and test_size in (0,1)", "why_tests_cant": "All lengths and real fractions.", "anchors": ["obp/dataset/real.py:OpenBanditDataset.obtain_batch_bandit_feedback"]}
{"id": "C90", "title": "Cross-fitting never predicts a round with a model trained on it", "statement": "RegressionModel.fit_predict with n_folds >= 2 predicts every round exactly once with a model trained on data excluding that round; n_folds = 1 trains and predicts on all rounds.", "quantifier": "all fold assignments, data and base models", "why_tests_cant": "All partitions and learners.", "anchors": ["obp/ope/regression_model.py:RegressionModel.fit_predict", "obp/ope/classification_model.py:PropensityScoreEstimator.fit_predict", "obp/ope/classification_model.py:ImportanceWeightEstimator.fit_predict"]}
{"id": "C91", "title": "RegressionModel trains one model per position with the stated weights", "statement": "RegressionModel.fit uses at each position exactly the rounds logged at that position, with weight 1 (normal), pi_e/pscore (iw) or pi_e(1-pscore)/pscore^2 (mrdr), and raises ValueError if a position has no data.", "quantifier": "all data", "why_tests_cant": "All data.", "anchors": ["obp/ope/regression_model.py:RegressionModel.fit"]}
{"id": "C92", "title": "Slate regression targets are the cascade Bellman targets", "statement": "SlateRegressionModel fits position k to reward_k plus the evaluation policy's expected next-position prediction, and with a perfect learner predict returns the expected remaining reward.", "quantifier": "all data, sizes and learners", "why_tests_cant": "Backward induction over positions.", "anchors": ["obp/ope/regression_model_slate.py:SlateRegressionModel.fit"]}
{"id": "C93", "title": "Estimated importance weights and propensities", "statement": "ImportanceWeightEstimator returns p/(1-p) of the classifier's probability of the evaluation class, so a perfectly calibrated classifier gives the true density ratio; PropensityScoreEstimator.predict returns the model probability of the logged action (with position=None and len_list=1 too). (predict with position=None returns zeros, and columns are misaligned if an action is absent in training.)", "quantifier": "all classifiers and data", "why_tests_cant": "All classifiers.", "anchors": ["obp/ope/classification_model.py:ImportanceWeightEstimator.predict", "obp/ope/classification_model.py:PropensityScoreEstimator.predict"]}
{"id": "C94", "title": "Sampled delays and context drift are well-formed", "statement": "ExponentialDelaySampler returns non-negative integer delays, identical across actions of a round in max_scale mode, of shape (n_rounds, n_actions).", "quantifier": "all random outcomes", "why_tests_cant": "All RNG outcomes.", "anchors": ["obp/simulator/delay_sampler.py:ExponentialDelaySampler"]}
{"id": "C95", "title": "Continuous-action estimators accept exactly the documented inputs", "statement": "KernelizedInverseProbabilityWeighting, KernelizedSelfNormalizedInverseProbabilityWeighting and KernelizedDoublyRobust get past validation for a call to estimate_policy_value iff action_by_evaluation_policy, action, reward, pscore (and, for the doubly robust one, estimated_rewards_by_reg_model) are one-dimensional arrays of equal length and every pscore is positive; every other call raises ValueError.", "quantifier": "all argument combinations, all array types and lengths", "why_tests_cant": "The space of malformed inputs is infinite; tests try a table of hand-picked bad calls.", "anchors": ["obp/ope/estimators_continuous.py: estimate_policy_value", "obp/utils.py: check_continuous_ope_inputs"]}
{"id": "C96", "title": "The kernelised IPW estimate targets the kernel-smoothed policy value", "statement": "When the logged action has the positive density that is recorded as pscore, the expected per-round estimate of KernelizedInverseProbabilityWeighting equals the kernel-weighted average of the expected reward around the evaluation action; it is exact if the expected reward does not depend on the action, and with a compactly supported kernel its bias is at most the bandwidth times the Lipschitz constant of the expected reward.", "quantifier": "all densities, expected-reward functions, bandwidths > 0, evaluation actions and kernels", "why_tests_cant": "An expectation over a continuous distribution cannot be computed by running; simulation only approximates it for one setting.", "anchors": ["obp/ope/estimators_continuous.py: KernelizedInverseProbabilityWeighting"]}
{"id": "C97", "title": "Summary tables report the front end's own values and their ratio to the logged average reward", "statement": "OffPolicyEvaluation.summarize_off_policy_estimates returns exactly the values of estimate_policy_values and the intervals of estimate_intervals for the same arguments; the relative value of an estimator is its estimate divided by the average logged reward, and nan if that average is not positive.", "quantifier": "all estimator lists, logs and arguments for which the call succeeds", "why_tests_cant": "Tests compare one hand-made table.", "anchors": ["obp/ope/meta.py: OffPolicyEvaluation.summarize_off_policy_estimates"]}
{"id": "C98", "title": "Logistic policies' uncertainty is bounded by the prior", "statement": "After any history the per-coordinate precisions of the logistic policies are at least lambda_ and never decrease, so that the standard deviations sampled with are in (0, alpha_/lambda_] and the LogisticUCB bonus is the root of a non-negative number, at most the norm of the context divided by sqrt(lambda_).", "quantifier": "all histories, optimiser results, contexts, lambda_ > 0, alpha_ > 0", "why_tests_cant": "Invariant over unbounded histories and arbitrary optimiser output.", "anchors": ["obp/policy/logistic.py:MiniBatchLogisticRegression.fit", "obp/policy/logistic.py:MiniBatchLogisticRegression.sd", "obp/policy/logistic.py:LogisticUCB.select_action"]}
{"id": "C99", "title": "Logistic precisions are a Laplace approximation", "statement": "Each batch fit adds to the precisions the curvature of the observations' loss at the fitted weights. (The code evaluates it at a score shifted by one.)", "quantifier": "all batches, weights and contexts", "why_tests_cant": "Real-valued identity for all inputs.", "anchors": ["obp/policy/logistic.py:MiniBatchLogisticRegression.fit"]}
{"id": "C100", "title": "IPWLearner maximises the IPW estimate", "statement": "IPWLearner.fit trains, for every position, a classifier of the logged action on exactly the rounds of that position with sample weight reward/pscore; if the classifier attains the best weighted accuracy in a class of decision rules, the IPW estimate (InverseProbabilityWeighting.estimate_policy_value) of the predicted policy on the training data is at least that of every policy following rules of that class. A negative reward is rejected.", "quantifier": "all logs, classifiers, classes of decision rules and numbers of positions", "why_tests_cant": "Relates learner, prediction and estimator on every log; tests fit one small data set and look at shapes.", "anchors": ["obp/policy/offline.py:IPWLearner.fit", "obp/policy/offline.py:IPWLearner.predict", "obp/ope/estimators.py:InverseProbabilityWeighting"]}
{"id": "C101", "title": "predict_proba is a Boltzmann distribution", "statement": "IPWLearner.predict_proba (one slot) and QLearner.predict_proba return positive probabilities that sum to one at every position, with odds exp((score difference)/tau); IPWLearner refuses more than one slot.", "quantifier": "all scores, all tau > 0, all numbers of actions and positions", "why_tests_cant": "Holds for all real scores and temperatures.", "anchors": ["obp/policy/offline.py:IPWLearner.predict_proba", "obp/policy/offline.py:QLearner.predict_proba"]}
{"id": "C102", "title": "The training loss is a number for every mini-batch", "statement": "NNPolicyLearner's loss of a mini-batch is finite for every batch size. (torch.var of one entry is NaN even if var_reg_param is 0: every data set of 200k+1 rounds with the default batch size contains such a batch, which turns all network weights into NaN.)", "quantifier": "all batch sizes, objectives, data", "why_tests_cant": "Depends on the remainder of the data size by the batch size.", "anchors": ["obp/policy/offline.py:NNPolicyLearner.fit"]}
{"id": "C103", "title": "Contextual policies can be run against an environment with steps(n)", "statement": "BanditPolicySimulator.steps(n_rounds) with an environment object runs n rounds for every online policy. (It fails for contextual policies that validate a two-dimensional context, e.g. LinEpsilonGreedy and LinUCB: a round taken from the environment carries a one-dimensional context and is passed as such, so the first step raises; rounds passed as a batch are expanded and run.)", "quantifier": "all environments, all policies that reject one-dimensional contexts, all numbers of rounds", "why_tests_cant": "Ranges over all policies and environments.", "anchors": ["obp/simulator/simulator.py:BanditPolicySimulator.steps", "obp/simulator/simulator.py:BanditPolicySimulator.step"]}
{"id": "C104", "title": "Successive batches of a synthetic dataset are fresh samples", "statement": "Calling obtain_batch_bandit_feedback repeatedly on one SyntheticBanditDataset gives independently sampled actions, drawn independently of the expected rewards. (False: the actions of every batch are sampled with the same seed, so context-free batches of equal size log identical actions, and the draws coincide with the context-free expected rewards.)", "quantifier": "all configurations, contexts and random streams", "why_tests_cant": "A test sees plausible actions in each batch; that all batches share their draws is a statement about every pair of calls.", "anchors": ["obp/dataset/synthetic.py:SyntheticBanditDataset.obtain_batch_bandit_feedback", "obp/utils.py:sample_action_fast"]}
{"id": "C105", "title": "Multi-logger policies and propensities are consistent", "statement": "In the feedback of SyntheticMultiLoggersBanditDataset, pi_b of a round is the softmax policy of the round's logger, pi_b_avg the rhos-weighted mixture of all loggers' policies, and pscore and pscore_avg their probabilities of the logged action. (With deficient actions betas are ignored and pi_b_avg covers unsupported actions.)", "quantifier": "all logits, betas, rhos, round numbers and draws", "why_tests_cant": "All proportions and temperatures; expectation over loggers.", "anchors": ["obp/dataset/synthetic_multi.py:SyntheticMultiLoggersBanditDataset.obtain_batch_bandit_feedback"]}
{"id": "C106", "title": "Action embeddings mediate the reward", "statement": "In SyntheticBanditDatasetWithActionEmbeds expected_reward is the expectation of the reward over the embedding drawn for the action; embeddings are drawn from the action's category distributions; if no relevant dimension is hidden the reward depends on the observed embedding only. (Embeddings are seeded by the dimension number and coincide with the action draws if random_state equals it.)", "quantifier": "all category distributions, importances, reward tables and draws", "why_tests_cant": "An identity of expectations for all distributions.", "anchors": ["obp/dataset/synthetic_embed.py:SyntheticBanditDatasetWithActionEmbeds.obtain_batch_bandit_feedback"]}
{"id": "C107", "title": "Bootstrap samples of the Open Bandit Dataset keep rounds intact", "statement": "sample_bootstrap_bandit_feedback returns sample_size rounds, each a round of the log with its action, position, reward, propensity and context together, from the training part if split by time; invalid sizes are refused.", "quantifier": "all logs, sizes, fractions and draws", "why_tests_cant": "All draws of row numbers.", "anchors": ["obp/dataset/real.py:OpenBanditDataset.sample_bootstrap_bandit_feedback"]}
{"id": "C108", "title": "z_score=True standardises expected rewards", "statement": "With z_score=True the built-in continuous reward functions return expected rewards standardised to mean zero and unit variance times degree. (False: operator precedence subtracts mean/std instead of dividing the difference by std.)", "quantifier": "all base rewards", "why_tests_cant": "A test with mean zero passes; the claim is for every reward table.", "anchors": ["obp/dataset/synthetic.py:_base_reward_function"]}
{"id": "C109", "title": "Behaviour logits are standardised", "statement": "The built-in behaviour policy functions return logits of mean zero and variance degree squared over all rounds and actions.", "quantifier": "all base logits with positive spread", "why_tests_cant": "An identity for all logit tables.", "anchors": ["obp/dataset/synthetic.py:_base_behavior_policy_function"]}
{"id": "C110", "title": "Slate rewards use the round's own context", "statement": "The expected rewards of the slate of a round, both in logged feedback and in the enumeration for the ground truth, are computed from the base rewards of that round's context. (They are computed from the context of round i // len_list.)", "quantifier": "all numbers of rounds, slate sizes, reward structures and base rewards", "why_tests_cant": "An index identity for all rounds and slate sizes; outputs have the right shape.", "anchors": ["obp/dataset/synthetic_slate.py:action_interaction_reward_function"]}
{"id": "C111", "title": "Slate rewards belong to the chosen action", "statement": "For every n_unique_action the expected reward of a slate is looked up for the actions in the slate. (Actions are cast to int8, so from 128 actions on rewards of other actions are used or an IndexError is raised.)", "quantifier": "all numbers of actions and all actions", "why_tests_cant": "The failure only appears beyond 128 actions and is silent.", "anchors": ["obp/dataset/synthetic_slate.py:action_interaction_reward_function", "obp/dataset/synthetic_slate.py:SyntheticSlateBanditDataset.calc_ground_truth_policy_value"]}
{"id": "C112", "title": "Reward structures follow their definitions", "statement": "'independent' rewards are the base reward of the action, 'cascade_additive' adds the interaction weights with the actions at earlier positions and 'standard_additive' with the actions at all other positions; under cascade structures later actions do not matter; the interaction weight matrix is symmetric.", "quantifier": "all base rewards, weight matrices, slates and positions", "why_tests_cant": "Sums over all positions for all slates and matrices.", "anchors": ["obp/dataset/synthetic_slate.py:action_interaction_reward_function", "obp/dataset/synthetic_slate.py:generate_symmetric_matrix"]}
{"id": "C113", "title": "Sampled slates follow the behaviour policy and log matching propensities", "statement": "sample_action_and_obtain_pscore selects, position by position, the action whose interval of conditional softmax probability among the remaining actions contains the uniform draw, returns a slate the policy can produce, and logs the propensities that obtain_pscore_given_evaluation_policy_logit reports for it; for the default policy the item-position propensity 1/n_unique_action is the marginal.", "quantifier": "all logits, sizes, draws and clip values", "why_tests_cant": "All draws and logits; exactness of intervals.", "anchors": ["obp/dataset/synthetic_slate.py:SyntheticSlateBanditDataset.sample_action_and_obtain_pscore"]}
{"id": "C114", "title": "Decay reward structures follow the documented formula", "statement": "'standard_decay' and 'cascade_decay' subtract the base rewards at the other, respectively earlier, positions divided by the decay of the distance. (standard_decay multiplies by the decay; cascade_decay has no interaction at all and equals 'independent'.)", "quantifier": "all base rewards, decay functions, slates and positions", "why_tests_cant": "All slates; the values look plausible.", "anchors": ["obp/dataset/synthetic_slate.py:SyntheticSlateBanditDataset.obtain_cascade_decay_action_interaction_weight_matrix", "obp/dataset/synthetic_slate.py:SyntheticSlateBanditDataset.obtain_standard_decay_action_interaction_weight_matrix", "obp/dataset/synthetic_slate.py:action_interaction_reward_function"]}
{"id": "C115", "title": "Conditional action distributions of slate policies", "statement": "calc_evaluation_policy_action_dist returns for every round and position a probability distribution over actions proportional to the softmax weights of the actions not placed earlier. (Earlier actions keep the weight exp(-10000), which dominates when all logits are far below -10000.)", "quantifier": "all logits, slates and positions", "why_tests_cant": "All logits; the masked mass is below float resolution in ordinary tests.", "anchors": ["obp/dataset/synthetic_slate.py:SyntheticSlateBanditDataset.calc_evaluation_policy_action_dist"]}
{"id": "C116", "title": "The linear slate behaviour policy depends on the context", "statement": "linear_behavior_policy_logit defines a contextual policy: slate propensities vary with the context. (They never do, since the context term is common to all actions; tau=0 passes the check but gives no finite logits.)", "quantifier": "all contexts, coefficients, temperatures and slates", "why_tests_cant": "Invariance for all contexts.", "anchors": ["obp/dataset/synthetic_slate.py:linear_behavior_policy_logit"]}
{"id": "C117", "title": "Slate on-policy value is the average slate reward", "statement": "calc_on_policy_policy_value is the average over distinct slates of the sum of the rewards in the slate.", "quantifier": "all rewards and distinct slate ids", "why_tests_cant": "An identity for all logs.", "anchors": ["obp/dataset/synthetic_slate.py:SyntheticSlateBanditDataset.calc_on_policy_policy_value"]}
{"id": "C118", "title": "Slate ground truth enumerates the policy exactly", "statement": "calc_ground_truth_policy_value sums over every possible slate exactly once (all sequences for factorizable policies, all sequences without repetition otherwise), weights each with the policy's probability of it, weights adding up to one in each round, and returns the average over rounds of the expected sum of position rewards; malformed logits or contexts raise ValueError. (With more than 128 actions the enumerated slates overflow int8: factorizable policies get wrong weights or an IndexError, others always an IndexError; without a base reward function rounds are summed, not averaged.)", "quantifier": "all numbers of actions and positions, both kinds of policy, all logits, contexts, reward functions and click models", "why_tests_cant": "The enumeration grows factorially; tests cover one small instance.", "anchors": ["obp/dataset/synthetic_slate.py:SyntheticSlateBanditDataset.calc_ground_truth_policy_value"]}
{"id": "C119", "title": "Kernelised estimators are constructed exactly with documented kernels and usable bandwidths", "statement": "KernelizedInverseProbabilityWeighting and its variants accept exactly the four documented kernel names with a numeric non-negative bandwidth, and raise ValueError or TypeError otherwise. (nan, zero and infinity are accepted although no estimate is finite, or the estimate ignores the rewards.)", "quantifier": "all kernel names and bandwidth objects", "why_tests_cant": "Every string and every kind of number.", "anchors": ["obp/ope/estimators_continuous.py:KernelizedInverseProbabilityWeighting", "obp/ope/estimators_continuous.py:KernelizedDoublyRobust"]}
{"id": "C120", "title": "Offline learners and regression models are constructed exactly from documented settings", "statement": "IPWLearner, QLearner and RegressionModel accept exactly integers n_actions >= 2 and len_list >= 1 (at most n_actions for the learners), a classifier or documented fitting method, and keep the values; RegressionModel defaults action_context to the identity. SlateRegressionModel accepts exactly integers n_unique_action >= 2 and len_list >= 1, the fitting methods 'normal' and 'iw' and a regressor, of which every position gets its own clone. MarginalizedInverseProbabilityWeighting accepts exactly integers n_actions >= 2 and min_emb_dim >= 1, a float delta in [0, 1] (or nan), a documented or no selection method, and a classifier.", "quantifier": "all constructor arguments", "why_tests_cant": "All argument types and values.", "anchors": ["obp/policy/offline.py:IPWLearner", "obp/policy/offline.py:QLearner", "obp/ope/regression_model.py:RegressionModel", "obp/policy/base.py:BaseOfflinePolicyLearner", "obp/ope/regression_model_slate.py:SlateRegressionModel", "obp/ope/estimators_embed.py:MarginalizedInverseProbabilityWeighting"]}
{"id": "C121", "title": "Intervals of embedding estimators belong to their estimates", "statement": "estimate_interval of MIPS and SNMIPS bootstraps per-round values whose mean is the estimate_policy_value of the same call, and fails exactly when it fails. (With embedding selection it does not: the interval uses all embedding dimensions.)", "quantifier": "all logs, selection methods and bootstrap draws", "why_tests_cant": "All logs and draws.", "anchors": ["obp/ope/estimators_embed.py:BaseMarginalizedInverseProbabilityWeighting.estimate_interval", "obp/ope/estimators_embed.py:MarginalizedInverseProbabilityWeighting", "obp/ope/estimators_embed.py:SelfNormalizedMarginalizedInverseProbabilityWeighting"]}
{"id": "C122", "title": "Validation with several loggers accepts exactly well-formed inputs", "statement": "check_multi_loggers_ope_inputs accepts exactly what check_ope_inputs accepts together with stratum indices that are absent or a non-negative one-dimensional integer array with one entry per round.", "quantifier": "all argument combinations, shapes and dtypes", "why_tests_cant": "All shapes and dtypes.", "anchors": ["obp/utils.py:check_multi_loggers_ope_inputs"]}
{"id": "C123", "title": "The validation split of the network policy learner keeps data on both sides", "statement": "With early stopping, validation_fraction accepts exactly floats in (0, 1], the rounds are divided into disjoint non-empty training and validation sets with the stated share, and one round is refused. (The documented fraction 1.0 leaves no training data.)", "quantifier": "all fractions and numbers of rounds", "why_tests_cant": "All fractions and sizes.", "anchors": ["obp/policy/offline.py:NNPolicyLearner"]}
{"id": "C124", "title": "MIPS with estimated weights uses the conditional expectation of the importance weight", "statement": "Without p_e_a, the marginalised estimators weight each reward by the importance weight averaged over the classifier's prediction of the action given context and embedding. The classifier is trained on features that are equal exactly when context and embedding are equal. With a calibrated classifier and all relevant actions logged and supported, the weight is the true ratio of embedding probabilities, for any number of embedding dimensions. (Actions never logged, or not supported by the behaviour policy, are dropped silently.)", "quantifier": "all logs, embeddings of any number of dimensions and categories, classifiers and policies", "why_tests_cant": "All embeddings and classifiers.", "anchors": ["obp/ope/estimators_embed.py:BaseMarginalizedInverseProbabilityWeighting._estimate_w_x_e"]}
{"id": "C125", "title": "Online policies are constructed exactly from documented settings", "statement": "The constructors of EpsilonGreedy, Random, BernoulliTS, the linear and the logistic policies accept exactly integers n_actions >= 2, 1 <= len_list <= n_actions, batch_size >= 1 (and dim >= 1), with epsilon a float in [0, 1] (at least 0 for the UCB policies), alpha_ and lambda_ floats above 0, a named campaign for the production prior; other arguments raise TypeError or ValueError, and accepted values are kept. (nan is accepted for epsilon, alpha_ and lambda_.)", "quantifier": "all argument values of all types", "why_tests_cant": "All argument types and values.", "anchors": ["obp/policy/base.py:BaseContextFreePolicy", "obp/policy/base.py:BaseContextualPolicy", "obp/policy/contextfree.py:EpsilonGreedy", "obp/policy/contextfree.py:BernoulliTS", "obp/policy/linear.py:LinEpsilonGreedy", "obp/policy/linear.py:LinUCB", "obp/policy/logistic.py:BaseLogisticPolicy"]}
{"id": "C126", "title": "Sampled rewards have the reported expected reward", "statement": "In synthetic logged data, the reward logged for a context and action is drawn from a distribution whose mean is the expected reward reported with the batch: binary rewards are one with exactly that probability, continuous rewards are non-negative with that mean. sample_reward for the same context and action has that same mean.", "quantifier": "all reward functions, reward types, reward standard deviations, contexts and actions", "why_tests_cant": "A statement about a distribution; a finite sample cannot settle a mean, and the violation is smaller than sampling error for large rewards.", "anchors": ["obp/dataset/synthetic.py:SyntheticBanditDataset.sample_reward_given_expected_reward", "obp/dataset/synthetic.py:SyntheticBanditDataset.obtain_batch_bandit_feedback", "obp/dataset/synthetic.py:SyntheticBanditDataset.sample_reward", "obp/dataset/synthetic_multi.py:SyntheticMultiLoggersBanditDataset.obtain_batch_bandit_feedback", "obp/dataset/synthetic_slate.py:SyntheticSlateBanditDataset.sample_reward_given_expected_reward"]}
{"id": "C127", "title": "Logged continuous rewards are unconfounded", "statement": "In synthetic logged data with continuous rewards, given the context the reward of the logged action does not depend on the draw that selected the action: over the rounds in which an action is logged the rewards average to the mean of its reward distribution, so inverse propensity weighting is unbiased. Rewards of the positions of a slate are drawn independently given their means.", "quantifier": "all behaviour policies, reward parameters and uniform draws", "why_tests_cant": "Dependence between two draws of a pseudo-random generator is invisible to a test of either draw.", "anchors": ["obp/dataset/synthetic.py:SyntheticBanditDataset.obtain_batch_bandit_feedback", "obp/dataset/synthetic_multi.py:SyntheticMultiLoggersBanditDataset.obtain_batch_bandit_feedback", "obp/dataset/synthetic_slate.py:SyntheticSlateBanditDataset.sample_reward_given_expected_reward", "obp/utils.py:sample_action_fast"]}
{"id": "C128", "title": "Built-in reward functions are the documented bilinear model", "statement": "The six built-in reward functions return, for every round and action, degree times a function that is linear in the polynomial features of the context, linear in those of the action and bilinear in both, with the same coefficients for all rounds or those of the round for drifting coefficients, for any number of rounds (also when it equals a number of features); the sparse ones use a non-empty subset of the features, the logistic ones apply the sigmoid and return probabilities strictly between 0 and 1. The behaviour policy functions return the standardised bilinear form.", "quantifier": "all contexts, action contexts, coefficients, numbers of rounds, actions and features", "why_tests_cant": "The code branches on whether a number of features equals the number of rounds; a test would have to hit each coincidence.", "anchors": ["obp/dataset/synthetic.py:_base_reward_function", "obp/dataset/synthetic.py:sample_random_uniform_coefficients", "obp/dataset/synthetic.py:logistic_reward_function", "obp/dataset/synthetic.py:sparse_reward_function", "obp/dataset/synthetic.py:_base_behavior_policy_function"]}
{"id": "C129", "title": "Expected reward and behaviour policy are functions of the context", "statement": "A synthetic dataset assigns to each context and action one expected reward, and to each context one behaviour distribution: the same context has the same values in every batch, so that sample_reward and ground-truth values computed on other batches refer to the same environment.", "quantifier": "all pairs of batches sharing a context, reward functions and behaviour policy functions", "why_tests_cant": "A relation between all pairs of batches; single-batch tests cannot see it.", "anchors": ["obp/dataset/synthetic.py:_base_reward_function", "obp/dataset/synthetic.py:_base_behavior_policy_function", "obp/dataset/synthetic.py:SyntheticBanditDataset.sample_reward"]}
{"id": "C130", "title": "Synthetic datasets and the environment simulator are constructed exactly from documented settings", "statement": "SyntheticBanditDataset, SyntheticMultiLoggersBanditDataset, SyntheticBanditDatasetWithActionEmbeds, SyntheticContinuousBanditDataset and BanditEnvironmentSimulator accept exactly the documented arguments (integer sizes in range, numeric temperatures, non-negative standard deviations and shares, ordered action bounds, a seed, an action context with one row per action), keep them, and refuse everything else with TypeError or ValueError.", "quantifier": "all constructor arguments: Python scalars of every type including bool, infinite and nan floats, lists of every length, arrays of every shape", "why_tests_cant": "tests try a handful of invalid values; the claim is about every combination, including nan, bool and empty lists", "anchors": ["obp/dataset/synthetic.py:SyntheticBanditDataset.__post_init__", "obp/dataset/synthetic_multi.py:SyntheticMultiLoggersBanditDataset.__post_init__", "obp/dataset/synthetic_embed.py:SyntheticBanditDatasetWithActionEmbeds.__post_init__", "obp/dataset/synthetic_continuous.py:SyntheticContinuousBanditDataset.__post_init__", "obp/simulator/simulator.py:BanditEnvironmentSimulator.__post_init__"]}
{"id": "C131", "title": "Continuous propensities are the density of the logged action", "statement": "In logged data with continuous actions, actions lie between min_action_value and max_action_value, are distributed as the normal distribution around the behaviour policy's value conditioned on the bounds (or uniformly without behaviour policy function), and pscore is the density of that distribution at the logged action, hence positive; this works for all settings accepted by the constructor.", "quantifier": "all behaviour policy values, noise levels, finite or infinite bounds and uniform draws", "why_tests_cant": "tests compare one sample; the density statement is an identity of integrals over all bounds and parameters", "anchors": ["obp/dataset/synthetic_continuous.py:SyntheticContinuousBanditDataset.obtain_batch_bandit_feedback"]}
{"id": "C132", "title": "Continuous-action rewards and ground truth follow the documented functions", "statement": "Logged rewards have the reported expected reward as mean; calc_ground_truth_policy_value averages the reward function and equals the average reported expected reward on the batch's own contexts and actions; the built-in reward functions, behaviour policy and evaluation policies are the documented functions of context and action, and wrongly shaped arguments raise ValueError.", "quantifier": "all seeds, generators, contexts, actions, shapes and settings", "why_tests_cant": "tests check shapes and a few values for one seed", "anchors": ["obp/dataset/synthetic_continuous.py:SyntheticContinuousBanditDataset.calc_ground_truth_policy_value", "obp/dataset/synthetic_continuous.py:linear_reward_funcion_continuous", "obp/dataset/synthetic_continuous.py:quadratic_reward_funcion_continuous", "obp/dataset/synthetic_continuous.py:linear_behavior_policy_continuous", "obp/dataset/synthetic_continuous.py:sign_synthetic_policy_continuous"]}
{"id": "C133", "title": "Continuous-action batches are fresh samples", "statement": "Successive batches are fresh samples from the same distribution, and the coefficients of the built-in behaviour policy and reward function are unrelated to each other and to the sampled contexts, so that logged expected rewards depend on the context.", "quantifier": "all generators, seeds, states of the dataset, batch sizes and settings", "why_tests_cant": "a test with one seed cannot see that two vectors coincide for every seed", "anchors": ["obp/dataset/synthetic_continuous.py:SyntheticContinuousBanditDataset.obtain_batch_bandit_feedback", "obp/dataset/synthetic_continuous.py:linear_reward_funcion_continuous", "obp/dataset/synthetic_continuous.py:linear_behavior_policy_continuous"]}
{"id": "C134", "title": "Neural learners refuse bad settings before training", "statement": "QFuncEstimator, QFuncEstimatorForContinuousAction, NNPolicyLearner and ContinuousNNPolicyLearner accept exactly the documented hyperparameters (types, ranges, names, layer sizes) and raise TypeError or ValueError otherwise; every documented setting is usable by fit and builds a network with the stated layer sizes.", "quantifier": "all arguments of the four constructors, and for the learners' hyperparameter dictionaries all their entries", "why_tests_cant": "there are some twenty independently checked arguments of arbitrary type; tests enumerate a few bad values each", "anchors": ["obp/policy/offline.py:QFuncEstimator.__post_init__", "obp/policy/offline.py:NNPolicyLearner.__post_init__", "obp/policy/offline_continuous.py:QFuncEstimatorForContinuousAction.__post_init__", "obp/policy/offline_continuous.py:ContinuousNNPolicyLearner.__post_init__"]}
{"id": "C135", "title": "Neural policies are proper distributions for any weights", "statement": "Whatever weights training produces, for every number and size of hidden layers and every activation, the network accepts exactly contexts of the stated dimension and the policy network gives every action a positive probability, the probabilities summing to one, ordered as the scores of its last layer.", "quantifier": "all weights, layer sizes, activations and contexts", "why_tests_cant": "weights are the result of training and range over a continuum", "anchors": ["obp/policy/offline.py:NNPolicyLearner.__post_init__", "obp/policy/offline_continuous.py:ContinuousNNPolicyLearner.__post_init__"]}
{"id": "C136", "title": "The continuous policy learner maximises the kernelised estimates of its own predictions", "statement": "On every batch ContinuousNNPolicyLearner minimises minus the value that the corresponding estimator (kernelised IPW or DR with the Gaussian kernel, or for dpg the mean predicted reward) reports for the actions predict would return, and predictions lie in the output space, being the nearest point of it to the network's output.", "quantifier": "all batches, networks, reward models, bandwidths, output spaces and contexts", "why_tests_cant": "it relates two implementations (torch and numpy) on all batches and networks", "anchors": ["obp/policy/offline_continuous.py:ContinuousNNPolicyLearner._estimate_policy_gradient", "obp/policy/offline_continuous.py:ContinuousNNPolicyLearner.predict", "obp/policy/offline_continuous.py:gaussian_kernel", "obp/ope/estimators_continuous.py:KernelizedInverseProbabilityWeighting", "obp/ope/estimators_continuous.py:KernelizedDoublyRobust"]}
{"id": "C137", "title": "The continuous learner trains on each round's own data", "statement": "fit of ContinuousNNPolicyLearner pairs every context with its own action, reward and propensity (one if none are given), trains its reward model on context and action against reward, and raises ValueError if the arrays do not match.", "quantifier": "all arguments of fit and all policy gradient methods", "why_tests_cant": "shapes and lengths are unbounded", "anchors": ["obp/policy/offline_continuous.py:ContinuousNNPolicyLearner.fit", "obp/policy/offline_continuous.py:ContinuousNNPolicyLearner._create_train_data_for_opl", "obp/policy/offline_continuous.py:QFuncEstimatorForContinuousAction.fit", "obp/utils.py:check_continuous_bandit_feedback_inputs"]}
{"id": "C138", "title": "Contextual policies rank by the documented scores", "statement": "For a context of one row LogisticEpsilonGreedy and LinEpsilonGreedy return, when the uniform draw exceeds epsilon, the top ranking of the fitted scores x.m_a, and otherwise a draw without replacement from all actions; LogisticUCB returns the top ranking of predicted probability plus epsilon times sqrt(sum_j x_j^2 / q_aj); LogisticTS that of x.w_a with w_a drawn once per action from the generator of its own model with mean m_a and standard deviations alpha/q_a; LinTS that of x.t_a with the t_a drawn in the order of the actions from the policy's generator, with mean the ridge solution and covariance the inverse matrix of the action.", "quantifier": "all states, contexts, random draws, numbers of actions and list lengths, whatever the order of ties", "why_tests_cant": "Tests fix a seed and check shapes; which score the ranking follows for every state is not observable from finitely many calls.", "anchors": ["obp/policy/logistic.py:LogisticEpsilonGreedy.select_action", "obp/policy/logistic.py:LogisticUCB.select_action", "obp/policy/logistic.py:LogisticTS.select_action", "obp/policy/linear.py:LinTS.select_action", "obp/policy/linear.py:LinEpsilonGreedy.select_action"]}
{"id": "C139", "title": "Nuisance models and offline learners reject malformed data", "statement": "RegressionModel with 'iw' or 'mrdr' raises ValueError unless action_dist has shape (n_rounds, n_actions, len_list), and with 'normal' fit does not look at it (cross-fitting still slices it, so that it must be absent or cover every round). ImportanceWeightEstimator raises ValueError for a policy of another shape or not summing to one, PropensityScoreEstimator for a position without rounds; rounds at positions outside the list get propensity and weight zero. IPWLearner and QLearner raise ValueError without positions for several positions. SlateRegressionModel accepts exactly well-formed flat arrays.", "quantifier": "all logs, shapes, policies, base models and folds", "why_tests_cant": "Validation concerns every malformed input; tests try a few.", "anchors": ["obp/ope/regression_model.py:RegressionModel.fit", "obp/ope/regression_model.py:RegressionModel.fit_predict", "obp/ope/classification_model.py:ImportanceWeightEstimator", "obp/ope/classification_model.py:PropensityScoreEstimator", "obp/ope/regression_model_slate.py:SlateRegressionModel.fit", "obp/policy/offline.py:IPWLearner.fit", "obp/policy/offline.py:QLearner.fit"]}
{"id": "C140", "title": "Front ends refuse misshapen evaluation arguments", "statement": "OffPolicyEvaluation, MultiLoggersOffPolicyEvaluation and ContinuousOffPolicyEvaluation raise ValueError before running any estimator unless the evaluation policy has the documented number of dimensions, predictions share its shape, and estimated propensities, importance weights, embeddings and behaviour policies have one entry per round (p_e_a one per action); this holds for a single array as well as for every entry of a dict, and well-shaped arguments are passed on so that the front end fails only if an estimator does.", "quantifier": "all arguments (absent, array, or dict with any keys), all estimators and logs; p_e_a not passed as a single array", "why_tests_cant": "Shape validation concerns every malformed combination of seven arguments; tests try a few.", "anchors": ["obp/ope/meta.py:OffPolicyEvaluation._create_estimator_inputs", "obp/ope/meta_multi.py:MultiLoggersOffPolicyEvaluation._create_estimator_inputs", "obp/ope/meta_continuous.py:ContinuousOffPolicyEvaluation._create_estimator_inputs"]}
{"id": "C141", "title": "Plots show the reported estimates", "statement": "The numbers from which visualize_off_policy_estimates draws the bar of an estimator average to the estimate that estimate_policy_values reports, one column per estimator in the same order with the name in capitals; the relative plot divides every number by the mean reward; every estimator that reports an estimate can be plotted.", "quantifier": "all logs, arguments, estimator lists and classes", "why_tests_cant": "Plots and reports take different code paths; agreement concerns all inputs, and tests do not look at what is plotted.", "anchors": ["obp/ope/meta.py:OffPolicyEvaluation.visualize_off_policy_estimates", "obp/ope/meta_multi.py:MultiLoggersOffPolicyEvaluation.visualize_off_policy_estimates", "obp/ope/meta_continuous.py:ContinuousOffPolicyEvaluation.visualize_off_policy_estimates", "obp/ope/estimators.py:_estimate_round_rewards", "obp/ope/estimators_embed.py:_estimate_round_rewards"]}
{"id": "C142", "title": "Comparing several policies in one plot", "statement": "visualize_off_policy_estimates_of_multiple_policies requires as many names as policies, works for any number of estimators and policies, and shows for each estimator one column per policy whose numbers average to the estimate of that policy's value.", "quantifier": "all logs, estimator lists, policy lists and names", "why_tests_cant": "Whether it works depends on the numbers of estimators and policies; tests use one combination.", "anchors": ["obp/ope/meta.py:OffPolicyEvaluation.visualize_off_policy_estimates_of_multiple_policies", "obp/ope/meta_multi.py:MultiLoggersOffPolicyEvaluation.visualize_off_policy_estimates_of_multiple_policies", "obp/ope/meta_continuous.py:ContinuousOffPolicyEvaluation.visualize_off_policy_estimates_of_multiple_policies"]}
{"id": "C143", "title": "Error bars of the slate plot", "statement": "The error bars drawn by SlateOffPolicyEvaluation.visualize_off_policy_estimates are the confidence intervals reported by the summary.", "quantifier": "all logs, arguments, significance levels, resamples and estimators", "why_tests_cant": "The drawn length is derived from the interval by arithmetic that tests do not inspect.", "anchors": ["obp/ope/meta_slate.py:SlateOffPolicyEvaluation.visualize_off_policy_estimates"]}
{"id": "C144", "title": "A batch of bandit rounds is played once per round, in order", "statement": "Looping over the batch returned by next_bandit_round_batch visits every round exactly once, in order, each with the rows of the context, reward, expected-reward and delay arrays that belong to it; the loop ends, and a later loop starts again from the first round whatever an earlier loop left behind. A batch has one cursor: a loop over it inside a loop over it ends the outer loop. A batch whose arrays have fewer rows than n_rounds makes the loop raise IndexError. BanditPolicySimulator.steps(n_rounds, batch_bandit_rounds) plays n_rounds fresh rounds of the environment and then the rounds of the batch, each once, and nothing else.", "quantifier": "all batches of any size, all cursor positions left by earlier loops, all policies and environments", "why_tests_cant": "Whether rounds are skipped or repeated depends on the history of loops over the same object and on the number of rounds; tests loop once over a few rounds.", "anchors": ["obp/simulator/simulator.py:BanditRounds", "obp/simulator/simulator.py:BanditPolicySimulator.steps"]}
{"id": "C145", "title": "The environment simulator produces rounds that fit together", "statement": "A batch of n rounds has n contexts of dim_context entries and, per round and action, a reward that is drawn with the expected reward of that round and action as success probability; without a reward function the expected rewards are drawn once by the constructor and never change, with one they are what it returns for exactly these contexts; delays are what the delay function returns for n, the number of actions and these expected rewards. Requests with n < 1 or expected rewards outside [0, 1] are refused. A single round is the only round of a batch of one. An environment without reward function never fails, so a simulation with a policy that accepts all updates can be continued for any number of rounds. Rewards are continuous when reward_type is 'continuous'.", "quantifier": "all environments (any reward, coefficient and delay function, stateful ones included), all states of the generator, all numbers of rounds", "why_tests_cant": "Rewards and expected rewards are drawn in bulk; that entry (i, a) belongs to round i and action a, and that the shapes agree for every setting, cannot be read off from samples.", "anchors": ["obp/simulator/simulator.py:BanditEnvironmentSimulator", "obp/simulator/delay_sampler.py:ExponentialDelaySampler"]}
{"id": "C146", "title": "Expected rewards of slates follow the documented interaction formula", "statement": "action_interaction_reward_function returns, for each slate and position, g(g^-1(base reward of the action there) + sum of effects), with g the sigmoid for binary rewards and clipping at zero for continuous ones. The effects are none (independent), weights with earlier actions (cascade_additive) or all other actions (standard_additive), or transformed base rewards of earlier (cascade_decay) or all other positions (standard_decay) times position weights. Binary results lie strictly between 0 and 1 and continuous ones are non-negative. Unknown reward types or structures, numbers of actions that do not fill the slates and weight matrices of the wrong shape raise ValueError.", "quantifier": "all numbers of rounds, actions and positions, base rewards, weight matrices, slates, reward types, structures, enumerated or logged slates", "why_tests_cant": "Tests compare a few structures on one context and never two contexts with different base rewards, so they do not notice which round's rewards are used nor what happens for arbitrary weights.", "anchors": ["obp/dataset/synthetic_slate.py:action_interaction_reward_function"]}
{"id": "C147", "title": "The neural learners train on exactly the logged rounds", "statement": "NNPolicyLearner.fit and QFuncEstimator.fit accept exactly logged data of the right dimension (positive or missing propensities, positions if there are several) and train on round i = i-th context, action, reward and propensity (1/n_actions by default). The reward model is trained, on the same rounds, if and only if the objective is dm or dr. Early stopping takes the documented fraction of the rounds away for validation and no round is lost or used in both parts. There are exactly max_iter epochs; in each, every training round is in exactly one mini-batch, the optimiser does one step for each of the first few mini-batches (at least one), and nothing else changes the network. The loss of the reward model is the mean squared error at the logged actions; predict returns the outputs of the network row by row.", "quantifier": "all arguments, all networks, optimisers and losses, all random splits and orders, all batch sizes and numbers of epochs", "why_tests_cant": "tests run fit for a few epochs on random data and look at the shape of the prediction", "anchors": ["obp/policy/offline.py:NNPolicyLearner.fit", "obp/policy/offline.py:NNPolicyLearner._create_train_data_for_opl", "obp/policy/offline.py:QFuncEstimator.fit", "obp/policy/offline.py:QFuncEstimator.predict", "obp/policy/offline.py:NNPolicyDataset", "obp/policy/offline.py:QFuncEstimatorDataset", "obp/policy/offline_continuous.py:ContinuousNNPolicyLearner.fit"]}
{"id": "C148", "title": "Early stopping ends training when the validation loss stops improving", "statement": "With early_stopping=True, neural learners end training when the validation loss has not improved for n_iter_no_change epochs.", "quantifier": "all networks, optimisers, losses, data and settings", "why_tests_cant": "whether training has stopped is not visible in the prediction, and tests use one or two epochs", "anchors": ["obp/policy/offline.py:NNPolicyLearner.fit", "obp/policy/offline.py:QFuncEstimator.fit", "obp/policy/offline_continuous.py:ContinuousNNPolicyLearner.fit"]}
{"id": "C149", "title": "SLOPE tunes almost as well as an oracle", "statement": "Let V be the true value of the evaluation policy, and suppose that each candidate hyperparameter's estimate is within bias + width of V, where width is the confidence half-width of that candidate and biases go up as widths go down. Then tuning with tuning_method=\"slope\" returns an estimate within (sqrt(6) + 3) times the smallest bias + width of all candidates, without knowing the biases.", "quantifier": "all candidate lists in any order, logs, biases and widths", "why_tests_cant": "an inequality over all possible biases and candidates; tests know neither the biases nor the value", "anchors": ["obp/ope/estimators_tuning.py:BaseOffPolicyEstimatorTuning._tune_hyperparam_with_slope", "obp/ope/estimators_tuning.py:BaseOffPolicyEstimatorTuning.estimate_policy_value_with_tuning"]}
{"id": "C150", "title": "The Hoeffding lower bound covers", "statement": "For independent bounded random numbers not above x_max, estimate_hoeffding_lower_bound(x, x_max, delta) exceeds the expected sample mean with probability at most delta.", "quantifier": "all sample sizes, distributions (not necessarily identical), bounds and confidence levels in (0, 1]", "why_tests_cant": "coverage is a statement about the distribution of the sample; a simulation checks one distribution up to noise", "anchors": ["obp/ope/helper.py:estimate_hoeffding_lower_bound"]}
{"id": "C151", "title": "Estimates are consistent", "statement": "With more and more independent logged rounds, the estimates of IPW, SNIPW, DR, SNDR, Switch-DR and DRos (not clipped) tend to the value of the evaluation policy with probability one, if the logging policy takes every action that the evaluation policy takes; the doubly robust ones for any reward model. The direct method tends to the value according to its reward model, and the replay method to the true value for deterministic policies on uniformly logged data.", "quantifier": "all context spaces, context and reward distributions, policies, positions and reward models with integrable weighted rewards", "why_tests_cant": "a statement about the limit of an infinite random process", "anchors": ["obp/ope/estimators.py:InverseProbabilityWeighting.estimate_policy_value", "obp/ope/estimators.py:SelfNormalizedInverseProbabilityWeighting.estimate_policy_value", "obp/ope/estimators.py:DoublyRobust.estimate_policy_value", "obp/ope/estimators.py:SelfNormalizedDoublyRobust.estimate_policy_value", "obp/ope/estimators.py:DirectMethod.estimate_policy_value", "obp/ope/estimators.py:ReplayMethod.estimate_policy_value"]}
{"id": "C152", "title": "Sampled rankings follow the Plackett-Luce distribution", "statement": "`sample_action` of IPWLearner, QLearner and NNPolicyLearner draws, for every round independently of the others, a ranking from the Plackett-Luce distribution of its scores: the probability of filling the first `len_list` places with given distinct actions is the product over places of exp(score of the action) divided by the sum of exp(score) over the actions not yet placed, where the score is the prediction averaged over positions and divided by the temperature. As the temperature goes to infinity all rankings become equally likely.", "quantifier": "all fitted models, contexts, numbers of actions and places, positive temperatures, target rankings of all rounds, sources of independent Gumbel noise, and sorting routines (ties resolved in any way)", "why_tests_cant": "A distribution over all rankings cannot be settled by drawing samples: a wrong score, noise distribution or sort direction that is close to right is within sampling error, and tests only check shapes and seeds.", "anchors": ["obp/policy/offline.py:IPWLearner.sample_action", "obp/policy/offline.py:QLearner.sample_action", "obp/policy/offline.py:NNPolicyLearner.sample_action"]}
{"id": "C153", "title": "Sampled actions have the probabilities that predict_proba reports", "statement": "With one place per round, `sample_action` of an offline policy learner draws action a in a round with exactly the probability that `predict_proba` returns for a in this round (at the same temperature), independently over rounds.", "quantifier": "all fitted models, contexts, numbers of actions, positive temperatures, chosen actions of all rounds, sources of Gumbel noise and sorting routines", "why_tests_cant": "Equality of a sampled distribution with reported probabilities is a statement about all random outcomes; samples can only refute it up to statistical error, and the two methods are tested separately.", "anchors": ["obp/policy/offline.py:IPWLearner.sample_action", "obp/policy/offline.py:IPWLearner.predict_proba", "obp/policy/offline.py:QLearner.sample_action", "obp/policy/offline.py:QLearner.predict_proba", "obp/policy/offline.py:NNPolicyLearner.sample_action", "obp/policy/offline.py:NNPolicyLearner.predict_proba"]}
{"id": "C154", "title": "Estimates from simulated logged data are unbiased for the ground truth the dataset reports", "statement": "Run the library's own pipeline: SyntheticBanditDataset (or MultiClassToBanditReduction) produces logged data, InverseProbabilityWeighting or DoublyRobust is applied to the logged actions, rewards and propensities, and the result is compared with calc_ground_truth_policy_value. If the uniform numbers behind the actions are uniform and independent of the reward draws, which have the reported expected rewards as means, then without deficient actions the expectation of both estimates is exactly the reported ground truth; with deficient actions it is the ground truth less the part of the value on the removed actions (IPW), or less the error of the reward model there (DR).", "quantifier": "all numbers of rounds and actions, expected rewards, beta, behaviour policy functions, numbers of deficient actions, noise orders, labels, base predictions, alpha_b, evaluation policies, reward models and probability spaces of draws", "why_tests_cant": "A statement about expectations over the generator's randomness: a test sees finitely many seeds and can only check a tolerance.", "anchors": ["obp/dataset/synthetic.py: SyntheticBanditDataset.obtain_batch_bandit_feedback, calc_ground_truth_policy_value", "obp/dataset/multiclass.py: MultiClassToBanditReduction.obtain_batch_bandit_feedback, calc_ground_truth_policy_value", "obp/utils.py: sample_action_fast", "obp/ope/estimators.py: InverseProbabilityWeighting, DoublyRobust"]}
{"id": "C155", "title": "Estimates from simulated data of several loggers are unbiased", "statement": "SyntheticMultiLoggersBanditDataset produces logged data without deficient actions, a naive or balanced estimator for several loggers is applied to them, and the result is compared with the ground truth. If the uniform numbers behind the actions are uniform and independent of the reward draws, then given the contexts the naive IPW and DR estimates have exactly the reported ground truth as expectation. If moreover contexts are independent and identically distributed and the strata have exactly the proportions rhos, the balanced IPW and DR estimates have the population value of the evaluation policy as expectation, over contexts, actions and rewards.", "quantifier": "all numbers of rounds, actions and loggers, expected rewards, temperatures, proportions with non-negative stratum sizes, evaluation policies, reward models, context distributions and probability spaces of draws", "why_tests_cant": "A statement about expectations over contexts, actions and rewards; a test sees finitely many seeds and can only check a tolerance.", "anchors": ["obp/dataset/synthetic_multi.py: SyntheticMultiLoggersBanditDataset.obtain_batch_bandit_feedback", "obp/ope/estimators_multi.py: MultiLoggersNaiveInverseProbabilityWeighting, MultiLoggersNaiveDoublyRobust, MultiLoggersBalancedInverseProbabilityWeighting, MultiLoggersBalancedDoublyRobust"]}
{"id": "C156", "title": "Slate propensities are the probabilities of the dataset's own sampling, and slate estimates from simulated data are unbiased", "statement": "SyntheticSlateBanditDataset samples slates position by position and reports three propensities. If the random numbers behind the positions of a round are uniform and independent, then the joint propensity reported for a slate is exactly the probability that the dataset samples it, the cascade propensity at a position the probability of sampling a slate with the same actions up to the position, and the item-position propensity (if clip_logit_value cuts off no logit) the probability of sampling a slate with the same action there. SIPS applied to the sampled slates, with the evaluation propensities computed by obtain_pscore_given_evaluation_policy_logit, is unbiased for the expected total reward of a slate of the evaluation policy; RIPS is if the mean reward of a position depends only on the actions up to it; IIPS is if it depends only on the action at it and nothing is clipped.", "quantifier": "all numbers of rounds, actions and positions, factorizable or not, default uniform or given behaviour logits, evaluation logits, clip values, reward means and probability spaces of draws", "why_tests_cant": "A statement about probabilities and expectations over the sampled slates; a test sees finitely many seeds and can only check a tolerance.", "anchors": ["obp/dataset/synthetic_slate.py: SyntheticSlateBanditDataset.sample_action_and_obtain_pscore, obtain_pscore_given_evaluation_policy_logit", "obp/ope/estimators_slate.py: SlateStandardIPS, SlateIndependentIPS, SlateRewardInteractionIPS"]}
{"id": "C157", "title": "Estimates from simulated data with action embeddings are unbiased for the reported ground truth", "statement": "SyntheticBanditDatasetWithActionEmbeds defines category distributions for its actions, draws actions from the behaviour policy, embeddings given the actions and rewards given the embeddings, hides the first dimensions of the embeddings and reports expected rewards of the actions. If the random numbers of a round are uniform and independent, then IPW and DR applied to the log are unbiased for the value that calc_ground_truth_policy_value computes from the reported expected rewards (up to the part on deficient actions), and MIPS with the p_e_a of the log is unbiased for it, also with deficient actions, if no hidden dimension is relevant.", "quantifier": "all numbers of rounds, actions, categories, hidden and irrelevant dimensions, category parameters and rewards, behaviour policies, evaluation policies, reward models and probability spaces of draws", "why_tests_cant": "A statement about expectations over actions, embeddings and rewards; a test sees finitely many seeds and can only check a tolerance.", "anchors": ["obp/dataset/synthetic_embed.py: SyntheticBanditDatasetWithActionEmbeds._define_action_embed, obtain_batch_bandit_feedback", "obp/ope/estimators_embed.py: MarginalizedInverseProbabilityWeighting", "obp/dataset/synthetic.py: calc_ground_truth_policy_value"]}
{"id": "C158", "title": "Loading the Open Bandit Dataset keeps rounds intact, in the order of time, and encodes features without loss", "statement": "OpenBanditDataset reads a log file and a file of item features. The loaded columns are the rows of the file in the order of their timestamps, action, reward and propensity of a round coming from the same row. Positions are renumbered 0, 1, … without gaps in the order of the file's positions, and len_list is their number. Two rounds have the same context exactly if all their user features agree, and all contexts have dim_context entries, one for every value of a feature but one. Row a of action_context describes item a and codes its features in their order; its length is n_actions. A split in time never puts a later round into the training part than into the test part. The context contains the user-item affinity scores, as documented. Unknown policies, campaigns and paths are refused.", "quantifier": "all log files and item files (any number of rows, features, values, positions), all sorts by timestamp, stable or not, all test sizes in [0, 1], all names of policies, campaigns and paths", "why_tests_cant": "Tests load the one small file that is shipped, which is sorted by item and contains all items; alignment, loss of information and behaviour on other files cannot be settled by it.", "anchors": ["obp/dataset/real.py: OpenBanditDataset.__post_init__", "obp/dataset/real.py: OpenBanditDataset.load_raw_data", "obp/dataset/real.py: OpenBanditDataset.pre_process", "obp/dataset/real.py: OpenBanditDataset.n_rounds", "obp/dataset/real.py: OpenBanditDataset.len_list", "obp/dataset/real.py: OpenBanditDataset.dim_context", "obp/dataset/real.py: OpenBanditDataset.obtain_batch_bandit_feedback"]}
{"id": "C159", "title": "Kernelised estimates from simulated continuous-action data are unbiased up to smoothing, and the bias vanishes with the bandwidth", "statement": "For a batch of any number of rounds from the synthetic dataset with continuous actions (logged by a policy function with noise, truncated to the bounds, or uniformly between finite bounds) and evaluation actions fixed given the contexts, the kernelised IPW estimate has as its expectation the average of the expected reward smoothed by the kernel over the allowed actions around each evaluation action, and the kernelised DR estimate the average prediction plus the average smoothed error of the predictions. If the expected reward changes by at most L per unit of action and the kernel stays inside the bounds, IPW differs in expectation by at most L*h from calc_ground_truth_policy_value; DR with predictions exact at the evaluation actions does so wherever the evaluation actions lie. For continuous expected rewards (all built-in functions) and evaluation actions strictly inside the bounds both expectations tend to the ground truth as h tends to 0, whatever the predictions. At a bound the IPW estimate loses half of the reward for every bandwidth.", "quantifier": "all numbers of rounds, contexts, behaviour policies, bounds, noise levels, expected reward functions (continuous and, for the limit with the Gaussian kernel, of at most quadratic growth, as all built-in ones are), the five kernels, bandwidths, evaluation actions and predictions; all probability spaces with uniform numbers for the actions and mean-zero noise independent of them", "why_tests_cant": "an expectation over the dataset's continuous sampling and the limit in the bandwidth cannot be observed on finitely many runs", "anchors": ["obp/dataset/synthetic_continuous.py: SyntheticContinuousBanditDataset.obtain_batch_bandit_feedback", "obp/dataset/synthetic_continuous.py: SyntheticContinuousBanditDataset.calc_ground_truth_policy_value", "obp/ope/estimators_continuous.py: KernelizedInverseProbabilityWeighting", "obp/ope/estimators_continuous.py: KernelizedDoublyRobust"]}
{"id": "C160", "title": "Slate estimates are consistent", "statement": "With more and more independent logged slates, the estimates of SIPS, IIPS, RIPS, their self-normalised versions and the cascade doubly robust estimator tend with probability one to the expected total reward of a slate of the evaluation policy. Each estimator needs its own assumption: none about the rewards for (SN)SIPS, rewards of a slot that depend only on the action there for (SN)IIPS, and only on the actions down to it for (SN)RIPS and the cascade doubly robust estimator, and that the logging policy can show the part of a slate on which the estimator weights. The cascade doubly robust estimator needs no correct reward model.", "quantifier": "all context spaces and distributions, logging and evaluation policies, slate lengths, numbers of actions, reward distributions with integrable weighted rewards, bounded reward models, and almost every sequence of logged slates", "why_tests_cant": "Convergence with probability one is about infinite sequences of random logs and all distributions; a test sees a finite log of one distribution and cannot tell slow convergence from a small bias.", "anchors": ["obp/ope/estimators_slate.py: SlateStandardIPS, SlateIndependentIPS, SlateRewardInteractionIPS, SelfNormalizedSlateStandardIPS, SelfNormalizedSlateIndependentIPS, SelfNormalizedSlateRewardInteractionIPS, SlateCascadeDoublyRobust"]}
{"id": "C161", "title": "Kernelised estimates are consistent for the smoothed value", "statement": "With more and more independent rounds logged by a continuous logging policy, the estimates of the kernelised IPW, self-normalised IPW and doubly robust estimators for a deterministic evaluation policy tend, for a fixed bandwidth and with probability one, to the value of the policy smoothed by the kernel. The smoothed value differs from the value of the policy by at most the Lipschitz constant of the expected reward times the bandwidth. The doubly robust estimator needs no correct reward model.", "quantifier": "all context spaces and distributions, logging densities, deterministic evaluation policies, kernels, positive bandwidths, reward distributions with integrable weighted rewards, integrable reward models, and almost every sequence of logged rounds", "why_tests_cant": "Convergence with probability one is about infinite sequences of random logs and all distributions; a test with a finite log cannot tell the sampling error, the smoothing bias and a wrong normalisation of the kernel apart.", "anchors": ["obp/ope/estimators_continuous.py: KernelizedInverseProbabilityWeighting, KernelizedSelfNormalizedInverseProbabilityWeighting, KernelizedDoublyRobust"]}
{"id": "C162", "title": "Estimates from several loggers are consistent", "statement": "If several loggers keep logging independent rounds and the share of each logger in the pooled log tends to a positive limit, then the naive, weighted and balanced IPW and doubly robust estimates tend with probability one to the value of the evaluation policy. The naive and weighted estimators need that every logger can take what the evaluation policy takes; the balanced ones only that some logger can. The weighted ones need that the estimates of no logger are constant. The doubly robust ones need no correct reward model.", "quantifier": "all numbers of loggers, context spaces and distributions, logging and evaluation policies, ways in which the logs grow, reward distributions with integrable weighted rewards, integrable reward models, and almost every sequence of logged rounds", "why_tests_cant": "Convergence with probability one is about infinite sequences of random logs and all distributions and mixes of loggers; a test with a finite log of two loggers cannot tell a bias from sampling error.", "anchors": ["obp/ope/estimators_multi.py: MultiLoggersNaiveInverseProbabilityWeighting, MultiLoggersWeightedInverseProbabilityWeighting, MultiLoggersBalancedInverseProbabilityWeighting, MultiLoggersNaiveDoublyRobust, MultiLoggersWeightedDoublyRobust, MultiLoggersBalancedDoublyRobust"]}
{"id": "C163", "title": "Marginalised estimates are consistent", "statement": "If rewards depend on the action only through its embedding, then with more and more independent rounds the marginalised IPW estimate and its self-normalised version, given the true embedding probabilities, tend with probability one to the value of the evaluation policy. The evaluation policy may take actions that the logging policy never takes, as long as it leads to no embedding that the logging policy never leads to. Embeddings with several dimensions need independent dimensions under both policies; one dimension needs nothing more.", "quantifier": "all context spaces and distributions, numbers of actions, embedding probabilities, logging and evaluation policies, reward distributions with integrable weighted rewards, and almost every sequence of logged rounds", "why_tests_cant": "Convergence with probability one is about infinite sequences of random logs and all distributions; a test with a finite log cannot tell a small bias from sampling error.", "anchors": ["obp/ope/estimators_embed.py: MarginalizedInverseProbabilityWeighting, SelfNormalizedMarginalizedInverseProbabilityWeighting"]}
{"id": "C164", "title": "Variance reduction claims hold", "statement": "Over repetitions of the logging process: with rewards of size at most R the variance of the IPW estimate with lambda_ = l over n rounds is at most (l R)^2 / n, whatever the policies are. Among all reward models the expected reward itself gives the doubly robust estimate of least variance; with it the doubly robust estimate varies no more than the IPW estimate, and not at all if the reward of every action is fixed. With several loggers the balanced IPW and DR estimates vary no more than the naive ones, provided that every logger can take what the evaluation policy takes. If rewards depend on the action only through its embedding, the marginalised IPW estimate varies no more than the IPW estimate on the same rounds.", "quantifier": "all numbers of rounds, actions, loggers and embeddings, all logging and evaluation policies, reward models and reward distributions", "why_tests_cant": "A variance is a statement about all logs at once, weighted by their probabilities; a test can only compare a sample of runs on a few policies.", "anchors": ["obp/ope/estimators.py: InverseProbabilityWeighting, DoublyRobust", "obp/ope/estimators_multi.py: MultiLoggersNaiveInverseProbabilityWeighting, MultiLoggersBalancedInverseProbabilityWeighting, MultiLoggersNaiveDoublyRobust, MultiLoggersBalancedDoublyRobust", "obp/ope/estimators_embed.py: MarginalizedInverseProbabilityWeighting"]}
{"id": "C165", "title": "The empirical Bernstein lower bound covers", "statement": "For two or more independent, identically distributed, bounded random numbers not above x_max, estimate_bernstein_lower_bound(x, x_max, delta) exceeds their expected value with probability at most delta. In particular, the bound of the per-round values of inverse propensity weighting exceeds the value of the evaluation policy with probability at most delta.", "quantifier": "all sample sizes from two on, distributions, bounds, confidence levels in (0, 1], and for the second part all logging processes with bounded rewards and bounded weights", "why_tests_cant": "coverage is a statement about the distribution of the sample; a simulation checks one distribution up to noise", "anchors": ["obp/ope/helper.py:estimate_bernstein_lower_bound"]}
{"id": "C166", "title": "The high-probability bound of the bias covers", "statement": "For independent rounds with the same distribution, prediction errors of at most one and modified weights between zero and the importance weights, estimate_high_probability_upper_bound_bias(reward, iw, iw_hat, q_hat, delta) is below the size of the bias, |E[(iw - iw_hat) (reward - q_hat)]|, with probability at most delta.", "quantifier": "all numbers of rounds, joint distributions of rewards, weights, modified weights and predictions within these bounds, and confidence levels in (0, 1]", "why_tests_cant": "coverage is a statement about the distribution of the log; a simulation checks one distribution up to noise", "anchors": ["obp/ope/helper.py:estimate_high_probability_upper_bound_bias", "obp/ope/helper.py:estimate_bias_in_ope"]}
{"id": "C167", "title": "EpsilonGreedy finds the best action in the online simulator", "statement": "Run an EpsilonGreedy policy with 0 < epsilon <= 1 through BanditPolicySimulator in a stationary environment with bounded rewards, with any number of actions, list length and batch size. Almost surely no step fails, the average reward the policy records for each action converges to the action's expected reward, from some round on every exploiting step plays an action with the largest expected reward, and the simulator's average reward converges to (1 - epsilon) times the largest expected reward plus epsilon times the average expected reward. With epsilon = 0 this is false: with positive probability the policy plays a worse action forever. The Random policy (epsilon = 1) earns on average the plain average of the expected rewards in the long run, falling short of the best action by the average gap.", "quantifier": "every stationary environment with bounded rewards (the rewards of a round may depend on each other), every n_actions, len_list, batch_size accepted by the constructor, every epsilon in (0, 1], every order np.argsort uses for ties, almost every sequence of draws", "why_tests_cant": "it is a statement about infinite runs and almost all random sequences; a test sees one seed for finitely many rounds and cannot tell slow convergence from none", "anchors": ["obp/policy/contextfree.py: EpsilonGreedy.select_action, update_params", "obp/policy/base.py: BaseContextFreePolicy.__post_init__", "obp/simulator/simulator.py: BanditPolicySimulator.step, steps", "obp/policy/contextfree.py:Random"]}
{"id": "C168", "title": "Replaying a uniformly logged data set is playing online for a random number of rounds", "statement": "run_bandit_replay over n rounds of a stationary environment whose actions were logged uniformly at random leaves the policy in a state distributed as after k rounds of online play in the same environment, where k is binomial with n trials and success probability 1 / n_actions: the expectation of any quantity computed from what the policy has learnt agrees.", "quantifier": "every stationary environment with finitely many outcomes (context and reward of every action may depend on each other), every context-free or contextual policy that selects one action per round from its memory, the context and fresh random draws, every number of rounds and every quantity", "why_tests_cant": "equality of two distributions over histories for all policies; a test can compare averages for one policy and one environment up to noise", "anchors": ["obp/simulator/replay.py: run_bandit_replay", "obp/simulator/simulator.py: BanditPolicySimulator.step"]}
{"id": "C169", "title": "The bias of clipped, switched and shrunk estimates is what they do not take from the log", "statement": "With true propensities, the expectation of InverseProbabilityWeighting, SubGaussianInverseProbabilityWeighting, DoublyRobust, SwitchDoublyRobust, DoublyRobustWithShrinkage, SubGaussianDoublyRobust (with a positive finite lambda_, below one for the sub-Gaussian versions) and DirectMethod is the value of the evaluation policy plus the mean over rounds of the evaluation probability that is not evaluated from logged rewards times the error made in its place (prediction minus expected reward, or minus the expected reward without a reward model). The lost probability of an action with evaluation probability e and behaviour probability b is max(0, e - lambda_ b) for clipping, e if e > lambda_ b for switching, e^3/(e^2 + lambda_ b^2) for shrinkage, lambda_ e (e - b)/((1 - lambda_) b + lambda_ e) for the sub-Gaussian weights and e for the direct method. Hence: exact predictions make all estimators with a reward model unbiased whatever lambda_ and the support; predictions wrong by at most eps give a bias of at most eps (for the sub-Gaussian version, of at most eps times the sum of absolute differences between the two policies, so at most 2 eps); a lambda_ that no weight exceeds leaves clipping and switching unbiased; with non-negative rewards clipped IPW never overestimates in expectation and gets closer as lambda_ is raised.", "quantifier": "all numbers of rounds, actions, positions and reward outcomes, all behaviour and evaluation policies (with or without common support), reward laws, predictions and lambda_", "why_tests_cant": "Expectations over all logs and continuous parameters; a simulation neither separates bias from noise nor covers all processes.", "anchors": ["obp/ope/estimators.py:InverseProbabilityWeighting", "obp/ope/estimators.py:DirectMethod", "obp/ope/estimators.py:DoublyRobust", "obp/ope/estimators.py:SwitchDoublyRobust", "obp/ope/estimators.py:DoublyRobustWithShrinkage", "obp/ope/estimators.py:SubGaussianInverseProbabilityWeighting", "obp/ope/estimators.py:SubGaussianDoublyRobust"]}
{"id": "C170", "title": "LinUCB has sublinear regret when rewards are linear in the context", "statement": "Run LinUCB through BanditPolicySimulator for T rounds with any contexts of squared length at most X, when the reward of each action is the product of the context with fixed coefficients of length at most epsilon. No step fails, and the total reward falls short of that of any other sequence of actions, so of the best one, by at most 2 epsilon sqrt(T (1 + (batch_size - 1) X) (1 + X) n_actions dim log(1 + T X / dim)). So the average reward per round tends to that of the best actions.", "quantifier": "all numbers of rounds and actions, list lengths, batch sizes, dimensions, context sequences, coefficients, epsilon and orders of ties", "why_tests_cant": "A bound for every horizon and every, also adversarial, context sequence; a run shows one sequence.", "anchors": ["obp/policy/linear.py:LinUCB.select_action", "obp/policy/linear.py:BaseLinPolicy.update_params", "obp/simulator/simulator.py:BanditPolicySimulator.step"]}
{"id": "C171", "title": "LinUCB with a large enough epsilon has small regret with high probability when rewards are noisy", "statement": "Run LinUCB through BanditPolicySimulator for T rounds with any contexts of squared length at most X, when rewards of different rounds are independent and the reward of each action is the product of the context with coefficients of length at most S plus sub-Gaussian noise with parameter sigma (for rewards in [lo, hi], sigma = (hi - lo) / 2). If epsilon is at least S + sigma sqrt(dim log(1 + T X / dim) + 2 log(n_actions / delta)), then with probability at least 1 - delta no step fails and the expected rewards of the selected actions add up to at most 2 epsilon sqrt(T (1 + (batch_size - 1) X) (1 + X) n_actions dim log(1 + T X / dim)) less than those of any other sequence of actions. For bounded rewards the expected total reward falls short by at most that plus delta (hi - lo) T.", "quantifier": "all numbers of rounds and actions, list lengths, batch sizes, dimensions, context sequences, coefficients, reward distributions, delta and orders of ties", "why_tests_cant": "A probability bound over all reward sequences for every horizon; the data the policy learns from depend on its own earlier choices, so no simulation settles it.", "anchors": ["obp/policy/linear.py:LinUCB.select_action", "obp/policy/linear.py:BaseLinPolicy.update_params", "obp/simulator/simulator.py:BanditPolicySimulator.step"]}
{"id": "C172", "title": "BernoulliTS finds the best action in the online simulator", "statement": "Run a BernoulliTS policy with any positive prior (alpha, beta) through BanditPolicySimulator in a stationary environment with binary rewards, with any number of actions, list length and batch size. Almost surely no step fails, every action whose expected reward is not the largest is selected in a share of the rounds that goes to zero, and the simulator's average reward converges to the largest expected reward.", "quantifier": "every stationary environment with 0/1 rewards (the rewards of a round may depend on each other, expected rewards may be 0 or 1), every n_actions, len_list, batch_size accepted by the constructor, every positive prior, every order np.argsort uses for ties, almost every sequence of draws", "why_tests_cant": "it is a statement about infinite runs and almost all random sequences; a test sees one seed for finitely many rounds and cannot tell slow convergence from none", "anchors": ["obp/policy/contextfree.py: BernoulliTS.select_action, update_params", "obp/policy/base.py: BaseContextFreePolicy.__post_init__", "obp/simulator/simulator.py: BanditPolicySimulator.step, steps"]}
{"id": "C173", "title": "LinEpsilonGreedy learns linear rewards in the online simulator, whatever the contexts", "statement": "Run LinEpsilonGreedy with 0 < epsilon <= 1 through BanditPolicySimulator for T rounds with any contexts of squared length at most X, when all draws are independent and the reward of each action is the product of the context with coefficients of length at most S plus sub-Gaussian noise with parameter sigma. No step fails. For every delta > 0 the expected total reward falls short of playing any sequence of actions with weight 1 - epsilon and a uniformly drawn action with weight epsilon by at most 1 - epsilon times (S + sigma sqrt(dim log(1 + T X / dim) + 2 log(n_actions / delta))) sqrt(2 T (n_actions / epsilon) (1 + (batch_size - 1) X) (1 + X) n_actions dim log(1 + T X / dim)) + 2 delta S sqrt(X) T. So, per round, the expected reward converges to that of playing the best action for the context with weight 1 - epsilon and a uniformly drawn action with weight epsilon.", "quantifier": "all numbers of rounds and actions, list lengths, batch sizes, dimensions, context sequences (they need not be random or vary), coefficients, reward distributions, epsilon, delta and orders of ties", "why_tests_cant": "It is about expectations over all draws at every horizon, and the data the policy learns from depend on its own earlier choices; a simulation with some contexts cannot tell whether other contexts mislead it.", "anchors": ["obp/policy/linear.py:LinEpsilonGreedy.select_action", "obp/policy/linear.py:BaseLinPolicy.update_params", "obp/simulator/simulator.py:BanditPolicySimulator.step"]}
{"id": "C174", "title": "Errors of the estimates are asymptotically normal", "statement": "On logs of n independent rounds, as n grows, sqrt(n) times the error of the estimated policy value tends in distribution to the normal distribution with mean zero and variance: of the weighted reward (inverse propensity weighting without clipping); of the model value plus weighted residual (doubly robust without clipping, also switch and optimistic shrinkage at infinite lambda_), whether the reward model is right or wrong; of the weighted distance of the reward from the policy value (self-normalised inverse propensity weighting); of the model value plus weighted distance of the residual from the error of the model (self-normalised doubly robust). Calls that fail because all weights are zero have vanishing probability.", "quantifier": "all context spaces, numbers of actions and positions, logging and evaluation policies with full support, reward distributions and reward models for which the named variance is finite and not zero", "why_tests_cant": "It is a limit statement about the distribution of the estimates over all logs; a finite number of simulated logs of some size cannot establish the limit or its variance.", "anchors": ["obp/ope/estimators.py:InverseProbabilityWeighting.estimate_policy_value", "obp/ope/estimators.py:SelfNormalizedInverseProbabilityWeighting.estimate_policy_value", "obp/ope/estimators.py:DoublyRobust.estimate_policy_value", "obp/ope/estimators.py:SelfNormalizedDoublyRobust.estimate_policy_value"]}
{"id": "C175", "title": "How often bootstrap confidence intervals contain the true value", "statement": "On logs of n independent rounds, as n grows, the bootstrap interval of level 1 - alpha with B bootstrap samples contains the true policy value with probability 1 - alpha or more, for inverse propensity weighting and doubly robust estimates without clipping.", "quantifier": "all distributions of independent rounds whose round terms have finite variance, all alpha in [0, 1], all B >= 1", "why_tests_cant": "Coverage is a probability over logs and resampling draws in the limit of large logs; simulations estimate it for one distribution and one size with sampling error.", "anchors": ["obp/utils.py:estimate_confidence_interval_by_bootstrap", "obp/ope/meta.py:OffPolicyEvaluation.estimate_intervals", "obp/ope/estimators.py:InverseProbabilityWeighting.estimate_interval", "obp/ope/estimators.py:DoublyRobust.estimate_interval"]}
{"id": "C176", "title": "Bootstrap intervals of self-normalised estimates account for the normaliser", "statement": "On logs of n independent rounds, as n grows, the bootstrap interval of level 1 - alpha of self-normalised inverse propensity weighting contains the true policy value with a probability near 1 - alpha.", "quantifier": "all distributions of rounds, all alpha in [0, 1], all numbers of bootstrap samples and all draws", "why_tests_cant": "Coverage is a probability over logs and draws; tests see single intervals.", "anchors": ["obp/ope/estimators.py:SelfNormalizedInverseProbabilityWeighting._estimate_round_rewards", "obp/ope/estimators.py:SelfNormalizedInverseProbabilityWeighting.estimate_interval", "obp/utils.py:estimate_confidence_interval_by_bootstrap"]}
{"id": "C177", "title": "Choosing the hyperparameter from the data does not spoil consistency", "statement": "Let a tunable estimator (IPW, DR, Switch-DR, DR with optimistic shrinkage, sub-Gaussian IPW, sub-Gaussian DR) be constructed with a list of candidate hyperparameters and call estimate_policy_value on ever larger logs of independent rounds, with a new object each time. With probability one, the estimate at each candidate has a limit, and the distance of the returned value to the true value of the evaluation policy is in the limit not larger than that of the best candidate. So if one candidate leaves the importance weights as they are, the returned value tends to the true value. On every single log, tuned by MSE, the squared distance between the returned value and the estimate with unmodified weights is at most the score of every candidate.", "quantifier": "all laws of context, action and reward with a finite mean of the weighted reward; all logging and evaluation policies with common support; all reward models; all lists of candidates; both bias estimates; all logs for the inequality", "why_tests_cant": "a limit with probability one over endless random data, and an inequality for every log; a test sees one sample of one size", "anchors": ["obp/ope/estimators_tuning.py: BaseOffPolicyEstimatorTuning.estimate_policy_value_with_tuning, _tune_hyperparam_with_mse, _tune_hyperparam_with_slope", "obp/ope/estimators.py: _estimate_mse_score", "obp/ope/helper.py: estimate_bias_in_ope, estimate_high_probability_upper_bound_bias, estimate_student_t_lower_bound"]}
{"id": "C178", "title": "With estimated propensities, the error of DR is the product of two model errors", "statement": "With use_estimated_pscore=True and any propensity model that is positive where the logging policy is, the expectation of DoublyRobust is the value of the evaluation policy plus the mean, over contexts and over the actions of the evaluation policy, of (1 - true propensity / estimated propensity) times (predicted reward - expected reward), and the estimates on growing logs tend to the same quantity. So it is at most the product of the two largest errors, and zero when either model is right. InverseProbabilityWeighting with estimated propensities misses the value by the mean of the propensity error times the expected reward.", "quantifier": "every finite log-generating process and every infinite stream of i.i.d. rounds with integrable rewards, every evaluation policy (for the limits, one that the logging policy covers), every propensity model positive where logging is, every reward model", "why_tests_cant": "the claim is about an expectation or an almost sure limit under an unknown logging process, for every pair of wrong models; a test sees one sample of one simulator", "anchors": ["obp/ope/estimators.py: DoublyRobust.estimate_policy_value, InverseProbabilityWeighting.estimate_policy_value (use_estimated_pscore)"]}
{"id": "C179", "title": "Policies learned by IPWLearner are good on new contexts", "statement": "Fit IPWLearner (one slot) on n independent logged rounds with true propensities and rewards in [0, R], with a base classifier that returns the rule of highest weighted training accuracy in a class of k decision rules whose actions the logging policy takes with probability at least 1/W. Except with probability delta, the true value of the policy that predict follows on all contexts is at most R*W*sqrt(2*log(2k/delta)/n) below that of the best policy of the class. On ever growing logs the values of the learned policies tend to the best value of the class almost surely, even with unbounded rewards and propensities that get arbitrarily small.", "quantifier": "every distribution of contexts, every logging policy and reward distribution, every finite class of measurable rules, every classifier optimal in the class, every n, every delta", "why_tests_cant": "the claim is about the true value under an unknown distribution and holds with a probability over training logs; a test sees finitely many logs of one simulator", "anchors": ["obp/policy/offline.py: IPWLearner.fit, IPWLearner.predict"]}
{"id": "C180", "title": "The slate dataset accepts exactly the documented settings and derives documented weights from them", "statement": "SyntheticSlateBanditDataset can be constructed exactly if n_unique_action and len_list are integers of at least 2 (len_list at most n_unique_action unless the policy is factorizable), dim_context an integer of at least 1, random_state something numpy accepts as a seed, the reward type, reward structure and decay function one of the documented names, and the click model None, or 'pbm' or 'cascade' with binary rewards and a non-negative float eta; anything else raises TypeError or ValueError. The kept weights are (1/k)^eta at position k for examination ('pbm') or attractiveness ('cascade') and 1 otherwise: probabilities, 1 at the first position, not increasing. The weights between actions are a symmetric matrix of the random numbers (additive structures), those between positions minus the decay of the distance, or zero. (eta=nan is accepted, and every later batch then fails.)", "quantifier": "all argument values (integers, booleans, floats, nan, infinities, other objects), names, seeds and random numbers", "why_tests_cant": "The set of accepted settings is infinite and mixes several conditions; tests list a few bad values.", "anchors": ["obp/dataset/synthetic_slate.py: SyntheticSlateBanditDataset.__post_init__, generate_symmetric_matrix, standard_decay_action_interaction_weight, cascade_decay_action_interaction_weight, exponential_decay_function, inverse_decay_function"]}
{"id": "C181", "title": "Every batch of the slate dataset is complete, well formed and usable by the slate estimators", "statement": "For every accepted setting and every positive number of rounds obtain_batch_bandit_feedback returns a batch: one row per round and position, slate ids counting rounds, positions counting up within rounds, the slate that sequential sampling picks (without repetition unless factorizable), its joint, cascade and (if requested) item-position propensities, the expected rewards times the examination weights, and rewards that are 0 or 1 -- drawn with the expected reward times the attractiveness of the positions after earlier clicks, which is a probability -- or non-negative continuous numbers. Propensities lie in (0, 1], are constant within a slate (joint) or do not increase with the position (cascade). SIPS, RIPS and IIPS accept the batch with the propensities from obtain_pscore_given_evaluation_policy_logit, return the average over rounds of the rewards weighted by the ratios of the corresponding probabilities, and return the on-policy value when the evaluation policy is the behaviour policy. A number of rounds that is not a positive integer and behaviour logits of a wrong shape are refused.", "quantifier": "all accepted settings without nan, numbers of rounds, contexts, behaviour logits, base reward functions (binary: values strictly between 0 and 1; at most 128 actions, see C111), clip values up to 700 and random numbers", "why_tests_cant": "A test draws a few batches from a few settings; which slates, clicks and propensities arise depends on all random numbers and functions.", "anchors": ["obp/dataset/synthetic_slate.py: SyntheticSlateBanditDataset.obtain_batch_bandit_feedback, sample_action_and_obtain_pscore, sample_reward_given_expected_reward, get_marginal_pscore, calc_on_policy_policy_value, obtain_pscore_given_evaluation_policy_logit", "obp/ope/estimators_slate.py: SlateStandardIPS, SlateRewardInteractionIPS, SlateIndependentIPS"]}
{"id": "C182", "title": "Cross-fitted reward predictions leave the doubly robust estimate unbiased", "statement": "When the reward predictions come from RegressionModel.fit_predict with n_folds >= 2 on the very log that is then evaluated, the expectation over all logs of DoublyRobust.estimate_policy_value equals the policy value, whatever the base model learns and for all three fitting methods, provided logging propensities are the true ones, the evaluation policy only takes actions the logging policy can take, and the base model is refitted from scratch (no warm_start). With the default n_folds=1 the estimate can be biased.", "quantifier": "all logging processes with finitely many rewards, evaluation policies supported by the logging policy, base models that forget earlier fits, fitting methods, contexts, action features, positions, and all splits into two or more folds; for the default of one fold a witness", "why_tests_cant": "Unbiasedness is a statement about the average over all logs with predictions that themselves depend on the log; a test sees single logs of single learners.", "anchors": ["obp/ope/regression_model.py: RegressionModel.fit_predict", "obp/ope/estimators.py: DoublyRobust.estimate_policy_value"]}
{"id": "C183", "title": "Errors and bootstrap intervals of slate, kernelised and embedding estimates", "statement": "On logs of n independent rounds, as n grows, sqrt(n) times the error of the estimate tends in distribution to the normal distribution with mean zero and a stated variance: of the total weighted reward of a slate (SIPS, IIPS, RIPS, each under its assumption on user behaviour); of the total weighted distance of the rewards from the values of the slots (SNIIPS, SNRIPS) or from the value (SNSIPS); of the corrected prediction for a slate (Cascade-DR, any bounded reward model); of the kernel-weighted reward, of its distance from the smoothed value, and of the corrected prediction (kernelised IPW, self-normalised IPW and DR, errors measured from the smoothed value); of the reward weighted by embedding probabilities and its distance from the value (MIPS and self-normalised MIPS, when rewards depend on actions only through embeddings). For the estimators without self-normalisation the bootstrap interval of level 1 - alpha with B resamples contains that value with a probability whose limit points lie within 5/(B + 1) of 1 - alpha.", "quantifier": "all context spaces, slate lengths, numbers of actions, kernels, bandwidths, embeddings, logging and evaluation policies with the support each estimator needs, reward distributions with finite and nonzero variance of the named term; all alpha in [0, 1] and B >= 1", "why_tests_cant": "A limit statement about the distribution of estimates and of random intervals over all logs; simulated logs of finite size cannot establish it, and a resampling unit that is wrong (rows instead of slates) shows up only in the coverage.", "anchors": ["obp/ope/estimators_slate.py:BaseSlateInverseProbabilityWeighting._estimate_slate_confidence_interval_by_bootstrap", "obp/ope/estimators_slate.py:SlateStandardIPS", "obp/ope/estimators_slate.py:SlateCascadeDoublyRobust", "obp/ope/estimators_continuous.py:KernelizedInverseProbabilityWeighting", "obp/ope/estimators_continuous.py:KernelizedDoublyRobust", "obp/ope/estimators_embed.py:MarginalizedInverseProbabilityWeighting", "obp/utils.py:estimate_confidence_interval_by_bootstrap"]}
{"id": "C184", "title": "The replay estimate of a learning policy is distributed as its online average reward", "statement": "Over n rounds of a stationary environment whose actions were logged uniformly at random, run_bandit_replay followed by ReplayMethod on the same log gives a number of matched rounds and an estimate that are jointly distributed as k and the average reward of k rounds of online play, where k is binomial with n trials and success probability 1 / n_actions; given k matches, the estimate is unbiased for the expected average reward of k rounds of online play.", "quantifier": "every stationary environment with finitely many outcomes, every context-free or contextual policy that selects one action per round from its memory, the context and fresh random draws, every number of rounds and every function of matches and estimate", "why_tests_cant": "an equality of distributions for every learning policy; the estimate depends on the order of all earlier matches", "anchors": ["obp/simulator/replay.py: run_bandit_replay", "obp/ope/estimators.py: ReplayMethod", "obp/utils.py: convert_to_action_dist"]}
{"id": "C185", "title": "Weighted multi-logger estimates are precision-weighted averages of the loggers' estimates", "statement": "As documented, the result of the weighted multi-logger estimators is the average of the estimates from the rounds of the single loggers, each weighted by its share of the precision: its number of rounds divided by the variance of its terms. The shares are positive and sum to one, so that the result lies between the smallest and the largest of the loggers' estimates.", "quantifier": "all logs of several loggers, evaluation policies, reward models, clipping levels, true and estimated propensity scores, such that no logger's terms are all equal", "why_tests_cant": "A test compares a few logs with a second implementation of the same formula; that the result is a weighted average of the loggers' estimates is a statement about all logs, and the tests check only ranges of the estimates.", "anchors": ["obp/ope/estimators_multi.py:MultiLoggersWeightedInverseProbabilityWeighting", "obp/ope/estimators_multi.py:MultiLoggersWeightedDoublyRobust"]}
{"id": "C186", "title": "Errors with several loggers, and the weights with the smallest variance", "statement": "With independent loggers whose shares of the log tend to positive limits, the errors of the naive, weighted and balanced IPW and doubly robust estimates, times the square root of the number of rounds, are asymptotically normal. Among all ways to weight the loggers, the weighted estimators reach the smallest variance of the errors, so that they are asymptotically at least as precise as the naive ones.", "quantifier": "all numbers of loggers, context spaces and distributions, logging and evaluation policies, ways in which the logs grow, reward distributions with square-integrable terms, reward models, and almost every sequence of logged rounds", "why_tests_cant": "The statement is about a limit of distributions over all logging processes; a test sees a few seeds of one process at one size.", "anchors": ["obp/ope/estimators_multi.py: MultiLoggersNaiveInverseProbabilityWeighting, MultiLoggersWeightedInverseProbabilityWeighting, MultiLoggersBalancedInverseProbabilityWeighting, MultiLoggersNaiveDoublyRobust, MultiLoggersWeightedDoublyRobust, MultiLoggersBalancedDoublyRobust"]}
{"id": "C187", "title": "Intervals from several loggers contain the true value", "statement": "Let independent loggers with their own policies contribute growing logs, each with a share of the rounds that tends to a positive number, and let the evaluation policy take no action that some logger never takes. With larger and larger pooled logs, estimate_interval of MultiLoggersNaiveInverseProbabilityWeighting and MultiLoggersNaiveDoublyRobust contains the true value of the evaluation policy with a probability within 5/(n_bootstrap_samples + 1) of 1 - alpha. For the weighted variants (MultiLoggersWeightedInverseProbabilityWeighting, MultiLoggersWeightedDoublyRobust) the probability is at least 1 - alpha - 5/(n_bootstrap_samples + 1). Reward models of the doubly robust variants may be wrong.", "quantifier": "All numbers of loggers, distributions of contexts and rewards with finite variances of the terms that are averaged, logging and evaluation policies, reward models, limiting shares, alpha in [0, 1], numbers of bootstrap samples, estimators without clipping that takes effect.", "why_tests_cant": "Coverage is a probability over all possible logs and resampling draws, in the limit of large logs; the rounds of the pooled log have different distributions and share weights computed from all of them, so it does not follow from the usual theory for one logger, and simulations only estimate it for one setting.", "anchors": ["obp/ope/estimators_multi.py:MultiLoggersNaiveInverseProbabilityWeighting.estimate_interval", "obp/ope/estimators_multi.py:MultiLoggersWeightedInverseProbabilityWeighting.estimate_interval", "obp/ope/estimators_multi.py:MultiLoggersNaiveDoublyRobust.estimate_interval", "obp/ope/estimators_multi.py:MultiLoggersWeightedDoublyRobust.estimate_interval", "obp/utils.py:estimate_confidence_interval_by_bootstrap"]}
{"id": "C188", "title": "Estimates are the values of the formulas displayed in the documentation", "statement": "For valid logged data and an evaluation policy whose action probabilities sum to one, estimate_policy_value of each single-logger, multiple-logger and kernelised estimator returns the number given by the formula displayed in the documentation of its class (with clipping of the weights at lambda_ where a maximum weight is documented), whenever the denominators of that formula are not zero.", "quantifier": "All numbers of rounds, actions and positions, all logged actions, rewards, propensities and positions, all evaluation policies and reward models, all values of lambda_ or the bandwidth, all kernels.", "why_tests_cant": "A test compares a few numbers, usually with the same code written again; agreement of a formula and a program needs all logs and hyperparameters. A misprint in a formula shows only on logs where both differ.", "anchors": ["obp/ope/estimators.py:InverseProbabilityWeighting", "obp/ope/estimators.py:DoublyRobustWithShrinkage", "obp/ope/estimators.py:SubGaussianDoublyRobust", "obp/ope/estimators_multi.py:MultiLoggersBalancedDoublyRobust", "obp/ope/estimators_continuous.py:KernelizedSelfNormalizedInverseProbabilityWeighting"]}
{"id": "C189", "title": "Large errors of estimates are exponentially unlikely", "statement": "If the terms averaged by an estimator lie in [a, b], then for every number n of logged rounds the probability that estimate_policy_value fails or is off the true policy value by t or more is at most 2 exp(-2 n t^2 / (b - a)^2). This is so for (unclipped) IPW and doubly robust estimates, the direct method (around the value ascribed by its reward model), slate estimates, kernelised estimates (around their smoothed value) and marginalised estimates with embeddings; for several loggers the variance proxy is the sum over the loggers. Self-normalised estimates with rewards in [lo, hi] and weights at most W satisfy the same bound with W (hi - lo) in place of b - a, including the chance that all weights are zero, and so does the replay method with W the number of actions (for a slate of several slots normalised one by one, the bounds of the slots are added); for self-normalised doubly robust estimates the bounds of the mean prediction and of the weighted residuals are added. Solved for n: enough rounds give any accuracy with any probability.", "quantifier": "All n > 0, all t >= 0, all distributions of contexts and rewards, all behavior and evaluation policies with coverage, all reward models, all ranges [a, b] of the terms; no asymptotics.", "why_tests_cant": "A statement on the distribution of the result for every n and every environment; simulation estimates one tail probability of one environment with an error larger than the bound.", "anchors": ["obp/ope/estimators.py:InverseProbabilityWeighting", "obp/ope/estimators.py:SelfNormalizedInverseProbabilityWeighting", "obp/ope/estimators.py:DoublyRobust", "obp/ope/estimators_slate.py:SlateRewardInteractionIPS", "obp/ope/estimators_slate.py:SelfNormalizedSlateStandardIPS", "obp/ope/estimators_continuous.py:KernelizedInverseProbabilityWeighting", "obp/ope/estimators_embed.py:MarginalizedInverseProbabilityWeighting", "obp/ope/estimators_multi.py:MultiLoggersBalancedInverseProbabilityWeighting", "obp/ope/estimators.py:ReplayMethod", "obp/ope/estimators.py:DirectMethod"]}
{"id": "C190", "title": "Cutting off weights bounds the error whatever the importance weights, at the price of a bounded bias", "statement": "With rewards and predictions in [0, R], the estimate of clipped IPW and DR, Switch-DR, DRos and the sub-Gaussian estimators at a fixed lambda_ differs from policy value plus bias by t or more with probability at most 2 exp(-2 n t^2 / (spread R)^2), where spread depends on lambda_ only (lambda_, sqrt(lambda_)/2 or 1/lambda_, times two plus one with a reward model). The bias is at most R times the mean evaluation probability that is not evaluated from the log. Importance weights may be unbounded and actions may never have been logged. If lambda_ is moved with n so slowly that spread^2 / n tends to zero and there is common support, the estimates converge in probability to the policy value although importance weights may be unbounded.", "quantifier": "All n > 0 and t >= 0, all distributions of contexts and rewards in [0, R], all behavior and evaluation policies (common support only for the limit), all reward models with predictions in [0, R], all admissible lambda_ and sequences of them.", "why_tests_cant": "The probability of large errors for every sample size and environment, including environments with unbounded weights, where simulations do not show the rare rounds that decide.", "anchors": ["obp/ope/estimators.py:InverseProbabilityWeighting", "obp/ope/estimators.py:DoublyRobust", "obp/ope/estimators.py:SwitchDoublyRobust", "obp/ope/estimators.py:DoublyRobustWithShrinkage", "obp/ope/estimators.py:SubGaussianInverseProbabilityWeighting", "obp/ope/estimators.py:SubGaussianDoublyRobust"]}
{"id": "C191", "title": "Policies from predicted rewards lose little when predictions are accurate", "statement": "If the rewards predicted by the fitted QLearner differ from the expected rewards by at most e at a context and position, the action of predict there is at most 2e worse than any choice of action, and is the best action if that one is better than all others by more than 2e; the random choice of predict_proba is at most 2e + tau log(n_actions) worse. If every action was logged with probability at least 1/W, the true value of the policy that predict follows on all contexts is below the value of any policy by at most W times the root mean square error of the predictions on logged rounds (plus tau log(n_actions) for predict_proba).", "quantifier": "all base models and their states, fitting methods, contexts, numbers of actions and positions (one position for the second part), temperatures, expected rewards, logging processes and comparison policies", "why_tests_cant": "The claim compares with all policies and covers all models and reward functions; a test fixes one of each.", "anchors": ["obp/policy/offline.py:QLearner.predict", "obp/policy/offline.py:QLearner.predict_proba", "obp/policy/offline.py:QLearner.predict_score"]}
{"id": "C192", "title": "Student's lower bound covers in the limit", "statement": "For independent random numbers with the same distribution, of finite positive variance but not necessarily normal or bounded, estimate_student_t_lower_bound(x, delta) of n of them is at most their expected value with a probability that tends to 1 - delta as n grows. In particular the bound of the per-round values of inverse propensity weighting and doubly robust estimation without clipping is at most the value of the evaluation policy with a probability that tends to 1 - delta, whether the reward model is right or wrong. For a given n there is no such guarantee, not even for numbers between 0 and 1.", "quantifier": "All distributions with finite positive variance, all delta strictly between 0 and 1, all behavior and evaluation policies with coverage, all reward models; for the negative part, all n >= 2, all delta < 1 and whatever the quantiles.", "why_tests_cant": "The claim is about the limit of probabilities over all distributions of the sample.", "anchors": ["obp/ope/helper.py:estimate_student_t_lower_bound", "obp/ope/estimators.py:InverseProbabilityWeighting._estimate_round_rewards", "obp/ope/estimators.py:DoublyRobust._estimate_round_rewards"]}
{"id": "C193", "title": "SLOPE is almost as good as an oracle with high probability", "statement": "Let a tunable estimator with tuning_method=\"slope\" and k candidate hyperparameters be called on ever larger logs of independent rounds, with a new object each time. Let the mean of each candidate's estimates differ from the value of the evaluation policy by at most its bias, where candidates with larger variance have a smaller bias. With a probability that is in the limit at least 1 - 2 k delta, the returned value differs from the value of the evaluation policy by at most sqrt(6) + 3 times the smallest, over the candidates, of bias plus standard error times the normal quantile of level 1 - delta (times any factor above one).", "quantifier": "All distributions of contexts and rewards for which the per-round values have a variance (which may be zero for some candidates), all behavior and evaluation policies with coverage, all reward models, all lists of admissible candidates, all delta for which the quantile is positive, all factors above one.", "why_tests_cant": "The claim is about the limit of probabilities over all distributions of the logged data.", "anchors": ["obp/ope/estimators_tuning.py:BaseOffPolicyEstimatorTuning._tune_hyperparam_with_slope", "obp/ope/estimators_tuning.py:BaseOffPolicyEstimatorTuning.estimate_policy_value_with_tuning", "obp/ope/helper.py:estimate_student_t_lower_bound"]}
{"id": "C194", "title": "Cross-fitted doubly robust estimates are almost as precise as with the best reward model", "statement": "Let the reward predictions come from RegressionModel.fit_predict with n_folds = k >= 2 on the very log that DoublyRobust then evaluates. The standard error of estimate_policy_value exceeds the one with any fixed predictions, the true expected rewards included, by at most the square root of k W / n times the root mean square error of the predictions under the evaluation policy, where n is the number of rounds and W the largest importance weight. The estimate differs from the one with given fixed predictions by at most that, in root mean square, with the difference to these predictions in place of the error.", "quantifier": "all logging processes with finitely many outcomes per round, contexts, positions, evaluation policies with coverage, base models that forget earlier fits, fitting methods, numbers of folds from two on, splits into folds, fixed predictions and numbers of rounds", "why_tests_cant": "The log is used twice, for training and for evaluation, and rounds of different folds depend on each other through the models; the claim is about the distribution of estimates over all logs and about arbitrary base models.", "anchors": ["obp/ope/regression_model.py: RegressionModel.fit_predict", "obp/ope/estimators.py: DoublyRobust.estimate_policy_value"]}
{"id": "C195", "title": "Choosing the candidate policy with the largest estimate", "statement": "Several candidate policies are evaluated with the same estimator on one and the same log, and the one with the largest estimate is chosen. Unless an event of small probability occurs, every candidate gets an estimate and no candidate is better than the chosen one by 2t or more: the probability is at most 2 J exp(-2 n t^2 / (W R)^2) for J candidates, n rounds, rewards in [0, R] and weights at most W (unclipped inverse propensity weighting; self-normalised with the spread of the rewards for R; doubly robust with the range of the terms of each candidate, whatever the reward models). Hence 2 (W R)^2 ln(2 J / delta) / eps^2 rounds are enough to lose less than eps with probability 1 - delta. Estimators with a finite hyperparameter add R times the probability that the hyperparameter takes from the two candidates, and need no bound on the weights. For consistent estimates, the chosen candidate is almost surely a best one from some number of rounds on.", "quantifier": "all laws of contexts and rewards, logging policies, finite families of candidate policies (and of reward models), numbers of rounds, t; ties broken in any way", "why_tests_cant": "The claim is about probabilities over all logs, and about a maximum of estimates that depend on each other; a test sees a few logs.", "anchors": ["obp/ope/estimators.py:InverseProbabilityWeighting.estimate_policy_value", "obp/ope/estimators.py:SelfNormalizedInverseProbabilityWeighting", "obp/ope/estimators.py:DoublyRobust.estimate_policy_value", "obp/ope/estimators.py:SwitchDoublyRobust", "obp/ope/estimators.py:DoublyRobustWithShrinkage", "obp/ope/estimators.py:SubGaussianInverseProbabilityWeighting", "obp/ope/meta.py:OffPolicyEvaluation.visualize_off_policy_estimates_of_multiple_policies"]}
{"id": "C196", "title": "Training gradients of NNPolicyLearner are unbiased", "statement": "On a mini-batch of logged rounds, the gradient of NNPolicyLearner's training loss (without penalties) is, on average over the log, minus the gradient of the true policy value: for the objective ipw, for dr with any reward predictions, and for snipw with any shift lambda_. For dm the gradient does not depend on the log and is the true one if the predictions are right up to an amount that does not depend on the action. For ipw-os and ipw-subgauss it is on average the gradient of the expectation of the corresponding estimate.", "quantifier": "all reward laws, logging policies with positive probabilities, batches of at least two rounds, differentiable families of policies with positive probabilities, predictions that do not depend on the batch, shifts", "why_tests_cant": "Expectations over all logs and derivatives at all parameters.", "anchors": ["obp/policy/offline.py:NNPolicyLearner._estimate_policy_gradient", "obp/policy/offline.py:NNPolicyLearner.fit"]}
{"id": "C197", "title": "The loss measures the policy, and the penalties are what their names say", "statement": "The training loss of NNPolicyLearner, which decides about the end of training, is lower for policies with higher estimated value; var_reg_param penalises the sample variance of the estimate; policy_reg_param does not draw the policy away from the logged actions.", "quantifier": "all batches and policies", "why_tests_cant": "Real-valued probabilities and rewards, any batch.", "anchors": ["obp/policy/offline.py:NNPolicyLearner._estimate_policy_gradient", "obp/policy/offline.py:NNPolicyLearner.fit"]}
{"id": "C198", "title": "The estimate of a randomised mixture of policies follows from the candidates' estimates", "statement": "Let an evaluation policy act like candidate k with probability c_k, so that its action_dist is the sum over k of c_k times the candidates' action_dist. On the same log with the same propensities and reward predictions, IPW and DR without clipping and DM return exactly the sum over k of c_k times the candidates' estimates. So according to these estimators randomising never pays: the estimate of the mixture is at most the largest and at least the smallest estimate of the candidates. SNIPW returns a weighted mean of the candidates' estimates too, with weights proportional to c_k times the candidate's mean importance weight. With a clipping threshold and non-negative rewards IPW returns at least the mixture of the estimates, and it can return more than the estimate of every candidate. RM uses only the rounds matched by every candidate of positive probability, and returns 0 when there are none. The identity also holds for the naive and balanced IPW and DR estimators for several loggers, for SIPS, IIPS and RIPS when the candidate is picked once per slate, and for MIPS with one embedding dimension; with several embedding dimensions MIPS can give the mixture less than every candidate.", "quantifier": "every log with at least one round and positive propensities, every number of candidates whose action_dist rows are probability distributions, every distribution over the candidates, logged or estimated propensities, and for clipped IPW every threshold", "why_tests_cant": "The identities relate estimates of infinitely many policies on every log, and tests evaluate one policy at a time.", "anchors": ["obp/ope/estimators.py:InverseProbabilityWeighting", "obp/ope/estimators.py:SelfNormalizedInverseProbabilityWeighting", "obp/ope/estimators.py:DirectMethod", "obp/ope/estimators.py:DoublyRobust", "obp/ope/estimators.py:ReplayMethod", "obp/ope/estimators_multi.py:MultiLoggersBalancedInverseProbabilityWeighting", "obp/ope/estimators_multi.py:MultiLoggersBalancedDoublyRobust", "obp/ope/estimators_slate.py:SlateStandardIPS", "obp/ope/estimators_slate.py:SlateRewardInteractionIPS", "obp/ope/estimators_embed.py:MarginalizedInverseProbabilityWeighting"]}
{"id": "C199", "title": "A log may be evaluated in parts and the estimates combined", "statement": "Let a log consist of the rounds of one log followed by the rounds of another. If both parts give an estimate, then IPW, DM, DR, Switch-DR, DR with optimistic shrinkage and both sub-Gaussian estimators return for the whole log the average of the two estimates weighted by the numbers of rounds; SNIPW returns their average weighted by the total importance weights of the parts, RM their average weighted by the numbers of matched rounds, and balanced OPE their average weighted by the totals of the clipped estimated importance weights. SNDR returns the DM estimate of the whole log plus the average of the differences between SNDR and DM on the parts, weighted by the total importance weights. Recording every round twice changes no estimate of any estimator. SIPS, IIPS and RIPS return the average weighted by the numbers of slates provided that no slate id occurs in both parts; a slate id that has the same position in both parts is refused with ValueError, and one that only has different positions is read as one slate. The rule for IPW and DR also holds for the naive and balanced estimators for several loggers and for the kernelized estimators for continuous actions; the kernelized SNIPW weights the parts by their total kernel weights.", "quantifier": "every two logs with at least one round each and positive propensities, over every number of actions and positions, every clipping threshold or shrinkage parameter, true or estimated propensities; every two slate logs", "why_tests_cant": "The identities are about every split of every log and every hyper-parameter; a test fixes a log, a split and an estimator, and cannot tell for instance that the correct weights differ between SNIPW and IPW.", "anchors": ["obp/ope/estimators.py:BaseOffPolicyEstimator", "obp/ope/estimators.py:ReplayMethod", "obp/ope/estimators.py:InverseProbabilityWeighting", "obp/ope/estimators.py:SelfNormalizedInverseProbabilityWeighting", "obp/ope/estimators.py:DirectMethod", "obp/ope/estimators.py:DoublyRobust", "obp/ope/estimators.py:SelfNormalizedDoublyRobust", "obp/ope/estimators.py:BalancedInverseProbabilityWeighting", "obp/ope/estimators.py:SwitchDoublyRobust", "obp/ope/estimators.py:DoublyRobustWithShrinkage", "obp/ope/estimators.py:SubGaussianInverseProbabilityWeighting", "obp/ope/estimators.py:SubGaussianDoublyRobust", "obp/ope/estimators_slate.py:SlateStandardIPS", "obp/ope/estimators_slate.py:SlateIndependentIPS", "obp/ope/estimators_slate.py:SlateRewardInteractionIPS", "obp/utils.py:check_sips_inputs", "obp/ope/estimators_multi.py:MultiLoggersNaiveInverseProbabilityWeighting", "obp/ope/estimators_multi.py:MultiLoggersBalancedInverseProbabilityWeighting", "obp/ope/estimators_continuous.py:KernelizedInverseProbabilityWeighting"]}
{"id": "C200", "title": "One logged round has bounded influence exactly when weights are cut off", "statement": "Let two logs of n rounds agree in all rounds but one, which may differ in action, reward, propensities, evaluation probabilities and predictions. Then IPW, DM, DR, Switch-DR, DR with optimistic shrinkage and the sub-Gaussian estimators differ by exactly the difference of the estimates computed from the exchanged round alone, divided by n. So if the hyper-parameter keeps the applied weights below B and rewards lie in [0, R], IPW and the sub-Gaussian IPW move by at most B R / n; the doubly robust estimators with rewards and predictions in [lo, hi] move by at most (1 + 2 B)(hi - lo) / n, and DM by at most (hi - lo) / n. SNIPW and balanced OPE move by at most hi - lo times the round's share of the total weight, SNDR by at most hi - lo times 1/n plus twice that share, RM by at most hi - lo divided by the number of matched rounds. Without a cut-off IPW and DR have no such bound: changing one propensity can move the estimate by more than any given number, for any number of rounds. For slate logs that differ only in the rows of one slate, SIPS, IIPS and RIPS differ by exactly the change of that slate's total weighted reward divided by the number of slates, hence by at most W R over the number of slates if the slate's weights are at most W and its rewards are non-negative with total at most R. Kernelized IPW and DR for continuous actions obey the same exchange rule; every kernel k is largest at 0 and at most 1, so with rewards in [0, R] and densities at least p one round moves kernelized IPW with bandwidth b by at most k(0) R / (p b n). The naive and balanced IPW and DR estimates of a pooled log of several loggers obey the exchange rule as well, and balanced IPW with weights cut off at B and rewards in [0, R] moves by at most B R / n.", "quantifier": "every two logs with positive propensities that differ in one round, every number of rounds, actions and positions, true or estimated propensities, every hyper-parameter, every bound of rewards and predictions; every two slate logs that differ in one slate; every two logs with continuous actions that differ in one round, every kernel and positive bandwidth; every two pooled logs of several loggers that differ in one round", "why_tests_cant": "It bounds the effect of every conceivable record, including the most extreme propensity, on every log; a test can only exchange particular rounds.", "anchors": ["obp/ope/estimators.py:ReplayMethod", "obp/ope/estimators.py:InverseProbabilityWeighting", "obp/ope/estimators.py:SelfNormalizedInverseProbabilityWeighting", "obp/ope/estimators.py:DirectMethod", "obp/ope/estimators.py:DoublyRobust", "obp/ope/estimators.py:SelfNormalizedDoublyRobust", "obp/ope/estimators.py:SwitchDoublyRobust", "obp/ope/estimators.py:DoublyRobustWithShrinkage", "obp/ope/estimators.py:SubGaussianInverseProbabilityWeighting", "obp/ope/estimators.py:SubGaussianDoublyRobust", "obp/ope/estimators.py:BalancedInverseProbabilityWeighting", "obp/ope/estimators_slate.py:SlateStandardIPS", "obp/ope/estimators_slate.py:SlateIndependentIPS", "obp/ope/estimators_slate.py:SlateRewardInteractionIPS", "obp/ope/estimators_continuous.py:KernelizedInverseProbabilityWeighting", "obp/ope/estimators_continuous.py:KernelizedDoublyRobust", "obp/ope/estimators_multi.py:MultiLoggersNaiveInverseProbabilityWeighting", "obp/ope/estimators_multi.py:MultiLoggersBalancedInverseProbabilityWeighting", "obp/ope/estimators_multi.py:MultiLoggersNaiveDoublyRobust", "obp/ope/estimators_multi.py:MultiLoggersBalancedDoublyRobust"]}
{"id": "C201", "title": "Names of actions, positions, loggers and slates do not matter, and estimates follow the zero of rewards except for IPW", "statement": "If a log is written with other numbers for the actions and positions (in action, position, action_dist and the predictions alike), possibly with further actions that the evaluation policy never takes and for which anything may be predicted, each of the eleven single-logger estimators and each of the six estimators for several loggers returns the same estimate or fails alike. Exchanging the numbers 0..m-1 of the loggers in stratum_idx changes no estimate. Other slate ids that keep different slates apart leave every slate estimate, and whether the log is accepted, unchanged. Adding a number d to all rewards and all predictions adds exactly d to the estimates of DM, DR, SNDR, Switch-DR, DR with optimistic shrinkage, sub-Gaussian DR, SNIPW and balanced OPE, and of the naive, balanced and weighted DR for several loggers, for every hyper-parameter, and to RM unless no action matches (then the estimate stays 0). IPW and sub-Gaussian IPW do depend on the zero of rewards: they move by d times the average weight they apply.", "quantifier": "every valid log and its renamings, every injective renaming of actions, every renaming of positions, every number of unused actions; every slate log; every d, every estimator and hyper-parameter, true and estimated propensities", "why_tests_cant": "A test renames the actions of particular logs; that no estimator treats some action, position or id specially, or mixes up an axis, concerns all logs and all renamings.", "anchors": ["obp/ope/estimators.py:ReplayMethod", "obp/ope/estimators.py:InverseProbabilityWeighting", "obp/ope/estimators.py:SelfNormalizedInverseProbabilityWeighting", "obp/ope/estimators.py:DirectMethod", "obp/ope/estimators.py:DoublyRobust", "obp/ope/estimators.py:SelfNormalizedDoublyRobust", "obp/ope/estimators.py:SwitchDoublyRobust", "obp/ope/estimators.py:DoublyRobustWithShrinkage", "obp/ope/estimators.py:SubGaussianInverseProbabilityWeighting", "obp/ope/estimators.py:SubGaussianDoublyRobust", "obp/ope/estimators.py:BalancedInverseProbabilityWeighting", "obp/ope/estimators_slate.py:SlateStandardIPS", "obp/ope/estimators_slate.py:SlateIndependentIPS", "obp/ope/estimators_slate.py:SlateRewardInteractionIPS", "obp/ope/estimators_multi.py:MultiLoggersNaiveInverseProbabilityWeighting", "obp/ope/estimators_multi.py:MultiLoggersBalancedInverseProbabilityWeighting", "obp/ope/estimators_multi.py:MultiLoggersWeightedInverseProbabilityWeighting", "obp/ope/estimators_multi.py:MultiLoggersNaiveDoublyRobust", "obp/ope/estimators_multi.py:MultiLoggersBalancedDoublyRobust", "obp/ope/estimators_multi.py:MultiLoggersWeightedDoublyRobust"]}
{"id": "C202", "title": "Origin, unit and direction of the action axis do not matter to the kernelised estimators", "statement": "Let logged and evaluation actions be recorded as s*a + t instead of a (another origin, another unit, possibly the opposite direction), with densities per new unit (pscore divided by |s|) and the bandwidth in the new unit (times |s|). Then KernelizedInverseProbabilityWeighting, KernelizedSelfNormalizedInverseProbabilityWeighting and KernelizedDoublyRobust return the same estimate, or fail alike, for each of the four kernels. Adding d to all rewards and predictions adds exactly d to the self-normalised and doubly robust estimates; the IPW estimate moves by d times the average kernel weight divided by the bandwidth.", "quantifier": "every valid log of any number of rounds, every kernel, every non-zero bandwidth, every s other than 0 and every t, every d", "why_tests_cant": "A test rescales particular logs; that bandwidth, density and kernel argument carry the same unit everywhere, and that no kernel prefers a direction, concerns all logs and all scales.", "anchors": ["obp/ope/estimators_continuous.py:KernelizedInverseProbabilityWeighting", "obp/ope/estimators_continuous.py:KernelizedSelfNormalizedInverseProbabilityWeighting", "obp/ope/estimators_continuous.py:KernelizedDoublyRobust", "obp/ope/estimators_continuous.py:triangular_kernel", "obp/ope/estimators_continuous.py:gaussian_kernel", "obp/ope/estimators_continuous.py:epanechnikov_kernel", "obp/ope/estimators_continuous.py:cosine_kernel"]}
{"id": "C203", "title": "Estimates follow the unit of rewards and, except for the weighted multi-logger ones, never fall when rewards rise", "statement": "Multiplying all rewards and all predictions by a number c multiplies the estimate of each of the eleven single-logger estimators, of the three kernelised estimators, of the six slate estimators (IPS and self-normalised) and, for c other than 0, of the six estimators for several loggers by c, and an estimator that fails on one of the logs fails alike on the other. If the rewards of some rounds are replaced by larger ones and all else stays the same, then the single-logger, kernelised and slate estimators with an allowed hyper-parameter, and the naive and balanced estimators for several loggers, still return an estimate if they did, and never a smaller one. Larger predictions never lower the estimate of the direct method; they may lower that of DR. The estimates of the weighted estimators for several loggers may fall when a reward rises, because the weights depend on the rewards.", "quantifier": "every valid log of any number of rounds, actions and positions with non-negative evaluation probabilities, every estimator, every allowed hyper-parameter, true and estimated propensities, every c, every larger rewards or predictions; every kernel and every positive bandwidth; every slate log; every log of several loggers", "why_tests_cant": "A test raises some rewards of particular logs; that no weight an estimator gives to a reward is ever negative, whatever the propensities and hyper-parameters, concerns all logs.", "anchors": ["obp/ope/estimators.py:ReplayMethod", "obp/ope/estimators.py:InverseProbabilityWeighting", "obp/ope/estimators.py:SelfNormalizedInverseProbabilityWeighting", "obp/ope/estimators.py:DirectMethod", "obp/ope/estimators.py:DoublyRobust", "obp/ope/estimators.py:SelfNormalizedDoublyRobust", "obp/ope/estimators.py:SwitchDoublyRobust", "obp/ope/estimators.py:DoublyRobustWithShrinkage", "obp/ope/estimators.py:SubGaussianInverseProbabilityWeighting", "obp/ope/estimators.py:SubGaussianDoublyRobust", "obp/ope/estimators.py:BalancedInverseProbabilityWeighting", "obp/ope/estimators_continuous.py:KernelizedInverseProbabilityWeighting", "obp/ope/estimators_continuous.py:KernelizedSelfNormalizedInverseProbabilityWeighting", "obp/ope/estimators_continuous.py:KernelizedDoublyRobust", "obp/ope/estimators_slate.py:SlateStandardIPS", "obp/ope/estimators_slate.py:SlateIndependentIPS", "obp/ope/estimators_slate.py:SlateRewardInteractionIPS", "obp/ope/estimators_multi.py:MultiLoggersBalancedInverseProbabilityWeighting", "obp/ope/estimators_multi.py:MultiLoggersWeightedInverseProbabilityWeighting"]}
