{
 "C01": {
  "note": "Exact half-open interval per action for every row of weights and every draw; the fallback to action 0 when no cumulative sum exceeds the draw is proved separately.",
  "status": "proved"
 },
 "C02": {
  "note": "All integer selections, including negative ids (wrap-around) and IndexError.",
  "status": "proved"
 },
 "C03": {
  "note": "All samples, draws and alpha; bounds are given as interpolated order statistics of the resampled means.",
  "status": "proved"
 },
 "C04": {
  "note": "For fixed draws; equivariance under adding a constant and non-negative scaling.",
  "status": "proved"
 },
 "C05": {
  "note": "Acceptance is characterised exactly on non-nan alpha; nan alpha is accepted by the code and then fails, which is proved as a counterexample.",
  "status": "partial"
 },
 "C06": {
  "note": "Over the reals; also that every exponent is non-positive and the largest is zero.",
  "status": "proved"
 },
 "C07": {
  "note": "Over the reals.",
  "status": "proved"
 },
 "C08": {
  "note": "Acceptance is characterised exactly (iff). The exception class is ValueError except for missing/non-array companions, where the code raises AttributeError (proved).",
  "status": "partial"
 },
 "C09": {
  "status": "partial",
  "note": "Proved for aligned arguments (as many actions as rounds in action_dist, at least one position). The unaligned case is false: whenever the numbers of actions and rounds differ (and it is not one action) the nine classes that look up actions raise IndexError; one action is silently broadcast (witness)."
 },
 "C10": {
  "note": "Exact acceptance (iff).",
  "status": "proved"
 },
 "C11": {
  "note": "Exact acceptance (iff) for the three validators; invariance under every permutation of rows.",
  "status": "proved"
 },
 "C12": {
  "note": "Acceptance is characterised exactly. The documented length of the q_hat argument is not: the code compares a floor-divided length, and a witness of an accepted wrong length is proved.",
  "status": "partial"
 },
 "C13": {
  "note": "All finite processes with fixed contexts, arbitrary finite reward laws and arbitrary numbers of rounds, actions and positions.",
  "status": "proved"
 },
 "C14": {
  "note": "Both directions, on the same class of processes as C13.",
  "status": "proved"
 },
 "C15": {
  "note": "Per-round identity and value; interval of IPW too.",
  "status": "proved"
 },
 "C16": {
  "note": "Identities of the returned values for all inputs passing validation.",
  "status": "proved"
 },
 "C17": {
  "note": "Order theorems on the returned values, exact condition for equality (iff).",
  "status": "proved"
 },
 "C18": {
  "note": "Range, affine equivariance, scale invariance, finiteness (iff).",
  "status": "proved"
 },
 "C19": {
  "note": "Both branches of the code.",
  "status": "proved"
 },
 "C20": {
  "note": "Range, linearity, exactness, independence of the log, rescaling.",
  "status": "proved"
 },
 "C21": {
  "note": "Per round and for the value.",
  "status": "proved"
 },
 "C22": {
  "note": "Inequalities on the rounds of the modelled estimator; the square-root bound is stated squared; 0/0 at lambda 0 proved non-finite.",
  "status": "proved"
 },
 "C23": {
  "note": "As C22; lambda 1 with a zero weight proved non-finite.",
  "status": "proved"
 },
 "C24": {
  "note": "Identities and range; normaliser zero is the non-finite outcome.",
  "status": "proved"
 },
 "C25": {
  "note": "Range, scale invariance; zero weights proved non-finite.",
  "status": "proved"
 },
 "C26": {
  "note": "All estimators at once, every permutation.",
  "status": "proved"
 },
 "C27": {
  "note": "All estimators, all draws, including failing inputs.",
  "status": "proved"
 },
 "C28": {
  "note": "Non-interference theorem in both directions, for every estimator with the flag.",
  "status": "proved"
 },
 "C29": {
  "note": "None and zeros agree for the five estimators documented; the position argument is proved required otherwise.",
  "status": "proved"
 },
 "C30": {
  "note": "Exact acceptance (iff) for all constructors, the tuning classes and the multiple-logger classes.",
  "status": "proved"
 },
 "C31": {
  "note": "Closed form of the score and bounds, over the reals.",
  "status": "proved"
 },
 "C32": {
  "status": "proved",
  "note": "Closed forms for every sample, bound at most the mean iff x_max is not negative or delta = 1, monotonicity in delta, over the reals. Witness family: samples of negative numbers with x_max omitted (C32_hoeffding_negative)."
 },
 "C33": {
  "note": "Chosen value is a candidate of minimal score and the first such, for every score function and candidate list.",
  "status": "proved"
 },
 "C34": {
  "note": "Loop invariant for every candidate list; the compared statistics are given in closed form.",
  "status": "proved"
 },
 "C35": {
  "note": "Value and interval of a first call, for all tuning classes and both methods.",
  "status": "proved"
 },
 "C36": {
  "note": "First call tunes on its data (proved). Later calls reuse the cached hyperparameter: proved for every history, with a two-call witness of a different answer.",
  "status": "partial"
 },
 "C37": {
  "note": "Proved for IPW, DR, Switch-DR, DRos tuning. The two sub-Gaussian classes are proved to raise ValueError on every input.",
  "status": "partial"
 },
 "C38": {
  "note": "Integrals computed with Mathlib.",
  "status": "proved"
 },
 "C39": {
  "note": "Closed forms, range, shift equivariance, no-overlap and zero-bandwidth outcomes, intervals.",
  "status": "proved"
 },
 "C40": {
  "note": "All finite slate processes; number of slates, positions and actions arbitrary.",
  "status": "proved"
 },
 "C41": {
  "note": "As C40 under the stated dependence assumption, as hypotheses satisfied by examples.",
  "status": "proved"
 },
 "C42": {
  "note": "Value and interval for zero predictions; unbiasedness for any predictions under the cascade assumption.",
  "status": "proved"
 },
 "C43": {
  "note": "Proved for SIPS, IIPS, RIPS and the self-normalised versions (value and interval). Cascade-DR depends on the row order: witness proved.",
  "status": "partial"
 },
 "C44": {
  "note": "All slate estimators, all ids.",
  "status": "proved"
 },
 "C45": {
  "note": "Closed form per position; range; zero weights proved non-finite; the joint version too.",
  "status": "proved"
 },
 "C46": {
  "note": "All logs with one position.",
  "status": "proved"
 },
 "C47": {
  "note": "Unbiased when embedding dimensions are independent under both policies (automatic for one dimension). For two or more dimensions the code multiplies marginals and is biased: witness proved (expectation 10/9, value 1).",
  "status": "partial"
 },
 "C48": {
  "note": "Equality with IPW proved for one embedding dimension, weight one for a law shared by all actions in any dimension. For redundant dimensions the equality is false: witness proved.",
  "status": "partial"
 },
 "C49": {
  "note": "The returned estimate is characterised exactly for both methods. It is not the last accepted subset when all are accepted, and min_emb_dim >= n_emb_dim raises UnboundLocalError: both proved.",
  "status": "partial"
 },
 "C50": {
  "note": "Unbiasedness of balanced IPW and balanced DR over all processes with fixed loggers and random contexts; only the mixture needs support. Witness that the naive estimator is biased in such a case.",
  "status": "proved"
 },
 "C51": {
  "note": "Closed form with weights that average to one and are inversely proportional to stratum variances, for labels 0..m-1 and non-zero variances (other cases: C53).",
  "status": "proved"
 },
 "C52": {
  "note": "Proved for the naive and weighted classes. The balanced classes are proved to raise TypeError from estimate_interval whenever estimate_policy_value works.",
  "status": "partial"
 },
 "C53": {
  "status": "partial",
  "note": "With labels 0..m-1 success is characterised exactly (no stratum of zero variance). All other non-negative integer labels are proved to raise IndexError, and labels that are negative, not integers or of another number than the rounds to raise ValueError."
 },
 "C54": {
  "note": "Front ends for ordinary, multiple-logger, continuous and slate feedback; estimator objects are arbitrary (name, value method, interval method), the classes are instances.",
  "status": "proved"
 },
 "C55": {
  "note": "Projection theorem: only the estimator's own entries matter, and exactly what is passed.",
  "status": "proved"
 },
 "C56": {
  "note": "The claim is false of the code for arrays: the shape test reads a stale variable (meta.py:187). Proved: any array gives UnboundLocalError (no dict with entries among the other arguments), or is accepted iff n_rounds = n_actions whatever its shape; dict arguments work.",
  "status": "partial"
 },
 "C57": {
  "status": "proved",
  "note": "Exact values, zero iff exact, unit-freeness, error cases; ordinary, multiple-logger, continuous-action and slate front ends."
 },
 "C58": {
  "note": "Holds for estimate_policy_values / estimate_intervals and the plain classes; the tuned classes are not recognised and evaluate_performance_of_estimators makes no test (both proved), so earlier estimators run first.",
  "status": "partial"
 },
 "C59": {
  "note": "Dispatch, missing inputs and the relative value.",
  "status": "proved"
 },
 "C60": {
  "note": "All histories by induction; out-of-range actions raise IndexError.",
  "status": "proved"
 },
 "C61": {
  "note": "Proved for every state, generator and tie order for EpsilonGreedy, Random and BernoulliTS, and for the linear and logistic policies on a context of one row. LinTS, LogisticTS and LogisticEpsilonGreedy do not check the number of rows: witnesses of non-existent action ids are proved.",
  "status": "partial"
 },
 "C62": {
  "note": "All reachable states, all draws, all tie orders.",
  "status": "proved"
 },
 "C63": {
  "note": "Random is uniform; BernoulliTS frequencies are non-negative and sum to one for n_sim >= 1; n_sim = 0 is the non-finite outcome.",
  "status": "proved"
 },
 "C64": {
  "note": "For all histories with rewards in [0,1]; a witness shows that rewards above one can make a parameter non-positive.",
  "status": "proved"
 },
 "C65": {
  "status": "proved",
  "note": "Sherman-Morrison invariant by induction over all histories; C65_any_history covers failing updates and initialize calls too."
 },
 "C66": {
  "status": "proved",
  "note": "Positive definiteness and antitonicity for every history, initialize calls and failing updates included."
 },
 "C67": {
  "status": "partial",
  "note": "Proved for the context-free policies. False for linear and logistic policies: initialize keeps the learned parameters (all states), with a witness of different behaviour. What is restarted (generator, trials, action counts, pending observations) is proved for both (C67_linear_restarts_partial, C67_logistic_restarts_partial)."
 },
 "C68": {
  "status": "proved",
  "note": "The optimiser is an arbitrary function of the loss, its gradient and the starting point. With initialize calls in between: C68_any_history (an interrupted batch is never fitted)."
 },
 "C69": {
  "note": "False as stated, proved: reward-0 observations add the constant log 2 and do not change the minimisers. For labels -1/1 the loss is the negative log-likelihood; grad is the gradient of loss.",
  "status": "partial"
 },
 "C70": {
  "note": "IPWLearner, QLearner and NNPolicyLearner: exact output on all contexts, models and networks; labels beyond n_actions raise IndexError.",
  "status": "proved"
 },
 "C71": {
  "note": "All three learners, for every argsort satisfying its contract, all noise, tau > 0; tau = 0 is a division by zero. A classifier that has not seen all actions makes sample_action raise (proved).",
  "status": "proved"
 },
 "C72": {
  "note": "Loss gradient equals minus the gradient of the modelled estimator's value, for dm, ipw, dr, ipw-os, ipw-subgauss; snipw is the IPW estimate of translated rewards. Without regularisation terms.",
  "status": "proved"
 },
 "C73": {
  "note": "False in the code: exact number of optimiser steps of an improving run is proved (C73_improving_run), with a numeric witness; worsening runs are never stopped; only runs no longer than n_iter_no_change steps are safe.",
  "status": "partial"
 },
 "C74": {
  "note": "False for 'iw' and 'mrdr' (every input fails, ValueError on well-formed data) and for base_model=None; 'normal' is characterised exactly.",
  "status": "partial"
 },
 "C75": {
  "note": "For every policy, every delays, every sequence of rounds and clears: deliveries are exactly once, never twice, never early, and at t+d if the run lasts and delays are given in that round.",
  "status": "proved"
 },
 "C76": {
  "note": "All runs; totality for total policies; offline policies rejected with RuntimeError.",
  "status": "proved"
 },
 "C77": {
  "note": "As imported (tqdm is a module) every valid call raises TypeError, proved. With a working progress bar the updates on matches are characterised exactly.",
  "status": "partial"
 },
 "C78": {
  "note": "position=None raises TypeError. Every simulation starts from a copy of the policy, so all simulations repeat the same random stream (also proved).",
  "status": "proved"
 },
 "C79": {
  "note": "Termination, row counts, convexity, range and the schedule are proved for all requests after any earlier requests. Splitting a request changes the rows if there is a transition period (witness proved); equality proved without a transition period and for splits at interval ends. Interval 0 never returns, proved.",
  "status": "partial"
 },
 "C80": {
  "note": "All logits, beta, deficient counts, noise orders and draws; the support, the softmax values, the propensities and the inverse-transform interval are given.",
  "status": "proved"
 },
 "C81": {
  "note": "Feedback, evaluation policy, alpha check and ground truth for labels 0..A-1 (other labels: C82).",
  "status": "proved"
 },
 "C82": {
  "note": "False for labels that are not 0..A-1: index error and wrong-reward witnesses are proved. Faithful exactly when labels coincide with their rank (iff).",
  "status": "partial"
 },
 "C83": {
  "note": "Sizes add up and are within rounding of the proportions for all inputs; partition proved when the last logger is due enough rounds or there are at most two loggers. In general false: negative sizes, with witnesses.",
  "status": "partial"
 },
 "C84": {
  "note": "Exact value, range, linearity, deterministic policies and all error cases.",
  "status": "proved"
 },
 "C85": {
  "note": "Also for factorizable policies; exact product formula, acceptance condition, flattening over rounds and refused shapes.",
  "status": "proved"
 },
 "C86": {
  "note": "Marginals of the joint propensities for every logit row when no clip value cuts a logit off; with a binding clip_logit_value false, witness given.",
  "status": "partial"
 },
 "C87": {
  "status": "partial",
  "note": "Click expectation exact without click model, for the position-based one, and for cascade with two positions; for three positions the exact excess is proved, and for more (expected rewards at most 1/2 from the third position on) that the excess is at least that of the first three (C87_cascade_gap). Batches cover the rounds and the batched value is the average when rewards depend on the own context only (false for len_list > 1, C110). Without base reward function the value is the sum over rounds."
 },
 "C88": {
  "note": "Random and epsilon-greedy propensities are the marginals of the stated mixtures; optimal and anti-optimal are swapped (proved), so the claim itself is false for them.",
  "status": "partial"
 },
 "C89": {
  "note": "All logs and all test_size in [0,1], in exact arithmetic for n*(1-test_size); refusals and the empty test part included.",
  "status": "proved"
 },
 "C90": {
  "note": "For every split and base model, all three fit_predict methods: each round is predicted once, by a model whose last fit used exactly its fold's training rounds. Non-interference of a round's own log needs a base model that forgets earlier fits; with warm_start it is false (witness proved), since the same object is refitted in every fold.",
  "status": "partial"
 },
 "C91": {
  "note": "fit characterised exactly (iff) on valid data: one fit per position on exactly its rounds with the documented weights; ValueError for positions without rounds and for action_dist not summing to one; default pscore is uniform.",
  "status": "proved"
 },
 "C92": {
  "note": "Targets characterised exactly (iff) for all learners; exactness by backward induction for averaging learners under coverage, for both weightings.",
  "status": "proved"
 },
 "C93": {
  "note": "IWE: value p/(1-p), density ratio for calibrated classifiers. PSE: probability of the logged action when all actions were seen; absent actions misalign columns, position=None gives zeros (PSE) or ValueError (IWE): all proved.",
  "status": "partial"
 },
 "C94": {
  "note": "Exponential draws are arbitrary non-negative numbers.",
  "status": "proved"
 },
 "C95": {
  "note": "Exact acceptance (iff).",
  "status": "proved"
 },
 "C96": {
  "status": "proved",
  "note": "Measure-theoretic expectation with Mathlib integrals, for deterministic rewards and for rewards random given the action; bias bound by the bandwidth and the Lipschitz constant."
 },
 "C97": {
  "status": "proved",
  "note": "All inputs, with the nan outcome of the ratio; ordinary, multiple-logger and continuous-action front ends. With several loggers a balanced estimator makes the summary fail (C97_multi_balanced_fails), see C52."
 },
 "C98": {
  "status": "proved",
  "note": "The optimiser is arbitrary; every history, initialize calls and failing updates included."
 },
 "C99": {
  "note": "The exact increment is proved: the curvature at the score shifted by one. The unshifted claim is refuted.",
  "status": "partial"
 },
 "C100": {
  "note": "Relative to any class of decision rules in which the base classifier is optimal; one example classifier shown to satisfy the contract.",
  "status": "proved"
 },
 "C101": {
  "note": "Exact, over the reals.",
  "status": "proved"
 },
 "C102": {
  "note": "The loss is finite exactly for batches of at least two rounds; batches of one round occur for n % batch_size = 1 (proved).",
  "status": "partial"
 },
 "C103": {
  "note": "False: the first environment step raises for every policy rejecting 1-D contexts; the batch of rounds works.",
  "status": "partial"
 },
 "C104": {
  "note": "The code violates the claim: batches repeat and draws equal the expected rewards (both proved). Within one batch the draws select actions correctly (C80).",
  "status": "partial"
 },
 "C105": {
  "note": "Proved without deficient actions; averaging over the rounds is exact only for whole-number proportions. With deficient actions false, proved.",
  "status": "partial"
 },
 "C106": {
  "note": "Law of total expectation, range, no direct effect, sampling; the shared-seed coincidence is proved as a defect.",
  "status": "proved"
 },
 "C107": {
  "note": "All logs, requests and draws; refusal of invalid sizes.",
  "status": "proved"
 },
 "C108": {
  "note": "The code violates the claim; the actual result is characterised for all inputs. It holds only up to the missing scaling when the mean is zero.",
  "status": "partial"
 },
 "C109": {
  "note": "For every list of logits with non-zero standard deviation; the square root is a parameter std with std^2 the variance.",
  "status": "proved"
 },
 "C110": {
  "note": "False: rewards of round i use round i // len_list, proved for logged and enumerated slates; own context only for len_list = 1 or the first round.",
  "status": "partial"
 },
 "C111": {
  "note": "True up to 128 actions; for 128 to 255 the exact wrong action or IndexError is proved.",
  "status": "partial"
 },
 "C112": {
  "note": "For at most 128 actions and on the transformed scale; rounding to float16 not modelled.",
  "status": "partial"
 },
 "C113": {
  "note": "One round; numpy's choice is modelled as inversion of the cumulative probabilities.",
  "status": "proved"
 },
 "C114": {
  "note": "False: the code's actual formulas are proved and a witness shows they differ from the documented ones.",
  "status": "partial"
 },
 "C115": {
  "note": "Exact formula including the masked weight exp(-10000); exact policy for factorizable policies and the first position. Masked actions keep positive mass and dominate for logits far below -10000 (proved), so the stated proportionality holds only up to that mass.",
  "status": "partial"
 },
 "C116": {
  "note": "False: proved that propensities are the same for all contexts; zero temperature gives no finite logits.",
  "status": "partial"
 },
 "C117": {
  "note": "All rewards, all injective slate ids.",
  "status": "proved"
 },
 "C118": {
  "status": "partial",
  "note": "Enumeration proved complete and duplicate-free for all sizes. Weights and value proved for at most 128 actions; beyond, the int8 overflow is proved: wrong weights for factorizable policies, IndexError for the others. Without base reward function the sum instead of the average is returned (proved)."
 },
 "C119": {
  "note": "Exact acceptance (iff) proved. nan, zero and infinite bandwidths are accepted though useless: proved as C119_nan_bandwidth, C39_zero_bandwidth, C119_infinite_bandwidth.",
  "status": "partial"
 },
 "C120": {
  "note": "Exact acceptance (iff), with the stored configuration.",
  "status": "proved"
 },
 "C121": {
  "note": "Proved without embedding selection, for every input including failing ones. With selection it is false: the interval always uses all dimensions (witness proved).",
  "status": "partial"
 },
 "C122": {
  "note": "Exact acceptance (iff) on top of C08.",
  "status": "proved"
 },
 "C123": {
  "note": "Proved for fractions below one and any number of rounds; the documented fraction 1 leaves an empty training set (proved). The size of the split follows PyTorch's random_split call; which rounds go where is drawn by the generator.",
  "status": "partial"
 },
 "C124": {
  "note": "The classifier is an arbitrary function of its training data; the theorem on true weights assumes its predictions are the posterior probabilities.",
  "status": "proved"
 },
 "C125": {
  "note": "Acceptance characterised exactly for every constructor; missing from the documented claim: nan is accepted (proved). Length and sign of priors handed to BernoulliTS are not checked by the code; what select_action then does is C64.",
  "status": "partial"
 },
 "C126": {
  "note": "Proved for binary rewards and for sample_reward. For continuous rewards logged in a batch the property is false and its negation is proved for every reward function value (C126_batch_mean_differs): the truncation correction is applied to the mean and the corrected mean is then truncated again. The slate dataset never applies the correction (C126_slate_mean_differs). reward_std = 0 is accepted but yields no numbers (C126_zero_std).",
  "status": "partial"
 },
 "C127": {
  "note": "False of the code: action and reward are drawn from generators started from the same integer seed and each takes one uniform number per round, so both are functions of the same number. Proved: the first action's logged rewards are biased downwards, the last action's upwards, inverse propensity weighting is biased, and all positions of a slate move together (given that scipy samples by inverting the distribution function). What holds: every round has a supported action and a reward within the bounds.",
  "status": "partial"
 },
 "C128": {
  "note": "All six functions, static and per-round coefficients, polynomial features as the set of monomials. Argument checks of degree and ratio are constants at every call and not modelled; coefficient functions returning other shapes only raise in the model.",
  "status": "proved"
 },
 "C129": {
  "note": "Proved for all six reward functions with z_score=False. False with z_score=True, the default (C129_z_score), and for the behaviour policy functions (C129_behavior): both shift or scale by statistics of the whole batch.",
  "status": "partial"
 },
 "C130": {
  "note": "Acceptance is characterised exactly (iff) for all five constructors and refusals are TypeError or ValueError. Missing from the claim because the code violates it: nan is accepted (C130_nan_accepted), and so are empty lists of loggers (C130_no_loggers: no batch can then be obtained) and all-zero shares (C130_zero_shares).",
  "status": "partial"
 },
 "C131": {
  "status": "partial",
  "note": "Exact law and density with a behaviour policy function (C131_gaussian_partial) and without it for finite bounds (C131_uniform_partial); success characterised exactly (C131_gaussian_iff). That it works for all accepted settings is false of the code and its negation is proved: default infinite bounds without behaviour policy function give no finite action (C131_default_bounds), zero noise no finite propensity (C131_zero_noise)."
 },
 "C132": {
  "status": "partial",
  "note": "Proved for every seed and input, except that sign_synthetic_policy_continuous returns the sine of the average context, not its sign: proved as C132_sign_is_sine."
 },
 "C133": {
  "note": "Contexts and reward noise are disjoint consecutive parts of one stream (proved). The rest is false of the code, proved for every generator: actions repeat in every batch without behaviour policy function; the coefficients of linear behaviour policy and linear reward are the same vector and equal the first context of the first batch; with both functions and no bounds the reported expected rewards do not depend on the contexts at all.",
  "status": "partial"
 },
 "C134": {
  "note": "Acceptance characterised exactly for all four constructors, with the layer sizes of the network built. Missing because the code violates it: nan is accepted, the number of actions of QFuncEstimator is not checked, output spaces of wrong length or order are accepted, the documented momentum 0.0 (sgd with default Nesterov) and beta_1 = 1.0 make fit raise, and batch size 'auto' is the minimum of 200 and the data size, not the documented maximum.",
  "status": "partial"
 },
 "C135": {
  "note": "Over the reals, so without underflow of the softmax. C135_activations also shows that the documented formula of the logistic activation has the wrong sign.",
  "status": "proved"
 },
 "C136": {
  "note": "Proved for positive propensities and bandwidth and an ordered output space of two numbers. For the other spaces the constructor accepts (unordered, too short) and bandwidth nan, the behaviour is stated in C136_bad_space and C136_nan_bandwidth.",
  "status": "proved"
 },
 "C137": {
  "note": "Accepted inputs are exactly the well-formed ones and the training rounds are as stated. Missing because the code violates it: without propensities, arrays of different lengths are reported as AssertionError with ipw (C137_different_lengths).",
  "status": "partial"
 },
 "C138": {
  "status": "proved",
  "note": "All contexts, histories and hyperparameters; random draws are arbitrary inputs."
 },
 "C139": {
  "status": "proved",
  "note": "Base models are arbitrary functions; folds are arbitrary."
 },
 "C140": {
  "note": "Rejection exactly of the misshapen arguments. p_e_a as a single array is the subject of C56 (UnboundLocalError).",
  "status": "proved"
 },
 "C141": {
  "status": "partial",
  "note": "Proved for continuous actions, for several loggers, for the eleven single-logger classes when the logged propensities are used (single logger: with positions, or a class that defaults them), for the embedding estimators without embedding selection on logs with positions, and for any mix of these in one plot (C141_mixed_plot_partial). The rest is false of the code: estimated propensities are ignored by the plots (C141_estimated_ignored, witness C141_estimated_differs); without positions five classes and both embedding classes cannot be plotted (C141_no_positions, C141_no_plot, C141_embed_no_plot); tuned estimators cannot be plotted (C141_tuned_no_plot); with embedding selection the bar shows all dimensions instead of the selected ones (C141_embed_selection_ignored, C141_embed_bar_without_estimate)."
 },
 "C142": {
  "status": "partial",
  "note": "All three front ends that have the plot (single logger, several loggers, continuous actions). Columns and heights proved whenever the call succeeds, and success for at most as many estimators as policies on valid logs that the estimators can evaluate (C142_succeeds, C142_multi_succeeds, C142_cont_succeeds). False of the code otherwise: with more estimators than policies the call never succeeds, because the grid of subplots has one row per policy (C142_more_estimators_than_policies, C142_multi_more_estimators, C142_cont_more_estimators). Distinct names assumed."
 },
 "C143": {
  "note": "False of the code: the bar extends by the full width of the interval to either side of the mean, so it is twice as long and coincides with the interval only if that is a single point. Proved: the exact length, the height, and that the bar encloses the interval when that contains the mean.",
  "status": "partial"
 },
 "C144": {
  "note": "`next` before `iter` raises AttributeError (C144_next_needs_iter).",
  "status": "proved"
 },
 "C145": {
  "note": "False: reward_type and reward_std are ignored, rewards are always binary (C145_reward_type_ignored); next_bandit_round returns the action context of the first action only and a context with the batch axis (C145_one_round). Everything else is proved.",
  "status": "partial"
 },
 "C146": {
  "note": "The formula holds with the base rewards of round i // len_list instead of round i (C110), and for up to 128 actions (C111). Base rewards 0 and 1 of binary rewards have infinite log-odds and are excluded.",
  "status": "partial"
 },
 "C147": {
  "note": "Network and optimiser are arbitrary; loaders are lists of batches of an arbitrary permutation. Positions are refused as missing with TypeError when len_list > 1 (C147_positions_needed).",
  "status": "proved"
 },
 "C148": {
  "note": "False in the code. The validation losses never have an effect: the result is that of training without early stopping on the training rounds (C148_only_drops_rounds, C148_validation_ignored); every epoch is trained whatever the losses (C148_never_terminates; witness not_C148_stops_when_validation_stalls).",
  "status": "partial"
 },
 "C149": {
  "note": "For the selection (C149_slope_oracle) and for the estimate of a tuned estimator on logged data (C149_tuned_value). The validity of the Student-t half-widths is a hypothesis, as in the method's paper.",
  "status": "proved"
 },
 "C150": {
  "status": "partial",
  "note": "Proved for numbers between 0 and a given x_max (C150_hoeffding_partial), and from it: the bound of the per-round values of IPW exceeds the value of the policy with probability at most delta (C150_policy_value). False for bounded numbers that may be negative, which the docstring allows: the width uses x_max where the range is needed (not_C150_negative, violated with probability 1/2 at delta=0.05). x_max=None is not covered."
 },
 "C151": {
  "note": "Contexts in any measurable space, rewards any integrable random variables given by their conditional mean. Finite lambda_ is covered if no weight exceeds it (IPW, DR).",
  "status": "proved"
 },
 "C152": {
  "note": "Gumbel noise is any family of independent random variables with distribution function exp(-exp(-x)); its existence is proved (exGumbel).",
  "status": "proved"
 },
 "C153": {
  "note": "True for IPWLearner and QLearner. False for NNPolicyLearner: `sample_action` uses the probabilities themselves as scores and so applies a second softmax to them (C153_nn_partial says which distribution results; not_C153_nn is a witness).",
  "status": "partial"
 },
 "C154": {
  "note": "Conditional on the contexts. The assumption on the draws is what a generator with separate streams provides; the restarts of the generator from the same seed in the code are the subject of C104, C126 and C127.",
  "status": "proved"
 },
 "C155": {
  "note": "C155_given_contexts also gives the exact expectation of the balanced estimates for fixed contexts. The assumption on the draws is what a generator with separate streams provides (see C104, C127 for the restarts in the code).",
  "status": "proved"
 },
 "C156": {
  "note": "Stated for given logits (that is, given the contexts) and independent draws. Support is automatic: softmax probabilities are positive. That item-position propensities are not marginals when a logit is clipped is C86; that the reward functions of the dataset read the wrong row of base rewards is C110.",
  "status": "proved"
 },
 "C157": {
  "note": "Log, category distributions and the statements for IPW and DR are proved in full; MIPS for one observed dimension. With two observed dimensions MIPS with the reported p_e_a is biased although nothing is hidden: witness with all rewards one and expectation 17/16.",
  "status": "partial"
 },
 "C158": {
  "note": "Proved except where the code violates the claim: affinity scores are not part of the context (C158_affinities_ignored), action_context keeps the order of the item file (C158_items_unsorted), and n_actions counts up to the largest logged item (C158_items_never_shown).",
  "status": "partial"
 },
 "C159": {
  "note": "Conditional on the contexts; the draws of the two generators are taken to be independent of each other (the code starts both from the same seed).",
  "status": "proved"
 },
 "C160": {
  "note": "Real arithmetic; for logs whose rows are ordered by slate and position (the cascade doubly robust estimator depends on the order, C43).",
  "status": "proved"
 },
 "C161": {
  "note": "Real arithmetic. The self-normalised and doubly robust estimators need that the logging density is positive where the kernel around the evaluation action is.",
  "status": "proved"
 },
 "C162": {
  "note": "Real arithmetic, given propensity scores; the average propensity score of the balanced estimators uses the limit shares. Finite lambda_ is covered if no weight exceeds it. A logger whose terms are all equal has an estimated variance of zero, on which the weighted estimators give nan (C53).",
  "status": "proved"
 },
 "C163": {
  "note": "Real arithmetic, p_e_a given, no embedding selection. Without independent dimensions the estimates are biased (C47).",
  "status": "proved"
 },
 "C164": {
  "note": "Variance over the product of the per-round distributions; the numbers compared are what the model's estimate_policy_value returns on every log of positive probability. The claims about lambda_ are for the IPW estimator; embeddings as in C47 (independent dimensions, or one dimension).",
  "status": "proved"
 },
 "C165": {
  "note": "Proved for numbers between 0 and a given x_max (C165_bernstein_partial), and from it for the per-round values of IPW (C165_policy_value). False for bounded numbers that may be negative, as with C150: a witness is proved (not_C165_negative). Not covered: x_max=None and samples that are not identically distributed.",
  "status": "partial"
 },
 "C166": {
  "note": "False of the code: mean square and maximum of the weights are taken from the log, so logs without the rare large weights get a bound of zero whatever the bias is; for every number of rounds and delta this can happen with probability as close to one as wanted (not_C166_unseen_weights). Proved: among logs whose weights are representative (mean square not below the expected one, largest weight seen) the bound fails with probability at most delta (C166_bias_bound_partial).",
  "status": "partial"
 },
 "C167": {
  "note": "The generator is ideal: independent uniform numbers and independent random lists with each action equally likely in front. C167_zero_epsilon shows that epsilon > 0 is needed.",
  "status": "proved"
 },
 "C168": {
  "status": "partial",
  "note": "Proved for the loop of run_bandit_replay (lines 49-76); the table of selections built after the loop and its evaluation is C184. Missing: the function raises before the loop because the name tqdm is bound to a module (C77)."
 },
 "C169": {
  "note": "Exact expectation of each estimator without support assumption; size, sign and monotonicity as consequences.",
  "status": "proved"
 },
 "C170": {
  "note": "Noise-free linear rewards; for noisy rewards see C171.",
  "status": "proved"
 },
 "C171": {
  "note": "Contexts are fixed before the run; argsort orders ties in a measurable way.",
  "status": "proved"
 },
 "C172": {
  "note": "the generator's Beta draws are random functions of the two parameters, independent over rounds and actions; argsort is any correct argsort whose preimages are measurable",
  "status": "proved"
 },
 "C173": {
  "note": "Contexts are fixed before the run; argsort orders ties in a measurable way; randomly picked lists put each action in front equally often.",
  "status": "proved"
 },
 "C174": {
  "note": "Central limit theorem and Slutsky's theorem applied to what the estimators average; the self-normalised ones through the ratio of averages.",
  "status": "proved"
 },
 "C175": {
  "note": "The claim fails for finite B (not_C175_ipw_default, C175_default_undercovers): in the limit the coverage is (1 - alpha)(B - 1)/(B + 1) when (alpha/2)(B - 1) is whole, and between two such fractions otherwise. With the defaults alpha = 0.05, n_bootstrap_samples = 100 of OffPolicyEvaluation it is below 0.942. Proved: the limits, and that coverage is within 5/(B + 1) of 1 - alpha for large logs (C175_many_resamples).",
  "status": "partial"
 },
 "C176": {
  "note": "The claim fails (not_C176_snipw, not_C176_snipw_odd): the normaliser of the whole log is kept in every bootstrap sample. For two actions with rewards 1 and 3, logged with probability 1/2, and evaluation probabilities 3/4 and 1/4, the interval never contains the value on a log with an odd number of rounds, for any alpha, number of bootstrap samples and draws. Proved: exactly when the interval contains a number (C176_snipw_partial).",
  "status": "partial"
 },
 "C177": {
  "note": "Proved for tuning_method=\"mse\" in full. For \"slope\" the returned value tends to the limit of the candidate with the largest variance per round (C177_slope_partial); the claim itself is false for \"slope\" (not_C177_slope: plain IPW is among the candidates and exact, yet SLOPE tends to a wrong value).",
  "status": "partial"
 },
 "C178": {
  "note": "The estimated propensities are a fixed model of context and action (fitted on other data, as cross-fitting does).",
  "status": "proved"
 },
 "C179": {
  "note": "scikit-learn classifiers do not promise to reach the best accuracy in their class; that is a hypothesis (OptimalIn, StaysIn).",
  "status": "proved"
 },
 "C180": {
  "note": "False for eta=nan: the constructor accepts it (C180_nan_eta proves that no batch can be drawn afterwards). C180_accepted_partial says that this is the only exception; everything else holds in full. That cascade_decay weights are on the wrong side of the diagonal is part of C111.",
  "status": "partial"
 },
 "C181": {
  "note": "With a base reward function the base rewards of round i // len_list enter (C110), which C181_batch states. Clipped logits change item-position propensities (C86), so the item column is stated for clips that cut off nothing.",
  "status": "proved"
 },
 "C182": {
  "note": "C182_cross_fitted_dr composes the models of fit_predict and DoublyRobust and takes the expectation over all logs of positive probability; success of training on those logs is a hypothesis, discharged by C182_training_succeeds for base models that accept all data when each fold keeps rounds of every position. C182_single_fold_biased: with n_folds=1 and a base model predicting the mean training reward the expectation is 1/4 where the policy value is 0.",
  "status": "proved"
 },
 "C183": {
  "note": "Coverage is stated with NearlyCovers, the two fractions of C175; C175_many_resamples turns it into the distance 5/(B + 1). Intervals of the self-normalised estimators are not claimed: their normaliser is not resampled (C176).",
  "status": "proved"
 },
 "C184": {
  "note": "Proved with tqdm bound to the function and for logs in which the last action occurs. Missing: as imported the call raises TypeError (C77); if the last action never occurs in the log the returned table has too few actions (or the call raises IndexError), so the estimate there is that of the recorded selections and not of the table.",
  "status": "partial"
 },
 "C185": {
  "note": "True for inverse propensity weighting. False for doubly robust estimation: only the corrections are weighted by precision, the predictions of the reward model by numbers of rounds, so the result can lie outside the range of the loggers' estimates (not_C185_weighted_dr: 94/37 instead of 129/37, loggers' estimates 3 and 7/2). C185_weighted_dr_partial says what is computed; C185_weighted_dr_same_model_partial that it is the documented average if the mean prediction is the same for all loggers.",
  "status": "partial"
 },
 "C186": {
  "note": "Normality is proved for all six estimators (balanced: if the shares tend to their limits faster than one over the square root of the number of rounds). Smallest variance: true for inverse propensity weighting (C186_precision_smallest, C186_weighted_ipw_no_worse). False for doubly robust estimation, which weights only the corrections by precisions of the whole terms (not_C186_weighted_dr: 189.1\u2026 instead of 30.6\u2026 without weights; C186_weighted_dr_partial gives the variance). Real arithmetic, given propensity scores; finite lambda_ is covered if no weight exceeds it.",
  "status": "partial"
 },
 "C187": {
  "note": "C187_naive_ipw, C187_naive_dr, C187_weighted_ipw, C187_weighted_dr give the limits in terms of the position of the lower bound among the sorted bootstrap averages; C175_many_resamples and C187_many_resamples turn them into the 5/(B + 1) of the statement. The intervals of the balanced variants always raise TypeError (C52).",
  "status": "proved"
 },
 "C188": {
  "note": "Proved for RM, IPW, SNIPW, DM, DR, SNDR, Switch-DR, SG-IPW, SG-DR, B-IPW, the naive estimators and balanced IPW for several loggers, Kernel-IPW and Kernel-DR. False for DRos (an extra factor w in the formula), balanced DR (a missing + in the formula) and Kernel-SNIPW (the reward also in the denominator): witnesses not_C188_dros, not_C188_balanced_dr, not_C188_kernel_snipw, and what is computed instead. The precision-weighted estimators are C185, embeddings C47.",
  "status": "partial"
 },
 "C189": {
  "note": "Weighted multi-logger estimates have data-dependent weights and are not covered (C186, C187 treat them).",
  "status": "proved"
 },
 "C190": {
  "status": "proved",
  "note": "For the limit with growing lambda_, common support is assumed; the bounds for a fixed lambda_ need none."
 },
 "C191": {
  "note": "The error of the predictions is a parameter: nothing is claimed about what base models learn.",
  "status": "proved"
 },
 "C192": {
  "note": "The quantiles of Student's t distribution (scipy) are a parameter of which it is assumed that they tend to the normal quantile as the degrees of freedom grow.",
  "status": "proved"
 },
 "C193": {
  "note": "Quantiles of Student's t distribution as in C192.",
  "status": "proved"
 },
 "C194": {
  "note": "C194_close: difference of two estimates; C194_variance: variances, over any ordered field; C194_standard_error: the statement. Contexts are fixed, and training must succeed on the logs that can occur (C182_training_succeeds).",
  "status": "proved"
 },
 "C195": {
  "note": "One log, independent rounds (LogStream). The candidates must be fixed before the log is seen: candidates learned from the same log are not covered.",
  "status": "proved"
 },
 "C196": {
  "note": "Contexts of the batch are given; the derivative is along any curve in the space of network parameters. Reward models trained on the same rounds depend on the batch and are not covered.",
  "status": "proved"
 },
 "C197": {
  "status": "partial",
  "note": "False in the code: the loss contains weights times the logarithms of the probabilities. If all logged actions have probability s under the policy, the estimate is c s and the loss -c s log s (C197_common_probability), so that the loss goes up when the estimate is multiplied by four (C197_loss_rises_with_estimate). The variance penalty is positive for terms without variance (C197_penalty_without_variance); it is proportional to the variance of the terms if the logged actions have a common probability (C197_variance_partial). The policy penalty is the logarithm of the mean weight with a positive sign: the loss is unbounded below, towards policies that never play the logged actions (C197_policy_penalty_unbounded)."
 },
 "C198": {
  "status": "proved",
  "note": "Stated for rows that sum to one exactly. C198_clipped_gain is a concrete log on which clipped IPW prefers the mixture to both candidates, C198_mips_two_dims one on which MIPS gives the mixture less than both."
 },
 "C199": {
  "status": "proved",
  "note": "Covers all estimators for single actions. The self-normalised slate estimators and Cascade-DR are covered only by the acceptance of the joined log and by the refusal of repeated ids."
 },
 "C200": {
  "status": "proved",
  "note": "Exact arithmetic; the bounds of the doubly robust estimators are not claimed to be the smallest possible."
 },
 "C201": {
  "note": "Exact arithmetic. SlateCascadeDoublyRobust is not included in the renaming of slate ids (it depends on the row order, C43).",
  "status": "proved"
 },
 "C202": {
  "note": "Exact real arithmetic.",
  "status": "proved"
 },
 "C203": {
  "note": "Exact arithmetic.",
  "status": "proved"
 }
}