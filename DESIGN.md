# Formal model of zr-obp: design

## Approach

The Python sources under `/repo/obp` are modelled function by function in Lean 4 (Mathlib is available).
Models are total, computable where possible, and mirror the code branch by branch.

* Numbers: float arithmetic is idealised to exact arithmetic in an arbitrary linearly ordered field `K`
  (examples use the rationals), or in the real numbers where `exp`, `log`, `sqrt` or integrals occur.
* `numpy` results that are not finite (nan, inf) are an explicit outcome `PyErr.nonFinite`; Lean's `x / 0 = 0` is never
  used to make a theorem true: divisions that can meet zero go through a guarded division `npDiv`.
* Exceptions are values: `Py α = Except PyErr α` with one constructor per Python exception class the code can raise.
* Arrays are lists (1-D) or shape-carrying functions on `Fin` (2-D, 3-D); fancy indexing, negative-index
  wrap-around and broadcasting of 1-D operands are modelled where an API function uses them on unchecked input.
* Randomness is a parameter (with a distribution in C150–C153 and C160–C173, where probability spaces are those of Mathlib): uniform draws, resampled indices, permutations returned by `argsort` on ties, Gumbel noise,
  Beta draws. Theorems quantify over all outcomes.
* Expectations are finite sums over product spaces of arbitrary finite support; for continuous actions they are
  Lebesgue integrals.
* Learners (sklearn, torch), `scipy.stats.t.ppf`, `KFold` shuffles are parameters.

## Layout

* `lean/Verif/Model/*.lean`: the model, one file per Python module or group of modules; each definition cites file and lines.
* `lean/Verif/Spec/*.lean`: small independent specifications.
* `lean/Verif/Lemmas/*.lean`: helper lemmas.
* `lean/Verif/Props/*.lean`: the property theorems, each followed by an `example` meeting its hypotheses. Theorem names begin
  with the property id; a `_partial` suffix marks a theorem that proves part of its property.
* `tools/manifest.py` collects the theorem names into `MANIFEST.json`, `tools/design.py` regenerates the table below,
  `tools/coverage.py` lists the functions of `/repo/obp` that no definition cites.
* `seeded/LOG.jsonl`: wrong programs tried against the theorems.

## Properties

Status `partial` means that the property as stated is not true of the code, or not proved for all inputs; in the former case the
failure itself is proved.

<!-- table -->
| id | property | status | what is modelled and how it is proved | what the theorems cover |
|----|----------|--------|----|----|
| C01 | sample_action_fast is exact inverse-CDF sampling | proved | Model the row-wise cumsum / `>` / argmax on lists with the uniform draw as a parameter; prove the exact half-open interval characterisation, its length and the zero-probability corollary. | Exact half-open interval per action for every row of weights and every draw; the fallback to action 0 when no cumulative sum exceeds the draw is proved separately. |
| C02 | convert_to_action_dist builds a valid deterministic policy | proved | Model the assignment loop with Python index wrap-around; prove one-hot slices, acceptance by the modelled validator, and the IndexError branch. | All integer selections, including negative ids (wrap-around) and IndexError. |
| C03 | Bootstrap confidence interval is ordered and inside the sample range | proved | Resampling indices are a parameter (list of index lists); percentile = numpy linear interpolation on the sorted list; prove order and range. | All samples, draws and alpha; bounds are given as interpolated order statistics of the resampled means. |
| C04 | Bootstrap intervals are nested in alpha and equivariant | proved | Same model as C03; prove nestedness by monotonicity of the percentile in q, equivariance by commuting with monotone affine maps. | For fixed draws; equivariance under adding a constant and non-negative scaling. |
| C05 | Confidence-interval arguments are rejected exactly when invalid | partial | Python scalars as a sum type (int/float/bool/nan/inf/other); decision procedure proved equivalent to the documented condition. | Acceptance is characterised exactly on non-nan alpha; nan alpha is accepted by the code and then fails, which is proved as a counterexample. |
| C06 | softmax is a stable probability map | proved | Over the reals (Mathlib exp); model is the max-shifted code; spec is exp x_i / sum exp x_j. | Over the reals; also that every exponent is non-positive and the largest is zero. |
| C07 | sigmoid is the logistic function computed without overflow | proved | Over the reals; model is the min/abs form; spec is 1/(1+exp(-x)). | Over the reals. |
| C08 | check_ope_inputs accepts exactly the documented inputs | partial | Validator as an Except-valued function on tagged array arguments; proved equivalent to a declarative predicate. | Acceptance is characterised exactly (iff). The exception class is ValueError except for missing/non-array companions, where the code raises AttributeError (proved). |
| C09 | Inputs accepted by the OPE validation never cause an indexing failure | partial | numpy fancy indexing with broadcasting modelled on lists with IndexError; proved safe when numbers of rounds agree; the general claim is refuted by a witness (`_partial`). | Proved for aligned arguments (as many actions as rounds in action_dist, at least one position). The unaligned case is false: whenever the numbers of actions and rounds differ (and it is not one action) the nine classes that look up actions raise IndexError; one action is silently broadcast (witness). |
| C10 | check_bandit_feedback_inputs accepts exactly the documented inputs | proved | As C08. | Exact acceptance (iff). |
| C11 | Slate validators accept exactly well-formed slate logs | proved | As C08; rows as a list of records; pandas duplicated/groupby/sort/expanding-min modelled on lists; equivalence with order-free predicates and permutation invariance. | Exact acceptance (iff) for the three validators; invariance under every permutation of rows. |
| C12 | check_cascade_dr_inputs accepts exactly well-formed cascade-DR inputs | partial | As C08 on top of C11. | Acceptance is characterised exactly. The documented length of the q_hat argument is not: the code compares a floor-divided length, and a witness of an accepted wrong length is proved. |
| C13 | IPW is exactly unbiased under full support | proved | Finite product probability spaces (each round draws action ~ pi_b and an outcome from an arbitrary finite reward law); expectation = finite sum; prove E[estimate] = V. | All finite processes with fixed contexts, arbitrary finite reward laws and arbitrary numbers of rounds, actions and positions. |
| C14 | DR is doubly robust | proved | As C13, two theorems (correct pscore / correct q_hat). | Both directions, on the same class of processes as C13. |
| C15 | IPW/SNIPW/DR on-policy consistency | proved | Algebra on the refinement of the estimator models to per-round formulas. | Per-round identity and value; interval of IPW too. |
| C16 | DR nests IPW and DM | proved | As C15. | Identities of the returned values for all inputs passing validation. |
| C17 | Clipping behaves as documented | proved | Order reasoning on clipped weights with lambda in [0, inf]. | Order theorems on the returned values, exact condition for equality (iff). |
| C18 | SNIPW is a weighted average of rewards | proved | Weighted-average bounds; normaliser zero is the explicit non-finite outcome. | Range, affine equivariance, scale invariance, finiteness (iff). |
| C19 | ReplayMethod averages exactly the matched rewards | proved | Both branches of the code, incl. no match. | Both branches of the code. |
| C20 | DirectMethod is an expectation under the evaluation policy | proved | np.average with its ZeroDivisionError modelled; bounds, linearity, scale invariance. | Range, linearity, exactness, independence of the log, rescaling. |
| C21 | Switch-DR interpolates between DM and DR | proved | Case split on iw <= lambda. | Per round and for the value. |
| C22 | DRos weights shrink the importance weights | proved | Inequalities over the field (sqrt bound stated squared). | Inequalities on the rounds of the modelled estimator; the square-root bound is stated squared; 0/0 at lambda 0 proved non-finite. |
| C23 | Sub-Gaussian weights are bounded and interpolate | proved | Inequalities; lambda=1, w=0 non-finite outcome proved. | As C22; lambda 1 with a zero weight proved non-finite. |
| C24 | SNDR normalisation | proved | Algebra and weighted-average bounds. | Identities and range; normaliser zero is the non-finite outcome. |
| C25 | BalancedIPW is a weighted average of rewards | proved | As C18 with clipping. | Range, scale invariance; zero weights proved non-finite. |
| C26 | Estimates do not depend on the order of the logged rounds | proved | Reindexing of finite sums by a permutation of rounds, for every estimator. | All estimators at once, every permutation. |
| C27 | estimate_interval is centred on the same per-round estimates as estimate_policy_value | proved | estimate_interval model calls the same round-reward function; combine with C03. | All estimators, all draws, including failing inputs. |
| C28 | use_estimated_pscore selects the propensities | proved | Non-interference theorem on the argument record. | Non-interference theorem in both directions, for every estimator with the flag. |
| C29 | Omitted position means position zero | proved | Equality of runs with None / zeros. | None and zeros agree for the five estimators documented; the position argument is proved required otherwise. |
| C30 | Constructor validation of lambda_ | proved | Scalar sum type as in C05. | Exact acceptance (iff) for all constructors, the tuning classes and the multiple-logger classes. |
| C31 | MSE score used for tuning is a non-negative upper bound | proved | Model of np.var, bias helpers over the reals (sqrt, log). | Closed form of the score and bounds, over the reals. |
| C32 | High-probability bounds are ordered | proved | Real analysis inequalities on helper.py. | Closed forms for every sample, bound at most the mean iff x_max is not negative or delta = 1, monotonicity in delta, over the reals. Witness family: samples of negative numbers with x_max omitted (C32_hoeffding_negative). |
| C33 | MSE tuning picks a minimiser | proved | Candidate list and score function as parameters; dict semantics (first insertion order, later value) and min modelled; argmin proved. | Chosen value is a candidate of minimal score and the first such, for every score function and candidate list. |
| C34 | SLOPE tuning follows Lepski's rule | proved | SLOPE loop modelled as structural recursion over the sorted list; loop invariant. | Loop invariant for every candidate list; the compared statistics are given in closed form. |
| C35 | Tuned estimators equal the base estimator at the chosen hyperparameter | proved | State machine of the tuning object (best_hyperparam attribute as an option); first call = base estimator at the tuned value. | Value and interval of a first call, for all tuning classes and both methods. |
| C36 | Tuning adapts to each data set | partial | Refuted by history witness; `_partial`: holds for the first call, later calls return the cached choice (proved for all histories). | First call tunes on its data (proved). Later calls reuse the cached hyperparameter: proved for every history, with a two-call witness of a different answer. |
| C37 | Tuning works with estimated propensities | partial | Model of the forwarded keyword sets; negative theorem for the sub-Gaussian classes, positive for the others. | Proved for IPW, DR, Switch-DR, DRos tuning. The two sub-Gaussian classes are proved to raise ValueError on every input. |
| C38 | Kernels are proper densities | proved | Kernels over the reals, integrals with Mathlib interval integrals and Gaussian integral. | Integrals computed with Mathlib. |
| C39 | Kernelised estimators relate as in the discrete case | proved | Algebra as in C15/C18. | Closed forms, range, shift equivariance, no-overlap and zero-bandwidth outcomes, intervals. |
| C40 | SlateStandardIPS is unbiased | proved | Finite product space over slates; expectation as finite sum. | All finite slate processes; number of slates, positions and actions arbitrary. |
| C41 | SlateIndependentIPS and SlateRewardInteractionIPS are unbiased under their assumptions | proved | As C40 with marginal/prefix propensities; needs dependence assumptions as hypotheses (satisfied in examples). | As C40 under the stated dependence assumption, as hypotheses satisfied by examples. |
| C42 | SlateCascadeDoublyRobust nests RIPS and is unbiased for any q_hat | proved | np.roll / reset-to-one weights modelled on flat arrays; telescoping lemma. | Value and interval for zero predictions; unbiasedness for any predictions under the cascade assumption. |
| C43 | Slate estimates do not depend on row order | partial | Permutation invariance for IPS family; explicit witness against CascadeDR (`_partial`). | Proved for SIPS, IIPS, RIPS and the self-normalised versions (value and interval). Cascade-DR depends on the row order: witness proved. |
| C44 | Slate interval bootstraps per-slate sums | proved | groupby sums over unique ids; sum of group sums. | All slate estimators, all ids. |
| C45 | Self-normalised slate estimators | proved | Per-position normalisation. | Closed form per position; range; zero weights proved non-finite; the joint version too. |
| C46 | All slate estimators coincide for slates of length one | proved | Specialisation to one position. | All logs with one position. |
| C47 | MIPS is unbiased without direct effects | partial | Finite process with embedding; expectation as finite sum. | Unbiased when embedding dimensions are independent under both policies (automatic for one dimension). For two or more dimensions the code multiplies marginals and is biased: witness proved (expectation 10/9, value 1). |
| C48 | MIPS equals IPW for one-to-one embeddings and has constant weight for constant embeddings | partial | Algebra on the weight formula. | Equality with IPW proved for one embedding dimension, weight one for a law shared by all actions in any dimension. For redundant dimensions the equality is false: witness proved. |
| C49 | Embedding selection returns a definite estimate | partial | Pruning loop with optional variable; negative witness and exact description (`_partial`). | The returned estimate is characterised exactly for both methods. It is not the last accepted subset when all are accepted, and min_emb_dim >= n_emb_dim raises UnboundLocalError: both proved. |
| C50 | Balanced multi-logger IPW is unbiased for mixed loggers | proved | Finite process with a logger per round and mixture propensity. | Unbiasedness of balanced IPW and balanced DR over all processes with fixed loggers and random contexts; only the mixture needs support. Witness that the naive estimator is biased in such a case. |
| C51 | Weighted multi-logger weights | proved | Algebra; zero stratum variance is the explicit non-finite outcome. | Closed form with weights that average to one and are inversely proportional to stratum variances, for labels 0..m-1 and non-zero variances (other cases: C53). |
| C52 | Every multi-logger estimator supports estimate_interval | partial | Keyword binding model; negative theorem for all inputs; positive for the others (`_partial`). | Proved for the naive and weighted classes. The balanced classes are proved to raise TypeError from estimate_interval whenever estimate_policy_value works. |
| C53 | Stratum indices may be arbitrary non-negative integers | partial | np.unique / indexing model with IndexError witness; `_partial` for labels 0..K-1. | With labels 0..m-1 success is characterised exactly (no stratum of zero variance). All other non-negative integer labels are proved to raise IndexError, and labels that are negative, not integers or of another number than the rounds to raise ValueError. |
| C54 | OffPolicyEvaluation reports exactly one entry per estimator name | proved | Insertion-ordered dict model; refinement to 'last estimator with that name'. | Front ends for ordinary, multiple-logger, continuous and slate feedback; estimator objects are arbitrary (name, value method, interval method), the classes are instances. |
| C55 | Per-estimator model dispatch | proved | Preprocess loop modelled; projection theorem. | Projection theorem: only the estimator's own entries matter, and exactly what is passed. |
| C56 | p_e_a may be given as an array | partial | Local-variable environment of the function modelled as option; negative theorem and exact condition under which it works (`_partial`). | The claim is false of the code for arrays: the shape test reads a stale variable (meta.py:187). Proved: any array gives UnboundLocalError (no dict with entries among the other arguments), or is accepted iff n_rounds = n_actions whatever its shape; dict arguments work. |
| C57 | Estimator accuracy metrics | proved | Algebra over the field. | Exact values, zero iff exact, unit-freeness, error cases; ordinary, multiple-logger, continuous-action and slate front ends. |
| C58 | Missing model inputs are rejected up front | partial | Flags of estimator classes; decision theorem; witnesses for the gaps (`_partial`). | Holds for estimate_policy_values / estimate_intervals and the plain classes; the tuned classes are not recognised and evaluate_performance_of_estimators makes no test (both proved), so earlier estimators run first. |
| C59 | Slate OPE front end feeds each estimator its own propensities | proved | Decision logic of meta_slate. | Dispatch, missing inputs and the relative value. |
| C60 | Context-free policies count each observation exactly once | proved | State machine over update histories; invariant by induction. | All histories by induction; out-of-range actions raise IndexError. |
| C61 | select_action returns a valid ranking | partial | argsort and random choice as arbitrary valid permutations/injections; distinct and in range. | Proved for every state, generator and tie order for EpsilonGreedy, Random and BernoulliTS, and for the linear and logistic policies on a context of one row. LinTS, LogisticTS and LogisticEpsilonGreedy do not check the number of rows: witnesses of non-existent action ids are proved. |
| C62 | EpsilonGreedy exploits the empirically best actions | proved | Argsort contract (sorted permutation); top-k theorem. | All reachable states, all draws, all tie orders. |
| C63 | compute_batch_action_dist returns a policy | proved | Counts of n_sim selections. | Random is uniform; BernoulliTS frequencies are non-negative and sum to one for n_sim >= 1; n_sim = 0 is the non-finite outcome. |
| C64 | BernoulliTS posterior parameters are the Beta posterior | proved | Corollary of the counting invariant. | For all histories with rewards in [0,1]; a witness shows that rewards above one can make a parameter non-positive. |
| C65 | Linear policies solve ridge regression exactly | proved | Mathlib matrices over an ordered field; Sherman-Morrison invariant by induction over histories. | Sherman-Morrison invariant by induction over all histories; C65_any_history covers failing updates and initialize calls too. |
| C66 | LinUCB bonus is well-defined and shrinks | proved | Positive definiteness invariant and quadratic-form monotonicity. | Positive definiteness and antitonicity for every history, initialize calls and failing updates included. |
| C67 | initialize() resets a policy | partial | Witness history; `_partial` for context-free policies. | Proved for the context-free policies. False for linear and logistic policies: initialize keeps the learned parameters (all states), with a witness of different behaviour. What is restarted (generator, trials, action counts, pending observations) is proved for both (C67_linear_restarts_partial, C67_logistic_restarts_partial). |
| C68 | Logistic policies learn from each observation once | proved | List state machine; concatenation of batches equals history filtered by action. | The optimiser is an arbitrary function of the loss, its gradient and the starting point. With initialize calls in between: C68_any_history (an interrupted batch is never fitted). |
| C69 | Online logistic regression learns from failures | partial | Real-valued loss; negative theorem for y=0 (`_partial`: labels in {-1,1}). | False as stated, proved: reward-0 observations add the constant log 2 and do not change the minimisers. For labels -1/1 the loss is the negative log-likelihood; grad is the gradient of loss. |
| C70 | Offline learners output deterministic policies | proved | argmax / one-hot assignment models of the three learners over arbitrary models and networks. | IPWLearner, QLearner and NNPolicyLearner: exact output on all contexts, models and networks; labels beyond n_actions raise IndexError. |
| C71 | sample_action draws rankings without repetition | proved | argsort as arbitrary valid permutation. | All three learners, for every argsort satisfying its contract, all noise, tau > 0; tau = 0 is a division by zero. A classifier that has not seen all actions makes sample_action raise (proved). |
| C72 | NNPolicyLearner objective gradients match the estimators | proved | HasDerivAt statements over the reals. | Loss gradient equals minus the gradient of the modelled estimator's value, for dm, ipw, dr, ipw-os, ipw-subgauss; snipw is the IPW estimate of translated rewards. Without regularisation terms. |
| C73 | Early stopping stops only when the loss stops improving | partial | Counter state machine over arbitrary loss sequences; negative witness (`_partial`). | False in the code: exact number of optimiser steps of an improving run is proved (C73_improving_run), with a numeric witness; worsening runs are never stopped; only runs no longer than n_iter_no_change steps are safe. |
| C74 | QLearner works with every fitting_method | partial | Calls the modelled RegressionModel validation with the all-ones array; negative theorem for all inputs (`_partial`: 'normal'). | False for 'iw' and 'mrdr' (every input fails, ValueError on well-formed data) and for base_model=None; 'normal' is characterised exactly. |
| C75 | Delayed rewards are delivered exactly once and never early | proved | Queue state machine with arbitrary policy and delays; ghost log of deliveries; invariant by induction over rounds. | For every policy, every delays, every sequence of rounds and clears: deliveries are exactly once, never twice, never early, and at t+d if the run lasts and delays are given in that round. |
| C76 | Simulator bookkeeping | proved | Same state machine. | All runs; totality for total policies; offline policies rejected with RuntimeError. |
| C77 | run_bandit_replay updates only on matches | partial | Loop model (given a working progress bar) and the as-imported TypeError (`_partial`). | As imported (tqdm is a module) every valid call raises TypeError, proved. With a working progress bar the updates on matches are characterised exactly. |
| C78 | calc_ground_truth_policy_value averages simulated expected rewards | proved | Fold over simulations, each from a copy of the policy; TypeError for position=None. | position=None raises TypeError. Every simulation starts from a copy of the policy, so all simulations repeat the same random stream (also proved). |
| C79 | CoefficientDrifter returns exactly the requested rounds | partial | While loop with fuel-free well-founded recursion; row counts; splitting witness (`_partial`). | Termination, row counts, convexity, range and the schedule are proved for all requests after any earlier requests. Splitting a request changes the rows if there is a transition period (witness proved); equality proved without a transition period and for splits at interval ends. Interval 0 never returns, proved. |
| C80 | Logged propensities are the behaviour policy's probabilities | proved | softmax from C06 composed with the support mask and C01 sampling. | All logits, beta, deficient counts, noise orders and draws; the support, the softmax values, the propensities and the inverse-transform interval are given. |
| C81 | Classification-to-bandit reduction is faithful | proved | Direct model. | Feedback, evaluation policy, alpha check and ground truth for labels 0..A-1 (other labels: C82). |
| C82 | Class labels need not be 0..k-1 | partial | Raw-label indexing with Python wrap-around; witnesses (`_partial`). | False for labels that are not 0..A-1: index error and wrong-reward witnesses are proved. Faithful exactly when labels coincide with their rank (iff). |
| C83 | Multi-logger strata partition the rounds | partial | Rounded sizes with integer arithmetic; sum theorem; negative-size witness (`_partial`). | Sizes add up and are within rounding of the proportions for all inputs; partition proved when the last logger is due enough rounds or there are at most two loggers. In general false: negative sizes, with witnesses. |
| C84 | calc_ground_truth_policy_value of datasets is the exact policy value | proved | Weighted-average model as C20. | Exact value, range, linearity, deterministic policies and all error cases. |
| C85 | Slate propensities form a probability distribution over rankings | proved | Plackett-Luce product on lists without repetition; induction on slate length. | Also for factorizable policies; exact product formula, acceptance condition, flattening over rounds and refused shapes. |
| C86 | Item-position propensities are true marginals | partial | Marginalisation over enumerated slates; clipping of logits modelled, witness when it binds (`_partial`). | Marginals of the joint propensities for every logit row when no clip value cuts a logit off; with a binding clip_logit_value false, witness given. |
| C87 | Slate ground-truth values | partial | Models of the two branches; witnesses (`_partial`). | Click expectation exact without click model, for the position-based one, and for cascade with two positions; for three positions the exact excess is proved, and for more (expected rewards at most 1/2 from the third position on) that the excess is at least that of the first three (C87_cascade_gap). Batches cover the rounds and the batched value is the average when rewards depend on the own context only (false for len_list > 1, C110). Without base reward function the value is the sum over rounds. |
| C88 | Named slate evaluation policies do what they say | partial | argsort contract; negative theorem for swapped names, positive for what is computed (`_partial`). | Random and epsilon-greedy propensities are the marginals of the stated mixtures; optimal and anti-optimal are swapped (proved), so the claim itself is false for them. |
| C89 | Time-series split partitions the log | proved | Slicing model with the floor of n*(1-test_size) in exact arithmetic. | All logs and all test_size in [0,1], in exact arithmetic for n*(1-test_size); refusals and the empty test part included. |
| C90 | Cross-fitting never predicts a round with a model trained on it | partial | Base learner as an arbitrary state machine; fold assignment as an arbitrary partition; warm-start witness (`_partial`). | For every split and base model, all three fit_predict methods: each round is predicted once, by a model whose last fit used exactly its fold's training rounds. Non-interference of a round's own log needs a base model that forgets earlier fits; with warm_start it is false (witness proved), since the same object is refitted in every fold. |
| C91 | RegressionModel trains one model per position with the stated weights | proved | Filter by position, weights as formulas. | fit characterised exactly (iff) on valid data: one fit per position on exactly its rounds with the documented weights; ValueError for positions without rounds and for action_dist not summing to one; default pscore is uniform. |
| C92 | Slate regression targets are the cascade Bellman targets | proved | Backward recursion over positions with a learner parameter. | Targets characterised exactly (iff) for all learners; exactness by backward induction for averaging learners under coverage, for both weightings. |
| C93 | Estimated importance weights and propensities | partial | Classifier probabilities as parameters; negative theorem for position=None (`_partial`). | IWE: value p/(1-p), density ratio for calibrated classifiers. PSE: probability of the logged action when all actions were seen; absent actions misalign columns, position=None gives zeros (PSE) or ValueError (IWE): all proved. |
| C94 | Sampled delays and context drift are well-formed | proved | Exponential draws as arbitrary non-negative numbers; ceil. | Exponential draws are arbitrary non-negative numbers. |
| C95 | Continuous-action estimators accept exactly the documented inputs | proved | Validator of the continuous estimators as an Except-valued function; proved equivalent to a declarative predicate. | Exact acceptance (iff). |
| C96 | The kernelised IPW estimate targets the kernel-smoothed policy value | proved | Mathlib integrals of the modelled per-round estimate against an arbitrary positive action density. | Measure-theoretic expectation with Mathlib integrals, for deterministic rewards and for rewards random given the action; bias bound by the bandwidth and the Lipschitz constant. |
| C97 | Summary tables report the front end's own values and their ratio to the logged average reward | proved | Dict model of the front end; ratio to the logged mean with its nan branch. | All inputs, with the nan outcome of the ratio; ordinary, multiple-logger and continuous-action front ends. With several loggers a balanced estimator makes the summary fail (C97_multi_balanced_fails), see C52. |
| C98 | Logistic policies' uncertainty is bounded by the prior | proved | Invariant over histories from C68's refinement; optimiser arbitrary. | The optimiser is arbitrary; every history, initialize calls and failing updates included. |
| C99 | Logistic precisions are a Laplace approximation | partial | Exact shifted increment (`_partial`), negative theorem, second-derivative justification of the spec. | The exact increment is proved: the curvature at the score shifted by one. The unshifted claim is refuted. |
| C100 | IPWLearner maximises the IPW estimate | proved | fit modelled per position; reduction to a weighted-accuracy contract of the classifier. | Relative to any class of decision rules in which the base classifier is optimal; one example classifier shown to satisfy the contract. |
| C101 | predict_proba is a Boltzmann distribution | proved | Softmax of C06 on the modelled scores. | Exact, over the reals. |
| C102 | The training loss is a number for every mini-batch | partial | torch.var of one entry as the non-finite outcome; batch splitting modelled; exact condition (`_partial`). | The loss is finite exactly for batches of at least two rounds; batches of one round occur for n % batch_size = 1 (proved). |
| C103 | Contextual policies can be run against an environment with steps(n) | partial | Environment rounds carry 1-D contexts; negative theorem for all policies rejecting them (`_partial`). | False: the first environment step raises for every policy rejecting 1-D contexts; the batch of rounds works. |
| C104 | Successive batches of a synthetic dataset are fresh samples | partial | Seeded streams as functions of the seed; negative theorems. | The code violates the claim: batches repeat and draws equal the expected rewards (both proved). Within one batch the draws select actions correctly (C80). |
| C105 | Multi-logger policies and propensities are consistent | partial | Direct model; positive theorem without deficient actions, witnesses otherwise (`_partial`). | Proved without deficient actions; averaging over the rounds is exact only for whole-number proportions. With deficient actions false, proved. |
| C106 | Action embeddings mediate the reward | proved | Finite embedding law; total expectation; seeds as functions. | Law of total expectation, range, no direct effect, sampling; the shared-seed coincidence is proved as a defect. |
| C107 | Bootstrap samples of the Open Bandit Dataset keep rounds intact | proved | Index sampling as arbitrary valid index lists. | All logs, requests and draws; refusal of invalid sizes. |
| C108 | z_score=True standardises expected rewards | partial | The two operator orders as formulas; characterisation and witness (`_partial`). | The code violates the claim; the actual result is characterised for all inputs. It holds only up to the missing scaling when the mean is zero. |
| C109 | Behaviour logits are standardised | proved | Algebra on standardised lists with an abstract standard deviation. | For every list of logits with non-zero standard deviation; the square root is a parameter std with std^2 the variance. |
| C110 | Slate rewards use the round's own context | partial | Reward lookup by i // len_list modelled on lists; exact description (`_partial`). | False: rewards of round i use round i // len_list, proved for logged and enumerated slates; own context only for len_list = 1 or the first round. |
| C111 | Slate rewards belong to the chosen action | partial | int8 casts modelled with wrap-around; exact description (`_partial`). | True up to 128 actions; for 128 to 255 the exact wrong action or IndexError is proved. |
| C112 | Reward structures follow their definitions | partial | Folds over positions; sums over earlier / other positions (`_partial`: up to 128 actions). | For at most 128 actions and on the transformed scale; rounding to float16 not modelled. |
| C113 | Sampled slates follow the behaviour policy and log matching propensities | proved | Sequential sampling loop by induction on positions. | One round; numpy's choice is modelled as inversion of the cumulative probabilities. |
| C114 | Decay reward structures follow the documented formula | partial | Folds over positions; negative theorem with the computed formula. | False: the code's actual formulas are proved and a witness shows they differ from the documented ones. |
| C115 | Conditional action distributions of slate policies | partial | Masked softmax with the constant exp(-10000) over the reals; exact formula (`_partial`). | Exact formula including the masked weight exp(-10000); exact policy for factorizable policies and the first position. Masked actions keep positive mass and dominate for logits far below -10000 (proved), so the stated proportionality holds only up to that mass. |
| C116 | The linear slate behaviour policy depends on the context | partial | Invariance of the softmax under a shift common to all actions. | False: proved that propensities are the same for all contexts; zero temperature gives no finite logits. |
| C117 | Slate on-policy value is the average slate reward | proved | Group sums over distinct ids. | All rewards, all injective slate ids. |
| C118 | Slate ground truth enumerates the policy exactly | partial | Enumerations by recursion (itertools permutations / product) with completeness proofs; composition of C85, C87, C110 (`_partial`). | Enumeration proved complete and duplicate-free for all sizes. Weights and value proved for at most 128 actions; beyond, the int8 overflow is proved: wrong weights for factorizable policies, IndexError for the others. Without base reward function the sum instead of the average is returned (proved). |
| C119 | Kernelised estimators are constructed exactly with documented kernels and usable bandwidths | partial | Constructor as an Except-valued function of a string and a scalar sum type (`_partial`: useless bandwidths accepted). | Exact acceptance (iff) proved. nan, zero and infinite bandwidths are accepted though useless: proved as C119_nan_bandwidth, C39_zero_bandwidth, C119_infinite_bandwidth. |
| C120 | Offline learners and regression models are constructed exactly from documented settings | proved | Constructors as Except-valued functions; iff with the documented condition. | Exact acceptance (iff), with the stored configuration. |
| C121 | Intervals of embedding estimators belong to their estimates | partial | Same round function as the estimate, composed with C03; witness with selection (`_partial`). | Proved without embedding selection, for every input including failing ones. With selection it is false: the interval always uses all dimensions (witness proved). |
| C122 | Validation with several loggers accepts exactly well-formed inputs | proved | Composition of C08 with the stratum check. | Exact acceptance (iff) on top of C08. |
| C123 | The validation split of the network policy learner keeps data on both sides | partial | Sizes by floor and max; witness for fraction 1 (`_partial`). | Proved for fractions below one and any number of rounds; the documented fraction 1 leaves an empty training set (proved). The size of the split follows PyTorch's random_split call; which rounds go where is drawn by the generator. |
| C124 | MIPS with estimated weights uses the conditional expectation of the importance weight | proved | Unfolds the one-hot encoding with dropped first categories (injective), the scatter of class probabilities, and Bayes' rule for the calibrated case. | The classifier is an arbitrary function of its training data; the theorem on true weights assumes its predictions are the posterior probabilities. |
| C125 | Online policies are constructed exactly from documented settings | partial | Unfolds check_scalar for every kind of Python scalar; iff-characterisations; errors by case analysis. | Acceptance characterised exactly for every constructor; missing from the documented claim: nan is accepted (proved). Length and sign of priors handed to BernoulliTS are not checked by the code; what select_action then does is C64. |
| C126 | Sampled rewards have the reported expected reward | partial | A draw is modelled by the distribution it is requested from; the mean of the truncated normal distribution is derived from its density by the fundamental theorem of calculus, and its position relative to the location parameter and the middle of the interval by symmetrisation. | Proved for binary rewards and for sample_reward. For continuous rewards logged in a batch the property is false and its negation is proved for every reward function value (C126_batch_mean_differs): the truncation correction is applied to the mean and the corrected mean is then truncated again. The slate dataset never applies the correction (C126_slate_mean_differs). reward_std = 0 is accepted but yields no numbers (C126_zero_std). |
| C127 | Logged continuous rewards are unconfounded | partial | A round is a function of its uniform number; inverse transform sampling is related to the density by the change of variables formula, and the average over the part of the unit interval that selects the first (last) action is compared with the mean by strict monotonicity of the quantile function. | False of the code: action and reward are drawn from generators started from the same integer seed and each takes one uniform number per round, so both are functions of the same number. Proved: the first action's logged rewards are biased downwards, the last action's upwards, inverse propensity weighting is biased, and all positions of a slate move together (given that scipy samples by inverting the distribution function). What holds: every round has a supported action and a reward within the bounds. |
| C128 | Built-in reward functions are the documented bilinear model | proved | Unfold the matrix products on lists, exchange the sums of the interaction part; induction over combinations with replacement for the features. | All six functions, static and per-round coefficients, polynomial features as the set of monomials. Argument checks of degree and ratio are constants at every call and not modelled; coefficient functions returning other shapes only raise in the model. |
| C129 | Expected reward and behaviour policy are functions of the context | partial | The rows of the result are a map of a single function over the contexts; witnesses for the failures are two batches sharing a context. | Proved for all six reward functions with z_score=False. False with z_score=True, the default (C129_z_score), and for the behaviour policy functions (C129_behavior): both shift or scale by statistics of the whole batch. |
| C130 | Synthetic datasets and the environment simulator are constructed exactly from documented settings | partial | constructors modelled check by check (Model/DatasetInit); iff theorems against a separate specification of numbers and bounds | Acceptance is characterised exactly (iff) for all five constructors and refusals are TypeError or ValueError. Missing from the claim because the code violates it: nan is accepted (C130_nan_accepted), and so are empty lists of loggers (C130_no_loggers: no batch can then be obtained) and all-zero shares (C130_zero_shares). |
| C131 | Continuous propensities are the density of the logged action | partial | truncated normal law with infinite bounds via the normal distribution function; inverse-transform sampling proved to have the stated density | Exact law and density with a behaviour policy function (C131_gaussian_partial) and without it for finite bounds (C131_uniform_partial); success characterised exactly (C131_gaussian_iff). That it works for all accepted settings is false of the code and its negation is proved: default infinite bounds without behaviour policy function give no finite action (C131_default_bounds), zero noise no finite propensity (C131_zero_noise). |
| C132 | Continuous-action rewards and ground truth follow the documented functions | partial | functions over an abstract generator; Gaussian first moment; Fin-sum formulas | Proved for every seed and input, except that sign_synthetic_policy_continuous returns the sine of the average context, not its sign: proved as C132_sign_is_sine. |
| C133 | Continuous-action batches are fresh samples | partial | generators as arbitrary state machines; restarts from the seed made explicit | Contexts and reward noise are disjoint consecutive parts of one stream (proved). The rest is false of the code, proved for every generator: actions repeat in every batch without behaviour policy function; the coefficients of linear behaviour policy and linear reward are the same vector and equal the first context of the first batch; with both functions and no bounds the reported expected rewards do not depend on the contexts at all. |
| C134 | Neural learners refuse bad settings before training | partial | constructors modelled check by check (Model/NeuralInit); iff theorems against a separate specification | Acceptance characterised exactly for all four constructors, with the layer sizes of the network built. Missing because the code violates it: nan is accepted, the number of actions of QFuncEstimator is not checked, output spaces of wrong length or order are accepted, the documented momentum 0.0 (sgd with default Nesterov) and beta_1 = 1.0 make fit raise, and batch size 'auto' is the minimum of 200 and the data size, not the documented maximum. |
| C135 | Neural policies are proper distributions for any weights | proved | induction over the layers; softmax algebra | Over the reals, so without underflow of the softmax. C135_activations also shows that the documented formula of the logistic activation has the wrong sign. |
| C136 | The continuous policy learner maximises the kernelised estimates of its own predictions | proved | both implementations reduced to the same closed form | Proved for positive propensities and bandwidth and an ordered output space of two numbers. For the other spaces the constructor accepts (unordered, too short) and bandwidth nan, the behaviour is stated in C136_bad_space and C136_nan_bandwidth. |
| C137 | The continuous learner trains on each round's own data | partial | validation and data preparation modelled line by line; list lemmas | Accepted inputs are exactly the well-formed ones and the training rounds are as stated. Missing because the code violates it: without propensities, arrays of different lengths are reported as AssertionError with ipw (C137_different_lengths). |
| C138 | Contextual policies rank by the documented scores | proved | Model/Contextual; IsTopRanking with the explicit score; the sigmoid is strictly increasing, so the ranking is that of the linear scores. | All contexts, histories and hyperparameters; random draws are arbitrary inputs. |
| C139 | Nuisance models and offline learners reject malformed data | proved | Model/Regression and Model/Offline; each rejection as an equation with the exception, the slate model as an equivalence. | Base models are arbitrary functions; folds are arbitrary. |
| C140 | Front ends refuse misshapen evaluation arguments | proved | Model/Meta.lean checks; Props/FrontEnd.lean characterises them by the shapes in Spec/Meta.lean (WellShaped) by induction over dict entries. | Rejection exactly of the misshapen arguments. p_e_a as a single array is the subject of C56 (UnboundLocalError). |
| C141 | Plots show the reported estimates | partial | Model/Reports.lean models the unchecked call of _estimate_round_rewards and the data frame; Props/Reports.lean and Props/Plots.lean relate it to the checked call class by class. | Proved for continuous actions, for several loggers, for the eleven single-logger classes when the logged propensities are used (single logger: with positions, or a class that defaults them), for the embedding estimators without embedding selection on logs with positions, and for any mix of these in one plot (C141_mixed_plot_partial). The rest is false of the code: estimated propensities are ignored by the plots (C141_estimated_ignored, witness C141_estimated_differs); without positions five classes and both embedding classes cannot be plotted (C141_no_positions, C141_no_plot, C141_embed_no_plot); tuned estimators cannot be plotted (C141_tuned_no_plot); with embedding selection the bar shows all dimensions instead of the selected ones (C141_embed_selection_ignored, C141_embed_bar_without_estimate). |
| C142 | Comparing several policies in one plot | partial | plotPolicies in Model/Reports.lean; fold over policies by induction, subplot index bound by induction over the estimators. | All three front ends that have the plot (single logger, several loggers, continuous actions). Columns and heights proved whenever the call succeeds, and success for at most as many estimators as policies on valid logs that the estimators can evaluate (C142_succeeds, C142_multi_succeeds, C142_cont_succeeds). False of the code otherwise: with more estimators than policies the call never succeeds, because the grid of subplots has one row per policy (C142_more_estimators_than_policies, C142_multi_more_estimators, C142_cont_more_estimators). Distinct names assumed. |
| C143 | Error bars of the slate plot | partial | slateBar / slatePlot in Model/Reports.lean on top of the summary; arithmetic in Props/Plots.lean with a concrete interval drawn too long. | False of the code: the bar extends by the full width of the interval to either side of the mean, so it is twice as long and coincides with the interval only if that is a single point. Proved: the exact length, the height, and that the bar encloses the interval when that contains the mean. |
| C144 | A batch of bandit rounds is played once per round, in order | proved | Model/Environment.lean models BanditRounds as a state machine with its cursor and Python's for loop over it with an arbitrary body; loop invariant by induction on the remaining rounds. | `next` before `iter` raises AttributeError (C144_next_needs_iter). |
| C145 | The environment simulator produces rounds that fit together | partial | Model/Environment.lean models construction, contexts, expected rewards, Bernoulli draws entry by entry, delays, next_bandit_round and next_bandit_round_batch with an abstract generator; theorems describe the arrays entry by entry. | False: reward_type and reward_std are ignored, rewards are always binary (C145_reward_type_ignored); next_bandit_round returns the action context of the first action only and a context with the batch axis (C145_one_round). Everything else is proved. |
| C146 | Expected rewards of slates follow the documented interaction formula | partial | Model/SlateInteraction.lean has the whole function over the reals; Spec/SlateInteraction.lean states the documented formula. Theorems for logged and enumerated slates, range, independence, log-odds and rejection. | The formula holds with the base rewards of round i // len_list instead of round i (C110), and for up to 128 actions (C111). Base rewards 0 and 1 of binary rewards have infinite log-odds and are excluded. |
| C147 | The neural learners train on exactly the logged rounds | proved | Training data as a function of the arguments (iff); the loop as a fold over arbitrary permutations with abstract network, optimiser and loss; induction over batches and epochs. | Network and optimiser are arbitrary; loaders are lists of batches of an arbitrary permutation. Positions are refused as missing with TypeError when len_list > 1 (C147_positions_needed). |
| C148 | Early stopping ends training when the validation loss stops improving | partial | Same loop: the validation pass only changes its own counters; simulation of the run without early stopping; negative witness for every number of epochs. | False in the code. The validation losses never have an effect: the result is that of training without early stopping on the training rounds (C148_only_drops_rounds, C148_validation_ignored); every epoch is trained whatever the losses (C148_never_terminates; witness not_C148_stops_when_validation_stalls). |
| C149 | SLOPE tunes almost as well as an oracle | proved | The scan stops at the first candidate whose interval misses an earlier one; case split on whether the oracle candidate precedes the stop; the constant follows from sqrt(6) - 1 in the test. | For the selection (C149_slope_oracle) and for the estimate of a tuned estimator on logged data (C149_tuned_value). The validity of the Student-t half-widths is a hypothesis, as in the method's paper. |
| C150 | The Hoeffding lower bound covers | partial | Value of the bound (C32) and Hoeffding's inequality from Mathlib's sub-Gaussian library; negative witness on a coin flip. | Proved for numbers between 0 and a given x_max (C150_hoeffding_partial), and from it: the bound of the per-round values of IPW exceeds the value of the policy with probability at most delta (C150_policy_value). False for bounded numbers that may be negative, which the docstring allows: the width uses x_max where the range is needed (not_C150_negative, violated with probability 1/2 at delta=0.05). x_max=None is not covered. |
| C151 | Estimates are consistent | proved | Streams of independent rounds in Spec/LogStream; the per-round values of each class; change of measure through the logging policy, conditional expectations, and Mathlib's strong law of large numbers. | Contexts in any measurable space, rewards any integrable random variables given by their conditional mean. Finite lambda_ is covered if no weight exceeds it (IPW, DR). |
| C152 | Sampled rankings follow the Plackett-Luce distribution | proved | The perturbed scores are turned into independent exponential clocks (exp of minus score); the race lemma computes by induction over the number of actions the probability that the clocks ring in a given order, ties have probability zero, and without ties any argsort returns exactly the order of the clocks. Independence of rows gives the product over rounds. | Gumbel noise is any family of independent random variables with distribution function exp(-exp(-x)); its existence is proved (exGumbel). |
| C153 | Sampled actions have the probabilities that predict_proba reports | partial | From C152 with one place and C101 (predict_proba is the Boltzmann distribution of the same scores). The witness for NNPolicyLearner has probabilities 3/4 and 1/4: equality would force e = 9. | True for IPWLearner and QLearner. False for NNPolicyLearner: `sample_action` uses the probabilities themselves as scores and so applies a second softmax to them (C153_nn_partial says which distribution results; not_C153_nn is a witness). |
| C154 | Estimates from simulated logged data are unbiased for the ground truth the dataset reports | proved | The draws are random variables on an arbitrary probability space; the model of the dataset is run on every outcome, the law of the sampled action is derived from inverse-CDF sampling (C01), and the estimators' value formulas are integrated. | Conditional on the contexts. The assumption on the draws is what a generator with separate streams provides; the restarts of the generator from the same seed in the code are the subject of C104, C126 and C127. |
| C155 | Estimates from simulated data of several loggers are unbiased | proved | The dataset and the estimators are run on every outcome of an arbitrary probability space; integration over the draws by C01, over the contexts by marginals of a product measure; the average policy is the average of the loggers' policies over the rounds (C105). | C155_given_contexts also gives the exact expectation of the balanced estimates for fixed contexts. The assumption on the draws is what a generator with separate streams provides (see C104, C127 for the restarts in the code). |
| C156 | Slate propensities are the probabilities of the dataset's own sampling, and slate estimates from simulated data are unbiased | proved | The interval characterisation of sampled slates (C113), independence of the draws of a round and the telescoping lengths of the intervals give the probability of every slate as a product; sums over classes of slates give cascade and item-position probabilities. The estimates: law of the slate, independence of the rewards, reweighting by class probabilities, closed forms of the estimators. | Stated for given logits (that is, given the contexts) and independent draws. Support is automatic: softmax probabilities are positive. That item-position propensities are not marginals when a logit is clipped is C86; that the reward functions of the dataset read the wrong row of base rewards is C110. |
| C157 | Estimates from simulated data with action embeddings are unbiased for the reported ground truth | partial | Model of the whole dataset class on nested lists; expectation over the joint draws of action and embedding dimensions computed from independence; C106 identifies the reported expected reward. | Log, category distributions and the statements for IPW and DR are proved in full; MIPS for one observed dimension. With two observed dimensions MIPS with the reported p_e_a is biased although nothing is hidden: witness with all rewards one and expectation 17/16. |
| C158 | Loading the Open Bandit Dataset keeps rounds intact, in the order of time, and encodes features without loss | partial | Files as lists of rows with features in an arbitrary linear order; pandas' sort_values as any sorting permutation, get_dummies, LabelEncoder and rankdata by their definitions. Ranks in a finite set are an order isomorphism onto an initial segment; dropping the first indicator loses nothing; the split via C89. | Proved except where the code violates the claim: affinity scores are not part of the context (C158_affinities_ignored), action_context keeps the order of the item file (C158_items_unsorted), and n_actions counts up to the largest logged item (C158_items_never_shown). |
| C159 | Kernelised estimates from simulated continuous-action data are unbiased up to smoothing, and the bias vanishes with the bandwidth | proved | composes the sampling law of the truncated normal and uniform draws (C131) with the closed forms of the estimators (C39), then bounds the smoothing error by the first absolute moment of the kernels and takes the limit by dominated convergence | Conditional on the contexts; the draws of the two generators are taken to be independent of each other (the code starts both from the same seed). |
| C160 | Slate estimates are consistent | proved | Spec/SlateStream.lean: an endless stream of independent rounds with a context from any measurable space. Every slot is reduced to the single-action stream of C151 by numbering slates, the strong law of large numbers is applied to weighted rewards and weights, and the limit is identified by summing over classes of slates that agree as far as the estimator looks (the reweighting lemma of C40-C42). An example stream with two slots meets the hypotheses. | Real arithmetic; for logs whose rows are ordered by slate and position (the cascade doubly robust estimator depends on the order, C43). |
| C161 | Kernelised estimates are consistent for the smoothed value | proved | Spec/ContStream.lean: an endless stream of independent rounds whose action has a conditional density. Strong law of large numbers for weighted rewards, weights and weighted predictions; change of measure through the density; the kernel integrates to one; Lipschitz bound for the smoothing bias. An example stream with uniform contexts and actions meets the hypotheses. | Real arithmetic. The self-normalised and doubly robust estimators need that the logging density is positive where the kernel around the evaluation action is. |
| C162 | Estimates from several loggers are consistent | proved | Spec/MultiStream.lean: one stream of C151 per logger, pooled logger by logger. The pooled mean is the share-weighted mean of the loggers' means; the strong law of large numbers for each logger; for the weighted estimators the weights average to one and are positive, whatever the estimated variances are; for the balanced ones the limit is identified by mixing the loggers' change of measure. An example with two loggers meets the hypotheses. | Real arithmetic, given propensity scores; the average propensity score of the balanced estimators uses the limit shares. Finite lambda_ is covered if no weight exceeds it. A logger whose terms are all equal has an estimated variance of zero, on which the weighted estimators give nan (C53). |
| C163 | Marginalised estimates are consistent | proved | Spec/EmbStream.lean: streams with embeddings. The embedding is numbered and taken as the action of a stream of C151, whose conditional means follow by the tower property; the weights of the code are the importance weights of that stream. An example stream where half of the evaluation policy's actions are never logged meets the hypotheses. | Real arithmetic, p_e_a given, no embedding selection. Without independent dimensions the estimates are biased (C47). |
| C164 | Variance reduction claims hold | proved | The variance of an average of independent terms is the sum of the terms' variances over n^2 (induction-free, by expanding the square and the product distribution). DR: the variance of a term splits into reward noise and the variance of the unexplained part. Balanced weights and MIPS: Cauchy-Schwarz on the second moments, and equality (or Cauchy-Schwarz) on the means. | Variance over the product of the per-round distributions; the numbers compared are what the model's estimate_policy_value returns on every log of positive probability. The claims about lambda_ are for the IPW estimator; embeddings as in C47 (independent dimensions, or one dimension). |
| C165 | The empirical Bernstein lower bound covers | partial | Empirical Bernstein inequality of Maurer and Pontil, proved from scratch: Bernstein's inequality for the mean through the moment generating function, and a lower tail bound for the sample variance by writing it as the average over all permutations of averages of independent pairs. | Proved for numbers between 0 and a given x_max (C165_bernstein_partial), and from it for the per-round values of IPW (C165_policy_value). False for bounded numbers that may be negative, as with C150: a witness is proved (not_C165_negative). Not covered: x_max=None and samples that are not identically distributed. |
| C166 | The high-probability bound of the bias covers | partial | Two-sided Bernstein inequality for the terms of the bias estimate (second moment at most that of the weights, range twice the largest weight), which gives exactly the code's two terms with the true moments; witness with a rare action on product Bernoulli measures. | False of the code: mean square and maximum of the weights are taken from the log, so logs without the rare large weights get a bound of zero whatever the bias is; for every number of rounds and delta this can happen with probability as close to one as wanted (not_C166_unseen_weights). Proved: among logs whose weights are representative (mean square not below the expected one, largest weight seen) the bound fails with probability at most delta (C166_bias_bound_partial). |
| C167 | EpsilonGreedy finds the best action in the online simulator | proved | Along every sequence of draws the simulator's run is a recursion (`playAction`); the rewards observed with an action are uncorrelated because the choice is made before the reward is drawn; a strong law for bounded uncorrelated variables (second moments along squares) and counting of exploring rounds give the limits. | The generator is ideal: independent uniform numbers and independent random lists with each action equally likely in front. C167_zero_epsilon shows that epsilon > 0 is needed. |
| C168 | Replaying a uniformly logged data set is playing online for a random number of rounds | partial | The loop on a log and the simulator's steps are computed as recursions on the policy's memory; per round the expectation is the operator (1/A) O + (1 - 1/A) I where O is one online round, and powers expand by the binomial theorem because O commutes with I. | Proved for the loop of run_bandit_replay (lines 49-76); the table of selections built after the loop and its evaluation is C184. Missing: the function raises before the loop because the name tqdm is bound to a module (C77). |
| C169 | The bias of clipped, switched and shrunk estimates is what they do not take from the log | proved | behaviour probability times weight used = evaluation probability minus lost probability, by cases on the estimator; expectation of a mean of independent rounds | Exact expectation of each estimator without support assumption; size, sign and monotonicity as consequences. |
| C170 | LinUCB has sublinear regret when rewards are linear in the context | proved | the policy's choices as a recursion; Cauchy-Schwarz for confidence bounds; determinant lemma and AM-GM for the sum of squared bonuses, with a factor for updates delayed to the end of a batch | Noise-free linear rewards; for noisy rewards see C171. |
| C171 | LinUCB with a large enough epsilon has small regret with high probability when rewards are noisy | proved | a Gaussian mixture gives a supermartingale of the regression noise of each action; stopping it when it gets large gives a bound for all rounds; then the deterministic bound of C170 | Contexts are fixed before the run; argsort orders ties in a measurable way. |
| C172 | BernoulliTS finds the best action in the online simulator | proved | Along every sequence of draws the simulator's run is a recursion (`tsAction`). The shares of plays follow the probabilities of being drawn largest given the past (strong law for uncorrelated variables); the rewards of an action played infinitely often average out play by play; Beta distributions concentrate (Chebyshev) and charge both ends of [0, 1]. So some best action is played infinitely often, and then the others are drawn largest with vanishing probability. | the generator's Beta draws are random functions of the two parameters, independent over rounds and actions; argsort is any correct argsort whose preimages are measurable |
| C173 | LinEpsilonGreedy learns linear rewards in the online simulator, whatever the contexts | proved | the self-normalised bound of C171 for any rule that picks actions from the past; exploring rounds turn the expected squared bonuses of all actions into those of actions played, whose sum the determinant bounds; Jensen for the square root | Contexts are fixed before the run; argsort orders ties in a measurable way; randomly picked lists put each action in front equally often. |
| C174 | Errors of the estimates are asymptotically normal | proved | Round terms are independent and equally distributed; the central limit theorem gives averages, Slutsky's theorem gives ratios; the probability of half lines follows by the portmanteau theorem. | Central limit theorem and Slutsky's theorem applied to what the estimators average; the self-normalised ones through the ratio of averages. |
| C175 | How often bootstrap confidence intervals contain the true value | partial | Joint characteristic function of the errors of the estimate and of the B bootstrap averages tends to that of B + 1 independent normal variables, so all ranks of the true value among the bootstrap averages become equally likely; the percentile bounds are compared with ranks. The default of 100 bootstrap samples gives a counterexample. | The claim fails for finite B (not_C175_ipw_default, C175_default_undercovers): in the limit the coverage is (1 - alpha)(B - 1)/(B + 1) when (alpha/2)(B - 1) is whole, and between two such fractions otherwise. With the defaults alpha = 0.05, n_bootstrap_samples = 100 of OffPolicyEvaluation it is below 0.942. Proved: the limits, and that coverage is within 5/(B + 1) of 1 - alpha for large logs (C175_many_resamples). |
| C176 | Bootstrap intervals of self-normalised estimates account for the normaliser | partial | The interval is that of inverse propensity weighting divided by the average weight (affine equivariance of the bootstrap interval). A log whose weighted rewards are all equal gives the counterexample. | The claim fails (not_C176_snipw, not_C176_snipw_odd): the normaliser of the whole log is kept in every bootstrap sample. For two actions with rewards 1 and 3, logged with probability 1/2, and evaluation probabilities 3/4 and 1/4, the interval never contains the value on a log with an odd number of rounds, for any alpha, number of bootstrap samples and draws. Proved: exactly when the interval contains a number (C176_snipw_partial). |
| C177 | Choosing the hyperparameter from the data does not spoil consistency | partial | The bias that the tuning code estimates is exactly the distance between the estimate at the candidate and the estimate with unmodified weights. So the distance of the chosen estimate is bounded by the score of every candidate. On growing logs the variance over n and the width of the bias bound tend to zero (means of squares over n tend to zero whenever means converge), so the score tends to the squared limit bias. SLOPE through the oracle inequality C149. | Proved for tuning_method="mse" in full. For "slope" the returned value tends to the limit of the candidate with the largest variance per round (C177_slope_partial); the claim itself is false for "slope" (not_C177_slope: plain IPW is among the candidates and exact, yet SLOPE tends to a wrong value). |
| C178 | With estimated propensities, the error of DR is the product of two model errors | proved | C178_dr_bias and C178_ipw_bias compute the exact expectation over the finite process; C178_dr_bias_size bounds it; C178_dr_limit and C178_ipw_limit use the strong law on the stream; C178_dr_consistent is the corollary for either model right. | The estimated propensities are a fixed model of context and action (fitted on other data, as cross-fitting does). |
| C179 | Policies learned by IPWLearner are good on new contexts | proved | C100 gives that the fitted rule has the highest IPW estimate; Hoeffding's inequality for both tails and a union bound over the class give C179_regret; the strong law gives C179_consistent; C179_predicts shows that fitting fails only if the classifier does. | scikit-learn classifiers do not promise to reach the best accuracy in their class; that is a hypothesis (OptimalIn, StaysIn). |
| C180 | The slate dataset accepts exactly the documented settings and derives documented weights from them | partial | Model/SlateBatch.lean has the constructor statement by statement; the accepted settings are a separate structure in Props/SlateBatch.lean. | False for eta=nan: the constructor accepts it (C180_nan_eta proves that no batch can be drawn afterwards). C180_accepted_partial says that this is the only exception; everything else holds in full. That cascade_decay weights are on the wrong side of the diagonal is part of C111. |
| C181 | Every batch of the slate dataset is complete, well formed and usable by the slate estimators | proved | Model/SlateBatch.lean puts the pieces of the batch together (sampling from SlateDataset, expected rewards from SlateInteraction, click model, truncated normal rewards); C181_batch evaluates the whole function, the rest follows with the estimator theorems on grids of rounds and positions. | With a base reward function the base rewards of round i // len_list enter (C110), which C181_batch states. Clipped logits change item-position propensities (C86), so the item column is stated for clips that cut off nothing. |
| C182 | Cross-fitted reward predictions leave the doubly robust estimate unbiased | proved | The prediction of a round does not depend on what is logged in that round (C90); redrawing one round does not change an expectation; the expected contribution of a round for fixed predictions is the policy's expected reward in the round. Witness for one fold by evaluation on all logs of a two-round process. | C182_cross_fitted_dr composes the models of fit_predict and DoublyRobust and takes the expectation over all logs of positive probability; success of training on those logs is a hypothesis, discharged by C182_training_succeeds for base models that accept all data when each fold keeps rounds of every position. C182_single_fold_biased: with n_folds=1 and a base model predicting the mean training reward the expectation is 1/4 where the policy value is 0. |
| C183 | Errors and bootstrap intervals of slate, kernelised and embedding estimates | proved | Lemmas/IidClt.lean proves the limit for any estimate that is an average, or a sum of ratios of averages, of functions of independent rounds, and the coverage of an interval bootstrapped from such an average. Per family: the call returns that average (interval: bootstraps those terms), its mean is the value (from the consistency theorems C160, C161, C163). | Coverage is stated with NearlyCovers, the two fractions of C175; C175_many_resamples turns it into the distance 5/(B + 1). Intervals of the self-normalised estimators are not claimed: their normaliser is not resampled (C176). |
| C184 | The replay estimate of a learning policy is distributed as its online average reward | partial | the policy is extended with a counter of its updates and their total reward, to which the mixture of C168 applies; the table of selections is one-hot, so ReplayMethod averages the rewards of the matched rounds (C19) | Proved with tqdm bound to the function and for logs in which the last action occurs. Missing: as imported the call raises TypeError (C77); if the last action never occurs in the log the returned table has too few actions (or the call raises IndexError), so the estimate there is that of the recorded selections and not of the table. |
| C185 | Weighted multi-logger estimates are precision-weighted averages of the loggers' estimates | partial | from C51 the weights are determined by sizes and variances; sums over the log are regrouped by stratum | True for inverse propensity weighting. False for doubly robust estimation: only the corrections are weighted by precision, the predictions of the reward model by numbers of rounds, so the result can lie outside the range of the loggers' estimates (not_C185_weighted_dr: 94/37 instead of 129/37, loggers' estimates 3 and 7/2). C185_weighted_dr_partial says what is computed; C185_weighted_dr_same_model_partial that it is the documented average if the mean prediction is the same for all loggers. |
| C186 | Errors with several loggers, and the weights with the smallest variance | partial | Lemmas/StrataClt.lean proves the central limit theorem for independent strata, Lemmas/StrataNormal.lean adds weights that converge in probability; the weights converge by the law of large numbers; smallest variance by Cauchy–Schwarz | Normality is proved for all six estimators (balanced: if the shares tend to their limits faster than one over the square root of the number of rounds). Smallest variance: true for inverse propensity weighting (C186_precision_smallest, C186_weighted_ipw_no_worse). False for doubly robust estimation, which weights only the corrections by precisions of the whole terms (not_C186_weighted_dr: 189.1… instead of 30.6… without weights; C186_weighted_dr_partial gives the variance). Real arithmetic, given propensity scores; finite lambda_ is covered if no weight exceeds it. |
| C187 | Intervals from several loggers contain the true value | proved | A central limit theorem for the pooled average (C186) and, given the log, for the bootstrap averages (triangular array: the rounds change with the log because of the weights). The bootstrap variance is the variance of the errors plus the variance between the means of the loggers' rounds; a normal variable with the smaller variance lies in the middle of the larger ones at least as often as one with the same variance. | C187_naive_ipw, C187_naive_dr, C187_weighted_ipw, C187_weighted_dr give the limits in terms of the position of the lower bound among the sorted bootstrap averages; C175_many_resamples and C187_many_resamples turn them into the 5/(B + 1) of the statement. The intervals of the balanced variants always raise TypeError (C52). |
| C188 | Estimates are the values of the formulas displayed in the documentation | partial | Spec/Formulas.lean transcribes the formulas; the closed forms of the estimates are compared with them. | Proved for RM, IPW, SNIPW, DM, DR, SNDR, Switch-DR, SG-IPW, SG-DR, B-IPW, the naive estimators and balanced IPW for several loggers, Kernel-IPW and Kernel-DR. False for DRos (an extra factor w in the formula), balanced DR (a missing + in the formula) and Kernel-SNIPW (the reward also in the denominator): witnesses not_C188_dros, not_C188_balanced_dr, not_C188_kernel_snipw, and what is computed instead. The precision-weighted estimators are C185, embeddings C47. |
| C189 | Large errors of estimates are exponentially unlikely | proved | Hoeffding's inequality (Mathlib, sub-Gaussian sums) for the terms of the i.i.d. logs; a failing call counts as an error (Spec/Misses.lean), so validity of almost all logs is part of the proof. Self-normalised: |num/den - v| >= t forces a deviation of the centred numerator or of the weights (Lemmas/Tails.lean). | Weighted multi-logger estimates have data-dependent weights and are not covered (C186, C187 treat them). |
| C190 | Cutting off weights bounds the error whatever the importance weights, at the price of a bounded bias | proved | Contributions of rounds (value_weighTerm_log) with range spread times R; their mean by integrating over the logging policy, with the algebra of C169 (used weight times behavior probability is evaluation probability less the lost part); Hoeffding; dominated convergence for the lost probability; Spec/StreamBias.lean. | For the limit with growing lambda_, common support is assumed; the bounds for a fixed lambda_ need none. |
| C191 | Policies from predicted rewards lose little when predictions are accurate | proved | Props/QLearnerValue: loss of a policy that is nearly optimal for the predictions; optimality of the first best action and entropy bound for Boltzmann probabilities; change of measure to logged rounds. | The error of the predictions is a parameter: nothing is claimed about what base models learn. |
| C192 | Student's lower bound covers in the limit | proved | Lemmas/Student: central limit theorem divided by the empirical standard error (Slutsky). Props/Student: C192_student, C192_ipw, C192_dr, and C192_not_for_given_size with coin flips that nearly always show 1. | The quantiles of Student's t distribution (scipy) are a parameter of which it is assumed that they tend to the normal quantile as the degrees of freedom grow. |
| C193 | SLOPE is almost as good as an oracle with high probability | proved | Props/Student: C193_slope, from the deterministic oracle inequality C149_tuned_value; the estimates are within their widths by Lemmas/Student, and the order of the empirical variances is that of the true ones on large logs. | Quantiles of Student's t distribution as in C192. |
| C194 | Cross-fitted doubly robust estimates are almost as precise as with the best reward model | proved | Terms of rounds in one fold are uncorrelated given the other folds and average out; sums over folds by Cauchy's inequality; each term bounded by the second moment; variances by unbiasedness (C182). | C194_close: difference of two estimates; C194_variance: variances, over any ordered field; C194_standard_error: the statement. Contexts are fixed, and training must succeed on the logs that can occur (C182_training_succeeds). |
| C195 | Choosing the candidate policy with the largest estimate | proved | ChoosesWell in Spec/PolicyChoice; union bound over the errors of C189 and C190; the limit statement from C151. | One log, independent rounds (LogStream). The candidates must be fixed before the log is seen: candidates learned from the same log are not covered. |
| C196 | Training gradients of NNPolicyLearner are unbiased | proved | C72_round for each outcome, expectation of a round's share of the estimate, derivative of finite sums (Props/TrainingGradient.lean). | Contexts of the batch are given; the derivative is along any curve in the space of network parameters. Reward models trained on the same rounds depend on the batch and are not covered. |
| C197 | The loss measures the policy, and the penalties are what their names say | partial | Exact loss of batches with a common probability of the logged actions; numeric witnesses with logarithms of powers of two. | False in the code: the loss contains weights times the logarithms of the probabilities. If all logged actions have probability s under the policy, the estimate is c s and the loss -c s log s (C197_common_probability), so that the loss goes up when the estimate is multiplied by four (C197_loss_rises_with_estimate). The variance penalty is positive for terms without variance (C197_penalty_without_variance); it is proportional to the variance of the terms if the logged actions have a common probability (C197_variance_partial). The policy penalty is the logarithm of the mean weight with a positive sign: the loss is unbounded below, towards policies that never play the logged actions (C197_policy_penalty_unbounded). |
| C198 | The estimate of a randomised mixture of policies follows from the candidates' estimates | proved | Closed forms of the estimates (value_*), linear in the importance weights and in action_dist; concavity of clipping; weighted means lie between their extremes. | Stated for rows that sum to one exactly. C198_clipped_gain is a concrete log on which clipped IPW prefers the mixture to both candidates, C198_mips_two_dims one on which MIPS gives the mixture less than both. |
| C199 | A log may be evaluated in parts and the estimates combined | proved | `Log.join`, `SlateLog.join`, `MLog.join` and `ContLog.join` (Spec/JoinedLogs.lean) append every column. The per-round values of the joined log are the appended per-round values, and totals split at the boundary; for slates the number of distinct ids of a union is used. | Covers all estimators for single actions. The self-normalised slate estimators and Cascade-DR are covered only by the acceptance of the joined log and by the refusal of repeated ids. |
| C200 | One logged round has bounded influence exactly when weights are cut off | proved | `Log.SameExcept` compares the logs consisting of single rounds (Spec/Influence.lean). Estimators that treat rounds separately are averages of the estimates of single rounds, so all terms but one cancel; the weight applied to a round is bounded case by case. For the self-normalised estimators the rest of the log acts as one value with a common weight. Slates: the estimate is the sum of weighted rewards over the number of slates, and the rows of all other slates cancel. Continuous actions: as for single actions, with the kernels bounded by their value at 0. | Exact arithmetic; the bounds of the doubly robust estimators are not claimed to be the smallest possible. |
| C201 | Names of actions, positions, loggers and slates do not matter, and estimates follow the zero of rewards except for IPW | proved | `Log.Renamed`, `Log.shift` and `SlateLog.renameSlates` (Spec/Renaming.lean) describe the two logs. Weights, model values, residuals and matches of a renamed log are the same round by round (sums over actions are reindexed, unused actions contribute 0); a shift changes model values by d, residuals not at all, and weighted averages by d. With several loggers the weighted estimates are determined by variances within loggers (C51), which neither new labels nor a shift changes. | Exact arithmetic. SlateCascadeDoublyRobust is not included in the renaming of slate ids (it depends on the row order, C43). |
| C202 | Origin, unit and direction of the action axis do not matter to the kernelised estimators | proved | `ContLog.onAxis` and `ContLog.shift` (Spec/Renaming.lean) describe the two logs. The kernel argument keeps its absolute value and kernels are even (C38), so every weight is multiplied by the size of s, which the bandwidth or the normaliser cancels; without any weight the self-normalised estimate fails on both sides (C39). | Exact real arithmetic. |
| C203 | Estimates follow the unit of rewards and, except for the weighted multi-logger ones, never fall when rewards rise | proved | `Log.withReward`, `Log.withModel`, `ContLog.withRewards` (Spec/RewardUnit.lean) and `Log.scale` (Spec/Meta.lean) describe the other logs. Every estimate is an average of per-round values that are affine in the reward with a non-negative factor (weight, clipped, switched, shrunk or normalised), which does not depend on rewards. The fall of the weighted estimates is a computed log of four rounds. | Exact arithmetic. |
<!-- end table -->

## Where the code disagrees with its documentation

Each of the following is a theorem about the model (with a witness or for all inputs), named in brackets.

Estimators and validation:

* `check_confidence_interval_arguments` accepts a nan `alpha`, which then fails inside `np.percentile` [C05_nan_accepted, C05_nan_interval_raises].
* Missing companions of the OPE validators raise AttributeError instead of the documented ValueError [C08_attribute_error].
* Action arrays of another length than `action_dist` pass validation and give IndexError, or are silently broadcast if they have one entry [C09_length_mismatch_index_error, C09_length_one_broadcast].
* `check_cascade_dr_inputs` compares a floor-divided length of `q_hat` [C12_qhat_length_unchecked].
* The high-probability bound of the bias takes the mean square and the maximum of the weights from the log, so it is zero on logs without large weights, however large the bias is [not_C166_unseen_weights].
* The Hoeffding and empirical Bernstein lower bounds take `x_max` for the range of the sample, so they do not cover if numbers may be negative, which their documentation allows [not_C150_negative, not_C165_negative].
* With `x_max` omitted and only negative numbers the Hoeffding lower bound lies above the mean of the sample [C32_hoeffding_negative].
* Bootstrap intervals of level `1 - alpha` cover less in large logs, with the default of 100 bootstrap samples below 0.942 instead of 0.95 [C175_default_undercovers, not_C175_ipw_default]. Those of self-normalised estimates keep the normaliser of the log in every bootstrap sample and need not cover at all [not_C176_snipw, not_C176_snipw_odd].
* With `tuning_method="slope"` the estimates can tend to a wrong value although a candidate without clipping is available and exact: the method starts from the candidate with the largest variance [not_C177_slope].
* Zero normalisers, zero weights at the ends of the hyperparameter range and zero stratum variances give nan, not an error [C18_snipw_finite_iff, C22_drOs_zero_nonFinite, C23_sg_one_nonFinite, C25_bIpw_zero_nonFinite, C45_zero_weight, C53_accepts_contiguous_partial].
* Integer arrays of continuous actions raise in the kernelised estimators [C95_integer_actions_raise].
* The kernelised estimators accept bandwidths nan, 0 and inf [C119_nan_bandwidth, C39_zero_bandwidth, C119_infinite_bandwidth].
* Tuning is cached for the life of the object [C36_cached_forever, C36_history_dependent]; the sub-Gaussian tuning classes refuse estimated propensities [C37_subgaussian_raises].
* SlateCascadeDoublyRobust depends on the row order [C43_cascade_depends_on_order].
* MIPS multiplies marginals over embedding dimensions and is biased for dependent ones [C47_mips_biased_two_dims, C48_redundant_dims_differ]; embedding selection returns the second-to-last accepted estimate when all subsets are accepted and raises UnboundLocalError for large `min_emb_dim` [C49_not_last_accepted, C49_api_unbound]; `estimate_interval` ignores the selection [C121_selection_ignored, C121_value_fails_interval_succeeds].
* `estimate_interval` of the balanced multiple-logger estimators always raises TypeError [C52_balanced_interval_type_error]; stratum labels other than 0..K-1 raise IndexError [C53_other_labels_index_error].
* `MultiLoggersWeightedDoublyRobust` weights only the corrections by precision, not the whole terms as documented, so its result can lie below the estimates of all loggers [not_C185_weighted_dr], and weighting can increase the variance instead of reducing it [not_C186_weighted_dr].
* Three displayed formulas are not what is computed: that of `DoublyRobustWithShrinkage` has an extra factor `w` [not_C188_dros], that of `MultiLoggersBalancedDoublyRobust` lacks a `+` [not_C188_balanced_dr], that of `KernelizedSelfNormalizedInverseProbabilityWeighting` has the rewards in the denominator, so that it always equals one [not_C188_kernel_snipw].
* A `p_e_a` array given to `OffPolicyEvaluation` is tested against a stale variable [C56_array_unbound, C56_array_stale]; missing models are not recognised for tuned estimators and by `evaluate_performance_of_estimators` [C58_tuned_not_up_front_partial, C58_performance_not_up_front].
* Plots: estimated propensities are ignored [C141_estimated_ignored, C141_estimated_differs]; five classes and both embedding classes cannot be plotted without positions and tuned estimators never [C141_no_plot, C141_embed_no_plot, C141_tuned_no_plot]; with embedding selection the bar shows the estimate on all dimensions [C141_embed_selection_ignored]; comparisons fail with more estimators than policies [C142_more_estimators_than_policies]; slate error bars are twice as long as the intervals [C143_bars_partial]; a balanced estimator makes the multiple-logger summary fail [C97_multi_balanced_fails].

Models and learners:

* Cross-fitting refits one object, so warm-started base models leak [C90_warm_start_leaks].
* PropensityScoreEstimator misaligns columns for actions absent in training and returns zeros for `position=None`; ImportanceWeightEstimator raises for `position=None` [C93_absent_action, C93_position_none, C93_weight_position_none].
* QLearner always fails with 'iw' and 'mrdr' and with `base_model=None` [C74_weighted_never_fits, C74_default_base_model]; IPWLearner.sample_action raises when an action was never logged [C71_ipw_missing_class].
* NNPolicyLearner: early stopping counts improving epochs [C73_improving_run_stopped]; a batch of one round makes the loss nan [C102_singleton_batch, C102_auto_batch]; `validation_fraction=1.0` leaves no training data [C123_no_training_data].
* Early stopping of the neural learners never ends training: validation losses have no effect [C148_validation_ignored, not_C148_stops_when_validation_stalls]; positions are documented as optional but needed if there are several [C147_positions_needed].
* The loss of `NNPolicyLearner` that decides about the end of training contains logarithms of the probabilities: it can go up while the estimated value is multiplied by four [C197_loss_rises_with_estimate], the variance penalty is positive for terms without variance [C197_penalty_without_variance], and with `policy_reg_param` the loss is unbounded below, towards policies that never play the logged actions [C197_policy_penalty_unbounded].
* Neural learners accept nan settings, any number of actions and unordered or short output spaces [C134_nan_accepted, C134_q_func_no_actions, C134_bad_space_accepted, C136_bad_space]; documented `momentum=0.0` and `beta_1=1.0` make `fit` raise [C134_documented_but_refused]; `batch_size="auto"` is a minimum, not a maximum [C134_auto_batch]; the documented logistic activation has the wrong sign [C135_activations].
* NNPolicyLearner.sample_action uses the output of predict_proba as scores and so samples from the softmax of the probabilities, not with the probabilities [not_C153_nn].
* ContinuousNNPolicyLearner reports arrays of different lengths as AssertionError when propensities are missing [C137_different_lengths].

Online policies and simulation:

* The constructors of the online policies accept nan for `epsilon`, `alpha_` and `lambda_` [C125_nan_accepted].
* LinTS, LogisticTS and LogisticEpsilonGreedy do not check the number of context rows and return non-existent actions [C61_lints_rows_unchecked, C61_logistic_rows_unchecked].
* `initialize()` keeps learned parameters of linear and logistic policies [C67_learned_parameters_kept, C67_linear_not_reset].
* Observations with reward 0 do not influence the logistic policies' fit [C69_failures_ignored, C69_same_minimisers]; precisions use the curvature at a shifted score [C99_not_laplace].
* `run_bandit_replay` always raises TypeError as imported [C77_always_raises]; `calc_ground_truth_policy_value` repeats one random stream in every simulation [C78_simulations_repeat].
* CoefficientDrifter rows depend on how a request is split; `drift_interval=0` never returns [C79_split_differs, C79_zero_interval_diverges].
* `steps(n)` with an environment fails for policies that require a two-dimensional context [C103_environment_steps_raise].
* `BanditEnvironmentSimulator` ignores `reward_type` and `reward_std`: rewards are always binary [C145_reward_type_ignored]. A single round has the action context of the first action only, unlike the rounds of a batch [C145_one_round]. A batch of rounds has one cursor, so nested loops over it end early [C144_nested_loops].

Datasets:

* OpenBanditDataset: contexts do not contain the documented affinity scores [C158_affinities_ignored]; action contexts keep the order of the item file and may outnumber `n_actions` [C158_items_unsorted, C158_items_never_shown].
* MultiClassToBanditReduction needs labels 0..k-1 [C82_index_error, C82_minus_one_one].
* Multiple-logger stratum sizes can be negative [C83_negative_size_positive_rhos]; with deficient actions betas are ignored [C105_deficient_ignores_betas, C105_deficient_average_positive].
* Batches of one synthetic dataset repeat the same action draws, which equal the context-free expected rewards [C104_batches_repeat, C104_draws_are_rewards]; embeddings share seeds with them [C106_shared_seed].
* `z_score=True` does not standardise [C108_z_score_witness]; it and the behaviour policy functions use batch statistics, so the same context has another expected reward and behaviour policy in another batch [C129_z_score, C129_behavior].
* Continuous rewards: the mean of the logged rewards is not the reported expected reward [C126_batch_mean_differs, C126_slate_mean_differs]; `reward_std=0` is accepted but gives nan [C126_zero_std]; action and reward of a round come from the same uniform number, so logged rewards are confounded and inverse propensity weighting is biased [C127_first_action, C127_last_action, C127_ipw_biased]; all positions of a slate share their noise [C127_slate_comonotone].
* Dataset constructors accept nan, empty lists of loggers and all-zero shares [C130_nan_accepted, C130_no_loggers, C130_zero_shares].
* Continuous actions: the default bounds without behaviour policy function give no finite action, zero noise no finite propensity [C131_default_bounds, C131_zero_noise]; the "sign" policy is the sine [C132_sign_is_sine]; actions repeat in every batch [C133_actions_repeat]; the coefficients of linear behaviour policy and linear reward coincide and equal the first context [C133_coefficients_are_context], so that without bounds expected rewards do not depend on the context [C133_reward_ignores_context].
* Slate dataset: `eta=nan` is accepted and makes every batch fail [C180_nan_eta]; binding clips make item-position propensities inconsistent [C86_clip_inconsistent]; the cascade click model's ground truth is too large from three positions on [C87_cascade_three_gap, C87_cascade_overestimates]; the value without base reward function is a sum [C87_context_free_grows]; optimal and anti-optimal are swapped [C88_optimal_swapped]; rewards use the context of round i // len_list [C110_wrong_context]; int8 casts of actions [C111_overflow, C118_overflow], which end the ground truth of policies that are not factorizable with an IndexError [C118_many_actions_value]; decay structures differ from their formulas [C114_documented_formula_violated]; masked actions keep mass [C115_masked_dominates]; the linear behaviour policy ignores the context [C116_linear_policy_ignores_context].

Read in the code but not turned into a theorem: `Random` reports a policy name beginning with "egreedy" (contextfree.py); the default of `n_bootstrap_samples` of `ReplayMethod.estimate_interval` is 100, not the documented
10000 (estimators.py); rounds simulated with `delays=None` leave the queue of delayed
rewards alone (stated in C75's hypotheses); `n_irrelevant_cat_dim == n_cat_dim` leaves an empty Dirichlet (synthetic_embed.py).

## Trusted base

* Lean's kernel, and the axioms `propext`, `Classical.choice`, `Quot.sound` for every theorem (no axiom of our own, no
  `sorry`, no `native_decide`, no `bv_decide`). `decide +kernel` is evaluated by the kernel and adds no axiom.
* The correspondence between the Python text and the Lean model, which is by reading.

### Modelled

| Python module | Lean model | simplifications |
|---|---|---|
| obp/utils.py | Utils, Checks, Bootstrap | tensors are not distinguished from arrays; `check_tensor` not modelled |
| obp/ope/estimators.py | Estimators | type tests of arguments by tagged arguments |
| obp/ope/estimators_tuning.py, helper.py | Tuning, Helper | object state = the cached hyperparameter |
| obp/ope/estimators_continuous.py | Continuous | over the reals |
| obp/ope/estimators_slate.py | Slate | pandas operations on lists of rows |
| obp/ope/estimators_embed.py | Embed, OpeInit | learner and `t.ppf` as parameters |
| obp/ope/estimators_multi.py | Multi | |
| obp/ope/meta.py, meta_continuous.py, meta_multi.py, meta_slate.py | Meta, Reports | estimators as arbitrary objects; of plots the table of numbers drawn; data-frame formatting left out |
| obp/ope/regression_model.py, regression_model_slate.py, classification_model.py | Regression, OpeInit | base models are arbitrary learners, folds arbitrary |
| obp/policy/contextfree.py | ContextFree | random draws and argsort as parameters |
| obp/policy/linear.py, logistic.py | Contextual | multivariate normal draws and L-BFGS as parameters |
| obp/policy/offline.py | Offline, NeuralInit, NeuralNet, NeuralFit | network and optimiser as parameters of the training loop; autograd through HasDerivAt statements |
| obp/policy/offline_continuous.py | NeuralInit, NeuralNet, NeuralFit | the training loop is that of offline.py |
| obp/simulator/*.py | Simulator, Environment | reward, coefficient and delay functions are arbitrary and may keep a state; context-free and linear policies are plugged in by `cfPolicy` (Spec/BanditWorld; the random draws in Spec/BanditWorld, Spec/ThompsonWorld and Spec/ExploreWorld) and `linPolicy` (Spec/LinearWorld) |
| obp/dataset/synthetic.py, synthetic_multi.py, synthetic_embed.py, multiclass.py, real.py | Dataset, DatasetInit, RewardLaw, RewardFunction, EmbedDataset, RealDataset | contexts are arbitrary data; `PolynomialFeatures` by its definition |
| obp/dataset/synthetic_continuous.py | ContinuousDataset, DatasetInit | generators are arbitrary state machines; `truncnorm` by its density and quantile function |
| obp/dataset/synthetic_slate.py | SlateDataset, SlateInteraction, SlateBatch, RewardLaw | float16 rounding left out; `truncnorm` by its density and quantile function |
| numpy | Numpy | the functions used |

### Not modelled

* floating-point rounding and overflow, NaN/inf inside input arrays, numpy dtypes other than integer/float where a validator
  distinguishes them;
* the RNG's distribution (only the range of its draws; where seeds matter, streams are arbitrary functions of the seed);
* sklearn, torch and scipy internals;
* drawing (matplotlib, seaborn), file input/output, logging, progress bars (other than C77) and warnings;
* the abstract base classes, properties returning a field, `__repr__`s.
