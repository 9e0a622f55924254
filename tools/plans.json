{
 "C01": "Model the row-wise cumsum / `>` / argmax on lists with the uniform draw as a parameter; prove the exact half-open interval characterisation, its length and the zero-probability corollary.",
 "C02": "Model the assignment loop with Python index wrap-around; prove one-hot slices, acceptance by the modelled validator, and the IndexError branch.",
 "C03": "Resampling indices are a parameter (list of index lists); percentile = numpy linear interpolation on the sorted list; prove order and range.",
 "C04": "Same model as C03; prove nestedness by monotonicity of the percentile in q, equivariance by commuting with monotone affine maps.",
 "C05": "Python scalars as a sum type (int/float/bool/nan/inf/other); decision procedure proved equivalent to the documented condition.",
 "C06": "Over the reals (Mathlib exp); model is the max-shifted code; spec is exp x_i / sum exp x_j.",
 "C07": "Over the reals; model is the min/abs form; spec is 1/(1+exp(-x)).",
 "C08": "Validator as an Except-valued function on tagged array arguments; proved equivalent to a declarative predicate.",
 "C09": "numpy fancy indexing with broadcasting modelled on lists with IndexError; proved safe when numbers of rounds agree; the general claim is refuted by a witness (`_partial`).",
 "C10": "As C08.",
 "C11": "As C08; rows as a list of records; pandas duplicated/groupby/sort/expanding-min modelled on lists; equivalence with order-free predicates and permutation invariance.",
 "C12": "As C08 on top of C11.",
 "C13": "Finite product probability spaces (each round draws action ~ pi_b and an outcome from an arbitrary finite reward law); expectation = finite sum; prove E[estimate] = V.",
 "C14": "As C13, two theorems (correct pscore / correct q_hat).",
 "C15": "Algebra on the refinement of the estimator models to per-round formulas.",
 "C16": "As C15.",
 "C17": "Order reasoning on clipped weights with lambda in [0, inf].",
 "C18": "Weighted-average bounds; normaliser zero is the explicit non-finite outcome.",
 "C19": "Both branches of the code, incl. no match.",
 "C20": "np.average with its ZeroDivisionError modelled; bounds, linearity, scale invariance.",
 "C21": "Case split on iw <= lambda.",
 "C22": "Inequalities over the field (sqrt bound stated squared).",
 "C23": "Inequalities; lambda=1, w=0 non-finite outcome proved.",
 "C24": "Algebra and weighted-average bounds.",
 "C25": "As C18 with clipping.",
 "C26": "Reindexing of finite sums by a permutation of rounds, for every estimator.",
 "C27": "estimate_interval model calls the same round-reward function; combine with C03.",
 "C28": "Non-interference theorem on the argument record.",
 "C29": "Equality of runs with None / zeros.",
 "C30": "Scalar sum type as in C05.",
 "C31": "Model of np.var, bias helpers over the reals (sqrt, log).",
 "C32": "Real analysis inequalities on helper.py.",
 "C33": "Candidate list and score function as parameters; dict semantics (first insertion order, later value) and min modelled; argmin proved.",
 "C34": "SLOPE loop modelled as structural recursion over the sorted list; loop invariant.",
 "C35": "State machine of the tuning object (best_hyperparam attribute as an option); first call = base estimator at the tuned value.",
 "C36": "Refuted by history witness; `_partial`: holds for the first call, later calls return the cached choice (proved for all histories).",
 "C37": "Model of the forwarded keyword sets; negative theorem for the sub-Gaussian classes, positive for the others.",
 "C38": "Kernels over the reals, integrals with Mathlib interval integrals and Gaussian integral.",
 "C39": "Algebra as in C15/C18.",
 "C40": "Finite product space over slates; expectation as finite sum.",
 "C41": "As C40 with marginal/prefix propensities; needs dependence assumptions as hypotheses (satisfied in examples).",
 "C42": "np.roll / reset-to-one weights modelled on flat arrays; telescoping lemma.",
 "C43": "Permutation invariance for IPS family; explicit witness against CascadeDR (`_partial`).",
 "C44": "groupby sums over unique ids; sum of group sums.",
 "C45": "Per-position normalisation.",
 "C46": "Specialisation to one position.",
 "C47": "Finite process with embedding; expectation as finite sum.",
 "C48": "Algebra on the weight formula.",
 "C49": "Pruning loop with optional variable; negative witness and exact description (`_partial`).",
 "C50": "Finite process with a logger per round and mixture propensity.",
 "C51": "Algebra; zero stratum variance is the explicit non-finite outcome.",
 "C52": "Keyword binding model; negative theorem for all inputs; positive for the others (`_partial`).",
 "C53": "np.unique / indexing model with IndexError witness; `_partial` for labels 0..K-1.",
 "C54": "Insertion-ordered dict model; refinement to 'last estimator with that name'.",
 "C55": "Preprocess loop modelled; projection theorem.",
 "C56": "Local-variable environment of the function modelled as option; negative theorem and exact condition under which it works (`_partial`).",
 "C57": "Algebra over the field.",
 "C58": "Flags of estimator classes; decision theorem; witnesses for the gaps (`_partial`).",
 "C59": "Decision logic of meta_slate.",
 "C60": "State machine over update histories; invariant by induction.",
 "C61": "argsort and random choice as arbitrary valid permutations/injections; distinct and in range.",
 "C62": "Argsort contract (sorted permutation); top-k theorem.",
 "C63": "Counts of n_sim selections.",
 "C64": "Corollary of the counting invariant.",
 "C65": "Mathlib matrices over an ordered field; Sherman-Morrison invariant by induction over histories.",
 "C66": "Positive definiteness invariant and quadratic-form monotonicity.",
 "C67": "Witness history; `_partial` for context-free policies.",
 "C68": "List state machine; concatenation of batches equals history filtered by action.",
 "C69": "Real-valued loss; negative theorem for y=0 (`_partial`: labels in {-1,1}).",
 "C70": "argmax / one-hot assignment models of the three learners over arbitrary models and networks.",
 "C71": "argsort as arbitrary valid permutation.",
 "C72": "HasDerivAt statements over the reals.",
 "C73": "Counter state machine over arbitrary loss sequences; negative witness (`_partial`).",
 "C74": "Calls the modelled RegressionModel validation with the all-ones array; negative theorem for all inputs (`_partial`: 'normal').",
 "C75": "Queue state machine with arbitrary policy and delays; ghost log of deliveries; invariant by induction over rounds.",
 "C76": "Same state machine.",
 "C77": "Loop model (given a working progress bar) and the as-imported TypeError (`_partial`).",
 "C78": "Fold over simulations, each from a copy of the policy; TypeError for position=None.",
 "C79": "While loop with fuel-free well-founded recursion; row counts; splitting witness (`_partial`).",
 "C80": "softmax from C06 composed with the support mask and C01 sampling.",
 "C81": "Direct model.",
 "C82": "Raw-label indexing with Python wrap-around; witnesses (`_partial`).",
 "C83": "Rounded sizes with integer arithmetic; sum theorem; negative-size witness (`_partial`).",
 "C84": "Weighted-average model as C20.",
 "C85": "Plackett-Luce product on lists without repetition; induction on slate length.",
 "C86": "Marginalisation over enumerated slates; clipping of logits modelled, witness when it binds (`_partial`).",
 "C87": "Models of the two branches; witnesses (`_partial`).",
 "C88": "argsort contract; negative theorem for swapped names, positive for what is computed (`_partial`).",
 "C89": "Slicing model with the floor of n*(1-test_size) in exact arithmetic.",
 "C90": "Base learner as an arbitrary state machine; fold assignment as an arbitrary partition; warm-start witness (`_partial`).",
 "C91": "Filter by position, weights as formulas.",
 "C92": "Backward recursion over positions with a learner parameter.",
 "C93": "Classifier probabilities as parameters; negative theorem for position=None (`_partial`).",
 "C94": "Exponential draws as arbitrary non-negative numbers; ceil.",
 "C95": "Validator of the continuous estimators as an Except-valued function; proved equivalent to a declarative predicate.",
 "C96": "Mathlib integrals of the modelled per-round estimate against an arbitrary positive action density.",
 "C97": "Dict model of the front end; ratio to the logged mean with its nan branch.",
 "C98": "Invariant over histories from C68's refinement; optimiser arbitrary.",
 "C99": "Exact shifted increment (`_partial`), negative theorem, second-derivative justification of the spec.",
 "C100": "fit modelled per position; reduction to a weighted-accuracy contract of the classifier.",
 "C101": "Softmax of C06 on the modelled scores.",
 "C102": "torch.var of one entry as the non-finite outcome; batch splitting modelled; exact condition (`_partial`).",
 "C103": "Environment rounds carry 1-D contexts; negative theorem for all policies rejecting them (`_partial`).",
 "C104": "Seeded streams as functions of the seed; negative theorems.",
 "C105": "Direct model; positive theorem without deficient actions, witnesses otherwise (`_partial`).",
 "C106": "Finite embedding law; total expectation; seeds as functions.",
 "C107": "Index sampling as arbitrary valid index lists.",
 "C108": "The two operator orders as formulas; characterisation and witness (`_partial`).",
 "C109": "Algebra on standardised lists with an abstract standard deviation.",
 "C110": "Reward lookup by i // len_list modelled on lists; exact description (`_partial`).",
 "C111": "int8 casts modelled with wrap-around; exact description (`_partial`).",
 "C112": "Folds over positions; sums over earlier / other positions (`_partial`: up to 128 actions).",
 "C113": "Sequential sampling loop by induction on positions.",
 "C114": "Folds over positions; negative theorem with the computed formula.",
 "C115": "Masked softmax with the constant exp(-10000) over the reals; exact formula (`_partial`).",
 "C116": "Invariance of the softmax under a shift common to all actions.",
 "C117": "Group sums over distinct ids.",
 "C118": "Enumerations by recursion (itertools permutations / product) with completeness proofs; composition of C85, C87, C110 (`_partial`).",
 "C119": "Constructor as an Except-valued function of a string and a scalar sum type (`_partial`: useless bandwidths accepted).",
 "C120": "Constructors as Except-valued functions; iff with the documented condition.",
 "C121": "Same round function as the estimate, composed with C03; witness with selection (`_partial`).",
 "C122": "Composition of C08 with the stratum check.",
 "C123": "Sizes by floor and max; witness for fraction 1 (`_partial`).",
 "C124": "Unfolds the one-hot encoding with dropped first categories (injective), the scatter of class probabilities, and Bayes' rule for the calibrated case.",
 "C125": "Unfolds check_scalar for every kind of Python scalar; iff-characterisations; errors by case analysis.",
 "C126": "A draw is modelled by the distribution it is requested from; the mean of the truncated normal distribution is derived from its density by the fundamental theorem of calculus, and its position relative to the location parameter and the middle of the interval by symmetrisation.",
 "C127": "A round is a function of its uniform number; inverse transform sampling is related to the density by the change of variables formula, and the average over the part of the unit interval that selects the first (last) action is compared with the mean by strict monotonicity of the quantile function.",
 "C128": "Unfold the matrix products on lists, exchange the sums of the interaction part; induction over combinations with replacement for the features.",
 "C129": "The rows of the result are a map of a single function over the contexts; witnesses for the failures are two batches sharing a context.",
 "C130": "constructors modelled check by check (Model/DatasetInit); iff theorems against a separate specification of numbers and bounds",
 "C131": "truncated normal law with infinite bounds via the normal distribution function; inverse-transform sampling proved to have the stated density",
 "C132": "functions over an abstract generator; Gaussian first moment; Fin-sum formulas",
 "C133": "generators as arbitrary state machines; restarts from the seed made explicit",
 "C134": "constructors modelled check by check (Model/NeuralInit); iff theorems against a separate specification",
 "C135": "induction over the layers; softmax algebra",
 "C136": "both implementations reduced to the same closed form",
 "C137": "validation and data preparation modelled line by line; list lemmas",
 "C138": "Model/Contextual; IsTopRanking with the explicit score; the sigmoid is strictly increasing, so the ranking is that of the linear scores.",
 "C139": "Model/Regression and Model/Offline; each rejection as an equation with the exception, the slate model as an equivalence.",
 "C140": "Model/Meta.lean checks; Props/FrontEnd.lean characterises them by the shapes in Spec/Meta.lean (WellShaped) by induction over dict entries.",
 "C141": "Model/Reports.lean models the unchecked call of _estimate_round_rewards and the data frame; Props/Reports.lean and Props/Plots.lean relate it to the checked call class by class.",
 "C142": "plotPolicies in Model/Reports.lean; fold over policies by induction, subplot index bound by induction over the estimators.",
 "C143": "slateBar / slatePlot in Model/Reports.lean on top of the summary; arithmetic in Props/Plots.lean with a concrete interval drawn too long.",
 "C144": "Model/Environment.lean models BanditRounds as a state machine with its cursor and Python's for loop over it with an arbitrary body; loop invariant by induction on the remaining rounds.",
 "C145": "Model/Environment.lean models construction, contexts, expected rewards, Bernoulli draws entry by entry, delays, next_bandit_round and next_bandit_round_batch with an abstract generator; theorems describe the arrays entry by entry.",
 "C146": "Model/SlateInteraction.lean has the whole function over the reals; Spec/SlateInteraction.lean states the documented formula. Theorems for logged and enumerated slates, range, independence, log-odds and rejection.",
 "C147": "Training data as a function of the arguments (iff); the loop as a fold over arbitrary permutations with abstract network, optimiser and loss; induction over batches and epochs.",
 "C148": "Same loop: the validation pass only changes its own counters; simulation of the run without early stopping; negative witness for every number of epochs.",
 "C149": "The scan stops at the first candidate whose interval misses an earlier one; case split on whether the oracle candidate precedes the stop; the constant follows from sqrt(6) - 1 in the test.",
 "C150": "Value of the bound (C32) and Hoeffding's inequality from Mathlib's sub-Gaussian library; negative witness on a coin flip.",
 "C151": "Streams of independent rounds in Spec/LogStream; the per-round values of each class; change of measure through the logging policy, conditional expectations, and Mathlib's strong law of large numbers.",
 "C152": "The perturbed scores are turned into independent exponential clocks (exp of minus score); the race lemma computes by induction over the number of actions the probability that the clocks ring in a given order, ties have probability zero, and without ties any argsort returns exactly the order of the clocks. Independence of rows gives the product over rounds.",
 "C153": "From C152 with one place and C101 (predict_proba is the Boltzmann distribution of the same scores). The witness for NNPolicyLearner has probabilities 3/4 and 1/4: equality would force e = 9.",
 "C154": "The draws are random variables on an arbitrary probability space; the model of the dataset is run on every outcome, the law of the sampled action is derived from inverse-CDF sampling (C01), and the estimators' value formulas are integrated.",
 "C155": "The dataset and the estimators are run on every outcome of an arbitrary probability space; integration over the draws by C01, over the contexts by marginals of a product measure; the average policy is the average of the loggers' policies over the rounds (C105).",
 "C156": "The interval characterisation of sampled slates (C113), independence of the draws of a round and the telescoping lengths of the intervals give the probability of every slate as a product; sums over classes of slates give cascade and item-position probabilities. The estimates: law of the slate, independence of the rewards, reweighting by class probabilities, closed forms of the estimators.",
 "C157": "Model of the whole dataset class on nested lists; expectation over the joint draws of action and embedding dimensions computed from independence; C106 identifies the reported expected reward.",
 "C158": "Files as lists of rows with features in an arbitrary linear order; pandas' sort_values as any sorting permutation, get_dummies, LabelEncoder and rankdata by their definitions. Ranks in a finite set are an order isomorphism onto an initial segment; dropping the first indicator loses nothing; the split via C89.",
 "C159": "composes the sampling law of the truncated normal and uniform draws (C131) with the closed forms of the estimators (C39), then bounds the smoothing error by the first absolute moment of the kernels and takes the limit by dominated convergence",
 "C160": "Spec/SlateStream.lean: an endless stream of independent rounds with a context from any measurable space. Every slot is reduced to the single-action stream of C151 by numbering slates, the strong law of large numbers is applied to weighted rewards and weights, and the limit is identified by summing over classes of slates that agree as far as the estimator looks (the reweighting lemma of C40-C42). An example stream with two slots meets the hypotheses.",
 "C161": "Spec/ContStream.lean: an endless stream of independent rounds whose action has a conditional density. Strong law of large numbers for weighted rewards, weights and weighted predictions; change of measure through the density; the kernel integrates to one; Lipschitz bound for the smoothing bias. An example stream with uniform contexts and actions meets the hypotheses.",
 "C162": "Spec/MultiStream.lean: one stream of C151 per logger, pooled logger by logger. The pooled mean is the share-weighted mean of the loggers' means; the strong law of large numbers for each logger; for the weighted estimators the weights average to one and are positive, whatever the estimated variances are; for the balanced ones the limit is identified by mixing the loggers' change of measure. An example with two loggers meets the hypotheses.",
 "C163": "Spec/EmbStream.lean: streams with embeddings. The embedding is numbered and taken as the action of a stream of C151, whose conditional means follow by the tower property; the weights of the code are the importance weights of that stream. An example stream where half of the evaluation policy's actions are never logged meets the hypotheses.",
 "C164": "The variance of an average of independent terms is the sum of the terms' variances over n^2 (induction-free, by expanding the square and the product distribution). DR: the variance of a term splits into reward noise and the variance of the unexplained part. Balanced weights and MIPS: Cauchy-Schwarz on the second moments, and equality (or Cauchy-Schwarz) on the means.",
 "C165": "Empirical Bernstein inequality of Maurer and Pontil, proved from scratch: Bernstein's inequality for the mean through the moment generating function, and a lower tail bound for the sample variance by writing it as the average over all permutations of averages of independent pairs.",
 "C166": "Two-sided Bernstein inequality for the terms of the bias estimate (second moment at most that of the weights, range twice the largest weight), which gives exactly the code's two terms with the true moments; witness with a rare action on product Bernoulli measures.",
 "C167": "Along every sequence of draws the simulator's run is a recursion (`playAction`); the rewards observed with an action are uncorrelated because the choice is made before the reward is drawn; a strong law for bounded uncorrelated variables (second moments along squares) and counting of exploring rounds give the limits.",
 "C168": "The loop on a log and the simulator's steps are computed as recursions on the policy's memory; per round the expectation is the operator (1/A) O + (1 - 1/A) I where O is one online round, and powers expand by the binomial theorem because O commutes with I.",
 "C169": "behaviour probability times weight used = evaluation probability minus lost probability, by cases on the estimator; expectation of a mean of independent rounds",
 "C170": "the policy's choices as a recursion; Cauchy-Schwarz for confidence bounds; determinant lemma and AM-GM for the sum of squared bonuses, with a factor for updates delayed to the end of a batch",
 "C171": "a Gaussian mixture gives a supermartingale of the regression noise of each action; stopping it when it gets large gives a bound for all rounds; then the deterministic bound of C170",
 "C172": "Along every sequence of draws the simulator's run is a recursion (`tsAction`). The shares of plays follow the probabilities of being drawn largest given the past (strong law for uncorrelated variables); the rewards of an action played infinitely often average out play by play; Beta distributions concentrate (Chebyshev) and charge both ends of [0, 1]. So some best action is played infinitely often, and then the others are drawn largest with vanishing probability.",
 "C173": "the self-normalised bound of C171 for any rule that picks actions from the past; exploring rounds turn the expected squared bonuses of all actions into those of actions played, whose sum the determinant bounds; Jensen for the square root",
 "C174": "Round terms are independent and equally distributed; the central limit theorem gives averages, Slutsky's theorem gives ratios; the probability of half lines follows by the portmanteau theorem.",
 "C175": "Joint characteristic function of the errors of the estimate and of the B bootstrap averages tends to that of B + 1 independent normal variables, so all ranks of the true value among the bootstrap averages become equally likely; the percentile bounds are compared with ranks. The default of 100 bootstrap samples gives a counterexample.",
 "C176": "The interval is that of inverse propensity weighting divided by the average weight (affine equivariance of the bootstrap interval). A log whose weighted rewards are all equal gives the counterexample.",
 "C177": "The bias that the tuning code estimates is exactly the distance between the estimate at the candidate and the estimate with unmodified weights. So the distance of the chosen estimate is bounded by the score of every candidate. On growing logs the variance over n and the width of the bias bound tend to zero (means of squares over n tend to zero whenever means converge), so the score tends to the squared limit bias. SLOPE through the oracle inequality C149.",
 "C178": "C178_dr_bias and C178_ipw_bias compute the exact expectation over the finite process; C178_dr_bias_size bounds it; C178_dr_limit and C178_ipw_limit use the strong law on the stream; C178_dr_consistent is the corollary for either model right.",
 "C179": "C100 gives that the fitted rule has the highest IPW estimate; Hoeffding's inequality for both tails and a union bound over the class give C179_regret; the strong law gives C179_consistent; C179_predicts shows that fitting fails only if the classifier does.",
 "C180": "Model/SlateBatch.lean has the constructor statement by statement; the accepted settings are a separate structure in Props/SlateBatch.lean.",
 "C181": "Model/SlateBatch.lean puts the pieces of the batch together (sampling from SlateDataset, expected rewards from SlateInteraction, click model, truncated normal rewards); C181_batch evaluates the whole function, the rest follows with the estimator theorems on grids of rounds and positions.",
 "C182": "The prediction of a round does not depend on what is logged in that round (C90); redrawing one round does not change an expectation; the expected contribution of a round for fixed predictions is the policy's expected reward in the round. Witness for one fold by evaluation on all logs of a two-round process.",
 "C183": "Lemmas/IidClt.lean proves the limit for any estimate that is an average, or a sum of ratios of averages, of functions of independent rounds, and the coverage of an interval bootstrapped from such an average. Per family: the call returns that average (interval: bootstraps those terms), its mean is the value (from the consistency theorems C160, C161, C163).",
 "C184": "the policy is extended with a counter of its updates and their total reward, to which the mixture of C168 applies; the table of selections is one-hot, so ReplayMethod averages the rewards of the matched rounds (C19)",
 "C185": "from C51 the weights are determined by sizes and variances; sums over the log are regrouped by stratum",
 "C186": "Lemmas/StrataClt.lean proves the central limit theorem for independent strata, Lemmas/StrataNormal.lean adds weights that converge in probability; the weights converge by the law of large numbers; smallest variance by Cauchy\u2013Schwarz",
 "C187": "A central limit theorem for the pooled average (C186) and, given the log, for the bootstrap averages (triangular array: the rounds change with the log because of the weights). The bootstrap variance is the variance of the errors plus the variance between the means of the loggers' rounds; a normal variable with the smaller variance lies in the middle of the larger ones at least as often as one with the same variance.",
 "C188": "Spec/Formulas.lean transcribes the formulas; the closed forms of the estimates are compared with them.",
 "C189": "Hoeffding's inequality (Mathlib, sub-Gaussian sums) for the terms of the i.i.d. logs; a failing call counts as an error (Spec/Misses.lean), so validity of almost all logs is part of the proof. Self-normalised: |num/den - v| >= t forces a deviation of the centred numerator or of the weights (Lemmas/Tails.lean).",
 "C190": "Contributions of rounds (value_weighTerm_log) with range spread times R; their mean by integrating over the logging policy, with the algebra of C169 (used weight times behavior probability is evaluation probability less the lost part); Hoeffding; dominated convergence for the lost probability; Spec/StreamBias.lean.",
 "C191": "Props/QLearnerValue: loss of a policy that is nearly optimal for the predictions; optimality of the first best action and entropy bound for Boltzmann probabilities; change of measure to logged rounds.",
 "C192": "Lemmas/Student: central limit theorem divided by the empirical standard error (Slutsky). Props/Student: C192_student, C192_ipw, C192_dr, and C192_not_for_given_size with coin flips that nearly always show 1.",
 "C193": "Props/Student: C193_slope, from the deterministic oracle inequality C149_tuned_value; the estimates are within their widths by Lemmas/Student, and the order of the empirical variances is that of the true ones on large logs.",
 "C194": "Terms of rounds in one fold are uncorrelated given the other folds and average out; sums over folds by Cauchy's inequality; each term bounded by the second moment; variances by unbiasedness (C182).",
 "C195": "ChoosesWell in Spec/PolicyChoice; union bound over the errors of C189 and C190; the limit statement from C151.",
 "C196": "C72_round for each outcome, expectation of a round's share of the estimate, derivative of finite sums (Props/TrainingGradient.lean).",
 "C197": "Exact loss of batches with a common probability of the logged actions; numeric witnesses with logarithms of powers of two.",
 "C198": "Closed forms of the estimates (value_*), linear in the importance weights and in action_dist; concavity of clipping; weighted means lie between their extremes.",
 "C199": "`Log.join`, `SlateLog.join`, `MLog.join` and `ContLog.join` (Spec/JoinedLogs.lean) append every column. The per-round values of the joined log are the appended per-round values, and totals split at the boundary; for slates the number of distinct ids of a union is used.",
 "C200": "`Log.SameExcept` compares the logs consisting of single rounds (Spec/Influence.lean). Estimators that treat rounds separately are averages of the estimates of single rounds, so all terms but one cancel; the weight applied to a round is bounded case by case. For the self-normalised estimators the rest of the log acts as one value with a common weight. Slates: the estimate is the sum of weighted rewards over the number of slates, and the rows of all other slates cancel. Continuous actions: as for single actions, with the kernels bounded by their value at 0.",
 "C201": "`Log.Renamed`, `Log.shift` and `SlateLog.renameSlates` (Spec/Renaming.lean) describe the two logs. Weights, model values, residuals and matches of a renamed log are the same round by round (sums over actions are reindexed, unused actions contribute 0); a shift changes model values by d, residuals not at all, and weighted averages by d. With several loggers the weighted estimates are determined by variances within loggers (C51), which neither new labels nor a shift changes.",
 "C202": "`ContLog.onAxis` and `ContLog.shift` (Spec/Renaming.lean) describe the two logs. The kernel argument keeps its absolute value and kernels are even (C38), so every weight is multiplied by the size of s, which the bandwidth or the normaliser cancels; without any weight the self-normalised estimate fails on both sides (C39).",
 "C203": "`Log.withReward`, `Log.withModel`, `ContLog.withRewards` (Spec/RewardUnit.lean) and `Log.scale` (Spec/Meta.lean) describe the other logs. Every estimate is an average of per-round values that are affine in the reward with a non-negative factor (weight, clipped, switched, shrunk or normalised), which does not depend on rewards. The fall of the weighted estimates is a computed log of four rounds."
}