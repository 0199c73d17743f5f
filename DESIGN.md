# Verification of `lop` (learning of preferences) in Lean 4

## 1. Approach

`/repo` is Python (NumPy / SciPy).  The model is a set of Lean 4 functions that mirror
the Python functions branch by branch.  It is organised as

* `Verif/Model/*`  – the code, function by function; every definition cites file and lines;
* `Verif/Spec/*`   – small independent specifications (dominance, partitions, decoded facts, densities …);
* `Verif/Proofs/*` – helper lemmas (no property is stated there);
* `Verif/Props/*`  – the property theorems, named `Cxx_…`, next to `example`s showing that
  the hypotheses are met by concrete, non-trivial inputs, and counterexample theorems
  (`Cxx_…_false` / `_counterexample`) where the code does not have the property.

* `Verif/Conform/*` – the expectations of the repository's own tests replayed on the model (tests of the
  fidelity of the transcription, not proofs of properties; no claim rests on them).

### Conventions

* Python exceptions are values of `Except PyErr _`; mutation before a `raise` is modelled by
  returning the mutated state next to the error.
* Randomness (`np.random.*`) is an explicit argument: a draw or a stream of draws.  Theorems
  quantify over all draws satisfying only the contract of the NumPy function (documented at the definition).
* Dictionaries/sets of indices are lists or `Finset ℕ`; sets whose iteration order matters are
  given an arbitrary order by the oracle.
* Floating point numbers are idealised as elements of a linear order / ordered field / `ℝ`.
  NaN, infinities and rounding are outside the model unless a definition says otherwise.
* `Model/Float.lean` and `Model/Rounded.lean` (C98–C101) are the exception: every operation is rounded. Theorems hold for
  every rounding that is monotone, odd, idempotent, exact on integers up to `2^53` and has the error of binary64
  (`FloatArith`); IEEE 754 binary64 with ties to even is proved to be one (`binary64`), and the refutations are about it.
* External numerical routines (Cholesky, matrix inverse, SciPy special functions) are modelled by
  their mathematical meaning (`Matrix.inv`, `Real.Gamma`, Gaussian integral …) or by a parameter.

### Trusted base

1. Lean 4.33.0 kernel; axioms used: at most `propext`, `Classical.choice`, `Quot.sound`
   (see the end of this file for `#print axioms`).
2. Mathlib definitions used in statements (`Real.exp`, `Matrix.PosSemidef`, `HasDerivAt`, …).
3. The transcription Python → Lean in `Verif/Model` (done by hand, cited line by line).
4. The idealisations listed above, in particular:
   * `scipy.special.ndtr`/`log_ndtr`/`norm` = Gaussian cdf `Phi` and density of Mathlib's Gaussian measure;
     `digamma`, `polygamma(1|2, .)` = derivatives of log Gamma; `scipy.stats.beta.logpdf` = log of Mathlib's beta density;
   * `np.linalg.cholesky` succeeds exactly on positive definite matrices and `cho_solve` multiplies by the inverse
     (in floats a singular matrix may slip through or a nearly singular one be refused);
   * the configurable matrix inversion (`mat_inv`) is a parameter: right on invertible matrices, arbitrary or raising
     on singular ones;
   * the multivariate normal orthant routine, the bivariate cdf and `scipy.optimize.minimize_scalar` are parameters
     (oracles); theorems state what they need of them;
   * results of sub-learners and of user callbacks are arguments, so that theorems hold whatever they return;
   * in the models with rounding: `np.sum` adds the summands in some order and bracketing (`NpSum`), `np.exp` and `ndtr`
     are monotone with the stated values and ranges (`NpExp`, `NpNdtr`), `np.random.choice` compares a compensated sum with
     1 up to `2^-26`; results beyond the largest finite number are replaced by it, `x**2` is one rounded product;
   * `np.log` of 0 or of a negative number, division 0/0 and similar non-finite results are `none`.

## 2. Plan per property

| id | modelled | how proved |
|----|----------|-----------|
| C01 | `get_dk`, `preference`, `z_k`, `likelihood` | case analysis + monotone Gaussian cdf |
| C02 | `gen_pairs_from_idx` | list induction |
| C03 | `ranked_pairs_from_fake`, `generate_fake_pairs` | list induction, acyclicity through the value order |
| C04 | `generate_ranking_pairs` incl. its missing `return` | refuted; the internally built list is right (`_partial`) |
| C05 | `get_pareto` loop | loop invariant on the surviving list |
| C06 | same | corollary of C05 + well-foundedness |
| C07 | `k_fold_x_y` with oracle | invariant over the two nested loops |
| C08 | same | refuted by N=9,k=4; exact: guaranteed iff (k-1)*ceil(N/k)<N, otherwise every draw fails on a complete comparison graph |
| C09 | `get_y_with_idx` | list lemmas |
| C10 | `normalize_0_1` | ordered-field algebra |
| C11 | `p_human_choice` | `Real.exp` algebra |
| C12 | `sample_unique_sets*` as fuel-free relation / fuelled loop | invariant over loop |
| C13 | same | counting argument (n choose k) + progress; refuted for infeasible requests |
| C14 | `metropolis_hastings` with stream | induction on the step count |
| C15 | `gamma_dist.py` | derivative of log, Mathlib gamma integral |
| C16 | `PreferenceModel.add/reset` | refinement to a log of facts, induction on histories |
| C17 | same, with state returned on error | refuted; labels unchanged (`_partial`) |
| C18 | pareto branch of `add` | membership lemma |
| C19 | `remove_without_reference` | order embedding of kept indices; refuted for mixed labels; exactly which ratings survive (`C19_ratings_exact`) |
| C20 | `add_prior`, `get_prior_pts` | list take/drop; refuted when earlier points are dropped; exact value in every case (`C20_prior_points_exact`) |
| C21 | `reset` | bisimulation |
| C22 | fit cache of `PreferenceGP`, `determine_query_type` | invariant; two refutations |
| C23 | `get_hyper/set_hyper` | list slicing |
| C24 | `randomize_hyper` | refuted (abs only); partial for full label sets |
| C25 | `DualKern` parameter functions | tree induction |
| C26 | `OrdinalProbit.set_b/get_hyper` | algebra; refuted for n=2 |
| C27 | `predict_large` chunking | list chunks; refuted with RBF noise |
| C28 | `binary_line_search` | induction; refuted for concave, proved for quadratics |
| C29 | `iterative_line_search` | fold invariant |
| C30 | `newton_update` | definiteness; fallback refuted |
| C31 | `cov` matrices | Schur product theorem + exponential series |
| C32 | `cov` vs `__call__` | entrywise; noise rule refuted |
| C33 | zeroed kernel | algebra; `__call__` refuted |
| C34 | `gradient` | `HasDerivAt`; RBF length scale and periodic refuted |
| C35 | `cov_gradient` | tree induction for sums; product refuted |
| C36 | `PreferenceProbit` likelihoods | Gaussian cdf lemmas |
| C37 | `PreferenceProbit` derivatives | calculus, Mills-ratio inequality |
| C38 | third-order terms | calculus; `calc_W_dF` refuted |
| C39 | `OrdinalProbit.likelihood_each` | telescoping |
| C40 | `OrdinalProbit.derivatives` | calculus; second derivative refuted; explicit error bounds of the small-likelihood formulas from Mills-type inequalities |
| C41 | `AbsBoundProbit` | algebra, calculus with `Real.Gamma` |
| C42 | scatter assignment | lists; refuted for repeats; invariant from C16 |
| C43 | `GP.predict` | Schur complement |
| C44–C46 | `ActiveLearner.select` | loop invariants over an oracle learner |
| C47 | `BestLearner`, `WorstLearner`, `UCBLearner` | argmax induction |
| C48 | `get_prefered_set_of_pts`, `select_best` | case analysis |
| C49 | `pick_pair_from_metric` | sorted-list argument |
| C50 | mixed learners as state machines | induction on call histories |
| C51 | `MixedComparision.select` | case analysis, refuted |
| C52 | `AlignmentDecision.select` | refuted |
| C53 | mixing probabilities | exponential bounds |
| C54 | `get_representative_Q` | list lemmas |
| C55 | `calc_info_gain` | log-sum inequality |
| C56 | `calc_H_B_Q` | algebra, refuted |
| C57 | expected alignment | finite sums |
| C58 | `p_B_*` | sums, congruence of PSD |
| C59 | `calc_cdf` | refuted, correct for unit variances |
| C60 | synthetic users | composition |
| C61 | fake functions | monotonicity |
| C62 | `get_k_b` | algebra |
| C63 | fitting loops | fuel measure |
| C64 | `AbsBoundProbit.grad_hyper`, `calc_W_dHyper`, `calc_W_dF` | calculus with the derivatives of log Gamma; two of the four terms refuted |
| C65 | priors of the hyper-parameters, `hyperparameter_search`, the tuning loop of `optimize` | sum over the layout, derivative per slot, loop invariant by induction; data gradient and mode search are oracles |
| C66 | `likli_f_hyper`, `grad_likli_f_hyper` | Gaussian integral, matrix calculus (derivatives of determinant and inverse); kernel entries refuted |
| C67 | `predict` / `fit` state machine with `optimized` flag | induction on call histories |
| C68 | `PreferenceLinear` fit | chain rule, definiteness; refuted for undetermined weights and for ratings (two local maxima) |
| C69 | human choice users | case analysis, limits of softmax |
| C70 | calibration objectives | probabilities of success, algebra |
| C71 | `learn_beta` data flow | list lemmas, refuted for unequal environments |
| C72 | tuning acceptance | case analysis |
| C73 | `PreferenceGP.predict` | Schur complement, Woodbury identity; refuted for ordinal labels and singular kernels |
| C74 | `PreferenceGP.find_mode` | strict concavity, coercivity, chain rule; ratings: intermediate values of the gradient with bounds on digamma and the normal tail |
| C75 | `AcquisitionBase.alignment`, `alignment_between` | norms of unit vectors, equality case of Cauchy–Schwarz, rank arithmetic; scalar result of `np.corrcoef` for one sample not modelled |
| C76 | `AbsAcquisition` | beta integrals, tangent inequality of the quadratic form, minus the Euclidean distance as an integral of Gaussian kernels; `quad_vec` is a parameter with an error bound |
| C77 | `GV_UCBLearner` | Schur complement, geometric mean of eigenvalues, rank of a linear model's covariance; `metropolis_hastings` samples are parameters |
| C78 | `MixedDecision` and `AcquisitionBase.set_samples` | state machine with the stored samples; samples are opaque values, what is computed from them a function parameter |
| C79 | `sampled_objective`, `kl_objective`, `rate_sampled_objective` | monotonicity and intermediate value theorem; variance of a sum of independent indicators; Gibbs inequality; draws are parameters |
| C80 | `evaluation` (`experiments/experiment_helper.py`) | `argsort` is an arbitrary sorting permutation; the model scores and the fake function are parameters; numpy `corrcoef` as in C75; file output left out |
| C81 | `get_active_learner`, `get_model`, `get_fake_func`, `get_synth_user`, argument checks of `main` | the `if` chain as a table of constructor calls, checked branch by branch by the kernel and lifted to all configuration values; the learners' own behaviour is a parameter, except for the first selections that always raise |
| C82 | `downsample_hull`, `downsample_kmed_rand`, reduction in `train_and_eval` | counting of positions; `KMedoids`, `ConvexHull`, `np.random.choice` are parameters; that `KMedoids` returns different rows is assumed |
| C83 | training loop of `train_and_eval` | induction over the steps; selection, user, `model.add` and evaluation are parameters |
| C84 | `Model.__init__`, `Model.select`, `set_model` of all learners, sub-learner calls of the mixing learners | a heap of `model` attributes; induction over nested learners and over the history; which sub-learner a mixer asks is an oracle |
| C85 | `get_p_B_probit` and its callers in `BayesInfoGain`, flag of `ActiveLearner.select` | state machine over selects and direct calls; the belief itself is a parameter |
| C86 | scaling in `MutualInfoLearner.select_greedy` | algebra over the reals; sampled utilities are a parameter |
| C87 | `FakeSinExp`, `FakeMixtureGaussian`, `FakeStaticSin`, table of `FakeIntegrate` | real analysis; induction over the table |
| C88 | `prefer_pts` in `train_and_eval` | composition of the models of C82 and C48 |
| C89 | `sample_unique_sets_fast` on a probability space of draws | blocks of passes, conditional probability bound; also on the product space of independent draws (`C89_product_*`) |
| C90 | `metropolis_hastings`, `normal_prop_dist`, `PreferenceLinear.loss_func` | detailed balance integrated over the proposal; independence of fresh draws; lower bound of the likelihood |
| C91 | scale parameters and the constants stored beside them, of the three probits | state machine, invariant over call sequences |
| C92 | `probit_idxs`, `y_train` as a list of positions, `other_probits` | refinement of the model with one field per label type; exact condition on the names |
| C93 | `add`, `reset`, `predict` on a memory shared with the caller | ownership invariant over histories |
| C94 | `AbsBayesInfo`, `calc_one_time` and its cache | closed form by integration against the beta distribution, information inequality; state machine of the kept belief |
| C95 | `ProbabilityLearner` | linear images of Gaussian vectors |
| C96 | `read_study.py`, `SimplelestModel` | refinement: one reused model against fresh ones |
| C97 | `PreferenceGP.find_mode` (whole), `newton_update`, `binary_search` | strong concavity: small last step and curvature bound give distance to the mode; a pass gains 2/9 of the directional derivative when the curvature varies by a factor of at most two |
| C98 | `p_human_choice`, `sample_human_choice` with rounding | relative error of sums in any order (`FSum`, induction); accuracy against the softmax; refinement of the exact model; the rounding is to the nearest binary64 number, ties to even |
| C99 | `cov` of three kernels, `calc_W` of pairs with rounding | monotone and odd rounding; accuracy; positive definite by perturbation; binary64 witness |
| C100 | `sigmoid`, `normalize_0_1` with rounding | monotone rounding, relative errors; binary64 witnesses |
| C101 | likelihoods of the three probits with rounding | monotone rounding, relative errors |
| C102 | training loop of `train_and_eval` with its training data | invariant over passes (true, in range); exact content per pass; refines C83 |
| C103 | `metropolis_hastings`, `normal_prop_dist`, `PreferenceLinear.loss_func` | self-adjoint contraction of the transition operator on L², ergodicity from the positive density of the proposals; every start by splitting accepted from rejected steps; averages over one run from the joint law of pairs of samples |
| C104 | `select_greedy_k` | loop invariant for any fitting `select_greedy`; refuted for those of the library |
| C105 | `RateChooseLearner`, `MixedComparision`, `MixedComparisionEqualChecking` with the samples they set | state machine; results do not depend on the state; sub-learners are functions of the samples |
| C106 | indices of representative queries against the columns of the samples | counting of subsets: all queries together name every point |
| C107 | the loop over the runs in `main` (`single_experiment.py`) | results are arbitrary values; `np.empty` is a parameter; an interrupt may come after any number of array assignments |
| C108 | `train_and_eval`: slices of the problems, draw of the order, recorded rows | passes and evaluations are parameters; non-negative `env_num` |
| C109 | `GP_visualization.py` | what is drawn; drawing and files left out |
| C110 | `PreferenceGP.find_mode`, `predict` on comparisons (no new model) | the mode is the fixed point of prior covariance times gradient; comparing the optimality of two modes; mills ratio antitone |
| C111 | `PreferenceGP.find_mode` with ordinal ratings, `OrdinalProbit.derivatives` (no new model) | log of an interval probability is concave; one mode; gradient of a finished fit; the step matrix for narrow and wide priors |
| C112 | `record_gp_state` (the saved fields), `model_load` | loaded attributes may be 0-dimensional arrays; two models equal but for the prior window look the same |
| C113 | `filter_by_time`, `get_filepath` | list comprehension whose test may raise; position of the date in a recorded path; reading of dates and `glob` are parameters |
| C114 | `PreferenceGP.predict`, `find_mode` (mode), `PreferenceProbit` (`W`) | modes exact; `W` unclipped; refuted for other questions |
| C115 | `GP.predict`, `GP.add`, kernel `cov` | leaves without noise (a witness for noise); `mat_inv` exact |
| C116 | `PreferenceGP.find_mode`, `predict`, `PreferenceLinear.optimize`, the probits' `derivatives` | exact arithmetic; `np.linalg.inv` a parameter compatible with renumbering |
| C117 | `PreferenceGP.find_mode`, `predict`, `PreferenceLinear.optimize`, `remove_without_reference` | exact arithmetic; the exact mode (C97 relates it to the stored values); `np.linalg.inv` exact |
| C118 | `find_mode`, `predict`, `GP.predict`, `PreferenceLinear.optimize`, all kernels' `cov`, all probits' derivatives (nothing new modelled) | equality of two runs: derivatives and log-likelihood with all utilities multiplied by `c`, then update, loop and prediction; kernels by induction on the expression; linear model by change of basis. Inversion routine homogeneous (as `pinv`), tolerance scaled with the units; the fixed default tolerance is a proved exception |
| C119 | as C118 (comparisons and ratings) | the same general lemma with factor −1; the link and the beta density are symmetric for `Phi(-30) ≤ eps ≤ 1/2`; ordinals are a proved exception |
| C120 | `PreferenceProbit.likelihood_all_pairs` at the mode of `PreferenceGP` and at what `find_mode` stores; `PreferenceLinear` likelihood | the fixed-point equation of the mode along one pair solved for the choice probability; Mills-ratio bound; C97 for the stored F |
| C121 | `ActiveLearner.select` (both modes), `select_best`, `get_prefered_set_of_pts`, greedy steps of six learners, `pick_pair_from_metric` | simulation between the loops on old and new numbers; values invariant under bijections of the query; set order an oracle on each side |
| C122 | `PreferenceModel.add`, `PreferenceLinear.optimize`, `PreferenceGP.find_mode`, `predict`, kernels | duplicated rows give a zero determinant; with noise the fixed-point equation of the mode summed over the copies; exact real arithmetic (in floats a singular matrix may pass `np.linalg.cholesky`) |
| C123 | `PreferenceGP.find_mode`, `predict`, `PreferenceProbit.derivatives` | strong monotonicity of the mode equation and Cauchy–Schwarz in the prior covariance; comparisons only; stored values with the errors of C97 |
| C124 | `AbsBoundProbit.cdf`, `mean_link`, `likelihood` | monotone likelihood ratio of the beta family; `scipy.stats.beta.cdf` is the distribution function of Mathlib's beta measure, one entry of the arrays |
| C125 | `likelihood`, `log_likelihood`, `derivatives` of the three probits | Gibbs' inequality over products of independent answers and for beta densities; the mean log-odds of a rating follows from the maximum |
| C126 | `rating_score_from_fake_f` | case analysis over the five decision points; induction for monotonicity; non-positive utilities refuted |
| C127 | the loop of `GP_UCB_learner.py`: `select` with `UCBLearner`, `GP.add` (`ucbTurn`, `ucbRun`) | confidence bands by a Cauchy-Schwarz argument on linear predictors; variance at a point measured N times at most (v+s)/(N+1); induction over the passes with a potential of harmonic numbers; limit |
| C128 | `PreferenceLinear.optimize`, `derivatives`, `loss_func` | coercivity on the range of the linear map from weights to standardised differences; strict concavity of log Φ; update of C68 |
| C129 | `GP.add`, `GP.predict` and `cov` of all kernels | weights 1/N on the close measurements bound the variance (best linear predictor); confidence bands of C127; continuity of every noise-free kernel by induction on its expression |
| C130 | `add` with an empty label list, `find_mode` with `newton_update` and `binary_line_search`, `predict` of `PreferenceGP`, both normalisations | the objective along the Newton direction is a parabola, whose top the three bisections miss by exactly 1/32; the passes are then a geometric sequence, an alternating one under normalisation |
| C131 | `cov` of all kernels, `predict` of `GP` and `PreferenceGP` | induction on the kernel expression (bounded and decaying kernels); the weights of the data do not depend on the predicted points; Cauchy-Schwarz with the smallest noise for the rate |
| C132 | posterior mode of `PreferenceGP`, `likelihood_all_pairs`, `PreferenceLinear`'s best weights | sums over answers as sums over pairs of points; the mode loses at most half the squared prior norm of `f` in log-likelihood; Pinsker's inequality from below, χ² from above; its expectation under independent answers is the number of different questions |
| C133 | `GP.add`, `GP.predict` and `cov` of all kernels; the measurement errors are random variables on any probability space | the mean is a combination of the values with weights that do not depend on them; the variance is the worst squared error over the unit ball plus the variance of the noise part; Chebyshev; C129 for the limit |
| C134 | `GP.add`, `GP.predict` and `cov` of all kernels; the function and the measurement errors are random variables on any probability space | the residual of the returned mean is orthogonal to the measured values; for Gaussian families orthogonal means independent (Mathlib) |
| C135 | the loop select / measure / `GP.add` with any rule for choosing points, and with `ucbTurn` (`Model/UcbLoop.lean`) asked for one candidate per pass; measurement errors and the function are random variables | the runs are split by the finitely many paths of measured points; on a path the data are those of a fixed design, and the path is an event about the measured values, of which the residual is independent (C134); measurability of `argmax` by induction |
| C136 | the loop of C135 with `ucbTurn` (`GP.predict`, `UCBLearner.select_greedy`, `ActiveLearner.select`, `GP.add`) | a pass costs at most how far the function pokes out of its bands, the width of the band at the chosen point and a term of mean zero; the first by the moment generating function of the Gaussian residual, the widths by harmonic sums over the visits (as in C127), the last by independence on every path (C135) |
| C137 | `Model.select_best`, `GP.select` with `BestLearner` (`gpSelectBest`, `gpSelectTop`) after active learning | the value at a point chosen from the data has the expectation of the mean predicted there (independence of the residual on every path, C135); the largest means have the largest sum; which candidates are chosen depends only on the order of the means, hence measurably on the data; earlier data are a function of later ones; average regret of C136 |
| C138 | the loop of C135 for any rule, and with `ucbTurn` | on every path of chosen points the residual is independent of the measurements and Gaussian (C135), so each band fails with probability at most `2(1 - Φ(a))`; union bound over points and passes; when all bands hold a pass costs at most the width of the band at the chosen point, widths summed as in C136; Chernoff bound for the choice of `alpha` |
| C139 | `GP.add` and `GP.predict` in turn (`gpAdd`, `gpRegress`) | Schur complement of the covariance matrix with one more row and column, induction over the measurements; order: determinant and inverse of a renumbered matrix; widths: concavity of the logarithm and Cauchy–Schwarz |
| C140 | the loop of C138 | the widths of the bands at the chosen points summed by C139 instead of by visits; the linear kernel is a product of feature matrices, `det(1 + AB) = det(1 + BA)`, and the determinant is at most a power of the trace (means of the eigenvalues) |
| C141 | `ActiveLearner.select` with and without `return_not_selected` | loop invariant (skipped points sorted and above the rest), uniqueness of greedy choices |
| C142 | `UCBLearner.select_greedy` with any kind of model (`Model/UcbLinear.lean`); the weights drawn by `metropolis_hastings` are a parameter | the standard deviation as a norm of the centred samples; the selection by C44 |
| C143 | the loop of `pref_linear_learner.py` (`linLearnerLoop`): `argmax` of the true utility, `gen_pairs_from_idx`, `add`, `predict`; the selected questions are parameters | invariant of the loop (stored pairs truthful, a question that is not tied leaves a strict pair), then C128 |

## 3. Not modelled

Plotting, printing, file I/O and command-line parsing; the example scripts other than the settings named in C91, `intermediate_loading.py` (C112, C113) and `GP_UCB_learner.py` (C127);
Numba compilation; floating-point rounding outside `Model/Rounded.lean`; arrays shared with the caller, except in `Model/Alias.lean` (C93), which
models exactly that. The parts of `experiments/` and `other/` that are modelled are cited in `Model/Experiment.lean`,
`ExpAlign`, `Evaluation`, `SynthUser`, `UserObj`, `TrainLoop`, `TrainPrefer` and `Study`.

## 4. Disagreements between documentation, tests and code that shaped the model

* `PreferenceGP.predict` with a singular covariance matrix reaches a branch that computes a scalar and then raises; the
  model raises too.
* `newton_update` catches every exception of the inversion and uses the raw gradient; since the step is subtracted this
  walks downhill (C30, C68).
* Ratings make the posterior multimodal already for two points with the default probit: `find_mode` and
  `PreferenceLinear.optimize` stay at whichever stationary point they meet, and far from the mode the Newton step goes
  downhill (C68, C74).
* The three probits disagree on the sign of `calc_W_dF` (C38, C64), and `grad_likli_f_hyper` adds the two parts (C66).
* `HumanChoiceUser.learn_beta` overwrites the calibrated `k`, `b` by the defaults; ratings do not depend on `beta` (C69–C71).
* `BayesInfoGain` with default arguments computes a gain that is identically 0; with the methods '999' and '99' the computed gain can be negative (C56).
* `MutualInfoLearner` has no `select_pair`, so the first candidate of every query has gain 0 and is simply the first one listed (C55).
* `sampled_objective2` refers to an undefined name and is not modelled; `FakeIntegrate.calc` discards its integral (C61).
* `PreferenceProbit.param_likli` and `AbsBoundProbit.param_likli` return before using their gamma prior, `AbsBoundProbit.grad_param_likli` uses it when both parameters are tuned (C65).
* The "roll back" of `hyperparameter_search` draws random parameters, after which the same call may still report convergence (C65).
* `OrdinalProbit` implements neither `calc_W_dF` nor `grad_hyper`; hyper-parameter optimisation with ordinal data raises (C66).
* `alignment` returns zeros for fewer than two points before the branch of `loglikelihood` that returns ones (C75).
* `AbsAcquisition` integrates ratings over [0.0001, 0.9999] only (C76).
* `GV_UCBLearner` inherits the documentation `mean + alpha*sqrt(variance)` but its first choice uses the variance itself (C77).
* `ActiveLearner.select_greedy_k` is never called; it calls `select_greedy` with two arguments where every learner wants five, so it raises `TypeError` as soon as a point has to be added (C104).
* `MixedDecision` sets samples on its sub-learners in a decision and never unsets them, not even in `set_model`: later pair queries are computed from the samples of an old model for old candidates and may name candidates that do not exist (C78).
* `evaluation` of the experiments restricts the rewards to the Pareto candidates and then uses the old Pareto indices on the restricted arrays; its `spearman` correlates two argsort permutations, which is not the rank correlation (C80).
* `get_active_learner` has no branch for four of the accepted selectors and two identical branches for another; two branches omit the representative queries; the sub-learners of all mixing learners are built without the options of the command line (C81).
* `train_and_eval` calls `learn_beta` on every user, but `PerfectUser` has no such method; ranking queries are only allowed with the perfect user (C81).
* The k-medoids reduction takes 60 candidates whatever `downselect_num` says; the default `use_kmedoid=True` reduces nothing (C82).
* `rating_score_from_fake_f` is never called; it would rate a utility that is not positive -0.1, which `add` refuses (C126). The `bounds` computed in the training loop (over the wrong axis) are never used; of them only the exception is modelled (C102).
* `HumanChoiceUser2.learn_beta` raises `IndexError` if some planning problem has a single path: there is no pair, and the empty array of pairs has one dimension (C71). `HumanChoiceUser.learn_beta` with fewer rewards than a query has items overwrites slope and offset, then raises (C72).
* A learner given to two models belongs to the last one, and nothing reports it (C84).
* `BayesInfoGain` calls `p_B_pref_linear` with one argument too many, so it does not work with `PreferenceLinear` (C85).
* The fake function of `MutualInfoLearner` is meant to remove the scale of the samples; it reverses them when the means have opposite signs (C86).
* `FakeMixtureGaussian.calc` of one vector, which the other fake functions map to a number, returns a vector. The table of `FakeIntegrate` divides by the grid width once too often and is not used by `calc` (C87).
* `train_and_eval` passes the number of Pareto-optimal candidates before the reduction as preferred positions after it (C88).
* The learners sample the weights of `PreferenceLinear` from its likelihood alone, without a prior; clipping keeps this likelihood away from 0, so the sampled density has no finite integral (C90).
* `examples/models/pref_gp.py` assigns `gp.probits[0].sigma`, which the likelihood does not read: its option `--sigma` changes only what is printed (C91).
* `OrdinalProbit.set_sigma(0)` raises after it has changed `sigma` (C91).
* `other_probits` is documented to add probits; the probits are ignored, their names are numbered from 1 and displace the ordinal and rating positions, and labels of additional types are dropped (C92).
* `add` keeps a reference to the caller's first array of points, to the caller's array of ordinals and to the caller's array of rating indices (C93).
* The metric of `AbsBayesInfo` is meant as an information; it is a mean of minus log tail probabilities, positive for uninformative ratings and largest for the worst candidate (C94). The `pdb.set_trace()` calls in `AbsBayesInfo` and `ProbabilityLearner` are taken to do nothing.
* `ProbabilityLearner.select_greedy` returns nothing (C95).
* `single_experiment.py` saves `[:cur_run+1]` rows after an interrupt: the last row is uninitialised memory (C107).
* Runs with `--fake_func min_log` end with `AttributeError` before any training: `record_gp_state` reads `fake_f.w`, which `FakeMinLog` lacks (C81).
* `train_and_eval` sizes its records by the evaluation problems of environment 0, whatever the environment (C108).
* `visualize_data` does not draw points added before the prior (C109).
* `read_study.py` draws the GP's band from the linear model's accuracies and draws nothing unless there are five training choices (C96).
* `find_mode` normalises inside the iteration, so what it converges to with `normalize_gp` is not the scaled mode; with one training point and `normalize_positive` the first update divides 0 by 0 (C97). The error message for a covariance without Cholesky factor is a `print`; the random start is kept (C97).
* In binary64 a middle ordinal rating gets likelihood exactly 0 nine standard deviations away; `derivatives` takes the logarithm before its guard `l < eps`, so the reported log-likelihood is `-inf` while the derivatives are finite (C101). `normalize_0_1` and `sigmoid` can return exactly 1, which `AbsBoundProbit` cannot digest (C100). `W` of pairs compared in both orders is not exactly symmetric (C99).
* `W` of the ordinal probit is not minus the Hessian and can be negative (C40); under a wide prior (an eigenvalue of `K` above `4σ²` is necessary) the Newton step of `find_mode` then goes away from the mode: one point rated better of two, noise 1, prior variance 100, every start value that can be drawn (C111).
* `train_and_eval` takes the extrema for `bounds` along `axis=1` and indexes the first two, so a planning problem with a single candidate raises `IndexError` although a rating needs only one; `ranking` passes hand `None` to `model.add`; a prior without a dominated point raises `TypeError` (C102).
* The samples of `PreferenceLinear` weights drift off: with more burnt steps every bounded set is left (C103). `AbsBayesInfo` computes its metric for the candidates of the first call of a `select` and reuses the position of its maximum for later calls (C94).
* With samples kept from a decision and `loglikelihood`, new representative queries index columns that the samples do not have: `MixedDecision` raises `IndexError` once the training data has grown (C106).
* `MixedComparisionEqualChecking` computes both sub-selections and then raises unless the pair query has exactly two members (C105).
* A state recorded without training data, or without prior points, comes back from `model_load` with 0-dimensional arrays holding `None`, which the tests `is None` do not recognise; ordinal ratings are saved but not loaded (C112). NumPy's behaviour (`None` saved as an object array, `len` and indexing of a 0-dimensional array raise) is assumed.
* `filter_by_time` with one limit reads the date at a fixed distance from the end of the name, where recorded files have `/run_…/trainitr…`; `get_filepath` ignores `idx` unless it is -1 (C113).
* `add` never looks whether a point is stored already. For a `PreferenceGP` whose kernel has no noise, asking about one point
  twice leaves the model at its random start values and makes `predict` raise; with a linear kernel, also storing more than
  d + 1 points (C122). With noise the repeated answers count for more than one would expect.

* `PreferenceGP` with `normalize_gp=True` and points without labels (C130): the loop of `find_mode` never converges and the fit is the random start, scaled; with `normalize_positive=True` and one point it is NaN.
* `examples/active_learners/pref_linear_learner.py:68` lists the selector `PROB_LEANER`, the code accepts `PROB_LEARNER`; the branch for an unknown selector reads `args.a`, which does not exist (`AttributeError` instead of the message). Neither is modelled.
<!-- generated -->
## 5. Where the code does not do what the property says

Each line is a theorem about the model; the text is its documentation comment.

* `C04_ranking_pairs_never_returned`: C04 is violated: whatever the values, the caller of `generate_ranking_pairs` receives `None`, although at least one pair exists as soon as there are two points.
* `C08_complete_graph_false`: C08 is violated for every `N` and `k` with `N ≤ (k'-1)·⌈N/k'⌉`: when all points are compared with each other, every random stream leaves a fold empty.
* `C08_empty_fold_counterexample`: C08 is violated: nine points that are all compared with each other, split four ways (the split `PreferenceGP.optimize` asks for), give an empty fourth fold.
* `C100_normalize_open_false`: In binary64 `normalize_0_1` of 0 and `2^60` returns exactly 1 for the second, for every `eps` between 0 and 1: the result does not lie strictly between 0 and 1 as it does without rounding.
* `C100_sigmoid_open_false`: In binary64 the sigmoid of 40 is exactly 1 (without rounding it is smaller than 1).
* `C101_ordinal_positive_false`: With rounding the likelihood of a middle rating is exactly 0 as soon as `ndtr` has reached 1 at its lower boundary, so that the logarithm in `derivatives` is `-inf`; without rounding it is positive.
* `C102_nonmonotone_counterexample`: C102 (the utility must respect dominance): with Pareto pairs on and a utility that decreases, a run with a perfect user stores a preference that is false.
* `C102_prior_false`: C102 (a prior without a dominated point): when no point drawn for the prior lies strictly above another one, the run ends with a `TypeError` before its first pass; the points drawn stay in the training data, without any statement about them.
* `C102_ranking_false`: C102 (`ranking`): a run that ranks its queries never completes a pass, and stores nothing beyond what was there before.
* `C102_single_candidate_false`: C102 (one candidate): a planning problem with fewer than two candidates ends the run, whatever the selection type, although a rating needs only one.
* `C103_linear_false`: C103, refuted for the learners: they sample the weights of a linear model with `loss_func` as the logarithm of the density. Whatever pairs and ratings the model is trained on, the probability that a sample lies in a given bounded set of weights tends to zero as more steps are burnt: longer runs give ever larger weights and approach no distribution.
* `C103_no_limit_false`: C103, refuted for the learners: samples that leave every bounded set approach no distribution `Q`.
* `C103_share_false`: C103, refuted for the learners: where the samples leave every bounded set (`C103_linear_false`, `C103_untrained_false`), the share of the samples that lie in a given bounded set tends to zero in the mean as more samples are drawn, whatever the number of burnt steps.
* `C103_untrained_false`: C103, refuted for the learners: without training data `loss_func` is zero; the chain is a random walk.
* `C105_equal_size_false`: C105: with any other number of alternatives `MixedComparisionEqualChecking.select` never returns: once both sub-learners have selected it raises `NotImplementedError`.
* `C105_left_false`: C105, refuted for sub-learners that are also used on their own: after a call that drew samples, and also after a later `set_model`, the pair learner computes from these samples and not from the model it then has.
* `C106_grown_counterexample`: The situation of `C106_grown_false` and of `C106_in_range` with six training points, the default 50 queries of two, and samples that were set when there were four points: the queries are drawn in one pass.
* `C106_grown_false`: C106 refuted for samples that were set for fewer representative points: if there are at most as many possible queries as are asked for (with the default 50 queries of two: up to ten points), the alignment `loglikelihood` raises `IndexError`, whatever is drawn. This happens to `MixedDecision` as soon as the training data has grown since its last decision (C78).
* `C107_interrupt_false`: C107 fails for an interrupted experiment: whatever value a reader may find, there is an outcome of `np.empty` for which the saved accuracies end with it although no run produced it, and there is always one row more than completed runs.
* `C109_points_counterexample`: C109 fails for points added before the prior: a pair was added, then a prior of two points; all four points are stored, none of the pair is drawn.
* `C110_all_counterexample`: C110, what is not guaranteed: comparisons which a utility explains need not all be agreed with. If 0 beats 1 often enough and 1 beats 2 once, the mode of three independent points puts 2 above 1.
* `C111_wide_prior_counterexample`: C111, the failure under a wide prior: one point, rated with the better of two ratings (noise 1, threshold 0), prior variance 100. Whatever start value in `[0, 1]` `find_mode` draws, its first update lowers the value, although the mode is above it.
* `C112_none_false`: Is everything the same on a loaded model? No: a step recorded before any training data, or without prior points, comes back with attributes that are 0-dimensional arrays. Without training points both `add` and `predict` raise, where the recorded model accepts the data and predicts from its prior; without prior points `get_prior_pts` raises `IndexError` where the recorded model returns `None`.
* `C112_ordinals_false`: The ordinal ratings are recorded but never read back: two models that differ only in them become the same.
* `C113_index_false`: The argument `idx` does not choose among several files: with two matching runs `idx = 1` returns the first one.
* `C113_one_limit_false`: With only one of the limits, `filter_by_time` looks for the date at the wrong place of the name: as soon as one recorded step has been found it raises `ValueError`, whichever the date.
* `C114_other_false`: C114 refuted for comparisons of other points: with the default kernel, after `1 ≻ 0` has been learned, the answer `D ≻ D + 1` about two points far away *raises* the predicted variance of the difference of the values at `0` and `1`, for every distance from some distance on.
* `C116_noisy_false`: With as many test points as training points and a kernel with noise it is false: after two training points 0 and 1 (numbered either way) the mean predicted at 0, when 0 and 1 are asked for, depends on the numbering, whatever the stored values, unless the weight of the point 0 in the prediction vanishes.
* `C117_noisy_false`: With as many test points as training points and a kernel with noise it is false: after one comparison of the points 0 and 1, the mean predicted for the point 0 – asked for together with 1 and 2 – depends on whether the point 2 is stored, too.
* `C118_tolerance_false`: The tolerance `delta_f = 0.0002` is not a multiple of anything: with utilities in smaller units and the default options the loop stops earlier. Without labels, from the value 1 and with variance 1 it makes four passes; from 0.0001 and with variance 0.00000001 – the same in other units – one pass.
* `C119_ordinal_false`: Ordinal ratings have no mirror image: with three categories and default parameters, a single rating in the middle one – its own mirror image – pulls the utility 0 upwards, since the boundaries are 0 and `b`, not `-b` and `b`.
* `C121_count_false`: C121, preferred set: a number of preferred candidates names the first ones.
* `C121_tie_false`: C121, ties: of equally good candidates the one that comes first in Python's order of the set is selected.
* `C122_again_false`: C122 refuted for kernels with noise: the same answer given `c ≥ 2` times and stored with new copies of the two points each time makes the model believe more than the same answers stored with the points once. All predicted means are larger by the same factor.
* `C122_linear_kernel_false`: C122: with a linear kernel the same happens without any copies, as soon as there are more than `d + 1` training points.
* `C122_noiseless_false`: C122, `PreferenceGP`, refuted for kernels without noise: with two copies of one point `find_mode` stores its random start vector, whatever was said, and `predict` raises for all query points.
* `C124_clipped_false`: C124 refuted without the exception: two items far below (or any two values clipped to one) have the same distribution of ratings.
* `C125_clipped_false`: C125 refuted beyond the limits of the cdf: values further apart than the true ones explain the answers better when the true difference is 30 standard deviations.
* `C126_negative_counterexample`: C126 refuted for utilities that are not positive: with bounds around zero the rating is -0.1, also for a utility inside the bounds, and `add` refuses it.
* `C13_infeasible_request_never_returns`: C13 is violated for infeasible requests: if more sets are requested than exist, the loop never ends, whatever is drawn.
* `C130_normalized_false`: C130 refuted for `normalize_gp=True`: every pass turns the sign and scales back to length 1, so the loop runs to its limit and the fit is the random start, scaled, with a sign that depends on the parity of `maxloops` only.
* `C130_positive_false`: C130 refuted for `normalize_positive=True`: every pass turns the order round, so the loop runs to its limit and the fit is the random start, rescaled to the interval from 0 to 1, or one minus that.
* `C130_single_false`: C130 refuted for `normalize_positive=True` and a single point: the first pass divides 0 by 0, and the fit is NaN.
* `C131_linear_false`: C131 is false for the linear kernel: after one measurement the means grow without bound.
* `C131_periodic_false`: C131 is false for the periodic kernel: every full period away from the only measurement the mean is half the measured value.
* `C15_clipped_region_counterexample`: C15, remark on the clipped region: for `0 ≤ x < 1e-6` the log-density is constant in `x` while the reported derivative is `(k-1)·10⁶ - 1/θ`, which is not its derivative unless that number is 0.
* `C17_rejected_add_false`: C17 is violated: whenever an `add` with at least one point raises or is refused, the training points have changed.
* `C19_rating_moves_counterexample`: C19, violated: with an absolute rating on an otherwise unreferenced point, the rated point is deleted and the rating silently moves to another point.
* `C20_prior_window_counterexample`: C20, violated: with an unreferenced point stored before the prior points, `get_prior_pts` loses a prior point.
* `C21_reset_counterexample`: C21, violated: `reset` does not clear the `optimized` flag, so if the first `add` afterwards is the refused kind (ratings as a plain list), the next prediction uses the mode from before the reset, while a fresh model fits.
* `C22_query_type_decision_false`: C22, violated by `AlignmentDecision`: for every model with data and preference labels, after `determine_query_type` the model claims to be fitted, but the mode was computed without the preferences.
* `C22_stale_fit_counterexample`: C22, violated: a rejected or refused `add`, a direct call of `remove_without_reference`, and an aborted hyper-parameter search each leave a fitted model whose mode does not belong to the data.
* `C23_breakpoints_counterexample`: Reading and writing back changes explicitly given breakpoints: they are replaced by equally spaced ones.
* `C23_negative_threshold_counterexample`: C23 round trip fails for a negative ordinal threshold, which is silently replaced by its absolute value.
* `C24_kernel_counterexample`: Preferences only with a tuned RBF kernel: the kernel scale receives the draw made from the prior of the rating precision.
* `C24_raises_counterexample`: With all three label kinds, or with a composite kernel, `randomize_hyper` raises `IndexError`.
* `C24_ratings_only_counterexample`: Only ratings were given (the common absolute-feedback setting): the precision `v` receives the draw made from the *preference noise* prior.
* `C25_shared_object_counterexample`: C25 fails for an expression that uses the same kernel object twice (`k + k`): `get_param` then reports four parameters, but the second half overwrites the first.
* `C26_lost_thresholds_counterexample`: … and going through two ordinals (`set_num_ordinals(2)` and back) loses the thresholds: all boundaries become 0, so every middle category has probability zero.
* `C26_two_ordinals_counterexample`: C26 fails with two ordinals: `get_hyper` reports 0 for every `b`.
* `C27_empty_counterexample`: C27 fails for an empty query list with an RBF kernel: `predict` raises, `predict_large` returns empty arrays.
* `C27_noise_counterexample`: C27 as stated is false: with observation noise, one training point and 16 query points equal to it, `predict` gives mean `σ² α` for the last point but `predict_large` gives `(σ² + noise) α`.
* `C28_concave_counterexample`: C28 as stated is false: on a concave objective with the defaults of the code (range `[0, 1.5]`, 5 iterations) the search ends farther than half its final interval from the unique maximiser.
* `C28_descent_false`: The proviso of `C28_no_descent` is needed: on a concave objective whose maximum lies before the smallest step the search returns a step that lowers it.
* `C29_marker_counterexample`: C29 as stated (every grid) is false: the "not found" marker `-1` may be the best grid step.
* `C30_fallback_downhill_false`: C30, failure branch: when the Hessian cannot be inverted the update goes strictly *downhill* for every non-zero gradient, whatever the loss function.
* `C31_periodic_two_dim_counterexample`: In two dimensions the periodic kernel (which uses the 1-norm) is not positive semidefinite.
* `C31_product_counterexample`: C31: noise alone is not enough in a product – the product of a noisy RBF kernel with a linear kernel of zero variance at a point is singular.
* `C31_zeroed_alone_counterexample`: The zeroed kernel on the zero point alone has a *negative* variance when there is noise.
* `C32_different_points_counterexample`: C32 as stated is false: two lists with equal length and equal first point get noise between *different* points, for every noise level and length scale.
* `C32_zeroed_counterexample`: C32 for zeroed kernels is false even without noise, whenever the variance is not 1: the matrix and the pointwise value at the zero point differ.
* `C33_pointwise_counterexample`: C33 is false pointwise for the kernel with `σ = 2`.
* `C33_single_row_counterexample`: C33 is false for a single query point: with positive noise the covariance of the zero point with any other pair of points is not 0.
* `C34_periodic_counterexample`: C34 is false for the periodic kernel: one period apart both derivatives in the length scale and in the period are 0, but the code reports `-2` and `-2π`.
* `C34_rbf_false`: C34 is false for the RBF kernel at every pair of distinct points.
* `C35_periodic_counterexample`: C35 is false for the periodic kernel alone: one period apart the code reports derivative `2 exp(-1/2)` in `σ`, the true value is 2.
* `C35_product_counterexample`: C35: products of kernels with different numbers of parameters raise `ValueError`, products with equal numbers silently return the entrywise *sums* of the parts (half as many matrices).
* `C35_product_false`: C35 is false for every kernel expression containing a product: `cov_gradient` raises or returns too few matrices.
* `C36_complement_counterexample`: C36 as stated is false beyond the clipping limit: there the two probabilities sum to more than 1.
* `C37_clipped_counterexample`: Outside the clipping range the claim fails: for a pair whose winner is rated far too low, the log-likelihood is locally constant but the returned gradient is not zero, and `W` is not positive semi-definite.
* `C38_W_dF_false`: C38 as stated is false for `calc_W_dF`: for a single pair of different points it is never the derivative of `W`, whatever the values (inside the clipping range).
* `C39_unsorted_counterexample`: C39 "for all b" is false: `set_b` accepts boundaries that are not in order, and then a rating has negative probability.
* `C40_W_negative_counterexample`: The returned `W` need not even be positive semi-definite: with two ratings, a rating of 2 for a point whose latent value is exactly the threshold gives a negative diagonal entry.
* `C40_hessian_false`: C40 as stated is false: for a lowest rating of one point the returned `W` is minus the Hessian only if the standardised distance to the threshold happens to be exactly 1.
* `C40_midpoint_counterexample`: A further failure below `eps`: a middle rating whose two thresholds are equally far from the latent value gets no finite derivatives (0/0 in numpy), although its likelihood is positive.
* `C40_small_likelihood_false`: Where the likelihood is below `eps` the code switches to asymptotic formulas, which are never exactly the derivative: for a lowest rating the returned gradient is always wrong.
* `C41_clipped_counterexample`: C41 refuted where the mean link is clipped: the log-likelihood does not depend on the latent value there (its gradient is 0), but the returned gradient is not 0 for at least one of any two different ratings.
* `C42_abs_counterexample`: C42 refuted for absolute ratings: a rating of a point that is rated again later has no influence on `W`, on the gradient and on `log_likelihood`; only the third result of `derivatives` counts it.
* `C42_ordinal_counterexample`: C42 refuted for ordinal labels: a rating of a point that is rated again later has no effect on the returned gradient and `W` (while the returned log-likelihood counts it).
* `C42_prior_counterexample`: C42 refuted once `add_prior` is used: it deletes unreferenced training points without re-indexing the ratings, and the next documented `add` uses an index again.
* `C42_tuple_counterexample`: C42 refuted for the tuple form, which keeps the indices of the caller.
* `C43_no_data_false`: C43, without data: a mean function given to the constructor is ignored; whenever it is not zero at a query point the returned mean is wrong there.
* `C44_cap_counterexample`: Learners with a cap (absolute-rating learners: 1) return one point whatever was asked for.
* `C44_invalid_prefer_counterexample`: C44 needs valid preferred indices: a preferred set mentioning a point that does not exist gives a selection with an index outside the candidates.
* `C44_zero_counterexample`: C44 needs a positive number of alternatives: with `always_select_best`, `select(…, 0)` returns one point.
* `C45_exception_counterexample`: C45 as stated is false: two candidates, only candidate 0 preferred, candidate 1 better. Two points are asked for and available, but the call raises; without `return_not_selected` it succeeds.
* `C46_key_error_counterexample`: C46 as stated is false: the same situation raises `KeyError` when no preferred candidate is left.
* `C46_never_returns`: With `return_not_selected`, a pair-based learner whose best pair is not preferred never returns: every pass skips the same pair again.
* `C46_no_data_counterexample`: C46 as stated is false: `BayesInfoGain` without data may draw the same candidate twice.
* `C46_one_point_counterexample`: C46 as stated is false: asked for one point, a pair-based learner returns two.
* `C46_previous_counterexample`: C46 as stated is false: a previously selected candidate is selected again when it belongs to the best pair.
* `C46_single_preferred_counterexample`: C46 as stated is false: `AcquisitionSelection` without data and with a single preferred candidate raises although enough candidates are left (whatever the draws).
* `C48_large_count_counterexample`: C48 as stated is false: preferring the first 5 of 2 candidates yields the indices 0..4.
* `C49_all_previous_counterexample`: C49 as stated ("two different indices") is false when every candidate was selected before: whatever the metric, a pair of twice the same candidate is returned.
* `C51_equal_checking_counterexample`: C51: the comment says the bypass applies when "there is at least one pair that is the same", but two different points which share one coordinate trigger it: the rating is then asked even though the pair metric is larger.
* `C51_smaller_counterexample`: C51: whenever the scaled rating metric equals the unscaled pair metric, the pair query can be returned although its scaled metric is smaller (default `alpha = 0.5`, any positive pair metric).
* `C51_tie_counterexample`: C51: a tie of the scaled metrics (here with `0 < alpha < 1` and positive metrics) is never broken at random: the rating is always taken.
* `C52_history_counterexample`: C52: over a whole history. After `set_model` followed by `k` selections with working sub-learners and decisions, the counter is `k`, so exactly the first `calls_to_decision` of them raised.
* `C52_never_returned`: C52: none of the first `calls_to_decision` calls after `set_model` returns, whatever the sub-learners and `determine_query_type` give: with working sub-learners the call raises `UnboundLocalError` after advancing the counter.
* `C53_no_model_counterexample`: C53: before `set_model` no selection returns (the counter does not exist): `AttributeError`, unless the sub-learner raised first.
* `C53_peak3_counterexample`: C53: with a negative parameter `Peak3` leaves [0,1].
* `C53_peak_counterexample`: C53: over all call numbers the peaked probabilities are not decreasing: they first rise.
* `C53_rev_counterexample`: C53: `RevPeak` does not increase with the number of calls: it drops from 0.9 to 0.1, and from the third call on it is constant.
* `C56_false`: C56 refuted: with the default method 'probit' the expected remaining entropy equals the current entropy for every query, whatever the win probabilities, so the computed gain is 0.
* `C56_greedy_first_counterexample`: Consequently the greedy selection always returns the first candidate offered.
* `C56_negative_counterexample`: C56 refuted for the greedy step with '999' and '99': the computed expected entropy can exceed the present one. Two candidates with equal win probabilities, and a belief of 1/(1+2^20) in the second.
* `C56_pair_negative_counterexample`: C56 refuted for `select_pair` with '999' and '99': the computed gain of a question can be negative. Two candidates with equal win probabilities, and the belief that the first is the best with probability 0.999 (0.99).
* `C59_false`: C59 refuted: for a single variable the result is the orthant probability only if the variance is 1, or exactly one of mean and variance is 0.
* `C59_switch_counterexample`: The method 'switch' fails on every covariance without correlations (two or more variables): the pair of "most correlated" variables is a variable with itself, whose covariance matrix is singular.
* `C60_human_rating_order_counterexample`: C60 refuted for noisy users: whatever the values, with positive noise some draws rate `x` above `y`.
* `C61_integrate_false`: C61 refuted for `FakeIntegrate`: the value depends neither on the integrated function nor on any objective but the first, so improving another objective never raises it.
* `C62_beta_unused_counterexample`: C62 refuted: the learned `beta` has no influence on ratings.
* `C62_learn_beta_counterexample`: C62 refuted for `HumanChoiceUser`: after a successful `learn_beta` the slope and offset are 4 and 0 whatever the rewards and the requested range were, so the noise-free rating of a utility is at the bottom of the range only if it happens to be a quarter of its logit.
* `C64_W_dF_false`: C64 refuted: `calc_W_dF` is not the derivative of `W`, e.g. at latent value 0 for every rating other than 1/2.
* `C64_W_dv_false`: C64 refuted: the matrix returned for the precision `v` is not the derivative of `W`: at latent value 0 this fails for all sufficiently small precisions.
* `C65_converged_random_counterexample`: C65 (rollback) – if the search reports convergence, the parameters it leaves are those of the last gradient step – is false: the parameters are replaced by random ones and convergence is reported in the same call, when the last gradients cancel.
* `C65_length_false`: C65 (length) – the gradient covers all hyper-parameters – is false as soon as there are ordinal ratings.
* `C65_noise_prior_false`: C65 (value) is false for the noise of the preference probit: with default settings its prior is not the gamma distribution with shape 2 and scale 0.1 that `randomize_hyper` samples (the code returns before evaluating it); the contribution is 0.
* `C65_precision_false`: C65 (gradient) is false for the precision of the ratings when spread and precision are tuned together: `hyper_liklihood` does not depend on the precision (as long as it is positive) but the gradient entry is `1/v - 1/25`, so it is right exactly at `v = 25`.
* `C65_zero_accepted_counterexample`: C65 (rollback) – degenerate parameters are thrown away – is false at zero: a rating precision of 0 (no valid beta distribution) and an RBF length scale of 0 (division by zero in the kernel) are kept.
* `C66_no_effect_false`: C66 refuted for ratings: one point, prior variance 1, latent value 0, a kernel parameter on which the covariance does not depend. `likli_f_hyper` cannot depend on that parameter, but the code returns a non-zero derivative for it, for every rating other than 1/2.
* `C66_precision_false`: C66 refuted for the precision of the ratings: the entry for the precision is not the derivative of `likli_f_hyper` (one rating, latent value 0, prior variance 1, every sufficiently small precision).
* `C66_unlabelled_false`: C66 refuted: point 1 was preferred to point 0, and nothing is known about point 2. The latent values `F s` are the posterior mode whatever the correlation `s` of points 0 and 2 is, and the hyper-parameter likelihood does not depend on `s`; the code returns a non-zero derivative in `s`.
* `C67_determine_counterexample`: C67: after `determine_query_type` on a model with pair labels, every prediction (in particular those made for the query selected next) uses a fit of the ratings alone, although the pair labels are still part of the training data.
* `C67_determine_never_returns`: C67: with the default alignment function (`rho`, also with `loglikelihood`) `determine_query_type` never returns and leaves the sample count of the pair learner at 8000; with training data it raises `NotImplementedError`.
* `C67_set_hyper_counterexample`: C67: after `set_hyper` on a fitted model predictions still use the fit made with the old hyper-parameters.
* `C68_fit_reverses_false`: C68 refuted for the whole fit: with one comparison and at least two features, `optimize` ends with weights that rate the preferred point lower, relative to the other one, than the random start weights did.
* `C68_ratings_modes_false`: C68 refuted for ratings: with the default rating probit, the best rating for a point with feature 1 and the worst rating for a point with feature 40, the log-likelihood has two local maxima with weights of opposite signs (nothing is clipped there), and `PreferenceLinear.optimize` started at either of them returns it: whether the fitted model prefers large or small features depends on the random start.
* `C68_undetermined_false`: C68 refuted when the comparisons do not determine the weights: every update strictly lowers the likelihood of the labels (wherever its gradient does not vanish).
* `C69_list_counterexample`: C69 refuted in dimension one: for a Python list `FakeWeightedMax` returns a single number, an upper bound of all values, where it returns one value per reward for an array.
* `C69_sq_min_max_counterexample`: C69 refuted: in two or more dimensions `FakeSquaredMinMax` is another function on a single vector than on a matrix of vectors, and the two even order points differently: a `PerfectUser` with it chooses one path (matrix form) and rates the other one higher (single-vector form).
* `C70_obj_counterexample`: C70 refuted without separation: two different utilities closer than the threshold are not counted, here there is no value at all although the pair has a better item.
* `C71_larger_counterexample`: C71 refuted: a second environment with more problems than the first raises an `IndexError`.
* `C71_smaller_counterexample`: C71 refuted: a second environment with fewer problems leaves uninitialised rows in the matrix.
* `C72_failed_update_counterexample`: C72 refuted: a calibration that fails on the ratings has already changed the user.
* `C72_nan_counterexample`: C72 refuted: if the objective is never a number (e.g. there are no queries), the last value is accepted.
* `C72_too_few_counterexample`: C72 refuted: with fewer rewards than a query has items the calibration raises `ValueError`, after slope and offset have been overwritten.
* `C73_ordinal_counterexample`: C73 refuted for ordinal ratings: the curvature computed for a rating of 2 (two ratings, latent value at the threshold) is negative, and the posterior variance at the rated point exceeds the prior variance: an observation increases the uncertainty.
* `C73_singular_false`: C73 refuted for a singular covariance matrix, e.g. two equal training points without kernel noise: `predict` raises, for every fitted `F` and `W` and all query points.
* `C74_ratings_downhill_false`: C74 refuted for ratings, the direction of the update: for one point with prior variance 1 and the rating 1 (stored as 0.999) there is a latent value, nothing clipped, at which the curvature of the log posterior density is positive and the Newton update of `find_mode` goes strictly downhill (first order), whatever routine inverts invertible matrices.
* `C74_ratings_unique_false`: C74 refuted for ratings: for two points under a linear kernel (positive definite covariance matrix), the best rating for the first and the worst for the second, default rating probit, the log posterior density has three different stationary points at which nothing is clipped; `find_mode` started at any of them stays there. So a vanishing gradient does not identify the mode, and what is stored depends on the start.
* `C75_constant_false`: C75 (`epic` and `spearman`), the missing case: as soon as a utility is constant on the representative points its whole row and column are `nan`, its alignment with itself included.
* `C75_loglik_self_false`: C75 (`loglikelihood`) refuted: a utility need not be at least as aligned with itself as with others; doubling a utility gives a strictly larger alignment (one pair query, noise level one).
* `C76_loglik_false`: C76 (`loglikelihood`) refuted: this alignment is not conditionally positive semidefinite, so C76_information and C57_information do not apply to it.
* `C76_one_counterexample`: C76 refuted (information) for `one`: every rating query, informative or not, is worth strictly less than the present mean alignment, which is one: its value is the probability that the rating falls into the interval integrated over.
* `C76_truncation_counterexample`: C76 refuted (expected alignment): the ratings outside `[0.0001, 0.9999]` are dropped, which counts as alignment 0, the best value of `rho` and `epic`. Of two candidates about which all samples agree (so that neither rating changes anything and both expected alignments equal the present mean alignment) the one whose rating is likelier to be extreme is selected over the one listed first, even with exact integration.
* `C77_std_counterexample`: **C77 (documented bound refuted).** The class inherits the documentation `UCB = mean + alpha*sqrt(variance)`. The first choice is not the candidate with the largest such bound.
* `C78_forever_false`: C78 refuted (for ever): after 16 selections there is one set of samples from which all later pair queries are computed, for every sequence of later models and candidates.
* `C78_out_of_range_counterexample`: C78 refuted (invalid queries): with samples kept from five candidates, a selection from three candidates returns the indices 3 and 4.
* `C78_set_model_false`: C78 refuted (new model): `set_model` keeps the old samples, although the counter is reset.
* `C78_stale_counterexample`: C78 refuted (concretely): in a run of seven calls the last one returns a pair query computed from the samples of the sixth call, not from its own.
* `C78_stale_false`: C78 refuted (stale samples): once samples were set, every pair query outside a decision is computed from them, whatever the present model and candidates are, and they stay set.
* `C80_pareto_counterexample`: C80 (indices), the usual case that fails: with the indices of the Pareto optimal rewards themselves the evaluation raises as soon as a dominated point comes before one of them.
* `C80_spearman_counterexample`: C80 (`spearman`), not the rank correlation: the permutations returned by `argsort` are correlated instead of the ranks. Three candidates scored in exactly the opposite order of their utilities (rank correlation -1) are reported with `spearman = 1/2`.
* `C81_built_counterexample`: C81 (which learners exist), refuted in general: an accepted selector for which no learner is built, whatever the other arguments.
* `C81_class_counterexample`: C81 (the class), refuted for `ABS_BAYES_PROBIT`: the learner for pairs is built instead of the one for ratings.
* `C81_options_counterexample`: C81 (options), refuted for the mixing learners: `default_to_pareto` makes no difference to any learner that selects candidates.
* `C81_rep_counterexample`: C81 (representative queries), refuted for these two: they use the defaults of the constructors, sampled representative queries, also when stable ones are asked for.
* `C82_one_counterexample`: C82, refuted for the limit 1: the method `medrand` asks for no cluster and raises.
* `C82_true_counterexample`: C82, refuted for the method `true` with the limit 50 of the configuration file: a hundred candidates are reduced to sixty, fifty-five raise an exception.
* `C83_tie_counterexample`: C83, refuted with ties: a user who chooses the second of two equally good candidates is recorded as wrong.
* `C84_shared_counterexample`: C84 refuted for a learner given to two models: `select` of the first one uses the second one only.
* `C85_direct_counterexample`: C85 refuted for direct calls of `select_greedy` (without `select`): after a `select` with one belief, such a call uses that belief, whatever the present one is.
* `C85_linear_counterexample`: C85 refuted for the other models: every `select` that needs a belief raises, `TypeError` for a `PreferenceLinear` and `UnboundLocalError` otherwise, whatever the learner did before.
* `C86_reversed_counterexample`: C86 (order) refuted: if the means have opposite signs, every sample is turned round: each expresses the opposite preferences. The mean of samples of an untrained model has either sign.
* `C86_zero_counterexample`: C86 refuted for a fake function of mean 0 over the candidates: all samples become 0, every gain is 0 and the first candidate is chosen, whatever the samples are.
* `C87_table_counterexample`: C87 (the table is the integral) refuted: for the constant function 1 it holds the area divided by the grid size, so that for the grid size of the code, 0.05, it is twenty times the integral.
* `C87_vector_counterexample`: C87 refuted for a single reward vector in dimension two or more: `calc` of a vector has one value for each coordinate, all the same, where the matrix with this row gives one value.
* `C88_counterexample`: C88 refuted: with the reduction `uni` to two of four candidates, of which the first two are the Pareto-optimal ones, all preferred candidates can be dominated ones.
* `C88_range_counterexample`: C88 refuted, indices: with more Pareto-optimal candidates than are kept, positions are preferred that no candidate has; a learner that draws a first pair from the preferred positions then asks about a candidate that does not exist, and the training loop raises `IndexError`.
* `C90_linear_false`: C90, refuted for the linear model: the learners sample the weights with `loss_func` as the logarithm of the density. Whatever pairs and ratings the model is trained on, `e ^ loss_func` is bounded below by a positive number, so no multiple of it is the density of a distribution: there is no distribution the samples could have or approach.
* `C91_assign_false`: C91 fails for the assignment in `examples/models/pref_gp.py`: assigning the attribute changes the scale the probit reports (and passes to the hyper-parameter code) but none of the numbers it computes, so with any other positive scale it no longer computes with the scale it reports.
* `C91_ordinal_zero_false`: C91 fails for the ordinal probit when `set_sigma(0)` raises: the reported scale is 0, but the probit goes on computing with the old one.
* `C92_additional_false`: C92 fails for the labels of an additional type: they are dropped. In every state, adding points with labels of a type other than the three (no automatic pairs) raises nothing, stores the points and leaves the log-likelihood as it was, whatever the labels.
* `C92_all_names_false`: With all three names given as extra probits the ratings have no position at all: every accepted rating raises `IndexError`.
* `C92_half_added_false`: With the name of the pairwise type third, automatic pairs have no position: an accepted rating of a point that dominates another raises `IndexError` when the rating and the points are already stored, and the mark that the model is fitted stays as it was.
* `C92_test_configuration_false`: C92 fails for `PreferenceModel(other_probits={'abs': AbsBoundProbit()})`, the configuration of the repository's own test: the ratings are scored by the ordinal probit, for every model of how the probits score.
* `C93_labels_false`: C93 is violated for labels passed by array: ordinals given as an (n,2) array are kept as views of that array, so writing into it rewrites the ratings, even into values `add` would have refused.
* `C93_points_false`: C93 is violated: from the first `add` (to an empty model) to the second the model's points *are* the caller's array. Whatever the caller does in between, the model's points are what the array holds now, and writing other values into it replaces the training points.
* `C93_stale_fit_false`: The consequence for predictions: after adding an array of points with some pairs, predicting, and changing the array, the model counts as fitted, but the fit belongs to points it no longer has.
* `C93_stale_history_false`: C93 refuted from scratch: whatever the program did before, if the model has no points, a caller who creates an array of points, adds it, predicts and overwrites the array leaves the model with a fit of points it no longer has.
* `C94_information_false`: C94 (information), refuted: the metric is not the information. If in every sample all candidates have the same value, no rating says anything about which is the best, and still the metric of every candidate is positive.
* `C94_not_selected_false`: C94 (`return_not_selected`), refuted: let the candidate `c` with the lowest value in every sample not be preferred. `select` with `return_not_selected` then skips it and next takes candidate `c + 1`, whatever the metrics of the preferred ones, if that is preferred; if `c` is the last candidate it raises `IndexError`, although there is a preferred candidate.
* `C94_repeated_false`: C94 (later calls), refuted: after a call over `I` chose `i` with a metric, a later call of the same `select` over other candidates `I'` does not compare their metrics: it takes the one at the position `i` had in `I`, with the metric of `i`, and raises `IndexError` if there is none.
* `C94_subset_false`: C94 (shapes): with a GP model, whose samples have one column for every candidate, a call for only some of the candidates (at least two) raises `ValueError`.
* `C94_zero_probability_false`: C94 (impossible best candidates): if some candidate has probability 0 of being the best, the first index is selected, with metric `nan`.
* `C95_selection_false`: C95 (selection), refuted: nothing is selected. `select` raises `KeyError` with a preference GP and `UnboundLocalError` with any other model whenever a point is to be selected and one is left; the hypothesis on `prefer` says that a preferred point is left.
* `C96_band_false`: C96 (band of the GP), refuted: accuracies of the GP that differ between participants, drawn with a band of width 0.
* `C97_normalized_false`: C97 is violated with `normalize_gp`: if all prior variances are below `1 / (2 m log 2)` for `m` pairs, the stored values are not the posterior mode, whatever the labels.
* `C97_one_point_false`: C97, a single training point with `normalize_positive`: its value is shifted to 0 and divided by 0, so the first update makes the fit undefined (for every label kind that gives an update).
* `C97_singular_false`: C97 is violated without a Cholesky factor (for example two equal training points and no kernel noise): the stored values are the random start, whatever the labels say.
* `C98_positive_false`: In binary64 an option that is worse by 1000 gets the probability 0 (with the exact exponential it is positive).
* `C99_pairs_symmetric_false`: In binary64 `W` need not be symmetric when two points are compared in both orders: the additions happen in different orders.

## 6. Axioms

`#print axioms` on the 937 theorems listed in MANIFEST.json:

* 864 theorems: `propext, Classical.choice, Quot.sound`
* 54 theorems: `propext, Quot.sound`
* 18 theorems: `propext` (C01_get_dk_sign, C01_get_dk_rejects_sequences, C01_get_dk_pair_winner, C03_fake_pairs_out_of_range, C04_ranking_pairs_never_returned, C25_set_get, C50_errors, C67_set_hyper_counterexample, C67_determine_returns, C84_never_attached, C84_errors, C84_unattached, C84_asked, C85_linear_counterexample, C85_direct_counterexample, C85_first, C108_rows, C113_refused)
* 1 theorem: no axioms (C67_no_data_raises)

