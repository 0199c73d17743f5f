{"id": "C01", "title": "Preference sign convention is consistent end to end", "statement": "get_dk(u,v) is -1 when u>=v and +1 when u<v, preference(u,v) always records u as the winner, and a pair built by get_dk from the true values is judged at least 1/2 likely by the pairwise likelihood evaluated at those same values.", "quantifier": "for all comparable scalar values u, v, all value vectors and all positive noise levels", "why_tests_cant": "the sign flips through three files (pair encoding, z-score, cdf); a test only sees the sign on sampled values and cannot settle ties or every noise level", "anchors": ["src/lop/utilities/preference_pairs.py:get_dk", "src/lop/utilities/preference_pairs.py:preference", "src/lop/probits/PreferenceProbit.py:z_k", "src/lop/probits/PreferenceProbit.py:likelihood"]}
{"id": "C02", "title": "Choosing one item from a set yields exactly the beats-everyone-else pairs", "statement": "gen_pairs_from_idx(best, idxs) returns one pair per listed index different from best, in list order, each naming best as winner, and never pairs best with itself.", "quantifier": "for all best indices and all index lists (any length, repeats, best present or absent)", "why_tests_cant": "index lists are unbounded and may contain repeats or omit the best index", "anchors": ["src/lop/utilities/preference_pairs.py:gen_pairs_from_idx", "src/lop/utilities/synthetic_user.py:SyntheticUser.choose_pairs"]}
{"id": "C03", "title": "Rankings generated from values are complete and cycle-free", "statement": "ranked_pairs_from_fake(X,f) contains every unordered pair of points exactly once, and generate_fake_pairs(X,f,i) contains every other point exactly once; in every produced pair the recorded winner has a value no smaller than the loser; a ranking contains no preference cycle (ties included) and pairs collected from any number of generate_fake_pairs calls contain no cycle of strict preferences.", "quantifier": "for every finite list of real values (every fake function, every number of points, ties included)", "why_tests_cant": "acyclicity and exact coverage are statements about all pair sets for every length", "anchors": ["src/lop/utilities/preference_pairs.py:ranked_pairs_from_fake", "src/lop/utilities/preference_pairs.py:generate_fake_pairs"]}
{"id": "C04", "title": "Ranking pairs are handed to the caller", "statement": "generate_ranking_pairs(X, f) gives the caller one pair for every two points of X, the point of higher value winning.", "quantifier": "for every value list", "why_tests_cant": "the pair list is built correctly internally; only reasoning about the returned value on every path shows what a caller receives", "anchors": ["src/lop/utilities/preference_pairs.py:generate_ranking_pairs"]}
{"id": "C05", "title": "get_pareto returns exactly the Pareto front", "statement": "get_pareto(values) returns, in increasing order, exactly the indices i such that no other point is at least as good in every objective and different, keeping one (the first) of several identical points; the mask form marks the same indices.", "quantifier": "for every finite list of reward vectors of any common dimension over a total order", "why_tests_cant": "the in-place pruning loop with a moving pivot has data-dependent iteration order; correctness needs a loop invariant over every order of removals", "anchors": ["src/lop/utilities/pareto.py:get_pareto"]}
{"id": "C06", "title": "Restricting to the Pareto set never loses the optimum", "statement": "For every utility that does not decrease when all objectives do not decrease, some index returned by get_pareto attains the maximum utility over all points; every discarded point is weakly dominated by a returned one.", "quantifier": "for every point list and every monotone utility function", "why_tests_cant": "quantifies over all monotone functions", "anchors": ["src/lop/utilities/pareto.py:get_pareto", "src/lop/active_learning/ActiveLearner.py:get_prefered_set_of_pts"]}
{"id": "C07", "title": "k-fold splits partition the data and are size bounded", "statement": "k_fold_x_y returns folds that are sorted, pairwise disjoint, cover 0..N-1 exactly once and have at most ceil(N/k') members, where k' is the (possibly reduced) number of folds; it returns nothing only when fewer than two folds of two points are possible.", "quantifier": "for every N, every k>=1, every collection of preference pairs over the points, and every sequence of random choices and shuffles", "why_tests_cant": "the assignment is random and driven by the pair graph; tests see one seed and one graph", "anchors": ["src/lop/utilities/training_utility.py:k_fold_x_y"]}
{"id": "C08", "title": "Every cross-validation fold is non-empty", "statement": "No fold returned by k_fold_x_y is empty, so each validation step measures something.", "quantifier": "for every N >= 2k, every pair graph and every random sequence", "why_tests_cant": "depends on an adversarial combination of pair graph and random choices", "anchors": ["src/lop/utilities/training_utility.py:k_fold_x_y", "src/lop/models/PreferenceGP.py:optimize"]}
{"id": "C09", "title": "Restricting labels to a subset of points keeps every label on its point", "statement": "get_y_with_idx(y, idxs) keeps precisely the preference pairs and ratings whose points all lie in idxs, in order and with unchanged labels, and renumbers them so that they refer to the same points in X[idxs]; a label type with nothing left becomes absent.", "quantifier": "for every label collection and every index list (in any order, with repeats)", "why_tests_cant": "renumbering must be right for every subset and every label mix", "anchors": ["src/lop/utilities/training_utility.py:get_y_with_idx"]}
{"id": "C10", "title": "normalize_0_1 maps into the open unit interval and preserves order", "statement": "For eps>0 every output lies strictly between 0 and 1 (inside [eps/(r+2eps), (r+eps)/(r+2eps)], r the value range, with both ends attained) and strict order and ties between entries are preserved; such outputs are therefore always acceptable as absolute ratings.", "quantifier": "for every non-empty vector and every eps>0 (real arithmetic)", "why_tests_cant": "range and order preservation over all vectors is not testable by sampling", "anchors": ["src/lop/utilities/training_utility.py:normalize_0_1"]}
{"id": "C11", "title": "Softmax choice model is a probability distribution faithful to rewards", "statement": "p_human_choice gives positive probabilities summing to one, equal to exp(p r_i)/sum exp(p r_j) despite the max-shift, unchanged by adding a constant to all rewards, ordered like the rewards for p>0 and reversed for p<0; each row of a 2-D input is treated independently of the others; the Boltzmann form is what sample_human_choice draws from.", "quantifier": "for all non-empty reward vectors, all rationality parameters", "why_tests_cant": "universally quantified real identities", "anchors": ["src/lop/utilities/human_choice_model.py:p_human_choice", "src/lop/utilities/human_choice_model.py:sample_human_choice"]}
{"id": "C12", "title": "sample_unique_sets returns distinct, in-range, duplicate-free sets", "statement": "Whenever sample_unique_sets(s, num_sets, size_set) returns, it returns exactly num_sets rows; rows are pairwise different as sets, each row is strictly increasing, has size_set entries and uses only members of s.", "quantifier": "for every source set, every requested count and size and every random draw sequence", "why_tests_cant": "random rejection loop; correctness over all draw sequences", "anchors": ["src/lop/utilities/sample_utility.py:sample_unique_sets", "src/lop/utilities/sample_utility.py:sample_unique_sets_fast"]}
{"id": "C13", "title": "Unique-set sampling can finish", "statement": "sample_unique_sets can always finish: from every intermediate state there are draws that complete it; and library callers never request more sets than exist; sample_Qs asks for every set up to thirty, for thirty up to sixty, and then for half of them but at most 60000.", "quantifier": "for every reachable loop state and every request", "why_tests_cant": "non-termination cannot be observed by a test that must end", "anchors": ["src/lop/utilities/sample_utility.py:sample_unique_sets_fast", "src/lop/active_learning/AcquisitionBase.py:get_representative_Q", "src/lop/utilities/synthetic_user.py:HumanChoiceUser.sample_Qs"]}
{"id": "C14", "title": "Metropolis-Hastings bookkeeping is exact", "statement": "metropolis_hastings returns exactly num_samples states; every returned state is the initial point or a proposed point; a proposal at least as likely as the current state is always accepted and one of zero likelihood never is, so from a start of positive likelihood no state of zero likelihood is returned; the burn-in steps are discarded.", "quantifier": "for every target, every proposal mechanism and every random stream", "why_tests_cant": "holds per random stream; a statistical test only samples streams", "anchors": ["src/lop/utilities/mcmc_sampling.py:metropolis_hastings"]}
{"id": "C15", "title": "Gamma prior: log-density and derivative agree", "statement": "log_pdf_gamma is the logarithm of pdf_gamma and d_log_pdf_gamma its derivative at every x above the clipping threshold, the density is non-negative and integrates to one, and negative x get log-density minus infinity.", "quantifier": "for every x > 1e-6 and all positive shape k and scale theta", "why_tests_cant": "a real-analysis identity over all parameters", "anchors": ["src/lop/utilities/gamma_dist.py:pdf_gamma", "src/lop/utilities/gamma_dist.py:log_pdf_gamma", "src/lop/utilities/gamma_dist.py:d_log_pdf_gamma"]}
{"id": "C16", "title": "Labels keep referring to the points they were given for, over any history of add calls", "statement": "After any sequence of successful add calls in the documented formats (preference pairs, ordinal vector, absolute-rating vector) and reset calls, decoding the stored training data yields exactly the sequence of (winner point, loser point), (point, ordinal), (point, rating clamped to [0.001,0.999]) facts the user supplied since the last reset, and every stored index is in range.", "quantifier": "for all interleavings and batch sizes of add and reset operations", "why_tests_cant": "indices are shifted by the amount of data already present; only induction over histories covers every interleaving", "anchors": ["src/lop/models/PreferenceModel.py:add", "src/lop/models/PreferenceModel.py:reset"]}
{"id": "C17", "title": "A rejected add leaves the model unchanged", "statement": "When add raises (non-positive ordinal, rating outside [0,1]) or refuses its input, training points and labels are exactly what they were before the call.", "quantifier": "for every model state and every rejected input", "why_tests_cant": "requires comparing complete states over every rejecting path", "anchors": ["src/lop/models/PreferenceModel.py:add"]}
{"id": "C18", "title": "Automatic Pareto pairs are sound, irreflexive and complete for new points", "statement": "With pareto_pairs enabled every automatically inserted pair states that a point strictly better in all objectives wins, never relates a point to itself, is inserted for every such relation whose better point is in the new batch, and the inserted pairs are jointly consistent with every strictly monotone utility.", "quantifier": "for every training set, every batch and all dimensions >= 1", "why_tests_cant": "quantifies over all geometries of old and new points", "anchors": ["src/lop/models/PreferenceModel.py:add"]}
{"id": "C19", "title": "Removing unreferenced points keeps the meaning of every label", "statement": "remove_without_reference deletes exactly the points no label refers to and leaves the decoded facts (winner point, loser point), (point, rating) unchanged and in range.", "quantifier": "for every training state", "why_tests_cant": "re-indexing correctness over all reference patterns and label mixes", "anchors": ["src/lop/models/PreferenceModel.py:remove_without_reference", "src/lop/models/PreferenceModel.py:add_prior"]}
{"id": "C20", "title": "get_prior_pts returns the prior points", "statement": "After add_prior, get_prior_pts returns exactly the generated prior points that are still referenced, in order, and later add calls do not change that.", "quantifier": "for every prior training state and every generated batch", "why_tests_cant": "the window bookkeeping interacts with deletions before and inside the window", "anchors": ["src/lop/models/PreferenceModel.py:add_prior", "src/lop/models/PreferenceModel.py:get_prior_pts", "src/lop/models/PreferenceModel.py:remove_without_reference"]}
{"id": "C21", "title": "reset is equivalent to a fresh model", "statement": "After reset, every later sequence of operations yields the same training points, labels and prior window as on a newly constructed model, and the same predictions once data is added.", "quantifier": "for all histories before and after the reset", "why_tests_cant": "quantifies over two unbounded histories", "anchors": ["src/lop/models/PreferenceModel.py:reset", "src/lop/models/GP.py:reset"]}
{"id": "C22", "title": "Predictions always reflect the current training data", "statement": "Whenever predict uses a fitted mode, that mode was computed from the training points and labels currently stored.", "quantifier": "for every interleaving of add, reset, predict, optimize and active query-type decisions", "why_tests_cant": "cache-coherence over every interleaving", "anchors": ["src/lop/models/PreferenceModel.py:add", "src/lop/models/PreferenceGP.py:predict", "src/lop/models/PreferenceGP.py:optimize", "src/lop/active_learning/MixedTypeDecision.py:AlignmentDecision.determine_query_type"]}
{"id": "C23", "title": "Hyper-parameter vector round trip", "statement": "set_hyper(get_hyper()) changes nothing and, after set_hyper(x) with a vector of the advertised length, get_hyper() returns x; parameters of probits without data are untouched; the vector is laid out probits-with-data first, then kernel.", "quantifier": "for every combination of active label types, every kernel and every vector", "why_tests_cant": "slicing offsets depend on which label types are present; all combinations and values", "anchors": ["src/lop/models/PreferenceModel.py:get_hyper", "src/lop/models/PreferenceModel.py:set_hyper", "src/lop/models/PreferenceGP.py:get_hyper", "src/lop/models/PreferenceGP.py:set_hyper", "src/lop/probits/PreferenceProbit.py:set_hyper", "src/lop/probits/AbsBoundProbit.py:set_hyper", "src/lop/probits/OrdinalProbit.py:set_hyper"]}
{"id": "C24", "title": "Random hyper-parameter restarts draw each parameter from its own prior", "statement": "randomize_hyper assigns to each active hyper-parameter a value drawn from that parameter's own prior.", "quantifier": "for every combination of active label types and every random draw", "why_tests_cant": "misalignment only shows for particular label combinations, and values look plausible", "anchors": ["src/lop/models/PreferenceGP.py:randomize_hyper", "src/lop/probits/AbsBoundProbit.py:randomize_hyper", "src/lop/probits/ProbitBase.py:randomize_hyper"]}
{"id": "C25", "title": "Composite kernel parameter round trip", "statement": "For any sum/product expression tree of kernels, set_param(x) followed by get_param() returns x, len(kernel) is the vector length, and set_param reaches every leaf exactly once in left-to-right order.", "quantifier": "for all kernel expression trees and all vectors of matching length", "why_tests_cant": "trees are unbounded", "anchors": ["src/lop/kernels/KernelFunc.py:DualKern.set_param", "src/lop/kernels/KernelFunc.py:DualKern.get_param", "src/lop/kernels/KernelFunc.py:DualKern.__len__"]}
{"id": "C26", "title": "Ordinal thresholds are ordered and round trip", "statement": "After set_b / set_hyper / set_num_ordinals the n+1 category boundaries run from -inf to +inf in non-decreasing order starting at 0, and get_hyper returns the requested (sigma, |b|).", "quantifier": "for every number of ordinals >= 2 and every real b", "why_tests_cant": "for every category count", "anchors": ["src/lop/probits/OrdinalProbit.py:set_b", "src/lop/probits/OrdinalProbit.py:get_hyper", "src/lop/models/PreferenceModel.py:set_num_ordinals"]}
{"id": "C27", "title": "predict_large agrees with predict", "statement": "predict_large returns, for every query point, the same mean and variance as predict on that point set, whatever the number of points; chunks cover all query points exactly once in order.", "quantifier": "for all numbers of query points and all training sets", "why_tests_cant": "chunk boundaries and batch-dependent kernel behaviour over all sizes", "anchors": ["src/lop/models/PreferenceGP.py:predict_large", "src/lop/models/PreferenceGP.py:predict", "src/lop/kernels/RBF_kern.py:cov"]}
{"id": "C28", "title": "Binary line search stays in range and brackets the maximiser", "statement": "The step returned lies in [min,max], is the midpoint of an interval of width (max-min)/2^itr, and lies within half that width of the maximiser of the one-dimensional objective when that objective is concave.", "quantifier": "for every objective, every range and iteration count", "why_tests_cant": "quantifies over all concave functions", "anchors": ["src/lop/models/PreferenceModel.py:binary_line_search"]}
{"id": "C29", "title": "Iterative line search returns the best grid step", "statement": "The step returned is one of the tested grid steps in [min,max), has the largest objective among them (first on ties), and an exception is raised exactly when no tested step has objective above minus infinity.", "quantifier": "for every objective and grid", "why_tests_cant": "all objectives", "anchors": ["src/lop/models/PreferenceModel.py:iterative_line_search"]}
{"id": "C30", "title": "Newton step moves uphill", "statement": "The step taken by newton_update is an ascent direction of the log posterior: gradient times step is non-negative (positive when the gradient is non-zero), also when the Hessian cannot be inverted.", "quantifier": "for every gradient and every negative definite Hessian, every step length > 0, both branches", "why_tests_cant": "the failure branch is hard to reach in tests", "anchors": ["src/lop/models/PreferenceModel.py:newton_update"]}
{"id": "C31", "title": "Kernel matrices are symmetric positive semi-definite", "statement": "cov(X,X) is symmetric positive semi-definite for RBF and linear kernels, for the 1-D periodic kernel, and for any sums and products of them; with positive RBF noise it is positive definite, hence the Cholesky factorisation exists.", "quantifier": "for every finite point list, every dimension, all parameter values", "why_tests_cant": "positive definiteness over all point sets is not testable", "anchors": ["src/lop/kernels/RBF_kern.py:cov", "src/lop/kernels/LinearKern.py:cov", "src/lop/kernels/PeriodicKern.py:cov", "src/lop/kernels/KernelFunc.py:DualKern.cov"]}
{"id": "C32", "title": "Kernel matrix entries agree with the pointwise kernel", "statement": "cov(X,Y)[i][j] equals the kernel evaluated at the two points, plus observation noise only where the two points are the same training sample.", "quantifier": "for all point lists X, Y and parameters", "why_tests_cant": "noise insertion is triggered by shape and first row; only some input shapes expose it", "anchors": ["src/lop/kernels/RBF_kern.py:cov", "src/lop/kernels/RBF_kern.py:__call__", "src/lop/kernels/LinearKern.py:cov", "src/lop/kernels/PeriodicKern.py:cov", "src/lop/kernels/KernelFunc.py:DualKern.cov"]}
{"id": "C33", "title": "Zeroed kernel pins the function at the zero point", "statement": "For the zeroed RBF kernel the covariance of the zero point with every point is 0, through cov and through pointwise evaluation.", "quantifier": "for every zero point, every other point and all parameters", "why_tests_cant": "holds or fails by parameter value", "anchors": ["src/lop/kernels/RBF_kern_zeroed.py:cov", "src/lop/kernels/RBF_kern_zeroed.py:__call__"]}
{"id": "C34", "title": "Kernel gradients are the derivatives of the kernel", "statement": "gradient(u,v) lists the partial derivatives of the pointwise kernel with respect to its parameters, for RBF, linear, periodic kernels and sums and products of them.", "quantifier": "for all points and all positive parameter values", "why_tests_cant": "a wrong constant factor passes shape tests; derivative identity over all reals", "anchors": ["src/lop/kernels/RBF_kern.py:gradient", "src/lop/kernels/LinearKern.py:gradient", "src/lop/kernels/PeriodicKern.py:gradient", "src/lop/kernels/KernelFunc.py:DualKern.gradient"]}
{"id": "C35", "title": "Matrix kernel gradients list one matrix per parameter in parameter order", "statement": "cov_gradient of a composite kernel returns one derivative matrix per entry of get_param, in the same order, each the entrywise derivative of cov.", "quantifier": "for all kernel expression trees and parameter values", "why_tests_cant": "composition over unbounded trees", "anchors": ["src/lop/kernels/KernelFunc.py:DualKern.cov_gradient", "src/lop/kernels/RBF_kern.py:cov_gradient", "src/lop/kernels/LinearKern.py:cov_gradient"]}
{"id": "C36", "title": "Pairwise likelihood is a coherent probability", "statement": "The probability that u beats v and that v beats u sum to 1, lie strictly between 0 and 1, equal 1/2 for equal values, are at least 1/2 exactly when the first value is at least the second, increase with the value difference, and the all-pairs table agrees with the per-pair likelihood.", "quantifier": "for all value vectors and all positive noise levels", "why_tests_cant": "real identities over all values, including the cdf clipping limits", "anchors": ["src/lop/probits/PreferenceProbit.py:likelihood_all_pairs", "src/lop/probits/PreferenceProbit.py:likelihood", "src/lop/probits/ProbitBase.py:std_norm_cdf"]}
{"id": "C37", "title": "Pairwise gradient and Hessian are the derivatives of the log-likelihood, and the Hessian is negative semi-definite", "statement": "derivatives(y,F) returns W, g, ll with ll the log-likelihood of the pairs, g its gradient and W minus its Hessian; W is symmetric with zero row sums and positive semi-definite, so the log-likelihood is concave in F; repeated pairs accumulate.", "quantifier": "for every pair list (repeats allowed) and every value vector within the clipping range", "why_tests_cant": "calculus identities and definiteness over all inputs", "anchors": ["src/lop/probits/PreferenceProbit.py:derv_log_likelyhood", "src/lop/probits/PreferenceProbit.py:calc_W", "src/lop/probits/PreferenceProbit.py:log_likelihood"]}
{"id": "C38", "title": "Third-order pairwise terms match the derivatives of W", "statement": "calc_W_dF is the derivative of W with respect to F and calc_W_dHyper the derivative with respect to the noise level; grad_hyper is the derivative of the log-likelihood with respect to the noise level.", "quantifier": "for every pair list, value vector and noise level within the clipping range", "why_tests_cant": "a slip in one term passes shape tests", "anchors": ["src/lop/probits/PreferenceProbit.py:calc_W_dF", "src/lop/probits/PreferenceProbit.py:calc_W_dHyper", "src/lop/probits/PreferenceProbit.py:grad_hyper"]}
{"id": "C39", "title": "Ordinal likelihood is a probability distribution over the ratings", "statement": "For every latent value the probabilities of the ratings 1..n are non-negative and sum to 1, and larger latent values make high ratings (rating > r) more likely.", "quantifier": "for all latent values, all numbers of ratings, all b and sigma > 0", "why_tests_cant": "telescoping over n and all reals", "anchors": ["src/lop/probits/OrdinalProbit.py:likelihood_each", "src/lop/probits/OrdinalProbit.py:norm_cdf"]}
{"id": "C40", "title": "Ordinal derivatives are the derivatives of the ordinal log-likelihood", "statement": "OrdinalProbit.derivatives returns the gradient and minus the Hessian of the ordinal log-likelihood.", "quantifier": "for all latent values, ratings and parameters", "why_tests_cant": "calculus identity", "anchors": ["src/lop/probits/OrdinalProbit.py:derivatives"]}
{"id": "C41", "title": "Absolute-rating (beta) model is well defined and monotone", "statement": "The beta shape parameters are positive, sum to the precision v, the mean link lies in [eps,1-eps] and is non-decreasing in the latent value, and the returned gradient and W are the derivatives of the beta log-likelihood.", "quantifier": "for all latent values, all v > 0, sigma > 0 and ratings in (0,1)", "why_tests_cant": "real identities over all inputs", "anchors": ["src/lop/probits/AbsBoundProbit.py:mean_link", "src/lop/probits/AbsBoundProbit.py:get_alpha_beta", "src/lop/probits/AbsBoundProbit.py:derivatives", "src/lop/probits/AbsBoundProbit.py:log_likelihood"]}
{"id": "C42", "title": "Several ratings of the same point all count", "statement": "Per-point gradient and log-likelihood contributions of ratings are accumulated, so two ratings of one training index both influence the result; for data entered through documented add calls indices never repeat.", "quantifier": "for all rating lists and all histories of add calls", "why_tests_cant": "index repetition depends on the history; assignment versus accumulation only differs on repeats", "anchors": ["src/lop/probits/AbsBoundProbit.py:log_likelihood", "src/lop/probits/AbsBoundProbit.py:derivatives", "src/lop/probits/OrdinalProbit.py:derivatives", "src/lop/models/PreferenceModel.py:add"]}
{"id": "C43", "title": "GP regression posterior is sane", "statement": "The posterior covariance of GP.predict is positive semi-definite and bounded above by the prior covariance; with zero noise the posterior mean reproduces training targets and the variance vanishes there; with no data the mean function is returned.", "quantifier": "for every training set, every query set and every PSD kernel", "why_tests_cant": "linear-algebra statement over all matrices", "anchors": ["src/lop/models/GP.py:predict", "src/lop/models/GP.py:add"]}
{"id": "C44", "title": "Greedy active learners return a valid selection", "statement": "ActiveLearner.select for greedy learners returns exactly num_alts pairwise different candidate indices, none of them previously selected, all preferred unselected candidates are used before any non-preferred one, the best point comes first if requested (and nothing was previously selected), and an exception is raised exactly when fewer than num_alts candidates are unselected.", "quantifier": "for every candidate set, preference set, previous selection, learner choice function and num_alts", "why_tests_cant": "holds for every greedy criterion, including random ones", "anchors": ["src/lop/active_learning/ActiveLearner.py:select"]}
{"id": "C45", "title": "Selection with reported skipped points", "statement": "With return_not_selected, the selection satisfies the same contract as without it (same exception condition) and the second list contains the skipped non-preferred candidates, disjoint from the selection.", "quantifier": "for every candidate set, preference set, previous selection and greedy choice function", "why_tests_cant": "a data-dependent loop with three lists", "anchors": ["src/lop/active_learning/ActiveLearner.py:select"]}
{"id": "C46", "title": "Selection size is honoured by pair-based learners", "statement": "select(num_alts) with a learner that starts from a pair returns exactly num_alts different, not previously selected candidates.", "quantifier": "for every num_alts, learner and previous selection", "why_tests_cant": "the failing sizes and states are corner cases", "anchors": ["src/lop/active_learning/ActiveLearner.py:select", "src/lop/active_learning/AcquisitionSelection.py:select_pair", "src/lop/active_learning/BayesInfoGain.py:select_pair", "src/lop/active_learning/ActiveLearner.py:pick_pair_from_metric"]}
{"id": "C47", "title": "Best/worst/UCB learners return the extreme points in order", "statement": "BestLearner returns the num_alts candidates of highest predicted value in non-increasing order (WorstLearner: lowest, non-decreasing; UCB: highest upper confidence bound), within preferred candidates first.", "quantifier": "for every prediction vector, preference set and previous selection", "why_tests_cant": "all vectors, including ties", "anchors": ["src/lop/active_learning/BestLearner.py:select_greedy", "src/lop/active_learning/BestLearner.py:WorstLearner", "src/lop/active_learning/UCBLearner.py:select_greedy"]}
{"id": "C48", "title": "Preferred-set interpretation", "statement": "get_prefered_set_of_pts turns None into all candidates (or the Pareto set by default flag), a positive count n into the first n, 0 into all, a negative count or unknown string into a ValueError, and an explicit collection into that set; the resulting indices are valid candidates; select_best returns the best unselected preferred candidate.", "quantifier": "for every argument and candidate list", "why_tests_cant": "total case analysis with all values", "anchors": ["src/lop/active_learning/ActiveLearner.py:get_prefered_set_of_pts", "src/lop/active_learning/ActiveLearner.py:select_best"]}
{"id": "C49", "title": "Pair picking maximises the metric over distinct pairs", "statement": "pick_pair_from_metric returns two different indices attaining the largest off-diagonal metric (random among ties); if both are previously selected it returns the best pair not entirely previously selected.", "quantifier": "for every metric matrix, previous selection and random draw", "why_tests_cant": "all matrices, tie patterns and draws", "anchors": ["src/lop/active_learning/ActiveLearner.py:pick_pair_from_metric"]}
{"id": "C50", "title": "Scheduled mixed learners follow their schedule", "statement": "After set_model, MixedComparisionSetFixed asks rating queries for the first 8 selections and pair queries forever after; MixedAlternating alternates starting with a pair; set_model restarts the schedule; the MixedDecision state is re-decided only at selections 5, 10 and 15 and is frozen afterwards.", "quantifier": "for every sequence of select and set_model calls and every metric values", "why_tests_cant": "unbounded call histories", "anchors": ["src/lop/active_learning/RateChooseLearner.py:MixedComparisionSetFixed.select", "src/lop/active_learning/RateChooseLearner.py:MixedAlternating.select", "src/lop/active_learning/MixedStrategy.py:MixedDecision.select"]}
{"id": "C51", "title": "Mixed comparison picks the query type with the larger scaled metric", "statement": "MixedComparision.select returns the pair when its scaled metric exceeds the scaled rating metric, the rating when smaller, and a random one only on a tie of the scaled metrics.", "quantifier": "for all metric values, scale factors and random draws", "why_tests_cant": "all reals; the tie test compares different scales", "anchors": ["src/lop/active_learning/RateChooseLearner.py:MixedComparision.select", "src/lop/active_learning/RateChooseLearner.py:RateChooseLearner.select"]}
{"id": "C52", "title": "AlignmentDecision.select returns a selection", "statement": "Every call of AlignmentDecision.select returns the chosen query indices.", "quantifier": "for every call history and candidate set", "why_tests_cant": "definedness on all paths over call histories", "anchors": ["src/lop/active_learning/MixedTypeDecision.py:AlignmentDecision.select"]}
{"id": "C53", "title": "Mixing probabilities are probabilities and have the documented shape", "statement": "Every MixedStrategy probability function returns a value in [0,1] for each call number, decreases (Peak) or increases (RevPeak) monotonically with the number of calls towards its floor or ceiling, and select asks a rating query exactly when the uniform draw does not exceed it.", "quantifier": "for every call count, parameter value and draw", "why_tests_cant": "exponential bounds over unbounded call counts", "anchors": ["src/lop/active_learning/MixedStrategy.py:MixedStrategyPeak", "src/lop/active_learning/MixedStrategy.py:MixedStrategyPeak2", "src/lop/active_learning/MixedStrategy.py:MixedStrategyPeak3", "src/lop/active_learning/MixedStrategy.py:RevPeak"]}
{"id": "C54", "title": "Representative queries are valid queries", "statement": "get_representative_Q produces queries of the requested size with pairwise different in-range candidate indices, no two queries equal, and never more than there are.", "quantifier": "for every candidate count, query size and random stream", "why_tests_cant": "all sizes and draws", "anchors": ["src/lop/active_learning/AcquisitionBase.py:get_representative_Q"]}
{"id": "C55", "title": "Information gain is non-negative and bounded", "statement": "The mutual-information gain of a query lies between 0 and log2 of the query size, and is 0 when every utility sample gives the same choice probabilities.", "quantifier": "for every number of samples, query size and choice probability table", "why_tests_cant": "an inequality over all probability tables (Jensen)", "anchors": ["src/lop/active_learning/MutualInfoLearner.py:calc_info_gain"]}
{"id": "C56", "title": "Bayesian information gain distinguishes candidates", "statement": "The expected reduction of entropy about the best point computed by BayesInfoGain depends on the candidate query: with the default method it is not identically zero.", "quantifier": "for all probability tables", "why_tests_cant": "the degenerate result is numerically plausible", "anchors": ["src/lop/active_learning/BayesInfoGain.py:calc_H_B_Q"]}
{"id": "C57", "title": "Expected alignment is computed identically on both code paths", "statement": "The loop implementation used for large problems and the vectorised implementation give the same expected alignment for every query, and the value is a convex combination of alignment values.", "quantifier": "for all alignment matrices, choice probabilities and sizes", "why_tests_cant": "two code paths selected by size; equality over all inputs", "anchors": ["src/lop/active_learning/AcquisitionSelection.py:quick_calculation_sum_align_q", "src/lop/active_learning/AcquisitionSelection.py:select_pair", "src/lop/active_learning/AcquisitionSelection.py:select_greedy"]}
{"id": "C58", "title": "Best-point probabilities are a distribution", "statement": "The probability that each candidate is the best one computed by p_B_pref_linear is non-negative and sums to 1; the difference covariance used for GP models is symmetric positive semi-definite.", "quantifier": "for all candidate sets and sample sets", "why_tests_cant": "all inputs", "anchors": ["src/lop/active_learning/ActiveLearner.py:p_B_pref_gp", "src/lop/active_learning/ActiveLearner.py:p_B_pref_linear"]}
{"id": "C59", "title": "Independent-Gaussian orthant probability standardises by the standard deviation", "statement": "calc_cdf with the independent method returns the product of the probabilities that independent normal variables with the given means and variances are below zero.", "quantifier": "for all mean vectors and positive variances", "why_tests_cant": "coincides on unit variances", "anchors": ["src/lop/utilities/probability_utility.py:calc_cdf"]}
{"id": "C60", "title": "Synthetic users choose and rate consistently", "statement": "PerfectUser.choose returns the index of a maximal-value item and choose_pairs then yields pairs that its own values agree with; ratings of all synthetic users lie in [0,1] and respect the order of values, hence add(type='abs') never rejects them.", "quantifier": "for all value vectors, parameters and draws", "why_tests_cant": "composition over all values and draws", "anchors": ["src/lop/utilities/synthetic_user.py:PerfectUser", "src/lop/utilities/synthetic_user.py:HumanChoiceUser", "src/lop/utilities/synthetic_user.py:SyntheticUser.choose_pairs", "src/lop/utilities/synthetic_user.py:sigmoid"]}
{"id": "C61", "title": "Fake utility functions are bounded and monotone as documented", "statement": "FakeLinear is a convex combination of the objectives; FakeLinear, FakeWeightedMax, FakeWeightedMin, FakeLogistic are non-decreasing in every objective (FakeSquared, FakeSquaredMinMax for non-negative objectives), FakeLogistic takes values strictly between 0 and 1; hence they attain their maximum on the Pareto set.", "quantifier": "for every weight vector that can be drawn, every dimension and every reward vectors", "why_tests_cant": "all weights and inputs", "anchors": ["src/lop/utilities/FakeFunction.py:FakeLinear", "src/lop/utilities/FakeFunction.py:FakeWeightedMax", "src/lop/utilities/FakeFunction.py:FakeWeightedMin", "src/lop/utilities/FakeFunction.py:FakeLogistic", "src/lop/utilities/FakeFunction.py:FakeSquared", "src/lop/utilities/FakeFunction.py:FakeSquaredMinMax"]}
{"id": "C62", "title": "Rating calibration maps the utility range onto the requested rating range", "statement": "After HumanChoiceUser2 calibration the lowest observed utility is rated at the bottom and the highest at the top of the requested rating range, and everything between stays inside; a user-learned beta for HumanChoiceUser affects its ratings.", "quantifier": "for all utility ranges with fmin<fmax and rating ranges inside (0,1)", "why_tests_cant": "real identity", "anchors": ["src/lop/utilities/HumanChoiceUser2.py:get_k_b", "src/lop/utilities/synthetic_user.py:HumanChoiceUser.learn_beta"]}
{"id": "C63", "title": "Mode finding always stops", "statement": "Both fitting loops stop after at most their fixed maximum number of Newton updates, whatever the updates do.", "quantifier": "for every update and distance behaviour (including NaN)", "why_tests_cant": "termination over all numerical behaviours", "anchors": ["src/lop/models/PreferenceGP.py:find_mode", "src/lop/models/PreferenceLinear.py:optimize"]}
{"id": "C64", "title": "Parameter and third-order terms of the beta model are the derivatives they claim to be", "statement": "grad_hyper is the gradient of the beta log-likelihood in the noise level and the precision; calc_W_dF and calc_W_dHyper are the derivatives of the returned W in the latent values and in the parameters.", "quantifier": "for all rating lists in (0,1), latent values without active clipping, sigma > 0 and v > 0", "why_tests_cant": "identities between polygamma expressions over all real inputs; a sign error only shows in the hyper-parameter search", "anchors": ["src/lop/probits/AbsBoundProbit.py:grad_hyper", "src/lop/probits/AbsBoundProbit.py:calc_W_dF", "src/lop/probits/AbsBoundProbit.py:calc_W_dHyper"]}
{"id": "C67", "title": "Predictions come from a fit of the present data", "statement": "Every prediction of a preference GP uses a fit of exactly the present training data, labels and hyper-parameters; in particular determine_query_type, which temporarily removes labels, leaves the model as it found it.", "quantifier": "for every history of add, reset, optimize, predict, set_hyper and determine_query_type calls", "why_tests_cant": "stale-state defects show only after particular call sequences and give plausible numbers", "anchors": ["src/lop/models/PreferenceGP.py:predict", "src/lop/models/PreferenceModel.py:add", "src/lop/active_learning/MixedTypeDecision.py:AlignmentDecision.determine_query_type"]}
{"id": "C69", "title": "A perfect user chooses what it rates highest", "statement": "The synthetic utility functions give the same value to a reward vector whether it is evaluated alone (rating) or as a row of a matrix (choosing), so the item a PerfectUser chooses from a query is one it rates highest.", "quantifier": "for all utility functions of the module, all weights and all queries", "why_tests_cant": "needs the same vector on two shape-dependent code paths; each path alone is plausible", "anchors": ["src/lop/utilities/FakeFunction.py:FakeSquaredMinMax.calc", "src/lop/utilities/FakeFunction.py:FakeWeightedMax.calc", "src/lop/utilities/synthetic_user.py:PerfectUser"]}
{"id": "C70", "title": "Calibration objectives measure success probabilities", "statement": "The two objectives minimised by HumanChoiceUser2 are the squared distance between the requested probability and the average, over pairs of paths of different utility, of the probability that the user picks (respectively rates higher) the better one.", "quantifier": "for all utilities, precisions and noise levels", "why_tests_cant": "identity between a closed form and a probability over all real inputs", "anchors": ["src/lop/utilities/HumanChoiceUser2.py:obj", "src/lop/utilities/HumanChoiceUser2.py:rate_obj"]}
{"id": "C71", "title": "Calibration uses every planning problem exactly once", "statement": "The matrix of sampled utilities used by HumanChoiceUser2.learn_beta has exactly one row for every planning problem of every environment, holding sampled utilities of that problem, and no uninitialised row.", "quantifier": "for all numbers of environments, problems and paths", "why_tests_cant": "uninitialised memory shows only for unequal environment sizes and gives plausible numbers", "anchors": ["src/lop/utilities/HumanChoiceUser2.py:learn_beta"]}
{"id": "C72", "title": "Tuning accepts only small errors and is atomic", "statement": "learn_sigma and learn_beta_pairwise accept a value only if its objective is at most 0.02 after at most ten attempts and raise otherwise; a failed learn_beta leaves the user unchanged.", "quantifier": "for every behaviour of the optimiser, including nan objectives", "why_tests_cant": "the optimiser's randomness and nan results cannot be enumerated", "anchors": ["src/lop/utilities/synthetic_user.py:learn_sigma", "src/lop/utilities/synthetic_user.py:learn_beta_pairwise", "src/lop/utilities/synthetic_user.py:HumanChoiceUser.learn_beta"]}
{"id": "C68", "title": "PreferenceLinear fits the posterior mode", "statement": "The update of PreferenceLinear uses the exact gradient and Hessian of the log likelihood in the weights, moves uphill, and the fitted weights rank the preferred item of every comparison first.", "quantifier": "for all numbers of features and comparisons, including fewer comparisons than features", "why_tests_cant": "the singular Hessian case falls into a fallback branch; with rounding the sign depends on noise", "anchors": ["src/lop/models/PreferenceLinear.py:optimize", "src/lop/models/PreferenceLinear.py:derivatives"]}
{"id": "C73", "title": "PreferenceGP.predict returns the Laplace posterior", "statement": "Whenever PreferenceGP.predict returns, the covariance is the Schur complement posterior of a Gaussian approximation with precision K^-1 + W at the training points: symmetric, positive semidefinite and at most the prior; the mean is the prior conditional mean given the mode; and it returns for every fitted model.", "quantifier": "for all kernels, training and test points, comparisons and ratings", "why_tests_cant": "matrix inequalities over all inputs; singular kernels and negative curvature occur only for special labels", "anchors": ["src/lop/models/PreferenceGP.py:predict"]}
{"id": "C74", "title": "The Newton iteration of PreferenceGP climbs to a unique posterior mode", "statement": "The gradient and Hessian used by PreferenceGP.find_mode are those of log likelihood plus log Gaussian prior; with a positive definite kernel matrix this log posterior has exactly one maximiser, which is exactly the fixed point of the update, and every update direction is uphill.", "quantifier": "for all positive definite kernel matrices and all comparison and rating data", "why_tests_cant": "existence and uniqueness of a maximiser is a statement about all points of R^n", "anchors": ["src/lop/models/PreferenceGP.py:find_mode", "src/lop/models/PreferenceGP.py:derivatives"]}
{"id": "C66", "title": "Hyper-parameter likelihood is the Laplace evidence and its gradient is the gradient", "statement": "At the posterior mode likli_f_hyper is the logarithm of the marginal likelihood of the quadratic approximation; grad_likli_f_hyper has one entry per hyper-parameter, in the order of the hyper-parameter vector, and each entry is the derivative of likli_f_hyper in that parameter (latent values fixed, or following the mode).", "quantifier": "for all kernels, kernel derivatives, latent values, comparisons and ratings", "why_tests_cant": "an integral over all latent vectors and a derivative; the spurious terms vanish in many symmetric test cases", "anchors": ["src/lop/models/PreferenceGP.py:likli_f_hyper", "src/lop/models/PreferenceGP.py:grad_likli_f_hyper"]}
{"id": "C65", "title": "Hyper-parameter priors and the hyper-parameter search", "statement": "hyper_liklihood is the log density of the hyper-parameters under the gamma priors randomize_hyper samples and grad_hyper_liklihood is its gradient, entry by entry in the order of the hyper-parameter vector. A search step moves 0.01 along the gradient of likelihood plus prior, discards invalid parameters, keeps a window of the latest gradients and reports convergence exactly if their average is short; the whole search makes at most 600 steps and ends with valid parameters.", "quantifier": "for all kernels, parameter values, gradients, random draws and training set sizes", "why_tests_cant": "derivatives and loops over arbitrary gradients and draws; the wrong branches need particular flag combinations or boundary values", "anchors": ["src/lop/models/PreferenceGP.py:hyperparameter_search", "src/lop/models/PreferenceGP.py:optimize", "src/lop/models/PreferenceGP.py:hyper_liklihood", "src/lop/models/PreferenceGP.py:grad_hyper_liklihood", "src/lop/probits/AbsBoundProbit.py:param_likli", "src/lop/probits/PreferenceProbit.py:param_likli", "src/lop/kernels/KernelFunc.py:param_likli"]}
{"id": "C75", "title": "Alignment functions are similarity measures", "statement": "The alignment matrix is symmetric and largest on its diagonal: rho is minus the Euclidean distance of softmax distributions (a pseudometric that ignores constants), epic is minus the Pearson distance (a pseudometric that ignores positive affine maps), spearman is the correlation of average ranks (one exactly for the same weak order), loglikelihood is the log probability of answering as the other would. alignment_between is the corresponding block of the joint matrix.", "quantifier": "for all numbers of samples, representative points and queries", "why_tests_cant": "triangle inequality and the equality cases quantify over all real utilities", "anchors": ["src/lop/active_learning/AcquisitionBase.py:alignment", "src/lop/active_learning/AcquisitionBase.py:alignment_between"]}
{"id": "C76", "title": "Expected alignment of a rating query", "statement": "AbsAcquisition scores a candidate with the expected alignment of two posterior draws after its rating: the integrand is the predicted density times the posterior alignment, the value is a weighted mean of alignment values, no query is worth less than the present mean alignment, and the best candidate is selected.", "quantifier": "for all sample numbers, alignment matrices, candidate values, noise levels and precisions", "why_tests_cant": "integrals over all ratings, all alignment matrices and posterior weights", "anchors": ["src/lop/active_learning/AbsAcquisition.py:pq_integrand", "src/lop/active_learning/AbsAcquisition.py:fast_sum_Q", "src/lop/active_learning/AbsAcquisition.py:select_greedy"]}
{"id": "C77", "title": "The generalised-variance learner explores the unexplained variance", "statement": "GV_UCBLearner.select_greedy returns the offered candidate with the largest mean plus alpha times standardised generalised variance of the candidate joined to the previous selection; the value does not depend on the order of the previous selection, a repeated candidate has no bonus, among equal means the candidate with the largest unexplained variance wins, and the bonus is at most the mean variance.", "quantifier": "for all candidate numbers, means, weights, covariance functions, previous selections and orders of iteration", "why_tests_cant": "all covariance matrices and previous selections of any size; the choice between candidates is a determinant inequality", "anchors": ["src/lop/active_learning/GV_UCBLearner.py:select_greedy"]}
{"id": "C78", "title": "A pair query is computed from samples of the present model", "statement": "MixedDecision computes every pair query from utility samples of the present model for the present candidates, so that the query names present candidates.", "quantifier": "for all histories of set_model and select calls, all samples, draws and metrics", "why_tests_cant": "histories of any length with model replacements; the defect needs at least six selections and then a change of the model or candidates", "anchors": ["src/lop/active_learning/MixedStrategy.py:MixedDecision.select", "src/lop/active_learning/AcquisitionBase.py:get_samples_from_model", "src/lop/active_learning/AcquisitionBase.py:set_samples"]}
{"id": "C79", "title": "The choice-noise calibration of a simulated user is well posed", "statement": "In HumanChoiceUser the success probability p_max of every sampled query is the choice probability of its best alternative and grows with beta (strictly unless the alternatives are equally good), so every target between the mean success probabilities at the ends of the search range is met by exactly one beta; the sampled objective has the squared distance from the target plus the sampling variance as expectation; the KL objective is non-negative and 0 exactly at the target; the rating objective counts the queries whose best alternative the noise leaves in place.", "quantifier": "for all numbers of queries and alternatives, utilities, search ranges, targets and draws (independent uniform draws for the expectation)", "why_tests_cant": "a monotonicity and intermediate-value statement over all utilities, and an expectation over the random draws", "anchors": ["src/lop/utilities/synthetic_user.py:sampled_objective", "src/lop/utilities/synthetic_user.py:kl_objective", "src/lop/utilities/synthetic_user.py:rate_sampled_objective", "src/lop/utilities/synthetic_user.py:learn_beta_pairwise"]}
{"id": "C80", "title": "The evaluation of a trained model measures what it records", "statement": "For every environment `evaluation` records the candidate with the largest model score among the Pareto candidates, its estimated and true utility, the regret (best true utility minus that of the choice, never negative), a rank between the number of strictly better candidates and that of the other candidates at least as good, the Pearson correlation of utilities and scores, and their rank correlation; the averages are over all environments.", "quantifier": "for all numbers of environments and candidates, utilities, model scores, sort orders of tied entries and Pareto index lists", "why_tests_cant": "the rank bounds quantify over every order a sort may give tied values, the index claim over every Pareto set, and the correlation claim over every pair of orders", "anchors": ["experiments/experiment_helper.py:evaluation"]}
{"id": "C81", "title": "An experiment runs with the learner, options and user its command line names", "statement": "For every accepted selector get_active_learner builds a learner of the class, and with the mixing strategy and parts, the selector names; get_fake_func builds the named function; every alignment learner in it uses the alignment function named by the selector and the representative queries asked for; it mixes query types exactly if the name starts with SW_; default_to_pareto, always_select_best and the exploration constant reach the learners that select candidates; and a run whose arguments are accepted has a result as soon as nothing outside raises.", "quantifier": "for all selectors, options, configuration values and outcomes of the calls outside the model", "why_tests_cant": "the claim ranges over every combination of about sixty selectors with selection types, models, users and option values, and over all configuration values; running one combination takes hours", "anchors": ["experiments/experiment_helper.py:get_active_learner", "experiments/experiment_helper.py:get_model", "experiments/experiment_helper.py:get_synth_user", "experiments/experiment_helper.py:get_fake_func", "experiments/single_experiment.py:main"]}
{"id": "C82", "title": "Reducing the candidates keeps as many of them as configured", "statement": "If there are more candidates than downselect_num, the query selection gets exactly downselect_num of them, rows of the input at different positions; otherwise it gets all of them. The hull method keeps all vertices of the hull if they fit and only vertices otherwise.", "quantifier": "for all candidate sets, limits, percentages, hulls, medoids and random choices", "why_tests_cant": "the counts hold for every size of the input and every outcome of the clustering and of the random choice, including the boundary sizes", "anchors": ["experiments/experiment_helper.py:downsample_hull", "experiments/experiment_helper.py:downsample_kmed_rand", "experiments/experiment_helper.py:train_and_eval"]}
{"id": "C83", "title": "A training run records what was asked and whether the user was right", "statement": "A completed run has one record and one evaluation per training step after those of the untrained model; in switch runs a step is recorded as a rating exactly if the learner selected one candidate, otherwise as a choice, and the flag says whether the user chose a best candidate; choose1 runs record choices, rating runs ratings, without flags.", "quantifier": "for all numbers of steps, candidates, selected queries, users and utilities", "why_tests_cant": "a statement about every entry of the record for runs of any length with any sequence of queries and answers", "anchors": ["experiments/experiment_helper.py:train_and_eval"]}
{"id": "C84", "title": "A model selects queries with its own predictions", "statement": "After a model was constructed with an active learner, every select of the model uses predictions and samples of that model only, at least one of them, for every learner, simple or mixing, as long as no other model is constructed with a learner sharing an object with it and set_model is not called on one; a mixing learner whose sub-learners can serve its sampling always completes.", "quantifier": "for all histories of constructing models and calling set_model, all nested learners and all decisions of the mixing learners", "why_tests_cant": "the claim is about every history of constructions and every nesting of learners; a test attaches one learner to one model", "anchors": ["src/lop/models/Model.py:Model.__init__", "src/lop/models/Model.py:Model.select", "src/lop/active_learning/ActiveLearner.py:ActiveLearner.set_model", "src/lop/active_learning/RateChooseLearner.py", "src/lop/active_learning/MixedStrategy.py"]}
{"id": "C85", "title": "Queries of BayesInfoGain use the belief of the present model and candidates", "statement": "Within one select every gain is computed from the belief computed for the model and candidates of this select, computed at most once, whatever happened in earlier selects, including ones that raised; with a PreferenceGP a select always gets its belief.", "quantifier": "for all histories of selects and direct calls, all numbers of calls within one select", "why_tests_cant": "a stale belief shows only in histories of several selects, and the error branches depend on the model type", "anchors": ["src/lop/active_learning/BayesInfoGain.py:BayesInfoGain.get_p_B_probit", "src/lop/active_learning/BayesInfoGain.py:BayesInfoGain.select_greedy", "src/lop/active_learning/BayesInfoGain.py:BayesInfoGain.select_pair", "src/lop/active_learning/ActiveLearner.py:ActiveLearner.select"]}
{"id": "C86", "title": "Scaling the samples by a fake function keeps what they say about the candidates", "statement": "With a fake function the samples of MutualInfoLearner are all multiplied by one number such that their mean becomes the mean of the fake function over the candidates, and the order of the candidates in every sample is kept; without one they are not changed.", "quantifier": "for all samples, fake functions and candidate sets", "why_tests_cant": "the claim is for real-valued samples of any number and sign; tests use one positive fake function", "anchors": ["src/lop/active_learning/MutualInfoLearner.py:MutualInfoLearner.select_greedy"]}
{"id": "C87", "title": "The other fake functions are bounded where claimed and integrate what they are given", "statement": "FakeSinExp stays within its bounds, FakeMixtureGaussian is positive and bounded by the sum of its peaks and evaluates a matrix row by row, FakeStaticSin has its range, and the table of FakeIntegrate is the running double sum of the integrated function.", "quantifier": "for all parameters, dimensions, points and integrated functions", "why_tests_cant": "the functions are real-valued and randomly parametrised; the bounds and the table hold for every parameter and every size", "anchors": ["src/lop/utilities/FakeFunction.py:FakeSinExp", "src/lop/utilities/FakeFunction.py:FakeMixtureGaussian", "src/lop/utilities/FakeFunction.py:FakeStaticSin", "src/lop/utilities/FakeFunction.py:FakeIntegrate"]}
{"id": "C88", "title": "The preferred candidates of a training query are Pareto-optimal", "statement": "With pareto_pairs, the candidates preferred in the first pair of a training step are the Pareto-optimal ones of the candidates of that step.", "quantifier": "for all candidate sets, reduction methods, limits and random choices", "why_tests_cant": "the claim ranges over every candidate set and every outcome of the reduction; the wrong preference shows only when the candidates are reduced", "anchors": ["experiments/experiment_helper.py:train_and_eval", "src/lop/active_learning/ActiveLearner.py:ActiveLearner.get_prefered_set_of_pts"]}
{"id": "C89", "title": "Sampling distinct subsets ends with probability one", "statement": "If each pass of sample_unique_sets_fast draws every subset of the requested size with probability at least p > 0 whatever was drawn before, the loop returns almost surely when the request is at most the number of subsets, with geometrically decreasing probability of running longer, and never returns when it is more.", "quantifier": "for all numbers of elements, subset sizes, requested numbers, p > 0 and probability spaces of draws", "why_tests_cant": "almost sure termination is a statement about the whole probability space and about unboundedly long runs", "anchors": ["src/lop/utilities/sample_utility.py:sample_unique_sets_fast", "src/lop/utilities/sample_utility.py:sample_unique_sets"]}
{"id": "C90", "title": "The Metropolis sampler keeps its target distribution", "statement": "metropolis_hastings with its normal proposals leaves the distribution with density exp(log_liklihood) invariant: if the starting point has it, every returned sample has it; and for the log-likelihood the learners pass (loss_func of a trained PreferenceLinear) this density can be normalised, so that there is a distribution to sample.", "quantifier": "for all measurable log-likelihoods (also minus infinity), all reversible proposals, numbers of samples and burn-in, all training data with pairs and ratings", "why_tests_cant": "invariance of a distribution and integrability over all weights cannot be observed in finitely many samples", "anchors": ["src/lop/utilities/mcmc_sampling.py:metropolis_hastings", "src/lop/utilities/mcmc_sampling.py:normal_prop_dist", "src/lop/models/PreferenceLinear.py:PreferenceLinear.loss_func", "src/lop/active_learning/UCBLearner.py", "src/lop/active_learning/MutualInfoLearner.py"]}
{"id": "C91", "title": "A probit computes with the scale it reports", "statement": "After any calls the likelihoods and derivatives of a probit are those of the scale that sigma and get_hyper report, which is the one set last.", "quantifier": "for all initial scales, all sequences of set_sigma, set_v and set_hyper calls, all labels and utilities, and attribute assignments as in the examples", "why_tests_cant": "a stale constant gives plausible numbers, and only after particular sequences of calls", "anchors": ["src/lop/probits/PreferenceProbit.py:set_sigma", "src/lop/probits/PreferenceProbit.py:set_hyper", "src/lop/probits/AbsBoundProbit.py:set_sigma", "src/lop/probits/AbsBoundProbit.py:set_hyper", "src/lop/probits/OrdinalProbit.py:set_sigma", "examples/models/pref_gp.py:main"]}
{"id": "C92", "title": "Every kind of label is scored by its own probit", "statement": "In a model built with any other_probits the labels of every type are stored apart from those of other types and scored by the probit meant for that type; additional probits score the labels given under their names.", "quantifier": "for all lists of additional names, all histories of add and reset calls, all scoring functions of the probits", "why_tests_cant": "labels scored by a wrong probit raise nothing at add time; the existing test of this option only checks that the model exists", "anchors": ["src/lop/models/PreferenceModel.py:PreferenceModel.__init__", "src/lop/models/PreferenceModel.py:PreferenceModel.add", "src/lop/models/PreferenceModel.py:PreferenceModel.log_likelyhood_training"]}
{"id": "C93", "title": "The training data of a model changes only through the model", "statement": "Nothing the caller writes into arrays it has passed to add changes the model's points or labels, so that a fitted model stays fitted to its data.", "quantifier": "for all histories of array creation, writes, add, reset and predict", "why_tests_cant": "sharing shows only if an array is reused after the call, between the right calls", "anchors": ["src/lop/models/PreferenceModel.py:PreferenceModel.add", "src/lop/models/PreferenceModel.py:PreferenceModel.reset", "src/lop/models/PreferenceGP.py:PreferenceGP.predict"]}
{"id": "C94", "title": "AbsBayesInfo selects the rating that tells most about the best candidate", "statement": "The metric of a candidate is the mutual information between its rating and the identity of the best candidate, and the candidate with the largest metric among the indices is selected.", "quantifier": "for all numbers of samples and candidates, all sampled values, all positive probabilities of being the best, all scales, precisions and clippings, exact integrals", "why_tests_cant": "the metric is an integral computed numerically; any positive number looks like an information", "anchors": ["src/lop/active_learning/AbsBayesInfo.py:AbsBayesInfo.select_greedy", "src/lop/active_learning/AbsBayesInfo.py:integrand", "src/lop/active_learning/AbsBayesInfo.py:p_q_f_B_unorm", "src/lop/active_learning/AbsBayesInfo.py:AbsBayesInfo.calc_one_time"]}
{"id": "C95", "title": "ProbabilityLearner's probabilities of being the best", "statement": "The number computed for a candidate is the probability that its value is the largest under the model's joint normal distribution, and the learner selects by these probabilities.", "quantifier": "for all numbers of candidates, all means, all positive definite covariances, exact normal distribution functions, all preferred and previous selections", "why_tests_cant": "probabilities of orthants have no closed form to compare with; no test calls this learner", "anchors": ["src/lop/active_learning/ProbabilityLearner.py:ProbabilityLearner.select_greedy", "src/lop/active_learning/ActiveLearner.py:ActiveLearner.select"]}
{"id": "C96", "title": "The study's accuracies are those of models trained on the participant's choices alone", "statement": "Row i, column k of the accuracies is the fraction of participant i's evaluation choices predicted by a fresh model given that participant's first k training choices; the figure shows their means and standard errors.", "quantifier": "for all numbers of files, choices and paths, all models whose prediction is a function of the data fitted, all orders of the files", "why_tests_cant": "one model object is reused for all participants with reset in between; leftovers of earlier participants would show as plausible accuracies", "anchors": ["other/study_analysis_2022/read_study.py:train_eval", "other/study_analysis_2022/read_study.py:eval_model", "other/study_analysis_2022/read_study.py:process_all_data", "other/study_analysis_2022/read_study.py:main", "src/lop/models/Model.py:SimplelestModel.predict"]}
{"id": "C97", "title": "What find_mode stores is the posterior mode", "statement": "After find_mode on pairwise labels the stored values are the maximiser of prior times likelihood, up to a multiple of the tolerance delta_f that is known beforehand, and the stored W, gradient and log-likelihood are those at the stored values.", "quantifier": "for all numbers of points and pairs, all positive definite prior covariances, all noise levels, all random starts, all routines that invert invertible matrices, all tolerances and loop limits", "why_tests_cant": "tests compare predictions loosely on a few data sets; the loop stops on small steps, which says nothing about the distance to the mode, and the normalisation is applied inside the iteration", "anchors": ["src/lop/models/PreferenceGP.py:PreferenceGP.find_mode", "src/lop/models/PreferenceModel.py:newton_update", "src/lop/models/PreferenceModel.py:binary_line_search"]}
{"id": "C98", "title": "Choice probabilities survive rounding", "statement": "In floating-point arithmetic p_human_choice returns numbers between 0 and 1 in the order of the rewards whose sum is so close to 1 that np.random.choice in sample_human_choice accepts them, and a best option never gets a probability of 0; each differs from the softmax of the rewards by a rounding error linear in the number of options.", "quantifier": "for all arithmetics that round monotonically with the relative error of binary64, all orders of summation, all monotone exponentials, all finite rewards without overflow, all nonnegative peakiness, up to 2^24 options", "why_tests_cant": "the order of summation is chosen by numpy and the platform, and the acceptance test of np.random.choice fails only for rare rounding patterns; tests sample a handful of vectors", "anchors": ["src/lop/utilities/human_choice_model.py:p_human_choice", "src/lop/utilities/human_choice_model.py:sample_human_choice"]}
{"id": "C99", "title": "Kernel matrices and the pair matrix survive rounding", "statement": "In floating-point arithmetic the covariance matrices are exactly symmetric, the RBF and periodic covariances lie between 0 and sigma^2 and attain it for equal points, the noise keeps the diagonal largest, and W of the pairs is exactly symmetric with the signs of a graph Laplacian; RBF covariances and W differ from the exact ones by rounding errors of relative size 2^-51 times the number of operations, and the RBF matrix is positive definite with the default noise.", "quantifier": "for all arithmetics with monotone, odd rounding, all orders of summation over coordinates (the same for the same numbers), all points, all lengths from 2^-500", "why_tests_cant": "np.linalg.cholesky and eigenvalue routines need exact symmetry or read one triangle; tests compare with tolerances and cannot see differences in the last place", "anchors": ["src/lop/kernels/RBF_kern.py:RBF_kern.cov", "src/lop/kernels/LinearKern.py:LinearKern.cov", "src/lop/kernels/PeriodicKern.py:PeriodicKern.cov", "src/lop/probits/PreferenceProbit.py:PreferenceProbit.calc_W", "src/lop/probits/PreferenceProbit.py:add_up_mat"]}
{"id": "C100", "title": "Ratings survive rounding", "statement": "In floating-point arithmetic the sigmoid and normalize_0_1 return ratings in the order of the values, between 0 and 1 and never the limits themselves, which the beta likelihood cannot take.", "quantifier": "for all arithmetics as in C98, all arrays, all eps from 2^-500 to 1, all values", "why_tests_cant": "tests use values of moderate size; whether the limits are hit depends on the last bit", "anchors": ["src/lop/utilities/synthetic_user.py:sigmoid", "src/lop/utilities/training_utility.py:normalize_0_1"]}
{"id": "C101", "title": "Likelihoods survive rounding", "statement": "In floating-point arithmetic the likelihoods of pairs and ordinal ratings lie between 0 and 1, are never 0 so that their logarithm is finite, respect order and exchange, and the parameters of the beta distribution of absolute ratings stay positive.", "quantifier": "for all arithmetics as in C98, all monotone routines for the normal distribution function with values in [0,1], all latent values, noise levels and boundaries in order", "why_tests_cant": "cancellation in v - aa and in differences of distribution functions shows up only for extreme latent values, which Newton iterations produce and tests do not", "anchors": ["src/lop/probits/PreferenceProbit.py:PreferenceProbit.likelihood", "src/lop/probits/OrdinalProbit.py:OrdinalProbit.likelihood_each", "src/lop/probits/AbsBoundProbit.py:AbsBoundProbit.mean_link", "src/lop/probits/AbsBoundProbit.py:AbsBoundProbit.get_alpha_beta"]}
{"id": "C102", "title": "A training run stores nothing but what was said", "statement": "The training loop of train_and_eval, from the data added before the loop to the last model.add, stores in the model only statements that were made: whoever the user is, every stored (winner, loser) pair was chosen by the user in a query shown in the run or is a Pareto dominance between points (with pareto_pairs), every stored rating is one the user gave of a candidate shown in the run (or the absolute point given before it) kept within [0.001, 0.999], and all stored indices are in range; this holds at every point of the run, also when it is left by an exception. For a perfect user with utility f that respects dominance the stored preferences are true (f(winner) >= f(loser)), never contradict each other, even through chains, and are at least as likely as not at the true utilities; the ratings are sigmoid(4 f(x)). What each pass stores is given exactly for choose1, rating and switch; a completed choose1 run without Pareto pairs has stored exactly the shown candidates and, per query, the chosen one over the others. When every planning problem offers two or more candidates, the selection gives positions, the user answers, and a prior has a dominated point, no addition is refused and the run completes. Refuted: `ranking` runs never complete a pass; one-candidate problems raise IndexError; a prior without a dominated point raises TypeError; with a utility that does not respect dominance a false preference is stored.", "quantifier": "for all users, utilities, candidate sets, selections, reductions, evaluation outcomes, numbers of passes, selection types, prior points and absolute points", "why_tests_cant": "The loop runs over arbitrarily many randomly drawn problems with an arbitrary utility; a single false pair in a rare combination (tie, hidden candidates, index shift after a prior) silently corrupts all later fits, and no run of the experiment script compares stored pairs with true utilities.", "anchors": ["experiments/experiment_helper.py:train_and_eval", "src/lop/models/PreferenceModel.py:PreferenceModel.add", "src/lop/models/PreferenceModel.py:PreferenceModel.add_prior", "src/lop/utilities/synthetic_user.py:SyntheticUser.choose_pairs", "src/lop/utilities/synthetic_user.py:PerfectUser.choose", "src/lop/utilities/synthetic_user.py:PerfectUser.rate"]}
{"id": "C103", "title": "Long runs of the Metropolis sampler approach the target distribution", "statement": "Each sample returned by metropolis_hastings with normal proposals has, if enough steps are burnt, the distribution with density proportional to exp(log_liklihood) up to any given error in total variation, wherever the chain starts (the code: uniformly in [-1,1) per coordinate); in particular the samples of the weights the learners draw with loss_func approach a distribution.", "quantifier": "for all dimensions, all measurable log-likelihoods (also minus infinity) with finite positive integral, all starting distributions, standard deviations other than zero, error bounds, numbers of samples and all events; for the learners: all training data with pairs and ratings", "why_tests_cant": "it is a limit statement about distributions; a finite run cannot show that the samples approach, or drift away from, every distribution", "anchors": ["src/lop/utilities/mcmc_sampling.py:metropolis_hastings", "src/lop/utilities/mcmc_sampling.py:normal_prop_dist", "src/lop/models/PreferenceLinear.py:PreferenceLinear.loss_func", "src/lop/active_learning/UCBLearner.py", "src/lop/active_learning/ActiveLearner.py", "src/lop/active_learning/AbsBayesInfo.py:AbsBayesInfo.calc_one_time"]}
{"id": "C104", "title": "select_greedy_k extends a selection to the requested size or leaves it alone", "statement": "select_greedy_k(cur_selection, num_alts, data) returns a selection already of size num_alts unchanged with -inf for each element, and otherwise extends it one greedy choice at a time to exactly num_alts elements, with the greedy values of the new elements.", "quantifier": "for all element types, selections, requested sizes (also negative), method signatures of select_greedy and behaviours of the greedy choice (also exceptions)", "why_tests_cant": "no test of the repository calls the function; that it fails for every learner, selection and size, and what it would do for a learner with a fitting method, are statements about all inputs", "anchors": ["src/lop/active_learning/ActiveLearner.py:ActiveLearner.select_greedy_k", "src/lop/active_learning/ActiveLearner.py:ActiveLearner.select_greedy", "src/lop/active_learning/BayesInfoGain.py:BayesInfoGain.select_greedy"]}
{"id": "C105", "title": "A rating and a pair query are compared on the same fresh samples", "statement": "Every call of select of RateChooseLearner, MixedComparision and MixedComparisionEqualChecking draws utility samples of the present model for the present candidates, computes the metrics of the pair query and of the rating query from these same samples and returns the query its comparison prefers; what was selected before, for which model, and which exceptions occurred has no influence on the result.", "quantifier": "for all histories of select and set_model calls, all samples, sub-learners (also raising ones), metrics, scale factors and draws", "why_tests_cant": "the tests select once or a few times with one model; that no earlier call, model or exception can influence a selection is a statement about all histories", "anchors": ["src/lop/active_learning/RateChooseLearner.py:RateChooseLearner.select", "src/lop/active_learning/RateChooseLearner.py:MixedComparision.select", "src/lop/active_learning/RateChooseLearner.py:MixedComparisionEqualChecking.select", "src/lop/active_learning/AcquisitionBase.py:AcquisitionBase.set_samples", "src/lop/active_learning/AcquisitionBase.py:AcquisitionBase.unset_samples"]}
{"id": "C106", "title": "Representative queries name representative points of the samples", "statement": "When an acquisition learner computes its alignment, every index in the representative queries is a column of the sampled representative utilities, so that computing the alignment does not raise.", "quantifier": "for all training data, candidates, alignment functions, query sizes, numbers of points and queries, draws and samples set before", "why_tests_cant": "whether an index is out of range depends on the draws and on how the training data has grown since samples were set; the theorems cover all of them", "anchors": ["src/lop/active_learning/AcquisitionBase.py:AcquisitionBase.alignment", "src/lop/active_learning/AcquisitionBase.py:AcquisitionBase.get_representative_Q", "src/lop/active_learning/AcquisitionBase.py:AcquisitionBase.get_samples_from_model", "src/lop/active_learning/AcquisitionSelection.py:AcquisitionSelection.select_pair", "src/lop/active_learning/AbsAcquisition.py:AbsAcquisition.select_greedy"]}
{"id": "C107", "title": "The results file holds the results of the completed runs", "statement": "After every completed run of single_experiment.py the file train_data.npz holds, in each of its eleven arrays, the results of the completed runs in order, one row each, also when a later run raises. When the experiment is interrupted from the keyboard the same holds. Refuted: after an interrupt the file has one row more than completed runs, and the arrays of the interrupted run that were not written yet contain whatever np.empty left in memory.", "quantifier": "for all numbers of runs, results, points of interruption, exceptions and contents of uninitialised memory", "why_tests_cant": "what is saved after an interrupt depends on the moment of the interrupt and on the contents of fresh memory, which are usually zeros or stale plausible numbers; the theorem covers every moment, every content and any number of runs", "anchors": ["experiments/single_experiment.py:main"]}
{"id": "C108", "title": "A training run trains on every problem once and records every evaluation", "statement": "A completed run of train_and_eval has trained exactly once on each of the first num_train planning problems of its environment, in the drawn order, and has recorded num_train+1 rows: the figures of the evaluation of the untrained model and of the model after each pass, written into as many columns as the first environment has evaluation problems. With fewer training problems than num_train the run ends with ValueError before the first pass. Figures of a different number of evaluation problems than columns are refused with ValueError, except those of a single problem, which fill the row. With enough problems, equal numbers of evaluation problems and passes and evaluations that do not raise, every run completes.", "quantifier": "for all planning data, environments, numbers of problems, drawn orders, training steps and evaluations", "why_tests_cant": "the order of the problems is random and the shapes depend on the data files; a test with one file sees one order and one shape", "anchors": ["experiments/experiment_helper.py:train_and_eval"]}
{"id": "C109", "title": "The recorded pictures show the data and the predictions where they are", "statement": "In the picture recorded after every training step of a two-reward experiment the colour at (x_j, y_i) is the prediction for the point (x_j, y_i); the true utility is drawn on a scale with largest absolute value one; every stored preference is an arrow on the line from the worse to the preferred point, pointing to the preferred one; and the points drawn are exactly the training points that are not prior points. Refuted for the last part: points added before the prior are not drawn (in train_and_eval the prior comes first, and the claim holds).", "quantifier": "for all grids, predictions, utilities, training data, priors and later additions", "why_tests_cant": "a picture with swapped axes, reversed arrows or missing points is a valid picture; the theorems cover every grid and every training set", "anchors": ["experiments/GP_visualization.py:record_gp_state", "experiments/GP_visualization.py:visualize_data"]}
{"id": "C110", "title": "A fitted PreferenceGP has learned what the comparisons say", "statement": "The values find_mode stores (up to its tolerance) at the training points, and the means predict returns, are sums over the comparisons of a positive weight times the prior covariance with the winner minus that with the loser. One comparison puts its winner above its loser; a further comparison always increases its winner's lead; the majority decides between two points compared only with each other; the order of the comparisons and training points never compared do not matter; reversing all answers changes the sign; nothing is learned exactly when every point wins as often as it loses, and otherwise at least one comparison is agreed with (not necessarily all).", "quantifier": "for all numbers of points and comparisons, all answers including contradictory and repeated ones, all positive definite prior covariances, all positive noise levels", "why_tests_cant": "Ranges over all data sets and all covariance matrices and compares the results of different fits; a test fixes one data set and one kernel and can only compare numbers up to a guessed tolerance.", "anchors": ["src/lop/models/PreferenceGP.py:PreferenceGP.find_mode", "src/lop/models/PreferenceGP.py:PreferenceGP.predict", "src/lop/probits/PreferenceProbit.py:PreferenceProbit.derivatives"]}
{"id": "C111", "title": "Fits with comparisons and ordinal ratings: one mode, higher ratings raise it, what a finished fit has found", "statement": "For increasing thresholds and positive noise the log-likelihood of ordinal ratings is concave, so the posterior of comparisons and ordinal ratings has exactly one mode, which is the fixed point 'prior covariance times gradient'. Raising one rating, with all other labels as they are, strictly raises the value the mode gives to the rated point. When the loop of PreferenceGP.find_mode ends on its tolerance delta_f (any labels, no normalisation), the gradient it used is at most 32/3 delta_f times a column sum of the matrix it inverted; hence for comparisons and ordinal ratings (each point rated once, nothing clipped, no probability below eps, matrix invertible) the stored values are within an explicit multiple of delta_f of the mode, although the matrix W of OrdinalProbit is not minus the Hessian. Every step goes uphill when the prior is narrow (all eigenvalues of K below 4 sigma^2); under a wide prior a step can go away from the mode, and for prior variance 100 the first update lowers the value from every start in [0,1] although the mode is above.", "quantifier": "all numbers of points, lists of comparisons and ratings, thresholds, noise levels, positive definite covariance matrices, start vectors, tolerances and loop limits", "why_tests_cant": "A test fits one data set; existence, uniqueness, the direction of change and the distance to the mode are statements about all data sets and all start values, and the failure under a wide prior shows only as a fit that does not settle.", "anchors": ["src/lop/models/PreferenceGP.py:218-288", "src/lop/models/PreferenceModel.py:247-282", "src/lop/models/PreferenceModel.py:386-413", "src/lop/probits/OrdinalProbit.py:94-219"]}
{"id": "C112", "title": "A recorded training step can be loaded and continued", "statement": "Loading the file that record_gp_state wrote for a model (model_load) gives a model with the recorded training points, comparisons and absolute ratings (values, indices) and, if there was one, the recorded prior window, whose next prediction fits the mode anew. If the recorded model had training points and no ordinal ratings, and its stored fit was current, then the prediction made next, and everything seen afterwards in any sequence of add and predict calls, is the same as on the recorded model. This holds in no other case: a file recorded without training points gives a model on which add and predict raise; ordinal ratings are written but not read back, so that a model recorded with some predicts without them. A file recorded without prior points gives a model whose get_prior_pts raises IndexError instead of returning None.", "quantifier": "for all model states (points, labels, prior window, fit), for all models loaded into, for all later sequences of add and predict", "why_tests_cant": "A test loads one file; the claim covers every recorded state and every later sequence of calls, and says exactly which states survive. No test records a state without data, with ordinal ratings or without prior points and loads it again.", "anchors": ["experiments/GP_visualization.py:12-65", "examples/active_learners/query_decision/intermediate_loading.py:65-84", "src/lop/models/PreferenceModel.py:157-161,187-279", "src/lop/models/PreferenceGP.py:97-117"]}
{"id": "C113", "title": "Finding the recorded steps of the runs of a period", "statement": "For files recorded by the experiments, filter_by_time with both limits returns, in order, exactly those of runs begun strictly between them, and get_filepath returns all of these for idx=-1 and otherwise the first of them, raising IndexError if there is none; idx does not choose among several matching runs. With only one of the limits filter_by_time reads the date at a wrong place of the name and raises ValueError for every recorded file.", "quantifier": "for all lists of recorded files (any run name, date, run and step numbers of up to six digits), all limits, all readings of dates, all idx", "why_tests_cant": "There are no tests of these scripts; a test would use a handful of names, while the claim covers every name the experiments can write, including the position of the date for step numbers of different length.", "anchors": ["examples/active_learners/query_decision/intermediate_loading.py:16-62", "experiments/experiment_helper.py:676-682,789-795"]}
{"id": "C114", "title": "Asking the same question again lowers the uncertainty, whatever the answer; another question may raise it", "statement": "A PreferenceGP that knows only comparisons of two points with each other (any number, any answers, asked either way round) and is fitted again with one more such comparison predicts covariances that differ by a positive multiple of the product of the differences of the prior covariances with the two points: no predicted variance of a value or of a difference of two values becomes larger, and exactly those of values which the prior relates unequally to the two points become smaller, even when the new answer contradicts all earlier ones. With enough such answers the variance of the difference of the two values is below any bound. This is special to the same question: with the default RBF kernel, after 1 has been preferred to 0, the answer that D is preferred to D+1 raises the predicted variance of the difference of the values at 0 and 1, for every D from some distance on.", "quantifier": "All numbers and orders of comparisons, all kernels and stored matrices, all probit scales, all test points; modes exact, W as find_mode stores it with no standardised difference clipped; the last sentence for every D from some D0 on.", "why_tests_cant": "Needs the curvature of the log of the normal distribution function to be strictly decreasing (Sampford's inequality) along all fits; a test sees a few fits, and the increase by another question is smaller than most tolerances.", "anchors": ["src/lop/models/PreferenceGP.py:PreferenceGP.predict", "src/lop/models/PreferenceGP.py:PreferenceGP.find_mode", "src/lop/probits/PreferenceProbit.py:PreferenceProbit.derivatives"]}
{"id": "C115", "title": "GP regression depends on the data, not on how it arrived, as long as the kernel has no noise of its own", "statement": "For every kernel built by sums and products from leaves whose own noise is 0: GP.predict returns the same means, variances and covariances (or raises alike) for every order of the training rows; adding further rows with GP.add gives exactly the old prediction, taken jointly at the test points and the new points, conditioned on the new targets; and two measurements at one point act exactly like one measurement with the inverse-noise-weighted average and the summed inverse noises. For every kernel whatsoever the targets enter linearly, and the returned variances and covariances do not depend on them. With kernel noise the order does matter: there are two training rows and two test points where the default RBF kernel with its noise gives mean 1.01 at the first test point in one order of the rows and mean 1 in the other.", "quantifier": "every kernel expression with noise-free leaves, every mean function, every list of rows and permutation of it, every list of new rows, every list of test points; for linearity every covariance function", "why_tests_cant": "it relates pairs of runs over unbounded data sets in exact arithmetic; the repository's tests run single fits, and a violation for noisy kernels needs test points which coincide with the first training row", "anchors": ["src/lop/models/GP.py:GP.predict", "src/lop/models/GP.py:GP.add"]}
{"id": "C116", "title": "A fit depends on what was said, not on how it is written down", "statement": "If the training points are numbered differently (labels, start values and covariance matrix going along), PreferenceGP.find_mode raises the same exception or ends after the same number of updates with the same value, gradient and curvature for every point, for comparisons, ordinal ratings and (0,1) ratings together, with and without normalisation; and predict then returns the same means, variances and covariances for kernels without noise of their own, and for kernels with noise whenever the number of test points differs from the number of training points. Listing the comparisons in another order, or writing 'b worse than a' for 'a better than b', changes nothing at all; neither does the order of (0,1) ratings when no point is rated twice. PreferenceLinear's fit has the same invariances, and with comparisons only it is also unchanged when every point is moved by one and the same vector. With as many test points as training points and a kernel with noise the prediction does depend on the numbering: for the training points 0 and 1 and the test points 0 and 1 the mean at 0 differs whenever the weight of the training point 0 is not 0.", "quantifier": "every permutation of the points, every list of labels, every covariance matrix, every start value, every inverse routine compatible with renumbering (np.linalg.inv exactly is one), every number of updates; for predict every kernel expression", "why_tests_cant": "it relates pairs of runs of an iteration of unbounded length over all data sets and all permutations; the tests fit a few fixed data sets once each", "anchors": ["src/lop/models/PreferenceGP.py:PreferenceGP.find_mode", "src/lop/models/PreferenceGP.py:PreferenceGP.predict", "src/lop/models/PreferenceLinear.py:PreferenceLinear.optimize", "src/lop/probits/PreferenceProbit.py:PreferenceProbit.derivatives", "src/lop/probits/AbsBoundProbit.py:AbsBoundProbit.derivatives"]}
{"id": "C117", "title": "Training points nobody was asked about do not influence the model", "statement": "Let only some of the training points occur in comparisons. The posterior mode over all points is the mode computed from the mentioned points alone, continued to the other points by the prior's guess; with the modes stored, PreferenceGP.predict returns the same means, variances and covariances with and without the other points, for kernels without noise of their own, and for kernels with noise whenever the number of test points is neither the number of all nor of the mentioned training points. One update of find_mode (line search included, all label types) commutes with leaving the other points out when the values there are the guess and the Hessian is not singular, which is always so for comparisons in range. PreferenceLinear's fit is exactly the same, whatever the other points are. What remove_without_reference does to points and comparisons is exactly such leaving out. With a noisy kernel and as many test points as training points it is false: after one comparison of 0 and 1 the mean predicted for 0, asked for together with 1 and 2, depends on whether 2 is stored.", "quantifier": "every number of training points, every choice of mentioned ones, every list of labels of them, every positive definite covariance matrix, every kernel expression, every test set; every state of a model for remove_without_reference", "why_tests_cant": "it compares fits of two different data sets for all data sets and all kernels in exact arithmetic; the repository's tests never compare a fit with and without unreferenced points", "anchors": ["src/lop/models/PreferenceGP.py:PreferenceGP.find_mode", "src/lop/models/PreferenceGP.py:PreferenceGP.predict", "src/lop/models/PreferenceLinear.py:PreferenceLinear.optimize", "src/lop/models/PreferenceModel.py:PreferenceModel.remove_without_reference"]}
{"id": "C118", "title": "Units do not matter", "statement": "Utilities: if everything that is a utility is multiplied by c > 0 (the sigmas of the probits, the ordinal boundaries, the kernel so that covariances are c^2 times as large, the start vector and the tolerance delta_f), PreferenceGP.find_mode stores c times the utilities after the same number of loops, raises the same exceptions, and predict returns c times the means and c^2 times the variances and covariances; for labels of all types, with an inversion routine that returns multiples for multiples. GP regression does the same with values times c and training_sigma times c^2. The kernel for other units exists for every kernel expression: output scale and noise of the leaves are changed, in a product those of the first factor. Coordinates: replacing every coordinate x of all points by c x + s and adjusting the length scales, periods, offsets and zero points of the kernel accordingly changes neither covariances nor predictions. Linear model: with X A in place of X for an invertible matrix A an update of PreferenceLinear gives the weights which give every point the same utility as before, if the Hessian is not singular; for a rotation or reflection A this holds for the whole fit without assumptions. The default tolerance delta_f = 0.0002 does not follow the units: without labels, the fit from 1 with variance 1 takes four loops, the same fit in units of 1/10000 takes one.", "quantifier": "every scale c > 0, offset, kernel expression (sums and products of all four leaves), point set, label set of all types, probit parameters, start vector, matrix A; all numbers of loops", "why_tests_cant": "it compares two runs with different data for all data, all scales and all kernels in exact arithmetic; the repository's tests never rerun a fit in other units", "anchors": ["src/lop/models/PreferenceGP.py:PreferenceGP.find_mode", "src/lop/models/PreferenceGP.py:PreferenceGP.predict", "src/lop/models/GP.py:GP.predict", "src/lop/models/PreferenceLinear.py:PreferenceLinear.optimize", "src/lop/kernels/RBF_kern.py:RBF_kern.cov", "src/lop/kernels/RBF_kern_zeroed.py:RBF_kern_zeroed.cov", "src/lop/kernels/LinearKern.py:LinearKern.cov", "src/lop/kernels/PeriodicKern.py:PeriodicKern.cov", "src/lop/kernels/KernelFunc.py:DualKern.cov", "src/lop/probits/OrdinalProbit.py:OrdinalProbit.derivatives", "src/lop/probits/AbsBoundProbit.py:AbsBoundProbit.derivatives"]}
{"id": "C119", "title": "Turning all answers round turns the model round", "statement": "If every comparison is turned round and every rating r in (0,1) is replaced by 1 - r, then PreferenceGP.find_mode started from the negative vector stores exactly the negative utilities and the same curvature matrix after the same number of loops (whatever the inversion routine does, with or without normalize_gp), and predict returns the negative means and the same variances and covariances; PreferenceLinear's whole fit from the negative start weights gives the negative weights. For ratings this needs eps of AbsBoundProbit between Phi(-30) and 1/2, which the default 1e-10 satisfies. Ordinal ratings have no such mirror image: with three categories and default parameters the middle category, its own mirror image, has a positive gradient at utility 0.", "quantifier": "every list of comparisons and ratings, covariance matrix, inversion routine, start vector, probit parameters; all numbers of loops", "why_tests_cant": "it compares two runs on mirrored data for all data sets and start vectors, exactly; the repository's tests never fit mirrored data", "anchors": ["src/lop/models/PreferenceGP.py:PreferenceGP.find_mode", "src/lop/models/PreferenceGP.py:PreferenceGP.predict", "src/lop/models/PreferenceLinear.py:PreferenceLinear.optimize", "src/lop/probits/PreferenceProbit.py:PreferenceProbit.derivatives", "src/lop/probits/AbsBoundProbit.py:AbsBoundProbit.derivatives", "src/lop/probits/OrdinalProbit.py:OrdinalProbit.derivatives"]}
{"id": "C120", "title": "With many answers to one question the fitted choice probability is the share of the answers", "statement": "Ask a person the same comparison between two training points any number of times, in either order of the two points. At the posterior mode of PreferenceGP the probability likelihood_all_pairs gives to the choice of one of the two differs from the share of answers naming it by at most 2 sigma^2 divided by the number of answers and the prior variance of the difference of the two utilities. The deviation is always towards 1/2: the probability is strictly between 1/2 and the share, or both are 1/2. If the number of answers grows and their share tends to q, the probability tends to q. The F that find_mode stores on convergence has the same property up to its stopping tolerance. For PreferenceLinear, weights of maximal likelihood reproduce the share exactly, so that unanimous answers have no such weights.", "quantifier": "every list of answers about one pair among any number of training points, every positive definite prior, every positive sigma, every share", "why_tests_cant": "a statement about lists of answers of every length and every prior, with a limit; a test sees finitely many data sets at one tolerance", "anchors": ["src/lop/models/PreferenceGP.py:PreferenceGP.find_mode", "src/lop/probits/PreferenceProbit.py:PreferenceProbit.likelihood_all_pairs", "src/lop/probits/PreferenceProbit.py:PreferenceProbit.derivatives", "src/lop/models/PreferenceLinear.py:PreferenceLinear.optimize"]}
{"id": "C121", "title": "Which candidates are selected does not depend on how they are numbered", "statement": "List the same candidates in another order, renumber the preferred and the excluded indices accordingly, and let Python iterate over sets in any other order. As long as no two offered candidates have the same value, BestLearner, WorstLearner, UCBLearner and GV_UCBLearner select the same candidates in the same order, with or without always_select_best and with or without return_not_selected, and raise the same exception if they raise; the greedy steps of MutualInfoLearner, BayesInfoGain and AcquisitionSelection name the same candidate with the same metric; a pair picked from a metric is the same pair. The Pareto-optimal candidates used as preferred set are the same. Exceptions: a number given as prefer_pts means the first candidates, and of equally good candidates the one listed first is taken.", "quantifier": "every permutation of every list of candidates, every prediction without ties, all preferred and excluded sets, every iteration order of sets", "why_tests_cant": "a relation between two runs over all permutations and all set orders; a test tries a few, and CPython iterates small integer sets in increasing order", "anchors": ["src/lop/active_learning/ActiveLearner.py:ActiveLearner.select", "src/lop/active_learning/ActiveLearner.py:ActiveLearner.select_best", "src/lop/active_learning/BestLearner.py:BestLearner.select_greedy", "src/lop/active_learning/UCBLearner.py:UCBLearner.select_greedy", "src/lop/active_learning/GV_UCBLearner.py:GV_UCBLearner.select_greedy", "src/lop/active_learning/MutualInfoLearner.py:MutualInfoLearner.select_greedy"]}
{"id": "C122", "title": "An item that is stored several times", "statement": "add stores every point it is given, so a question that is asked again is stored with new copies of its points. PreferenceLinear learns from comparisons exactly as if every item were stored once, whichever copies the comparisons mention. PreferenceGP does not: with a kernel without noise (periodic, linear and their sums and products) two copies of one point make the covariance singular, the fit returns its random start values whatever was said, and predict raises; with a linear kernel the same happens without copies once there are more than d + 1 training points. With noise in the kernel the predicted means depend on the copies only through the total pull on each item, the stored values of two copies differ by the noise times the difference of their pulls, and the same answer given c >= 2 times and stored with fresh copies makes every predicted mean larger, by one common factor, than the same answers stored with the points once.", "quantifier": "all data sets and assignments of stored points to items, all kernels of the two classes, all hyper-parameters, all query points", "why_tests_cant": "a relation between fits of two differently stored data sets, for all data; a test sees one pair, and singular matrices are hidden by rounding errors on some inputs", "anchors": ["src/lop/models/PreferenceModel.py:PreferenceModel.add", "src/lop/models/PreferenceGP.py:PreferenceGP.find_mode", "src/lop/models/PreferenceGP.py:PreferenceGP.predict", "src/lop/models/PreferenceLinear.py:PreferenceLinear.optimize"]}
{"id": "C123", "title": "How far further answers can move a fitted model", "statement": "Fit a PreferenceGP to comparisons, and to the same comparisons and any further ones. No stored value changes by more than its prior standard deviation, no difference of two by more than the prior standard deviation of the difference, and no predicted mean by more than the part of its prior standard deviation explained by the training points, each times the influence of the further answers: the sum of their pulls times the prior standard deviation of the difference of their two points. The pulls may be taken at the values before or after. An answer the model agrees with pulls at most 1/(sqrt(pi) sigma); one that contradicts it by s noise standard deviations at most s/(sqrt(2) sigma) more, and at least s/(sqrt(2) sigma). A lead above this limit survives the further answers. The first answer of all attains the limit.", "quantifier": "all numbers of points and comparisons, all answers, all positive definite prior covariances, all positive noise levels, all query points", "why_tests_cant": "an inequality between two fits for all data sets, attained only in special cases; a test compares a few fits", "anchors": ["src/lop/models/PreferenceGP.py:PreferenceGP.find_mode", "src/lop/models/PreferenceGP.py:PreferenceGP.predict", "src/lop/probits/PreferenceProbit.py:PreferenceProbit.derivatives"]}
{"id": "C124", "title": "A better item is rated stochastically higher", "statement": "AbsBoundProbit.cdf(y, F) is the probability of a rating of at most y: 0 up to y = 0, 1 from y = 1 on, strictly between 0 and 1 and strictly increasing in between, and its increments are the integrals of likelihood. For every limit y the probability never rises with the latent value, and strictly falls for 0 < y < 1 unless mean_link is clipped to the same value. The expected rating is mean_link(F), and its variance mean_link (1 - mean_link) / (1 + v).", "quantifier": "for all ratings, latent values, sigma > 0, v > 0 and 0 < eps < 1/2", "why_tests_cant": "the test checks that three numbers are in (0,1); dominance is a statement about all limits and all pairs of values, and the moments are integrals", "anchors": ["src/lop/probits/AbsBoundProbit.py:AbsBoundProbit.cdf", "src/lop/probits/AbsBoundProbit.py:AbsBoundProbit.mean_link", "src/lop/probits/AbsBoundProbit.py:AbsBoundProbit.likelihood"]}
{"id": "C125", "title": "Answers drawn from a probit are best explained by the values they were drawn from", "statement": "For comparisons, ordinal ratings and ratings in (0,1): likelihood is a probability distribution over all the ways the labels can come out, and the expected log-likelihood of labels drawn from it at the true values is largest at the true values, and only there (for comparisons: at the values with the same differences in all questions). At the true values the expected gradient is zero, and for comparisons the expected W is the covariance matrix of the gradient.", "quantifier": "for all value vectors, all lists of questions or rated items (repetitions allowed for comparisons and ordinal ratings), all noise levels > 0, all increasing thresholds, inside the limits of the cdf", "why_tests_cant": "It compares expectations over all outcomes at a real value vector with those at every other one.", "anchors": ["src/lop/probits/PreferenceProbit.py:119-132", "src/lop/probits/PreferenceProbit.py:183-204", "src/lop/probits/PreferenceProbit.py:316-329", "src/lop/probits/OrdinalProbit.py:215-230", "src/lop/probits/AbsBoundProbit.py:262-313"]}
{"id": "C126", "title": "Quantised ratings follow the utility", "statement": "rating_score_from_fake_f gives every utility between the rating bounds a rating within 0.1 of its relative position between the bounds; ratings are among 0.1, 0.3, 0.5, 0.7, 0.9, so that PreferenceModel.add accepts them, and a higher utility never gets a lower rating.", "quantifier": "for all lists of utilities and all rating bounds", "why_tests_cant": "It quantifies over all real utilities and bounds.", "anchors": ["experiments/experiment_helper.py:428-445", "src/lop/models/PreferenceModel.py:233-252"]}
{"id": "C127", "title": "Learning with upper confidence bounds has vanishing regret", "statement": "Let a GP with kernel k and the default mean learn a function f by the loop select (UCBLearner with parameter alpha) / evaluate f at the selected candidates / add, with training noise s > 0. If f has kernel norm at most alpha, the loop never raises, every pass selects as many different candidates as asked for, and after T passes with candidates from a finite set S the sum over the passes of (best candidate value - best selected value) is at most 2 alpha sqrt(T |S| (v+s)(1 + log T)), where v bounds the kernel's variance on S: the average regret tends to zero. When every pass offers all of S, the training data contain a point whose value is within 2 alpha sqrt(|S| (v+s)(1 + log T)/T) of the largest. The reason is that predictions lie within their confidence bands: after measurements (x, y, noise), |f - mu| <= sqrt(B^2 + sum (y - f(x))^2/noise) * sqrt(sigma) at every point if f - mean_func has norm at most B. A pass with some candidates, but fewer than asked for, raises Exception.", "quantifier": "for all noise-free kernels built from the four leaf kernels by + and *, all functions of bounded kernel norm, all numbers of passes, all candidates and all orders in which sets are listed", "why_tests_cant": "The bound is a sum over arbitrarily long runs, with adversarial candidates and tie-breaking; an example run shows one sequence only, and the limit none.", "anchors": ["examples/active_learners/GP_UCB_learner.py:37-52", "src/lop/active_learning/UCBLearner.py:41-70", "src/lop/active_learning/ActiveLearner.py:74-172", "src/lop/models/GP.py:65-125"]}
{"id": "C128", "title": "When a linear utility has best weights, and what optimize does with them", "statement": "For pairwise answers there are weights of PreferenceLinear that explain them best exactly if every linear utility contradicting no answer is indifferent about every question, and exactly one such vector if every non-zero linear utility contradicts some answer; questions answered both ways suffice. An update of optimize leaves the weights unchanged exactly if they are best, and a fit started there returns them. If a linear utility agrees strictly with all answers (a perfect user), no weights are best: every larger multiple explains the answers better, and every update moves the weights.", "quantifier": "for all numbers of points, features and comparisons, all feature matrices, all positive noise levels and all weights", "why_tests_cant": "the tests fit one data set and look at the order of the predictions; whether a best explanation exists is a statement about all weight vectors, and with consistent answers the fit ends only because of the loop limit or the tolerance", "anchors": ["src/lop/models/PreferenceLinear.py:PreferenceLinear.optimize", "src/lop/models/PreferenceLinear.py:PreferenceLinear.derivatives", "src/lop/models/PreferenceLinear.py:PreferenceLinear.loss_func"]}
{"id": "C129", "title": "GP regression learns every function of its kernel's space from dense data", "statement": "Where N measurements with noise at most s were added to a GP at points close to a predicted point, in the sense that the kernel gives the difference of the values a standard deviation of at most rho, the variance returned by predict is at most rho^2 + s/N, whatever else was measured. If f - mean_func has kernel norm at most B, the returned mean is within sqrt(B^2 + misfit) sqrt(rho^2 + s/N) of f, where misfit is the sum of the squared measurement errors over their noises (0 for exact measurements). Therefore, if measurements with bounded misfit are added one at a time and their points come back to every neighbourhood of the predicted points again and again, the means converge to f and the variances to zero. For RBF_kern(sigma, l) points at distance D are close with rho = sigma D/l.", "quantifier": "for all noise-free kernels built from the four leaf kernels by + and *, all functions of bounded kernel norm, all sequences of measurements and all predicted points", "why_tests_cant": "The claim is a limit over unboundedly many measurements at arbitrary points, with an error bound for each finite number; a test can only look at a few data sets.", "anchors": ["src/lop/models/GP.py:65-78", "src/lop/models/GP.py:91-125", "src/lop/kernels/RBF_kern.py:168-175"]}
{"id": "C130", "title": "Training points without labels: the prior, unless the model normalizes", "statement": "After any number of add(X, []) calls without pareto_pairs the model has points and no labels. Fitting such a PreferenceGP with normalize_gp=False multiplies the random start values by -1/32 in every pass of find_mode, stops as soon as all of them are within delta_f/33 of zero (with the default settings after at most four passes), and stores zero derivatives; predict then returns the covariance of the kernel, and means that are the interpolated start values times (-1/32)^k. With normalize_gp=True this is false: the loop runs to its limit, and the fit is the random start, scaled to largest absolute value 1; with normalize_positive=True as well it is the random start rescaled to [0, 1], or one minus that, and NaN if there is a single point.", "quantifier": "for all numbers of points, positive definite covariance matrices, inversion functions that invert invertible matrices, start values and option values", "why_tests_cant": "The start values are random and the statement is about all of them and about the exact factor of every pass; a test would see small numbers and could not tell them from a converged fit.", "anchors": ["examples/models/special_cases/prior_only.py:34-38", "src/lop/models/PreferenceModel.py:187-270", "src/lop/models/PreferenceModel.py:386-448", "src/lop/models/PreferenceGP.py:97-149", "src/lop/models/PreferenceGP.py:218-288"]}
{"id": "C131", "title": "Far away from the data the predictions are those of the prior", "statement": "With a kernel made of RBF kernels (zeroed or not) by sums and by products with bounded kernels, predict of GP and of PreferenceGP returns, at points far enough from the origin, mean_func (0 for preferences) as mean and the kernel's own variance and covariance, up to any given eps, whatever the training data and the fit are. For RBF_kern(sigma, l) and GP the deviations at squared distance D from N measurements with total noise at least s0 are at most kappa sqrt(N) |y| / s0 for the mean and N kappa^2 / s0 for the variance, with kappa = sigma^2 exp(-D/(2 l^2)). For linear and periodic kernels the claim is false: means grow without bound, and repeat every period.", "quantifier": "for all kernel expressions of the class, all stored data with a regular fit, all numbers and positions of predicted points", "why_tests_cant": "The statement is a limit, uniform over all arrays of far-away points, for every kernel expression; a test checks a few points with one kernel.", "anchors": ["src/lop/models/GP.py:92-124", "src/lop/models/PreferenceGP.py:97-149", "src/lop/kernels/RBF_kern.py:103-121", "src/lop/kernels/RBF_kern_zeroed.py:65-93", "src/lop/kernels/KernelFunc.py:190-199"]}
{"id": "C132", "title": "From answers to many questions the choice probabilities are learnt", "statement": "Take any list of answers to comparisons between training points, any questions repeated any number of times. For every vector f of values, the choice probability likelihood_all_pairs gives at the posterior mode of PreferenceGP differs from the share of the answers to that question by at most the square root of (half of f^T K^-1 f plus Pearson's chi-square of the answers under f) / (2 * number of answers to the question); for PreferenceLinear at weights of maximal likelihood the first term is absent; find_mode's stored F has the property up to its stopping tolerance. If the answers are drawn at random from the probit at f, the squared errors of the fitted choice probabilities, summed over all questions asked, are on average at most half of f^T K^-1 f plus 3/2 times the number of different questions, however often they are repeated. If the answers agree in the long run with f, then for every pair that takes a fixed share of the questions the choice probabilities and utility differences at the mode converge to those of f. If the pairs asked with a fixed share connect all training points, the whole mode converges to f minus a constant (1^T K^-1 f / 1^T K^-1 1), from some point on every two training points are ranked as f ranks them whether or not they were compared, and the means predict returns anywhere converge. In a dialogue whose questions are chosen, by any rule, from the earlier answers and are answered at random as the probit says at f, this happens with probability 1 provided the frequent questions connect the points.", "quantifier": "every list of questions and answers over any number of training points, every positive definite prior, every vector f; the expectation runs over all answer vectors", "why_tests_cant": "The rate and the limit concern all numbers of repetitions and the exact average over the exponentially many ways to answer; a test fits a few simulated answers.", "anchors": ["src/lop/models/PreferenceGP.py:PreferenceGP.find_mode", "src/lop/probits/PreferenceProbit.py:PreferenceProbit.likelihood_all_pairs", "src/lop/probits/PreferenceProbit.py:316-329", "src/lop/models/PreferenceLinear.py:PreferenceLinear.optimize"]}
{"id": "C133", "title": "With random measurement errors the returned variance of GP bounds the mean squared error", "statement": "Let f - mean_func have kernel norm at most B, and let f be measured at any points with random errors that have mean zero, are uncorrelated and have second moments of at most the noise values passed to GP.add; they need not be Gaussian, bounded, independent or equally distributed. Then the variances returned by predict do not depend on the errors, the mean squared error of the returned mean is at most max(B^2, 1) times the returned variance at every predicted point, and the probability that the prediction misses f by more than c max(B, 1) returned standard deviations is at most 1/c^2. If the noises are bounded and the measured points come back to every neighbourhood of the predicted points again and again, the mean squared errors and the variances tend to zero. If a noise value is understated the bound fails.", "quantifier": "for all noise-free kernels built from the four leaf kernels by + and *, all functions of bounded kernel norm, all probability spaces and error sequences as described, all measured and predicted points", "why_tests_cant": "The bound is on an average over all outcomes of the errors, for every error distribution of the given second moments, and in the limit of unboundedly many measurements; a test sees finitely many draws from one distribution.", "anchors": ["src/lop/models/GP.py:65-78", "src/lop/models/GP.py:91-125"]}
{"id": "C134", "title": "GP returns the posterior of a random function with the kernel as its covariance", "statement": "Let f be a random function with mean mean_func and the kernel as its covariance function, measured at any points with errors of mean zero, uncorrelated with each other and with f, whose variances are the noise values passed to GP.add. Then the means returned by predict are unbiased, the returned covariance matrix is exactly the covariance matrix of their errors (and sigma its diagonal) and does not depend on the measured values, and no other affine function of the measured values has a smaller mean squared error. If f at the predicted points and the measured values are jointly Gaussian, the errors of the returned means are Gaussian and independent of the measured values, so the returned mean and covariance are those of the conditional distribution given the measurements, and the returned mean is the conditional expectation. In that case mean + a*sqrt(variance), the bound UCBLearner(alpha=a) ranks candidates by, is wherever the variance is positive exactly the quantile of level Phi(a) of f given the measurements: within every event about the measured values, f lies below it with conditional probability Phi(a).", "quantifier": "for all noise-free kernels built from the four leaf kernels by + and *, all prior means, all probability spaces and random functions as described, all numbers of measurements, all measured and predicted points", "why_tests_cant": "The claim compares the code with a conditional distribution over all functions and all measurement errors, and with every other linear predictor; a test compares a few numbers.", "anchors": ["src/lop/models/GP.py:65-78", "src/lop/models/GP.py:91-125", "src/lop/active_learning/UCBLearner.py:55-70"]}
{"id": "C135", "title": "The posterior of GP stays right when the points to measure are chosen by looking at the data", "statement": "Let f be a random function with mean mean_func and the kernel as its covariance, learned actively: every pass looks at the training data collected so far, chooses a point of a finite set by any rule depending measurably on them, measures f there with an error and passes the result and the error's variance to GP.add. If f and the errors are jointly Gaussian (errors uncorrelated with each other and with f), predict never raises on the collected data, and the returned means and covariances are those of the conditional distribution of f given these data, although the points depend on the measured values: for every linear combination c of the predicted values, every a and every event about the training data, the combination lies below c.mean + a*sqrt(c.cov.c) with conditional probability Phi(a) where c.cov.c is positive, and equals c.mean almost surely elsewhere. Selecting one candidate per pass with UCBLearner is such a rule, and the loop with it never raises.", "quantifier": "for all noise-free kernels built from the four leaf kernels by + and *, all Gaussian functions and errors as described, all measurable rules, all numbers of passes, all predicted points and combinations; for UCBLearner all alpha, all candidates and all orders in which sets are listed", "why_tests_cant": "The claim is about the conditional distribution of an unknown function given data whose collection depends on the function itself.", "anchors": ["src/lop/models/GP.py:65-78", "src/lop/models/GP.py:91-125", "src/lop/active_learning/UCBLearner.py:54-72", "src/lop/active_learning/ActiveLearner.py:74-172", "examples/active_learners/GP_UCB_learner.py:37-51"]}
{"id": "C136", "title": "Expected regret of maximising a Gaussian function from noisy measurements with UCBLearner", "statement": "Let f be a Gaussian random function with mean zero and the kernel as its covariance, maximised by the loop: GP.select chooses one of the offered candidates with UCBLearner(alpha), f is measured there with a Gaussian error of variance s, and GP.add stores the result with noise s. For alpha > 0 the loop never raises, and if all candidates come from a finite set S on which the kernel's variance is at most v, the expected sum over T passes of (best candidate value - chosen value) lies between 0 and alpha*sqrt(T |S| (v+s)(1+log T)) + T |S| sqrt(v) exp(-alpha^2/2 - 1)/alpha. Hence for every tolerance there is an alpha with which the expected average regret is below it after finitely many passes, whatever candidates are offered.", "quantifier": "for all noise-free kernels built from the four leaf kernels by + and *, all Gaussian functions and errors as described, all alpha > 0 and s > 0, all numbers of passes, all sequences of candidate lists and all orders in which sets are listed", "why_tests_cant": "An expectation over all functions and all errors of runs of any length, in which the measured points depend on the errors.", "anchors": ["src/lop/models/GP.py:65-78", "src/lop/models/GP.py:91-125", "src/lop/active_learning/UCBLearner.py:54-72", "src/lop/active_learning/ActiveLearner.py:74-172", "examples/active_learners/GP_UCB_learner.py:37-51"]}
{"id": "C137", "title": "The candidates a GP recommends have the largest expected value", "statement": "Let f be a Gaussian random function with mean zero and the kernel as its covariance, learned actively with a GP: every pass chooses a point of a finite set by any rule depending measurably on the training data, measures f there with a Gaussian error of variance s > 0 and stores the result with GP.add and noise s. Then GP.select with a BestLearner, asked for q of any (at least q) candidates, never raises and returns q different ones, and the expected sum of f at these is at least that of every other way to choose q different candidates from the training data; it equals the expected sum of the means predicted for them, and does not fall when further passes are made. The same holds for the candidate named by select_best. If the passes choose with UCBLearner(alpha) among the candidates, all from a finite set S on which the kernel's variance is at most v, the candidate named by select_best after T passes is in expectation worse than the best one by at most alpha sqrt(|S| (v+s) (1+log T)/T) + |S| sqrt(v) exp(-alpha^2/2 - 1)/alpha.", "quantifier": "for all kernels built by sums and products from leaves without own noise, all Gaussian f and errors, all measurable rules, all candidate lists, set orders, q, T and alpha > 0", "why_tests_cant": "expectations over random functions and errors, and a comparison with all rules", "anchors": ["src/lop/models/Model.py:select_best", "src/lop/models/Model.py:select", "src/lop/active_learning/BestLearner.py:BestLearner.select_greedy", "src/lop/active_learning/ActiveLearner.py:select", "src/lop/models/GP.py:predict", "src/lop/models/GP.py:add"]}
{"id": "C138", "title": "With high probability all confidence bands of a GP hold and UCBLearner has small regret", "statement": "Let f be a Gaussian random function with mean zero and the kernel as its covariance, measured with Gaussian errors of variance s at points chosen in any way from the data so far, each result stored with GP.add and noise s. Then GP.predict never raises, and with probability at least 1 - 2 T n (1 - Phi(a)) the function lies within a predicted standard deviations of the predicted mean at each of n points in each of T passes. When GP.select chooses with UCBLearner(alpha) among candidates from a finite set S on which the kernel's variance is at most v, then with probability at least 1 - 2 T |S| (1 - Phi(alpha)) the sum over T passes of (best candidate value - chosen value) is at most 2 alpha sqrt(T |S| (v+s)(1+log T)); with alpha = sqrt(2 log(2 T |S|/delta)) that probability is at least 1 - delta.", "quantifier": "for all noise-free kernels built from the four leaf kernels by + and *, all Gaussian functions and errors as described, all measurable ways of choosing points from a finite set, all s > 0, alpha >= 0 and delta in (0, 1], all numbers of passes and of points, all sequences of candidate lists and all orders in which sets are listed", "why_tests_cant": "A probability over all functions and all errors that many bands hold together in runs of any length whose points depend on the errors; a test sees a few runs and can only estimate it.", "anchors": ["src/lop/models/GP.py:65-78", "src/lop/models/GP.py:91-125", "src/lop/active_learning/UCBLearner.py:54-72", "src/lop/active_learning/ActiveLearner.py:74-172", "examples/active_learners/GP_UCB_learner.py:37-51"]}
{"id": "C139", "title": "Predicting measurements one after another with a GP gives their joint density, whatever the order", "statement": "Measurements y_0, y_1, ... at points z_0, z_1, ... are added to a GP one by one with GP.add and noises s_t > 0, and each is predicted with GP.predict before it is added. Prediction never raises; the predicted variances plus noise multiply to the determinant of the covariance matrix K + diag(s) of all measurements; the squared prediction errors divided by these variances add up to y^T (K + diag(s))^-1 y; hence the predicted normal densities of the measurements multiply to their joint normal density. The product is the same for every order of the same measurements. With equal noises s the sum of log(1 + predicted variance / s) is log det(1 + K/s), the information all measurements give together, and the predicted standard deviations at the measured points add up to at most sqrt(T v/log(1 + v/s) log det(1 + K/s)) if the kernel's variance there is at most v.", "quantifier": "for all noise-free kernels built from the four leaf kernels by + and *, all sequences of points, values and positive noises, all lengths and all permutations, in exact arithmetic", "why_tests_cant": "An identity between runs of any length and a determinant; a test compares a few runs within a tolerance.", "anchors": ["src/lop/models/GP.py:65-78", "src/lop/models/GP.py:91-125"]}
{"id": "C140", "title": "The regret of UCBLearner is bounded by what the measurements can tell", "statement": "In the setting of C138 (Gaussian random function with the kernel as its covariance, GP.select with UCBLearner(alpha) among candidates from a finite set S on which the kernel's variance is at most v, measurement errors of variance s, GP.add): if log det(1 + K/s) is at most G for the kernel matrix K of any T points of S, then with probability at least 1 - 2 T |S| (1 - Phi(alpha)) the regret of T passes is at most 2 alpha sqrt(T v/log(1 + v/s) G). For the linear kernel in d dimensions G = (d+1) log(1 + T v/((d+1) s)) will do, so that the regret depends on the number of candidates only through the probability.", "quantifier": "for all noise-free kernels built from the four leaf kernels by + and *, all Gaussian functions and errors as described, all alpha >= 0, s > 0 and v > 0, all numbers of passes, all sequences of candidate lists and all orders in which sets are listed; the second part for all linear kernels and dimensions", "why_tests_cant": "A probability over all functions and errors, for runs of any length and candidate sets of any size.", "anchors": ["src/lop/models/GP.py:65-78", "src/lop/models/GP.py:91-125", "src/lop/active_learning/UCBLearner.py:54-72", "src/lop/active_learning/ActiveLearner.py:74-172", "src/lop/kernels/LinearKern.py:LinearKern.cov"]}
{"id": "C141", "title": "Asking for the skipped points does not change the selection", "statement": "ActiveLearner.select with return_not_selected, for a learner that takes the offered candidate of highest score (best, worst, UCB), returns - whenever it returns - the same selection as without the option, and the second list holds exactly the non-preferred candidates left out although they score higher than some selected preferred candidate (other than one placed first by always_select_best), best first.", "quantifier": "for every candidate set, preferred set, previous selection, number of alternatives and every score function giving the unselected candidates different scores; without pair selection, or with the best candidate placed first", "why_tests_cant": "two different loops over three mutable collections must agree on every input", "anchors": ["src/lop/active_learning/ActiveLearner.py:select"]}
{"id": "C142", "title": "UCBLearner with a linear model picks the most optimistic candidate", "statement": "With a PreferenceLinear model every greedy step of UCBLearner returns an offered candidate with the highest utility under the fitted weights plus alpha standard deviations of its utility under the 200 weight vectors drawn in that step; select returns a valid selection although every step draws new weights; for alpha >= 0 a convex combination of candidates is never strictly better than all of them; with alpha = 0 the learner is BestLearner; a model that is neither a GP nor linear makes select raise UnboundLocalError.", "quantifier": "for all candidates, weights, sampled weights, alpha, preferred sets, previous selections and numbers of alternatives", "why_tests_cant": "the sampled weights are random and new in every step; the geometric statement is about all candidate sets", "anchors": ["src/lop/active_learning/UCBLearner.py:select_greedy", "src/lop/active_learning/ActiveLearner.py:select"]}
{"id": "C143", "title": "The linear learning example collects answers that no weights explain best", "statement": "The loop of examples/active_learners/pref_linear_learner.py raises nothing in adding data, stores the items of all questions in order and, per question, that its first best item beats every other item of it and nothing else; every stored comparison agrees with the true weights of FakeLinear; as soon as one question is about items of different value, no weights of PreferenceLinear explain the stored comparisons best, whatever questions the active learner selects.", "quantifier": "for all numbers of questions, non-empty questions of any size, dimensions, true weights and positive noise levels", "why_tests_cant": "the non-existence of an optimum is about all weight vectors; the questions depend on random candidates and on the learner", "anchors": ["examples/active_learners/pref_linear_learner.py:main", "src/lop/models/PreferenceModel.py:add", "src/lop/models/PreferenceLinear.py:optimize"]}
