{"id": "C01", "title": "Ensemble CRPS is the integral definition", "statement": "crps_ensemble with estimator 'nrg' returns exactly the integral over z of (F_M(z) - 1{y<=z})^2, where F_M is the empirical distribution function of the ensemble, on both the numpy-style and the numba path.", "quantifier": "every observation, every non-empty finite ensemble of every size, ties included", "why_tests_cant": "the input space is a continuum of every ensemble size, value and tie pattern; tests sample a handful of random draws with a tolerance", "anchors": ["scoringrules/_crps.py:crps_ensemble", "scoringrules/core/crps/_gufuncs.py:_crps_ensemble_nrg_gufunc", "scoringrules/core/crps/_approx.py:_crps_ensemble_nrg"]}
{"id": "C02", "title": "qd and int estimators equal nrg", "statement": "Without weights, crps_ensemble returns the same value for estimator 'qd', 'int' and 'nrg' on unsorted input, on both paths.", "quantifier": "every observation, every non-empty finite ensemble in any order, ties among members and with the observation included", "why_tests_cant": "the input space is a continuum of every ensemble size, value and tie pattern; tests sample a handful of random draws with a tolerance; ties have probability zero in random tests", "anchors": ["scoringrules/_crps.py:crps_ensemble", "scoringrules/core/crps/_gufuncs.py:_crps_ensemble_qd_gufunc", "scoringrules/core/crps/_gufuncs.py:_crps_ensemble_int_gufunc", "scoringrules/core/crps/_approx.py:_crps_ensemble_qd", "scoringrules/core/crps/_approx.py:_crps_ensemble_int", "scoringrules/core/utils.py:univariate_sort_ens"]}
{"id": "C03", "title": "pwm estimator equals fair", "statement": "Without weights, crps_ensemble returns the same value for estimator 'pwm' and 'fair' on both paths: a finite number for two or more members and NaN for exactly one member.", "quantifier": "every observation, every non-empty finite ensemble in any order", "why_tests_cant": "the input space is a continuum of every ensemble size, value and tie pattern; tests sample a handful of random draws with a tolerance", "anchors": ["scoringrules/_crps.py:crps_ensemble", "scoringrules/core/crps/_gufuncs.py:_crps_ensemble_pwm_gufunc", "scoringrules/core/crps/_gufuncs.py:_crps_ensemble_fair_gufunc", "scoringrules/core/crps/_approx.py:_crps_ensemble_pwm", "scoringrules/core/crps/_approx.py:_crps_ensemble_fair"]}
{"id": "C04", "title": "Backends agree without weights", "statement": "For each of the seven estimators crps_ensemble without weights returns the same result with backend 'numpy' and backend 'numba'.", "quantifier": "every estimator, every observation, every non-empty finite ensemble", "why_tests_cant": "the input space is a continuum of every ensemble size, value and tie pattern; tests sample a handful of random draws with a tolerance; the existing tests compare at one ensemble size", "anchors": ["scoringrules/_crps.py:crps_ensemble", "scoringrules/core/crps/_gufuncs.py:estimator_gufuncs", "scoringrules/core/crps/_approx.py:ensemble"]}
{"id": "C05", "title": "Backends agree with weights", "statement": "For each of the seven estimators crps_ensemble with ensemble weights returns the same result with backend 'numpy' and backend 'numba'.", "quantifier": "every estimator, every observation, every finite ensemble, every vector of non-negative weights with positive sum", "why_tests_cant": "the input space is a continuum of every ensemble size, value and tie pattern; tests sample a handful of random draws with a tolerance; parity of the ensemble size matters and tests use one size", "anchors": ["scoringrules/_crps.py:crps_ensemble", "scoringrules/core/crps/_gufuncs_w.py:estimator_gufuncs_w", "scoringrules/core/crps/_approx_w.py:ensemble_w"]}
{"id": "C06", "title": "CRPS is non-negative and zero only for a perfect forecast", "statement": "For estimators 'nrg', 'qd' and 'int' crps_ensemble is >= 0, and it is 0 exactly when every ensemble member equals the observation.", "quantifier": "every observation, every non-empty finite ensemble", "why_tests_cant": "non-negativity over a continuum cannot be sampled; equality case has measure zero", "anchors": ["scoringrules/_crps.py:crps_ensemble", "scoringrules/core/crps/_approx.py:_crps_ensemble_nrg", "scoringrules/core/crps/_approx.py:_crps_ensemble_qd"]}
{"id": "C07", "title": "Member order is irrelevant", "statement": "For 'nrg','fair','pwm','qd','int' the score does not change when the ensemble members (together with their weights, if any) are permuted.", "quantifier": "every permutation of every ensemble, weighted and unweighted, both paths", "why_tests_cant": "factorially many permutations of a continuum of ensembles", "anchors": ["scoringrules/_crps.py:crps_ensemble", "scoringrules/core/utils.py:univariate_sort_ens"]}
{"id": "C08", "title": "Translation, reflection and scale equivariance", "statement": "Adding a constant to observation and members leaves the score unchanged; multiplying both by c multiplies it by |c| (for the sorting estimators through the internal re-sort); for every estimator in the list.", "quantifier": "every constant, every scale factor including negative ones, every estimator, every ensemble", "why_tests_cant": "the input space is a continuum of every ensemble size, value and tie pattern; tests sample a handful of random draws with a tolerance", "anchors": ["scoringrules/_crps.py:crps_ensemble", "scoringrules/core/crps/_approx.py:ensemble", "scoringrules/core/crps/_gufuncs.py:estimator_gufuncs"]}
{"id": "C09", "title": "Constant weights equal no weights", "statement": "Passing ens_w identically equal to any positive constant gives the same score as passing no weights, for every estimator and both paths.", "quantifier": "every estimator, every positive constant, every ensemble size and value", "why_tests_cant": "the input space is a continuum of every ensemble size, value and tie pattern; tests sample a handful of random draws with a tolerance; ensemble-size parity matters", "anchors": ["scoringrules/_crps.py:crps_ensemble", "scoringrules/core/crps/_approx_w.py:ensemble_w", "scoringrules/core/crps/_gufuncs_w.py:estimator_gufuncs_w", "scoringrules/core/utils.py:univariate_weight_check"]}
{"id": "C10", "title": "Only relative weights matter", "statement": "Multiplying all ensemble weights by a positive constant does not change crps_ensemble, and the internal double normalisation is idempotent.", "quantifier": "every weight vector with positive sum, every positive factor, every estimator and path", "why_tests_cant": "the input space is a continuum of every ensemble size, value and tie pattern; tests sample a handful of random draws with a tolerance", "anchors": ["scoringrules/_crps.py:crps_ensemble", "scoringrules/core/utils.py:univariate_weight_check", "scoringrules/core/utils.py:univariate_sort_ens"]}
{"id": "C11", "title": "nan_policy='omit' equals dropping the members", "statement": "With nan_policy='omit' and estimator nrg, fair, qd or pwm the score equals the score of the ensemble from which the NaN members (or members with NaN weight) have been removed; if none is left the result is NaN.", "quantifier": "every placement of NaNs in members and weights, every ensemble, both paths, weighted and unweighted", "why_tests_cant": "2^M NaN patterns for every M and every value; tests try one pattern", "anchors": ["scoringrules/_crps.py:crps_ensemble", "scoringrules/core/utils.py:apply_nan_policy_ens_uv"]}
{"id": "C12", "title": "nan_policy semantics", "statement": "'raise' raises ValueError exactly when a NaN is present in observation, forecast or weights and otherwise behaves as 'propagate'; 'propagate' returns NaN for a slice whose observation, members or weights contain NaN; any other policy string raises ValueError.", "quantifier": "every array content, every policy string, every estimator and path", "why_tests_cant": "all NaN placements and all strings", "anchors": ["scoringrules/_crps.py:crps_ensemble", "scoringrules/core/utils.py:apply_nan_policy_ens_uv"]}
{"id": "C13", "title": "omit is refused, never silently wrong, for unsupported estimators", "statement": "nan_policy='omit' with estimator 'int','akr','akr_circperm' raises NotImplementedError for every input that passes the shape check, even without NaNs.", "quantifier": "every input of compatible shape", "why_tests_cant": "universal over inputs", "anchors": ["scoringrules/_crps.py:crps_ensemble", "scoringrules/core/utils.py:apply_nan_policy_ens_uv"]}
{"id": "C14", "title": "Batches are scored slice by slice, along any ensemble axis", "statement": "For arrays of any rank and any m_axis (negative or not), entry i of the result of crps_ensemble equals the score of observation i against the ensemble slice at i; the result has the observation's shape; different slices never influence each other.", "quantifier": "every rank, every shape, every valid m_axis, every array content", "why_tests_cant": "arbitrarily many ranks, shapes and axes; tests try 1-D and 2-D", "anchors": ["scoringrules/_crps.py:crps_ensemble", "scoringrules/core/utils.py:univariate_array_check", "scoringrules/core/utils.py:univariate_weight_check"]}
{"id": "C15", "title": "Incompatible shapes are rejected", "statement": "crps_ensemble and every ensemble score using the same check raises ValueError when the observation shape is not the forecast shape with the ensemble axis removed; it never broadcasts silently.", "quantifier": "every pair of shapes and every in-range axis", "why_tests_cant": "infinitely many shape pairs", "anchors": ["scoringrules/_crps.py:crps_ensemble", "scoringrules/core/utils.py:_shape_compatibility_check", "scoringrules/core/utils.py:univariate_array_check", "scoringrules/core/utils.py:multivariate_array_check"]}
{"id": "C16", "title": "Invalid weights are rejected", "statement": "A negative ensemble weight anywhere, or weights whose shape differs from the forecasts', raises ValueError for every estimator and policy.", "quantifier": "every array of weights and forecasts, every policy", "why_tests_cant": "all positions and shapes", "anchors": ["scoringrules/_crps.py:crps_ensemble", "scoringrules/core/utils.py:univariate_weight_check", "scoringrules/core/utils.py:apply_nan_policy_ens_uv"]}
{"id": "C17", "title": "Unknown estimators are rejected", "statement": "crps_ensemble, es_ensemble, vs_ensemble, gksuv_ensemble and gksmv_ensemble raise ValueError for every estimator string outside the documented list, and never for a documented one, on both paths, weighted or not.", "quantifier": "every string, both paths, weighted or not", "why_tests_cant": "infinitely many strings; the documented list must be complete on each of many dispatch tables", "anchors": ["scoringrules/_crps.py:crps_ensemble", "scoringrules/core/crps/_gufuncs.py:estimator_gufuncs", "scoringrules/core/crps/_approx.py:ensemble", "scoringrules/core/kernels/_approx_w.py:ensemble_uv_w"]}
{"id": "C18", "title": "sorted_ensemble is only an optimisation", "statement": "If the ensemble is already in ascending order then sorted_ensemble=True and False give the same result.", "quantifier": "every sorted ensemble, every estimator, both paths, weighted or not", "why_tests_cant": "the input space is a continuum of every ensemble size, value and tie pattern; tests sample a handful of random draws with a tolerance", "anchors": ["scoringrules/_crps.py:crps_ensemble", "scoringrules/core/utils.py:univariate_sort_ens"]}
{"id": "C19", "title": "The ensemble CRPS is proper", "statement": "Averaged over observations drawn from the members of an ensemble G, the 'nrg' score of G is at most that of any other ensemble F; the gap is the integral of (F-G)^2.", "quantifier": "every pair of non-empty finite ensembles of any sizes", "why_tests_cant": "expectation inequality over all pairs of distributions", "anchors": ["scoringrules/_crps.py:crps_ensemble"]}
{"id": "C20", "title": "The fair estimator is unbiased", "statement": "Averaged over all M-member samples (with replacement) from a finite population, the 'fair' score equals the 'nrg' score of the whole population, for M>=2.", "quantifier": "every finite population, every M>=2, every observation", "why_tests_cant": "needs the exact average over N^M samples", "anchors": ["scoringrules/_crps.py:crps_ensemble", "scoringrules/core/crps/_approx.py:_crps_ensemble_fair"]}
{"id": "C21", "title": "Threshold-weighted CRPS is the restricted integral", "statement": "twcrps_ensemble with thresholds a<=b and estimator nrg/qd/int equals the integral over [a,b] of (F_M(z)-1{y<=z})^2; values outside [a,b] matter only through the side they lie on.", "quantifier": "every finite or infinite threshold pair a<=b, every ensemble and observation", "why_tests_cant": "the input space is a continuum of every ensemble size, value and tie pattern; tests sample a handful of random draws with a tolerance", "anchors": ["scoringrules/_crps.py:twcrps_ensemble", "scoringrules/core/utils.py:uv_weighted_score_chain"]}
{"id": "C22", "title": "Trivial weighting recovers the CRPS", "statement": "twcrps_ensemble with default thresholds equals crps_ensemble; owcrps_ensemble and vrcrps_ensemble with constant weight function 1 (or default thresholds) equal crps_ensemble with estimator 'nrg'.", "quantifier": "every ensemble and observation, weighted and unweighted, both paths", "why_tests_cant": "the input space is a continuum of every ensemble size, value and tie pattern; tests sample a handful of random draws with a tolerance", "anchors": ["scoringrules/_crps.py:twcrps_ensemble", "scoringrules/_crps.py:owcrps_ensemble", "scoringrules/_crps.py:vrcrps_ensemble"]}
{"id": "C23", "title": "Outcome-weight behaviour", "statement": "owcrps_ensemble equals w(y) times the CRPS of the ensemble reweighted by w (so it is 0 when w(y)=0, non-negative, and homogeneous of degree 1 in w); vrcrps_ensemble is homogeneous of degree 2 in w; a weight function with a negative value on any observation or member raises ValueError.", "quantifier": "every non-negative weight function with positive ensemble mean, every ensemble and observation", "why_tests_cant": "universal over weight functions", "anchors": ["scoringrules/_crps.py:owcrps_ensemble", "scoringrules/_crps.py:vrcrps_ensemble", "scoringrules/core/crps/_approx.py:ow_ensemble", "scoringrules/core/crps/_approx.py:vr_ensemble", "scoringrules/core/utils.py:uv_weighted_score_weights"]}
{"id": "C24", "title": "vrcrps works slice-wise for every batch rank", "statement": "Without ensemble weights, vrcrps_ensemble on the numpy path scores an array of any rank slice by slice (scalars included).", "quantifier": "every rank and shape", "why_tests_cant": "tests only use 2-D forecasts", "anchors": ["scoringrules/_crps.py:vrcrps_ensemble", "scoringrules/core/crps/_approx.py:vr_ensemble"]}
{"id": "C25", "title": "Weighted CRPS variants respect m_axis together with weights/omit", "statement": "owcrps_ensemble and vrcrps_ensemble with nan_policy='omit' (or with ens_w and 'omit'/'raise') give, for any m_axis, the same result as moving the ensemble axis to the end first.", "quantifier": "every rank, shape and m_axis", "why_tests_cant": "tests only use the last axis with omit", "anchors": ["scoringrules/_crps.py:owcrps_ensemble", "scoringrules/_crps.py:vrcrps_ensemble", "scoringrules/core/utils.py:apply_nan_policy_ens_uv"]}
{"id": "C26", "title": "Quantile score identities", "statement": "quantile_score is the pinball loss: non-negative for levels in [0,1], zero at fct=obs, positive otherwise for levels inside (0,1), and raises ValueError iff some level is outside [0,1]; crps_quantile is twice the mean pinball loss on both paths, also when forecasts tie with the observation.", "quantifier": "every observation, forecast, level vector", "why_tests_cant": "the input space is a continuum of every ensemble size, value and tie pattern; tests sample a handful of random draws with a tolerance", "anchors": ["scoringrules/_quantile.py:quantile_score", "scoringrules/_crps.py:crps_quantile", "scoringrules/core/crps/_gufuncs.py:quantile_pinball_gufunc", "scoringrules/core/crps/_approx.py:quantile_pinball"]}
{"id": "C27", "title": "Interval score is a sum of quantile scores", "statement": "interval_score(y,l,u,alpha) = (2/alpha) * (pinball_{alpha/2}(l,y) + pinball_{1-alpha/2}(u,y)), hence non-negative when l<=u.", "quantifier": "every y, l, u and alpha>0 with l<=u", "why_tests_cant": "the input space is a continuum of every ensemble size, value and tie pattern; tests sample a handful of random draws with a tolerance", "anchors": ["scoringrules/_interval.py:interval_score", "scoringrules/core/interval/_score.py:interval_score"]}
{"id": "C28", "title": "Weighted interval score", "statement": "weighted_interval_score equals (w0*|y-median| + sum_k w_k*IS_k)/(K+1/2) on every backend; with default weights it is the mean quantile-score form and non-negative.", "quantifier": "every observation, median, nested or crossing intervals, number of levels, weights, backend", "why_tests_cant": "tests use obs=0=median only", "anchors": ["scoringrules/_interval.py:weighted_interval_score", "scoringrules/core/interval/_score.py:weighted_interval_score", "scoringrules/core/interval/_gufunc.py:_weighted_interval_score_gufunc"]}
{"id": "C29", "title": "Quantile score is consistent", "statement": "The expected quantile score over any finite sample is minimised by reporting any level-alpha sample quantile.", "quantifier": "every finite sample, level and report", "why_tests_cant": "optimality over a continuum of reports", "anchors": ["scoringrules/_quantile.py:quantile_score"]}
{"id": "C30", "title": "Brier and log score", "statement": "brier_score lies in [0,1] for probabilities in [0,1], is strictly proper; log_score is -log of the probability given to the realised outcome, non-negative for probabilities in [0,1] and strictly proper; invalid probabilities (below 0 or above 1 beyond the tolerance) or observations outside {0,1} raise ValueError.", "quantifier": "every probability and outcome, every true probability", "why_tests_cant": "continuum of probability pairs", "anchors": ["scoringrules/_brier.py:brier_score", "scoringrules/_brier.py:log_score", "scoringrules/core/utils.py:binary_array_check", "scoringrules/core/brier.py:brier_score"]}
{"id": "C31", "title": "RPS", "statement": "rps_score equals the sum over categories of Brier scores of the cumulative probabilities; giving the category number or its one-hot vector gives the same score; for two categories it is the Brier score; it is proper.", "quantifier": "every number of categories, every probability vector, every true distribution, any k_axis", "why_tests_cant": "the input space is a continuum of every ensemble size, value and tie pattern; tests sample a handful of random draws with a tolerance", "anchors": ["scoringrules/_brier.py:rps_score", "scoringrules/core/utils.py:categorical_array_check", "scoringrules/core/brier.py:rps_score"]}
{"id": "C32", "title": "Ranked logarithmic score", "statement": "rls_score equals the sum over categories of log scores of cumulative probabilities and is proper.", "quantifier": "every number of categories and probability vector", "why_tests_cant": "continuum", "anchors": ["scoringrules/_brier.py:rls_score", "scoringrules/core/brier.py:rls_score"]}
{"id": "C33", "title": "Energy score basics", "statement": "es_ensemble (nrg) agrees across paths, equals the CRPS (nrg) for one variable, is non-negative, zero when all members equal the observation, invariant under member permutation, translation and any isometry, homogeneous under scaling.", "quantifier": "every dimension, ensemble size and values", "why_tests_cant": "the input space is a continuum of every ensemble size, value and tie pattern; tests sample a handful of random draws with a tolerance", "anchors": ["scoringrules/_energy.py:es_ensemble", "scoringrules/core/energy/_gufuncs.py:estimator_gufuncs", "scoringrules/core/energy/_score.py:es_ensemble"]}
{"id": "C34", "title": "Energy score paths agree for every estimator, weighted or not", "statement": "For nrg, fair, akr, akr_circperm and for owes/vres, backend 'numpy' and 'numba' give the same value, with and without ensemble weights; constant weights equal no weights.", "quantifier": "every ensemble, dimension, weights", "why_tests_cant": "the input space is a continuum of every ensemble size, value and tie pattern; tests sample a handful of random draws with a tolerance; parity and non-uniform weights matter", "anchors": ["scoringrules/_energy.py:es_ensemble", "scoringrules/_energy.py:owes_ensemble", "scoringrules/_energy.py:vres_ensemble", "scoringrules/core/energy/_gufuncs_w.py:estimator_gufuncs_w", "scoringrules/core/energy/_score_w.py:es_ensemble_w"]}
{"id": "C35", "title": "The energy score is proper", "statement": "Averaged over observations drawn from the members of ensemble G, the nrg energy score of G is at most that of any other ensemble F.", "quantifier": "every pair of finite ensembles in every dimension", "why_tests_cant": "expectation inequality over all pairs", "anchors": ["scoringrules/_energy.py:es_ensemble"]}
{"id": "C36", "title": "Variogram score", "statement": "vs_ensemble: both paths agree for nrg and fair; nrg is non-negative for non-negative pair weights, invariant to adding a constant to all variables and to member permutations; a one-member ensemble equal to the observation scores zero.", "quantifier": "every dimension, ensemble size, exponent p>0, weight matrix", "why_tests_cant": "the input space is a continuum of every ensemble size, value and tie pattern; tests sample a handful of random draws with a tolerance", "anchors": ["scoringrules/_variogram.py:vs_ensemble", "scoringrules/core/variogram/_gufuncs.py:estimator_gufuncs", "scoringrules/core/variogram/_score.py:vs_ensemble"]}
{"id": "C37", "title": "Gaussian kernel score", "statement": "gksuv_ensemble and gksmv_ensemble: both paths agree for every documented estimator with and without weights; constant weights equal no weights; nrg is non-negative (the kernel is positive definite), zero when all members equal the observation; gksmv with one variable equals gksuv.", "quantifier": "every ensemble, dimension, weights, estimator", "why_tests_cant": "positive definiteness and agreement over a continuum", "anchors": ["scoringrules/_kernels.py:gksuv_ensemble", "scoringrules/_kernels.py:gksmv_ensemble", "scoringrules/core/kernels/_approx_w.py:ensemble_uv_w", "scoringrules/core/kernels/_gufuncs_w.py:estimator_gufuncs_uv_w"]}
{"id": "C38", "title": "Dawid-Sebastiani score", "statement": "dssuv_ensemble: both paths agree; translation invariant; scaling both by c shifts the score by 2 log|c|; the expected score of any (mean, variance) report is minimised by the true mean and variance.", "quantifier": "every ensemble with positive variance, every c", "why_tests_cant": "the input space is a continuum of every ensemble size, value and tie pattern; tests sample a handful of random draws with a tolerance", "anchors": ["scoringrules/_dss.py:dssuv_ensemble", "scoringrules/core/dss/_score.py:ds_score_uv", "scoringrules/core/dss/_gufuncs.py:_dss_uv_gufunc"]}
{"id": "C39", "title": "Error-spread score", "statement": "error_spread_score: both paths agree, is non-negative, translation invariant, invariant under reflection, homogeneous of degree 4.", "quantifier": "every ensemble with at least three members not all equal", "why_tests_cant": "the input space is a continuum of every ensemble size, value and tie pattern; tests sample a handful of random draws with a tolerance", "anchors": ["scoringrules/_error_spread.py:error_spread_score", "scoringrules/core/error_spread/_score.py:error_spread_score", "scoringrules/core/error_spread/_gufunc.py:_error_spread_score_gufunc"]}
{"id": "C40", "title": "Backend registry", "statement": "After any sequence of register, lookup and set_active operations: looking up an available name never fails and returns the same object until it is re-registered; looking up an unavailable name raises BackendNotAvailable and leaves the registry unchanged; the active backend is the last one set.", "quantifier": "every finite history of registry operations", "why_tests_cant": "infinitely many histories", "anchors": ["scoringrules/backend/registry.py:BackendsRegistry"]}
{"id": "C41", "title": "Scores do not modify their inputs", "statement": "Calling a scoring function leaves the caller's arrays unchanged, so calling twice with the same arrays gives the same result.", "quantifier": "every function with closed form, every input array", "why_tests_cant": "aliasing: tests pass fresh temporaries", "anchors": ["scoringrules/_crps.py:crps_exponentialM", "scoringrules/_logs.py:logs_exponential2", "scoringrules/core/crps/_closed.py:exponentialM", "scoringrules/core/logarithmic.py:exponential2"]}
{"id": "C42", "title": "Integer observations", "statement": "An integer-typed observation array gives the same score as the equal float-typed array.", "quantifier": "every integer observation and ensemble, every estimator, both paths", "why_tests_cant": "tests always use float arrays", "anchors": ["scoringrules/core/utils.py:lazy_gufunc_wrapper_uv", "scoringrules/core/crps/_gufuncs.py:_estimator_gufuncs"]}
{"id": "C43", "title": "crps_uniform is the CRPS of its distribution", "statement": "crps_uniform equals the integral over x of (F(x)-1{obs<=x})^2 for the documented distribution function F.", "quantifier": "every real observation and all parameters with min<max and point masses lmass,umass>=0 with lmass+umass<1", "why_tests_cant": "a closed form must hold on a continuum of observations and parameters; tests compare a few values with another package", "anchors": ["scoringrules/_crps.py:crps_uniform", "scoringrules/core/crps/_closed.py:uniform"]}
{"id": "C44", "title": "crps_exponential is the CRPS of its distribution", "statement": "crps_exponential equals the integral over x of (F(x)-1{obs<=x})^2 for the documented distribution function F.", "quantifier": "every real observation and all parameters with rate>0", "why_tests_cant": "a closed form must hold on a continuum of observations and parameters; tests compare a few values with another package", "anchors": ["scoringrules/_crps.py:crps_exponential", "scoringrules/core/crps/_closed.py:exponential", "scoringrules/core/stats.py:_exp_cdf"]}
{"id": "C45", "title": "crps_exponentialM is the CRPS of its distribution", "statement": "crps_exponentialM equals the integral over x of (F(x)-1{obs<=x})^2 for the documented distribution function F.", "quantifier": "every real observation and all parameters with scale>0, 0<=mass<=1", "why_tests_cant": "a closed form must hold on a continuum of observations and parameters; tests compare a few values with another package", "anchors": ["scoringrules/_crps.py:crps_exponentialM", "scoringrules/core/crps/_closed.py:exponentialM"]}
{"id": "C46", "title": "crps_laplace is the CRPS of its distribution", "statement": "crps_laplace equals the integral over x of (F(x)-1{obs<=x})^2 for the documented distribution function F.", "quantifier": "every real observation and all parameters with scale>0", "why_tests_cant": "a closed form must hold on a continuum of observations and parameters; tests compare a few values with another package", "anchors": ["scoringrules/_crps.py:crps_laplace", "scoringrules/core/crps/_closed.py:laplace"]}
{"id": "C47", "title": "crps_2pexponential is the CRPS of its distribution", "statement": "crps_2pexponential equals the integral over x of (F(x)-1{obs<=x})^2 for the documented distribution function F.", "quantifier": "every real observation and all parameters with scale1,scale2>0", "why_tests_cant": "a closed form must hold on a continuum of observations and parameters; tests compare a few values with another package", "anchors": ["scoringrules/_crps.py:crps_2pexponential", "scoringrules/core/crps/_closed.py:twopexponential"]}
{"id": "C48", "title": "crps_logistic is the CRPS of its distribution", "statement": "crps_logistic equals the integral over x of (F(x)-1{obs<=x})^2 for the documented distribution function F.", "quantifier": "every real observation and all parameters with scale>0", "why_tests_cant": "a closed form must hold on a continuum of observations and parameters; tests compare a few values with another package", "anchors": ["scoringrules/_crps.py:crps_logistic", "scoringrules/core/crps/_closed.py:logistic", "scoringrules/core/stats.py:_logis_cdf"]}
{"id": "C49", "title": "crps_gpd is the CRPS of its distribution", "statement": "crps_gpd equals the integral over x of (F(x)-1{obs<=x})^2 for the documented distribution function F.", "quantifier": "every real observation and all parameters with scale>0, shape<1, 0<=mass<=1", "why_tests_cant": "a closed form must hold on a continuum of observations and parameters; tests compare a few values with another package", "anchors": ["scoringrules/_crps.py:crps_gpd", "scoringrules/core/crps/_closed.py:gpd", "scoringrules/core/stats.py:_gpd_cdf"]}
{"id": "C50", "title": "crps_normal is the CRPS of its distribution", "statement": "crps_normal equals the integral over x of (F(x)-1{obs<=x})^2 for the documented distribution function F.", "quantifier": "every real observation and all parameters with sigma>0", "why_tests_cant": "a closed form must hold on a continuum of observations and parameters; tests compare a few values with another package", "anchors": ["scoringrules/_crps.py:crps_normal", "scoringrules/core/crps/_closed.py:normal", "scoringrules/core/stats.py:_norm_cdf"]}
{"id": "C51", "title": "Location-scale equivariance of closed forms", "statement": "For every location-scale family offered, crps(a+c*y; a+c*location, c*scale) = c*crps(y; location, scale) for c>0, and the log score shifts by log c.", "quantifier": "every a, every c>0, every observation and parameters", "why_tests_cant": "the input space is a continuum of every ensemble size, value and tie pattern; tests sample a handful of random draws with a tolerance", "anchors": ["scoringrules/core/crps/_closed.py:normal", "scoringrules/core/crps/_closed.py:logistic", "scoringrules/core/crps/_closed.py:laplace", "scoringrules/core/crps/_closed.py:twopexponential", "scoringrules/core/logarithmic.py:normal"]}
{"id": "C52", "title": "Nested families coincide", "statement": "Special cases agree: 2pexponential with equal scales = laplace; exponentialM with mass 0 = exponential; gpd with shape 0 = exponential; generalised truncated/censored normal and logistic without bounds = normal and logistic; mixnorm with one component = normal; 2pnormal with equal scales = normal.", "quantifier": "every parameter value", "why_tests_cant": "the input space is a continuum of every ensemble size, value and tie pattern; tests sample a handful of random draws with a tolerance", "anchors": ["scoringrules/core/crps/_closed.py:twopexponential", "scoringrules/core/crps/_closed.py:gtcnormal", "scoringrules/core/crps/_closed.py:gtclogistic", "scoringrules/core/crps/_closed.py:mixnorm"]}
{"id": "C53", "title": "Truncated/censored logistic accepts one-sided bounds", "statement": "crps_tlogistic, crps_clogistic and crps_gtclogistic with exactly one finite bound (the other left at its default) return a finite number.", "quantifier": "every finite bound, location, scale>0 and observation", "why_tests_cant": "tests only use two finite bounds or none", "anchors": ["scoringrules/core/crps/_closed.py:gtclogistic"]}
{"id": "C54", "title": "Truncated/censored t accepts a bound at the location", "statement": "crps_tt / crps_ct / crps_gtct with a finite bound equal to the location return a finite number.", "quantifier": "every location, scale, df>1", "why_tests_cant": "measure-zero boundary case", "anchors": ["scoringrules/core/crps/_closed.py:gtct"]}
{"id": "C55", "title": "crps_hypergeometric is the CRPS", "statement": "crps_hypergeometric(y;m,n,k) equals sum over the support of (F-1{y<=x})^2 for the hypergeometric distribution function.", "quantifier": "every m,n,k with k<=m+n, every y", "why_tests_cant": "tests check two parameter triples", "anchors": ["scoringrules/core/crps/_closed.py:hypergeometric"]}
{"id": "C56", "title": "crps_loglaplace is defined for non-positive observations", "statement": "crps_loglaplace equals the CRPS integral at every real observation, in particular it returns a finite number for observations <= 0, as its documentation's case distinction says.", "quantifier": "every obs<=0 and scalelog in (0,1)", "why_tests_cant": "tests use one positive observation", "anchors": ["scoringrules/core/crps/_closed.py:loglaplace"]}
{"id": "C57", "title": "Log scores are negative log densities", "statement": "For each continuous family with elementary density, exp(-logs(x)) is non-negative and integrates to one over the line; observations outside the support score +inf.", "quantifier": "every parameter value; families exponential, exponential2, 2pexponential, laplace, logistic, uniform, gpd, normal", "why_tests_cant": "normalisation is an integral over a continuum", "anchors": ["scoringrules/core/logarithmic.py:exponential", "scoringrules/core/logarithmic.py:exponential2", "scoringrules/core/logarithmic.py:twopexponential", "scoringrules/core/logarithmic.py:laplace", "scoringrules/core/logarithmic.py:logistic", "scoringrules/core/logarithmic.py:uniform", "scoringrules/core/logarithmic.py:normal"]}
{"id": "C58", "title": "Discrete log scores are negative log probabilities", "statement": "exp(-logs) sums to one over the support for the binomial, Poisson, negative binomial and hypergeometric families; outside the support the score is +inf.", "quantifier": "every parameter value", "why_tests_cant": "infinite sums over all parameters", "anchors": ["scoringrules/core/logarithmic.py:binomial", "scoringrules/core/logarithmic.py:poisson", "scoringrules/core/logarithmic.py:negbinom", "scoringrules/core/logarithmic.py:hypergeometric"]}
{"id": "C59", "title": "Alternative parameterisations are exclusive", "statement": "crps_gamma, crps_csg0, logs_gamma require exactly one of rate/scale and crps_negbinom, logs_negbinom exactly one of prob/mu (ValueError otherwise), and the two parameterisations give the same score when rate=1/scale, prob=n/(n+mu).", "quantifier": "every combination of given/omitted arguments and every value", "why_tests_cant": "the input space is a continuum of every ensemble size, value and tie pattern; tests sample a handful of random draws with a tolerance", "anchors": ["scoringrules/_crps.py:crps_gamma", "scoringrules/_crps.py:crps_csg0", "scoringrules/_crps.py:crps_negbinom", "scoringrules/_logs.py:logs_gamma", "scoringrules/_logs.py:logs_negbinom"]}
{"id": "C60", "title": "CORP decomposition", "statement": "In reliability_diagram's score decomposition, miscalibration and discrimination are non-negative and mean score = MCB - DSC + UNC.", "quantifier": "every sample of forecasts and binary outcomes, given that isotonic regression returns the least-squares monotone fit", "why_tests_cant": "every sample size and order", "anchors": ["scoringrules/visualization/reliability.py:reliability_diagram"]}
{"id": "C61", "title": "Adding exact copies of the ensemble changes nothing", "statement": "Duplicating every member the same number of times does not change the nrg/qd/int CRPS, while the fair/pwm CRPS never exceeds it: fair = nrg - (mean pairwise distance)/(2(M-1)).", "quantifier": "every ensemble and multiplicity", "why_tests_cant": "the input space is a continuum of every ensemble size, value and tie pattern; tests sample a handful of random draws with a tolerance", "anchors": ["scoringrules/_crps.py:crps_ensemble"]}
{"id": "C62", "title": "Zero-weight members are ignored", "statement": "A member with weight zero may be removed together with its weight without changing the score for nrg, fair, qd, pwm and int.", "quantifier": "every ensemble, weights, position, value of the zero-weight member, both paths", "why_tests_cant": "the input space is a continuum of every ensemble size, value and tie pattern; tests sample a handful of random draws with a tolerance", "anchors": ["scoringrules/_crps.py:crps_ensemble", "scoringrules/core/crps/_approx_w.py:ensemble_w", "scoringrules/core/crps/_gufuncs_w.py:estimator_gufuncs_w"]}
{"id": "C63", "title": "Conditional-likelihood log score for ensembles", "statement": "clogs_ensemble with default thresholds and cens=False equals logs_ensemble; observations outside [a,b] score zero.", "quantifier": "every ensemble, bandwidth, threshold", "why_tests_cant": "the input space is a continuum of every ensemble size, value and tie pattern; tests sample a handful of random draws with a tolerance", "anchors": ["scoringrules/_logs.py:clogs_ensemble", "scoringrules/_logs.py:logs_ensemble", "scoringrules/core/logarithmic.py:clogs_ensemble"]}
{"id": "C64", "title": "Multivariate weights follow m_axis and v_axis", "statement": "es_ensemble, vs_ensemble and gksmv_ensemble with ensemble weights give, for every pair of distinct axes m_axis and v_axis, the same result as first moving the ensemble axis to -2 and the variable axis to -1.", "quantifier": "every rank, every pair of distinct axes", "why_tests_cant": "tests use default axes with weights", "anchors": ["scoringrules/core/utils.py:multivariate_weight_check", "scoringrules/core/utils.py:multivariate_array_check"]}
{"id": "C65", "title": "Weighted pwm equals weighted fair", "statement": "With ensemble weights the pwm estimator equals the fair estimator, as it does without weights.", "quantifier": "every ensemble, all non-negative weights not concentrated on one member, both paths", "why_tests_cant": "non-uniform weights and a continuum of values; tests compare with constant weights", "anchors": ["scoringrules/_crps.py:crps_ensemble", "scoringrules/core/crps/_approx_w.py:ensemble_w", "scoringrules/core/crps/_gufuncs_w.py:estimator_gufuncs_w"]}
{"id": "C66", "title": "Out-of-range m_axis is rejected", "statement": "crps_ensemble raises an error when m_axis is not a valid axis of the forecast array.", "quantifier": "every shape and every integer axis", "why_tests_cant": "the range of integers is unbounded and the failure needs coinciding axis lengths", "anchors": ["scoringrules/_crps.py:crps_ensemble", "scoringrules/core/utils.py:univariate_array_check"]}
{"id": "C67", "title": "Per-observation thresholds in clogs_ensemble", "statement": "clogs_ensemble with array-valued thresholds a, b of the shape of obs applies to each observation its own thresholds, as the docstring (array_like a, b) says.", "quantifier": "every number of observations and members", "why_tests_cant": "broadcast alignment errors only show for particular shape combinations; tests use scalar thresholds", "anchors": ["scoringrules/_logs.py:clogs_ensemble", "scoringrules/core/logarithmic.py:clogs_ensemble"]}
{"id": "C68", "title": "CORP decomposition does not depend on the order of the sample", "statement": "The numbers MCB, DSC and UNC printed by reliability_diagram are unchanged by any reordering of the (observation, forecast) pairs.", "quantifier": "every sample, including tied forecasts, and every permutation", "why_tests_cant": "tests draw continuous random forecasts, which have no ties", "anchors": ["scoringrules/visualization/reliability.py:corp_reliability", "scoringrules/visualization/reliability.py:corp_score_decomposition"]}
{"id": "C69", "title": "CRPS of truncated, censored and generalised normal distributions", "statement": "crps_gtcnormal with lmass+umass<1 equals the integral of (F-1{y<=x})^2, where F is the normal distribution restricted to [lower,upper] with point masses lmass, umass at the ends; crps_tnormal and crps_cnormal are the truncated and censored cases, with finite or infinite bounds.", "quantifier": "every location, scale>0, lower<upper (finite or infinite), masses, observation", "why_tests_cant": "equality with an integral over a continuum of parameters", "anchors": ["scoringrules/core/crps/_closed.py:gtcnormal", "scoringrules/_crps.py:crps_tnormal", "scoringrules/_crps.py:crps_cnormal"]}
{"id": "C70", "title": "CRPS of truncated and censored logistic distributions with two finite bounds", "statement": "crps_gtclogistic, crps_tlogistic and crps_clogistic equal the CRPS integral when both bounds are finite (one finite bound: see C53).", "quantifier": "every location, scale>0, lower<upper, masses with lmass+umass<1, observation", "why_tests_cant": "equality with an integral over a continuum of parameters", "anchors": ["scoringrules/core/crps/_closed.py:gtclogistic", "scoringrules/_crps.py:crps_tlogistic", "scoringrules/_crps.py:crps_clogistic"]}
{"id": "C71", "title": "CRPS of the two-piece normal distribution", "statement": "crps_2pnormal equals the CRPS integral of the two-piece normal distribution.", "quantifier": "every scale1,scale2>0, location, observation", "why_tests_cant": "equality with an integral over a continuum of parameters", "anchors": ["scoringrules/_crps.py:crps_2pnormal"]}
{"id": "C72", "title": "CRPS of normal mixtures", "statement": "crps_mixnorm equals the CRPS integral of the mixture distribution function.", "quantifier": "every number of components, means, positive standard deviations, non-negative weights summing to one, observation", "why_tests_cant": "any number of components and a continuum of parameters", "anchors": ["scoringrules/core/crps/_closed.py:mixnorm"]}
{"id": "C73", "title": "CRPS of the log-normal distribution", "statement": "crps_lognormal equals the CRPS integral at every real observation.", "quantifier": "every mulog, sigmalog>0, real observation (also zero and negative)", "why_tests_cant": "tests use one positive observation", "anchors": ["scoringrules/core/crps/_closed.py:lognormal"]}
{"id": "C74", "title": "CRPS of the log-logistic distribution", "statement": "crps_loglogistic equals the CRPS integral at every real observation.", "quantifier": "every mulog, sigmalog in (0,1), real observation (also zero and negative)", "why_tests_cant": "tests use one positive observation", "anchors": ["scoringrules/core/crps/_closed.py:loglogistic"]}
{"id": "C75", "title": "CRPS of the gamma distribution", "statement": "crps_gamma equals the CRPS integral of the gamma distribution at every real observation, given a rate or a scale.", "quantifier": "every shape>0, rate or scale>0, real observation", "why_tests_cant": "equality with an integral over a continuum of parameters, through incomplete gamma functions", "anchors": ["scoringrules/core/crps/_closed.py:gamma", "scoringrules/_crps.py:crps_gamma"]}
{"id": "C76", "title": "CRPS of the censored, shifted gamma distribution", "statement": "crps_csg0 equals the CRPS integral of the gamma distribution shifted to the left and censored at zero.", "quantifier": "every shape>0, rate or scale>0, shift, real observation (also negative)", "why_tests_cant": "tests use a few positive observations", "anchors": ["scoringrules/core/crps/_closed.py:csg0", "scoringrules/_crps.py:crps_csg0"]}
{"id": "C77", "title": "CRPS of the beta distribution", "statement": "crps_beta equals the CRPS integral of the beta distribution on [lower, upper] at every real observation.", "quantifier": "every a,b>0, lower<upper, real observation (also outside the interval)", "why_tests_cant": "tests use observations inside the interval", "anchors": ["scoringrules/core/crps/_closed.py:beta"]}
{"id": "C78", "title": "CRPS of Student's t distribution", "statement": "crps_t equals the CRPS integral of the location-scale t distribution.", "quantifier": "every df>1, location, scale>0, real observation", "why_tests_cant": "equality with an integral over a continuum of parameters, through the incomplete beta function", "anchors": ["scoringrules/core/crps/_closed.py:t"]}
{"id": "C79", "title": "CRPS of the binomial distribution", "statement": "crps_binomial equals the CRPS of the binomial distribution, up to an error below 2 p^n |n-y| 1e-36 / ((n+1)(1-p)) caused by the constant 1e-36 in the distribution function.", "quantifier": "every number of trials, probability in [0,1], real observation", "why_tests_cant": "tests compare three cases with prob below one; prob = 1 is never used", "anchors": ["scoringrules/core/crps/_closed.py:binomial", "scoringrules/core/stats.py:_binom_cdf"]}
{"id": "C80", "title": "CRPS of the Poisson distribution", "statement": "crps_poisson equals the CRPS of the Poisson distribution at every real observation, including negative and non-integer ones.", "quantifier": "every mean >= 0 and real observation", "why_tests_cant": "an infinite sum and two Bessel functions; tests use a few values", "anchors": ["scoringrules/core/crps/_closed.py:poisson", "scoringrules/core/stats.py:_pois_cdf"]}
{"id": "C81", "title": "CRPS of the negative binomial distribution", "statement": "crps_negbinom equals the CRPS of the negative binomial distribution with real size, in both parametrisations.", "quantifier": "every size > 0, probability in (0,1] or mean >= 0, real observation", "why_tests_cant": "an infinite sum and a hypergeometric function; tests use a few values", "anchors": ["scoringrules/core/crps/_closed.py:negbinom", "scoringrules/core/stats.py:_negbinom_cdf", "scoringrules/_crps.py:crps_negbinom"]}
{"id": "C82", "title": "Generalised extreme value CRPS", "statement": "crps_gev returns the integral of (F(z) - 1{y <= z})^2 for the generalised extreme value distribution F; for shape zero it returns that integral up to scale times the error of the stored decimal expansion of Euler's constant, which is at most 1e-7.", "quantifier": "every real observation and location, every positive scale, every shape below one, including observations outside the support", "why_tests_cant": "the formula has four branches (sign of the shape, inside or outside the support) and involves incomplete gamma and exponential integrals; tests compare a few points with stored values", "anchors": ["scoringrules/_crps.py:crps_gev", "scoringrules/core/crps/_closed.py:gev", "scoringrules/core/stats.py:_gev_cdf"]}
{"id": "C83", "title": "Truncated and censored t CRPS", "statement": "For more than one degree of freedom, crps_gtct, crps_tt and crps_ct return the integral of the squared difference between the t distribution function restricted to the bounds (with the given point masses; rescaled for truncation; with the outside mass moved to the bounds for censoring) and the observation step.", "quantifier": "all real observations and locations, all scales > 0, df > 1, all bounds lower < upper finite or infinite, all point masses >= 0 with sum < 1", "why_tests_cant": "The formula combines incomplete beta values through the sign u/|u| of each bound; tests compare against a few reference values, none with a bound at the location, and cannot cover the continuum.", "anchors": ["scoringrules/core/crps/_closed.py:gtct", "scoringrules/_crps.py:crps_gtct", "scoringrules/_crps.py:crps_tt", "scoringrules/_crps.py:crps_ct"]}
{"id": "C84", "title": "Multivariate Dawid-Sebastiani score", "statement": "dssmv_ensemble returns (y-m)' S^-1 (y-m) + log det S for the ensemble mean m and covariance S (divisor M-1, or M with bias); it raises for singular S, gives the same on both paths, changes by 2 log|det A| under an invertible affine map, does not depend on member order, agrees with dssuv_ensemble for one variable, and is strictly proper for the first two moments.", "quantifier": "all numbers of variables and members, all real observations and members, both paths, both values of bias, all array shapes and axes; propriety over all outcome distributions with positive definite covariance", "why_tests_cant": "Strict propriety and equivariance quantify over all distributions and all matrices; the repository tests use a few random arrays with several variables.", "anchors": ["scoringrules/_dss.py:dssmv_ensemble", "scoringrules/core/dss/_gufuncs.py:_dss_mv_gufunc", "scoringrules/core/dss/_score.py:ds_score_mv"]}
{"id": "C85", "title": "Normal mixture scores on arrays", "statement": "crps_mixnorm and logs_mixnorm move the component axis of every parameter array to the end and return, for every observation, the CRPS (minus the logarithm of the density) of the mixture whose means, scales and weights are the slices along that axis; without weights every component has weight 1/M.", "quantifier": "arrays of any rank, every valid component axis (positive or negative), all real observations and means, scales > 0, weights >= 0 with sum one or none, at least one component", "why_tests_cant": "Tests use one-dimensional parameters and the default axis; a parameter moved along the wrong axis gives plausible numbers.", "anchors": ["scoringrules/_crps.py:crps_mixnorm", "scoringrules/_logs.py:logs_mixnorm", "scoringrules/core/crps/_closed.py:mixnorm", "scoringrules/core/logarithmic.py:mixnorm"]}
{"id": "C86", "title": "Backends agree on discrete distributions", "statement": "The gamma, beta, factorial and binomial functions of the jax and torch backends have the values of the numpy backend, and so do the scores of the discrete distributions built from them (binomial, negative binomial, Poisson, hypergeometric).", "quantifier": "all positive arguments of gamma and beta, all natural n and k, all real sizes, all three array backends", "why_tests_cant": "Backend tests compare a few integer parameters; non-integer sizes and k > n are skipped (one test carries a TODO asking why the results differ).", "anchors": ["scoringrules/backend/jax.py:comb", "scoringrules/backend/torch.py:comb", "scoringrules/backend/numpy.py:comb", "scoringrules/core/stats.py:_negbinom_pdf"]}
{"id": "C87", "title": "apply_along_axis of the torch backend", "statement": "apply_along_axis applies the function to every slice along the last axis, as numpy does, whether or not torch's vmap accepts the function.", "quantifier": "all arrays of any rank, all functions on slices", "why_tests_cant": "Tests only exercise functions that vmap accepts; the fallback branch is never reached.", "anchors": ["scoringrules/backend/torch.py:apply_along_axis", "scoringrules/backend/numpy.py:apply_along_axis"]}
{"id": "C88", "title": "NaN-omitting akr estimators", "statement": "The NaN-omitting gufuncs of the akr and akr_circperm estimators return the plain estimator of the members that are not NaN, in their order, and NaN if there is none.", "quantifier": "all real observations, all ensembles of real numbers and NaN, any number and positions of NaN members", "why_tests_cant": "Neither function is called by the public interface or by any test; the cyclic pairing over non-NaN members has to be right for every pattern of NaN.", "anchors": ["scoringrules/core/crps/_gufuncs.py:_crps_ensemble_akr_nanomit_gufunc", "scoringrules/core/crps/_gufuncs.py:_crps_ensemble_akr_circperm_nanomit_gufunc"]}
{"id": "C89", "title": "Multivariate NaN policy", "statement": "apply_nan_policy_ens_mv raises under 'raise' exactly if some value is NaN; under 'omit' it marks exactly the members containing a NaN, replaces them by zeros and keeps everything else; any other policy returns the input unchanged.", "quantifier": "all observation vectors, all ensembles of any size, all policy strings", "why_tests_cant": "The function is not called or tested anywhere in the repository.", "anchors": ["scoringrules/core/utils.py:apply_nan_policy_ens_mv", "scoringrules/core/utils.py:nan_policy_check"]}
{"id": "C90", "title": "Binomial CRPS on arrays", "statement": "crps_binomial on arrays returns an array of the broadcast shape of its arguments that holds the score of every element; one-dimensional arguments of unequal length raise ValueError.", "quantifier": "all arrays of observations, numbers of trials and probabilities that broadcast together", "why_tests_cant": "Tests pass scalars and one-dimensional arrays; the hand-made insertion of axes only shows its error for matrices, and silently when the second length is n + 1.", "anchors": ["scoringrules/core/crps/_closed.py:binomial", "scoringrules/_crps.py:crps_binomial"]}
{"id": "C91", "title": "Hypergeometric CRPS on arrays", "statement": "crps_hypergeometric on arrays returns an array of the broadcast shape of its arguments that holds the score of every element.", "quantifier": "all arrays of observations and integer parameters that broadcast together", "why_tests_cant": "Tests pass scalars and equal shapes; an array n that has to be broadcast is never tried.", "anchors": ["scoringrules/core/crps/_closed.py:hypergeometric", "scoringrules/_crps.py:crps_hypergeometric"]}
{"id": "C92", "title": "Outcome-weighted and re-scaled scores on arrays", "statement": "owes_ensemble, vres_ensemble, owvs_ensemble, vrvs_ensemble, owgksmv_ensemble and vrgksmv_ensemble without ensemble weights, and owgksuv_ensemble and vrgksuv_ensemble with or without them, do on whole arrays what they do on every slice alone: the result has the remaining shape, each entry is the score of its slice, and the call raises exactly when the call on some slice raises (a negative outcome weight).", "quantifier": "all array shapes of any rank, all valid pairs of axes, all weight functions, both code paths, infinities and NaN included", "why_tests_cant": "Tests use two or three fixed shapes and the default axes; the weight function is applied along an axis of an already transposed array, which only other axis orders would reveal.", "anchors": ["scoringrules/_energy.py:owes_ensemble", "scoringrules/_energy.py:vres_ensemble", "scoringrules/_variogram.py:owvs_ensemble", "scoringrules/_variogram.py:vrvs_ensemble", "scoringrules/_kernels.py:owgksmv_ensemble", "scoringrules/_kernels.py:vrgksmv_ensemble", "scoringrules/_kernels.py:owgksuv_ensemble", "scoringrules/_kernels.py:vrgksuv_ensemble", "scoringrules/core/utils.py:mv_weighted_score_weights"]}
{"id": "C93", "title": "Outcome-weighted multivariate scores with ensemble weights on arrays", "statement": "The six multivariate outcome-weighted and re-scaled scores with ensemble weights do on whole arrays what they do on every slice alone.", "quantifier": "all array shapes of any rank, all valid pairs of axes, all weight functions and ensemble weights, both code paths", "why_tests_cant": "Tests pass weights for the default axes only.", "anchors": ["scoringrules/_energy.py:owes_ensemble", "scoringrules/_variogram.py:owvs_ensemble", "scoringrules/_kernels.py:vrgksmv_ensemble", "scoringrules/core/utils.py:multivariate_weight_check", "scoringrules/core/kernels/_gufuncs_w.py:_vrks_ensemble_mv_w_gufunc"]}
{"id": "C94", "title": "Documented estimators are accepted on all arrays", "statement": "es_ensemble, vs_ensemble, gksmv_ensemble and gksuv_ensemble with a documented estimator return for all arrays of consistent shapes, and each entry is the score of its slice alone; with ensemble weights they act slice by slice, raising only if some slice does.", "quantifier": "all array shapes of any rank, all valid axes (with multivariate weights: ensemble axis before variable axis), all documented estimators, both code paths", "why_tests_cant": "Only a few shapes and axis orders are tested.", "anchors": ["scoringrules/_energy.py:es_ensemble", "scoringrules/_variogram.py:vs_ensemble", "scoringrules/_kernels.py:gksmv_ensemble", "scoringrules/_kernels.py:gksuv_ensemble"]}
{"id": "C95", "title": "The vectorised CRPS code acts on every slice separately", "statement": "Executing the array code of the CRPS estimators (new axes, broadcasts, reductions over negative axes, rolls, fancy indexing, concatenation and in-place products included) on observations of shape s and members of shape s + (M,) raises nothing and returns an array of shape s whose entry i is what the same code returns for observation i and its M members alone; for vr_ensemble, whose last factor averages over axis=1, the outcome (exceptions included) is that of the slice-wise formula with that average.", "quantifier": "for all shapes s of any rank, all ensemble sizes M (zero and one included), all entries (NaN and infinities included), all estimators, unweighted and weighted, outcome-weighted and vertically re-scaled, and the quantile form", "why_tests_cant": "a wrong axis or a misplaced None gives right answers for the ranks and square shapes that tests happen to use; the statement is for every rank and shape", "anchors": ["scoringrules/core/crps/_approx.py:_crps_ensemble_fair", "scoringrules/core/crps/_approx.py:_crps_ensemble_int", "scoringrules/core/crps/_approx.py:ow_ensemble", "scoringrules/core/crps/_approx.py:vr_ensemble", "scoringrules/core/crps/_approx_w.py:_crps_ensemble_fair_w", "scoringrules/core/crps/_approx_w.py:_crps_ensemble_akr_circperm_w"]}
{"id": "C96", "title": "Vectorised energy score acts vector by vector", "statement": "For observations of shape s+(D,), ensembles of shape s+(M,D) and weights of matching shape, every estimator of the energy score (and its outcome-weighted and vertically re-scaled forms), run on the whole arrays with all new axes, broadcasts, axis arguments and in-place products, returns an array of shape s whose entry i is the formula for observation vector i and its ensemble alone; equivalently, it equals running the same array code on that vector and its ensemble.", "quantifier": "for all batch shapes s (any rank), all M and D, all array entries including nan and infinities", "why_tests_cant": "Tests run a handful of shapes, mostly with s of rank 0 or 1, where swapped axes often still broadcast; they cannot cover every rank, nor M = D, where a wrong axis goes unnoticed.", "anchors": ["scoringrules/core/energy/_score.py:es_ensemble", "scoringrules/core/energy/_score.py:owes_ensemble", "scoringrules/core/energy/_score_w.py:es_ensemble_w"]}
{"id": "C97", "title": "Vectorised variogram score acts vector by vector", "statement": "For observations of shape s+(D,), ensembles of shape s+(M,D) and pair weights of shape either s+(D,D) or (D,D), every estimator of the variogram score (and the outcome-weighted and vertically re-scaled forms), run on the whole arrays, returns an array of shape s whose entry i is the formula for observation vector i, its ensemble and its own matrix of pair weights; a matrix without batch axes is used for every i.", "quantifier": "for all batch shapes s (any rank), all M and D, all exponents p, all array entries including nan and infinities", "why_tests_cant": "Four-axis broadcasts are only exercised by tests at one or two shapes; a pair weight attached to the wrong axis is invisible for symmetric or constant weights.", "anchors": ["scoringrules/core/variogram/_score.py:vs_ensemble", "scoringrules/core/variogram/_score_w.py:vs_ensemble_w"]}
{"id": "C98", "title": "Vectorised kernel scores act slice by slice", "statement": "Every univariate and multivariate estimator of the Gaussian kernel score (plain, weighted, outcome-weighted, vertically re-scaled), run on whole arrays of batch shape s, returns an array of shape s whose entry i is the formula for observation i and its ensemble alone; equivalently, it equals running the same array code on that slice.", "quantifier": "for all batch shapes s (any rank), all M and D, all array entries including nan and infinities", "why_tests_cant": "Tests compare a few fixed shapes between backends; they cannot cover every rank, and a transposed pair matrix is invisible for a symmetric kernel unless weights are asymmetric.", "anchors": ["scoringrules/core/kernels/_approx.py:ensemble_uv", "scoringrules/core/kernels/_approx.py:ensemble_mv", "scoringrules/core/kernels/_approx_w.py:ensemble_uv_w"]}
{"id": "C99", "title": "Public ensemble functions, run on whole arrays, give one score per observation", "statement": "On a backend other than numba, every public ensemble score (crps, quantile crps, energy, variogram, univariate and multivariate Gaussian kernel score, with their threshold-weighted, outcome-weighted and vertically re-scaled forms), executed literally - argument checks, axis moves, weight checks, sorting, NaN policy, then the vectorised array code on whole arrays - has the same outcome (same exception, or same shape and entries) as the same checks followed by the one-observation formula for every observation.", "quantifier": "for all array ranks and shapes, axis arguments, weights, estimator names, nan policies and array entries; for multivariate scores the two axis arguments denote two different axes", "why_tests_cant": "Argument checks and array code interact: a check that lets a wrong shape through would make the array code broadcast silently. Tests cannot enumerate shapes, axes and weights jointly.", "anchors": ["scoringrules/_crps.py:crps_ensemble", "scoringrules/_crps.py:vrcrps_ensemble", "scoringrules/_energy.py:es_ensemble", "scoringrules/_variogram.py:vs_ensemble", "scoringrules/_kernels.py:gksuv_ensemble", "scoringrules/_kernels.py:gksmv_ensemble", "scoringrules/core/utils.py:univariate_array_check"]}
{"id": "C100", "title": "Variogram pair weights may differ between observations", "statement": "When the array `w` of pair weights has the axes of the observations in front of its last two axes, vs_ensemble (estimators nrg and fair), owvs_ensemble and vrvs_ensemble score every observation with its own matrix of pair weights, on the numba path and on the array path; a single matrix is used for every observation.", "quantifier": "for all array ranks and shapes, pairs of distinct axes, pair weights, orders p, weight functions and array entries; with ensemble weights the ensemble axis precedes the variable axis (C64 has the other order)", "why_tests_cant": "A test with one observation, or with equal matrices, cannot tell which matrix is used where; broadcasting of `w` against a wrong axis gives plausible numbers.", "anchors": ["scoringrules/_variogram.py:vs_ensemble", "scoringrules/_variogram.py:owvs_ensemble", "scoringrules/_variogram.py:vrvs_ensemble", "scoringrules/core/utils.py:lazy_gufunc_wrapper_mv"]}
{"id": "C101", "title": "CRPS functions are strictly proper scores", "statement": "For every law P of the observation with a finite mean (concentrated where the score is defined), the mean of the CRPS function of a forecast with distribution function G exists and equals the entropy of P, the integral of F(1-F), plus the integral of the squared difference between G and the distribution function F of P; that last term is zero exactly when F = G. So the expected score is smallest for the true distribution and only there. Holds of each closed form whose value is the CRPS of its forecast distribution and of the ensemble score (with or without weights) with the empirical distribution of the members.", "quantifier": "all laws with a finite mean (densities, atoms and mixtures alike), all admissible parameters of each family, all ensembles of any size", "why_tests_cant": "An expectation under an arbitrary unknown law is not something a test can evaluate; a simulation can only show that one wrong forecast scores worse on average, up to noise.", "anchors": ["scoringrules/_crps.py:crps_ensemble", "scoringrules/_crps.py:crps_normal", "scoringrules/_crps.py:crps_logistic", "scoringrules/_crps.py:crps_gamma", "scoringrules/_crps.py:crps_beta", "scoringrules/_crps.py:crps_poisson", "scoringrules/_crps.py:crps_t", "scoringrules/core/crps/_closed.py:normal", "scoringrules/core/crps/_approx.py:ensemble"]}
{"id": "C102", "title": "Logarithmic scores are strictly proper", "statement": "Let the observation have any law with a density p (or, for the discrete families, any mass function on the non-negative integers). Whenever both means exist, the mean of the logarithmic score of a forecast is at least the mean of -log p, and the two are equal only if the forecast distribution is the law itself. Under a normal law the mean score of another normal forecast is log s' + log(2 pi)/2 + (s^2 + (m-m')^2)/(2 s'^2).", "quantifier": "all laws with a density or a mass function, all admissible parameters of every family (negative binomial: size at least one)", "why_tests_cant": "A comparison of two expectations under an arbitrary law; simulations can only rank a few fixed forecasts up to noise.", "anchors": ["scoringrules/_logs.py:logs_normal", "scoringrules/_logs.py:logs_beta", "scoringrules/_logs.py:logs_gamma", "scoringrules/_logs.py:logs_gev", "scoringrules/_logs.py:logs_gpd", "scoringrules/_logs.py:logs_poisson", "scoringrules/_logs.py:logs_binomial", "scoringrules/_logs.py:logs_hypergeometric", "scoringrules/_logs.py:logs_negbinom", "scoringrules/_logs.py:logs_t", "scoringrules/core/logarithmic.py:normal"]}
{"id": "C103", "title": "Gaussian kernel scores are strictly proper", "statement": "Let the observation have any probability law P on the line or in Euclidean space of any dimension. The mean of the Gaussian kernel score of an ensemble (estimator nrg, with or without ensemble weights, either path) exists and equals the entropy of P plus half the squared kernel distance of P and the weighted empirical distribution; the distance is zero only if the two laws are equal. The outcome-weighted score does the same for the laws re-weighted with the outcome weight and normalised, the vertically re-scaled score for the re-weighted measures.", "quantifier": "all laws of the observation (vertically re-scaled: the weight has a second moment), all ensembles, dimensions, measurable non-negative outcome weights and ensemble weights", "why_tests_cant": "A statement about expectations under arbitrary laws with an equality case; it needs that the Gaussian kernel separates all finite measures.", "anchors": ["scoringrules/_kernels.py:gksuv_ensemble", "scoringrules/_kernels.py:gksmv_ensemble", "scoringrules/_kernels.py:owgksuv_ensemble", "scoringrules/_kernels.py:owgksmv_ensemble", "scoringrules/_kernels.py:vrgksuv_ensemble", "scoringrules/_kernels.py:vrgksmv_ensemble"]}
{"id": "C104", "title": "Energy score and distance-based weighted scores are strictly proper", "statement": "Let the observation have any law with a finite first moment. The mean of the energy score of an ensemble (nrg, weighted or not) is the entropy of the law plus half the squared energy distance of the law and the weighted empirical distribution, and the distance is zero only if the two are equal. The outcome-weighted energy score and every entry of the outcome-weighted CRPS do the same for the re-weighted, normalised laws. The vertically re-scaled energy score and CRPS do it for the re-weighted measures, with the distance centred at zero: it is zero exactly if the re-weighted measures agree off the origin.", "quantifier": "all laws with the stated moments, all ensembles, dimensions, measurable non-negative outcome weights and ensemble weights (outcome-weighted energy score with ensemble weights: array path; vertically re-scaled CRPS without ensemble weights on the array path: two-dimensional arrays)", "why_tests_cant": "Expectations under arbitrary laws, with an equality case that needs the representation of the distance as a mixture of Gaussian kernels.", "anchors": ["scoringrules/_energy.py:es_ensemble", "scoringrules/_energy.py:owes_ensemble", "scoringrules/_energy.py:vres_ensemble", "scoringrules/_crps.py:owcrps_ensemble", "scoringrules/_crps.py:vrcrps_ensemble"]}
{"id": "C105", "title": "A missing value gives a missing kernel, energy or variogram score", "statement": "If the observation, a component of a member or an ensemble weight is NaN, every call of the Gaussian kernel scores, the energy scores or the variogram scores (plain, outcome-weighted and vertically re-scaled) that returns a number returns NaN: no path and no estimator hides a missing value. The variogram score of order zero is the exception, since nan**0 is one.", "quantifier": "all observations, ensembles, dimensions (positive for the variogram scores), weights, weight functions, estimator strings and both code paths; variogram order not zero", "why_tests_cant": "Needs every position of the NaN, every ensemble size and every estimator; tests use finite data.", "anchors": ["scoringrules/_kernels.py:gksuv_ensemble", "scoringrules/_kernels.py:gksmv_ensemble", "scoringrules/_kernels.py:owgksuv_ensemble", "scoringrules/_kernels.py:vrgksuv_ensemble", "scoringrules/_kernels.py:owgksmv_ensemble", "scoringrules/_kernels.py:vrgksmv_ensemble", "scoringrules/_energy.py:es_ensemble", "scoringrules/_energy.py:owes_ensemble", "scoringrules/_energy.py:vres_ensemble", "scoringrules/_variogram.py:vs_ensemble", "scoringrules/_variogram.py:owvs_ensemble", "scoringrules/_variogram.py:vrvs_ensemble"]}
{"id": "C106", "title": "A missing observation gives a missing closed-form score", "statement": "If the observation is NaN, every closed-form CRPS and every parametric logarithmic score is NaN, whatever the parameters. The CRPS does this for all families. The claim is false for the log scores of the uniform law (a finite score, as if inside the interval), the beta law with both shapes one (finite), and the negative binomial, generalised Pareto, generalised extreme value (shape not zero) and hypergeometric laws (+inf).", "quantifier": "all parameters, finite or not (mixtures with at least one component; the beta CRPS may raise for an empty interval)", "why_tests_cant": "A test would have to try NaN in every family with every parameter branch; the suite uses valid observations only.", "anchors": ["scoringrules/_logs.py:logs_uniform", "scoringrules/_logs.py:logs_negbinom", "scoringrules/_logs.py:logs_gpd", "scoringrules/_logs.py:logs_gev", "scoringrules/_logs.py:logs_hypergeometric", "scoringrules/_logs.py:logs_beta", "scoringrules/_logs.py:logs_normal", "scoringrules/_crps.py:crps_normal", "scoringrules/_crps.py:crps_beta", "scoringrules/_crps.py:crps_mixnorm"]}
{"id": "C107", "title": "Missing values in the binary, ranked, quantile, interval, Dawid-Sebastiani, error-spread and ensemble log scores", "statement": "A NaN in the data of a case gives a NaN score or an error. The claim is false for three functions: rps_score and rls_score treat a missing category as no category (all-zero one-hot vector) and return a number; clogs_ensemble treats a missing observation as one outside the thresholds (score 0, or the finite censored score); the array code of the weighted interval score without intervals does not use the observation.", "quantifier": "all shapes, parameters, positions of the NaN and code paths (interval scores before the axes of length one are dropped and on scalars; clogs with scalar thresholds)", "why_tests_cant": "Tests use complete data; the wrong results are ordinary finite numbers, so nothing signals the loss.", "anchors": ["scoringrules/_brier.py:brier_score", "scoringrules/_brier.py:log_score", "scoringrules/_brier.py:rps_score", "scoringrules/_brier.py:rls_score", "scoringrules/_quantile.py:quantile_score", "scoringrules/_interval.py:interval_score", "scoringrules/_interval.py:weighted_interval_score", "scoringrules/_crps.py:crps_quantile", "scoringrules/_dss.py:dssuv_ensemble", "scoringrules/_dss.py:dssmv_ensemble", "scoringrules/_error_spread.py:error_spread_score", "scoringrules/_logs.py:logs_ensemble", "scoringrules/_logs.py:clogs_ensemble"]}
{"id": "C108", "title": "Quantile and interval scores are smallest for the quantiles of the law of the observation", "statement": "For every law of the observation with a finite mean, the reports with the smallest expected quantile_score at level alpha are exactly the alpha-quantiles of that law (all of them, if there are several); those of interval_score at alpha > 0 are exactly the intervals between an alpha/2-quantile and a (1-alpha/2)-quantile; those of crps_quantile are exactly the vectors of quantiles at the given levels; those of weighted_interval_score with positive weights are exactly a median together with such intervals.", "quantifier": "all laws on the real line with finite mean (atoms, gaps and mixtures allowed), all levels in [0,1], all alpha > 0, any number of levels or intervals, all positive weights", "why_tests_cant": "A test draws from one law and compares a handful of reports by a noisy average; that every quantile is a minimiser and nothing else is, for every law including those with atoms and flat parts, is a statement about expectations that no finite sample decides.", "anchors": ["scoringrules/_quantile.py:quantile_score", "scoringrules/_interval.py:interval_score", "scoringrules/_interval.py:weighted_interval_score", "scoringrules/_crps.py:crps_quantile"]}
{"id": "C109", "title": "Threshold-weighted scores are proper and see exactly what the chaining function keeps", "statement": "For thresholds a <= b the expected twcrps_ensemble under any law of the observation (with a finite mean unless both thresholds are finite) is an entropy of the law on [a,b] plus the integral over [a,b] of the squared difference of the distribution functions of forecast and law, and that integral is zero exactly if they agree at all points z with a <= z < b. With any measurable chaining function v, the expected twcrps, twes, twgksuv and twgksmv scores are the entropy of the law of v(Y) plus half the squared kernel distance of the laws of v(Y) and of the transformed ensemble, which is zero exactly if these laws are equal; with and without ensemble weights for the energy and kernel scores and the interval thresholds.", "quantifier": "all laws of the observation on the line or in any dimension D, all thresholds finite or infinite, all measurable chaining functions that keep NaN, all non-empty ensembles and non-negative weights with positive sum, both code paths", "why_tests_cant": "Properness is a statement about expectations under all laws; tests compare a few samples, and cannot show that nothing outside the region has any influence on the expected score, nor that agreement on the region is necessary for the minimum.", "anchors": ["scoringrules/_crps.py:twcrps_ensemble", "scoringrules/_energy.py:twes_ensemble", "scoringrules/_kernels.py:twgksuv_ensemble", "scoringrules/_kernels.py:twgksmv_ensemble"]}
{"id": "C110", "title": "Variogram scores are proper and see exactly the expected variograms", "statement": "For every law of the observation under which |Yi-Yj|^p has a finite second moment, the expected vs_ensemble is the weighted sum of the variances of |Yi-Yj|^p plus the weighted squared distance of the expected variograms of the law and the ensemble; with non-negative pair weights the distance is zero exactly if the expected variograms agree for every pair with weight. The threshold-weighted score does this for the images under the chaining function, the outcome-weighted score for the re-weighted normalised laws, the vertically re-scaled score for the variograms multiplied by the outcome weight. No variogram score is strictly proper: every ensemble has another one with the same score for every observation.", "quantifier": "all laws of the observation in any dimension with the moment condition, all orders p > 0, all pair weights, non-empty ensembles, measurable chaining and weight functions, with and without ensemble weights, both code paths", "why_tests_cant": "An expectation under every law cannot be sampled; the documentation only claims propriety relative to moments, and which laws the score cannot tell apart is invisible to value checks.", "anchors": ["scoringrules/_variogram.py:vs_ensemble", "scoringrules/_variogram.py:twvs_ensemble", "scoringrules/_variogram.py:owvs_ensemble", "scoringrules/_variogram.py:vrvs_ensemble"]}
{"id": "C111", "title": "Which ensemble estimators are unbiased for the score of the law the members come from", "statement": "If the M members are drawn independently from a law Q, the mean of the returned score over all draws is the score of Q itself for the estimators fair, pwm (members not declared sorted), akr and akr_circperm of crps_ensemble, for fair, akr and akr_circperm of es_ensemble and the Gaussian kernel scores, and for fair of vs_ensemble, for every M of two or more. The other estimators are too large by exactly the entropy of Q over M: nrg, qd and int of crps_ensemble, nrg of es_ensemble (half the mean distance of two members over M), of the kernel scores (half of one minus the mean kernel, over M) and of vs_ensemble (weighted variances of the variogram over M).", "quantifier": "all laws Q with a finite mean (CRPS, energy score), all laws (kernel scores), all laws under which the variogram has a finite second moment; all ensemble sizes, dimensions, observations, orders and pair weights, both code paths", "why_tests_cant": "An expectation over all ensembles of all sizes from every law cannot be sampled; tests of the fair estimator compare single values, and a simulation cannot tell a bias of order 1/M from noise.", "anchors": ["scoringrules/_crps.py:crps_ensemble", "scoringrules/_energy.py:es_ensemble", "scoringrules/_kernels.py:gksuv_ensemble", "scoringrules/_kernels.py:gksmv_ensemble", "scoringrules/_variogram.py:vs_ensemble"]}
{"id": "C112", "title": "Pooling two ensembles never scores worse than the mean of their scores", "statement": "For the CRPS (energy, quantile-decomposition and integral estimators), the energy score, both Gaussian kernel scores and the variogram score, the score of the concatenation of two ensembles equals the mean of their two scores in proportion to their sizes (or total ensemble weights), less ab/(a+b)^2 times a distance of the two ensembles. The distance is the integrated squared difference of the distribution functions for the CRPS, half the energy or kernel distance of the empirical laws for the kernel scores, and the weighted squared distance of the expected variograms for the variogram score. It is never negative (for nonnegative pair weights), does not depend on the observation, and is zero only if the ensembles have the same empirical law (for the variogram score, the same expected variograms where weighted).", "quantifier": "for all non-empty ensembles of any two sizes, all nonnegative ensemble weights with positive totals, all observations, dimensions, pair weights and orders p > 0, both code paths", "why_tests_cant": "Tests score one ensemble against one observation; the relation between the scores of two ensembles and of their union, and when the gain is zero, concerns all pairs of ensembles at once.", "anchors": ["scoringrules/_crps.py:crps_ensemble", "scoringrules/_energy.py:es_ensemble", "scoringrules/_kernels.py:gksuv_ensemble", "scoringrules/_kernels.py:gksmv_ensemble", "scoringrules/_variogram.py:vs_ensemble"]}
{"id": "C113", "title": "Which ensembles have the smallest expected error-spread score", "statement": "For an observation with finite fourth moment, the expected error-spread score of every ensemble is the smallest mean square of a monic quadratic under its law plus two squares, which are zero exactly if the mean, standard deviation and skewness of the ensemble solve two equations. An ensemble whose sample mean, variance and skewness are those of the law has the smallest expected score.", "quantifier": "for all laws with a finite fourth moment and positive variance, all ensembles of at least three members not all equal, both code paths", "why_tests_cant": "Propriety compares expectations over every law and every ensemble; a test compares one number with a reference that contains the same formula for the skewness.", "anchors": ["scoringrules/_error_spread.py:error_spread_score", "scoringrules/core/error_spread/_gufunc.py:_error_spread_score_gufunc", "scoringrules/core/error_spread/_score.py:error_spread_score"]}
{"id": "C114", "title": "Leaving out the argument backend means the documented default", "statement": "Every function documents that backend defaults to numba if available, else numpy. Leaving it out gives the same result as naming the default (the backend last set active, or numba if it could be imported, or numpy), and raises BackendNotAvailable if that one is not installed.", "quantifier": "for all sets of installed libraries, all histories of registry operations, all inputs of crps_ensemble, vrcrps_ensemble, es_ensemble, gksuv_ensemble, dssuv_ensemble, error_spread_score, crps_quantile and weighted_interval_score", "why_tests_cant": "Tests parametrise over explicit backend names; they do not compare the call without a name with the call that names the default, and the registry is a global object with many possible histories.", "anchors": ["scoringrules/backend/registry.py:active", "scoringrules/_crps.py:crps_ensemble", "scoringrules/_crps.py:vrcrps_ensemble", "scoringrules/_crps.py:crps_quantile", "scoringrules/_interval.py:weighted_interval_score", "scoringrules/_energy.py:es_ensemble", "scoringrules/_error_spread.py:error_spread_score"]}
{"id": "C115", "title": "Scores of different functions agree where theory identifies them", "statement": "The ensemble CRPS is the integral over all thresholds of what brier_score returns for the event 'at most z' and the fraction of members at most z; the threshold-weighted CRPS integrates the same over the thresholds between a and b. It is twice the integral over all levels of what quantile_score returns for the ensemble quantile, and crps_quantile on sorted members with the levels (i - 1/2)/M gives it exactly. rps_score of a probability vector is the ensemble CRPS with the category numbers as members and the probabilities as weights. dssuv_ensemble is 2 logs_normal(mean, standard deviation) - log(2 pi). weighted_interval_score with its default weights is crps_quantile of the median and the ends of the intervals (numba; on the other backends it is wrong, C28).", "quantifier": "for all real observations, non-empty ensembles (arrays of every rank where the functions take arrays), estimators nrg, qd and int, both code paths, all thresholds, any choice of quantiles, all probability vectors, and ensembles of positive variance", "why_tests_cant": "The identities relate integrals over a continuum of thresholds or levels of the output of one function to the output of another, for every ensemble.", "anchors": ["scoringrules/_crps.py:crps_ensemble", "scoringrules/_crps.py:crps_quantile", "scoringrules/_crps.py:twcrps_ensemble", "scoringrules/_brier.py:brier_score", "scoringrules/_brier.py:rps_score", "scoringrules/_quantile.py:quantile_score", "scoringrules/_dss.py:dssuv_ensemble", "scoringrules/_logs.py:logs_normal"]}
{"id": "C116", "title": "Closed-form CRPS of an infinite observation", "statement": "The exact CRPS of a law with finite mean tends to plus infinity as the observation goes to plus or minus infinity; the closed forms should therefore return plus infinity for an infinite observation, for all valid finite parameters.", "quantifier": "all closed-form families, both infinities, all valid finite parameters (and all truncation bounds for the censored families)", "why_tests_cant": "Tests pass ordinary observations; whether a closed form meets infinity minus infinity or zero times infinity depends on the family, the bounds and the parameters.", "anchors": ["scoringrules/_crps.py:crps_normal", "scoringrules/_crps.py:crps_logistic", "scoringrules/_crps.py:crps_tnormal", "scoringrules/core/crps/_closed.py:gtcnormal", "scoringrules/core/crps/_closed.py:gev", "scoringrules/core/crps/_closed.py:hypergeometric"]}
{"id": "C117", "title": "Ensemble CRPS with infinite data", "statement": "The exact ensemble CRPS tends to plus infinity as the observation or one member goes to plus or minus infinity. With infinite data the code never returns a finite number, and it should return plus infinity.", "quantifier": "all estimators, both backend paths, all ensemble sizes, both infinities; the first part also for all weights, nan policies and sorting flags", "why_tests_cant": "Whether a formula meets infinity minus infinity or zero times infinity depends on the estimator, the path, the rank of the member and the sign; tests use finite data.", "anchors": ["scoringrules/_crps.py:crps_ensemble", "scoringrules/core/crps/_gufuncs.py:_crps_ensemble_qd_gufunc", "scoringrules/core/crps/_gufuncs.py:_crps_ensemble_int_gufunc", "scoringrules/core/crps/_approx.py:_crps_ensemble_qd", "scoringrules/core/crps/_approx.py:_crps_ensemble_int"]}
{"id": "C118", "title": "Small changes of the data change the scores by a bounded amount", "statement": "If the observation moves by d and the members move by e on average (weighted average for a weighted ensemble), the ensemble CRPS and the energy score move by at most d + 2e with every estimator, and the constants 1 and 2 cannot be lowered for the CRPS. The Gaussian kernel score moves by at most exp(-1/2) times that amount. The quantile score moves by at most max(alpha, 1-alpha) times the change of its arguments. The interval score moves by at most 2/alpha times the change of the observation plus 2/alpha - 1 times the changes of the bounds.", "quantifier": "all finite observations and ensembles of every size and dimension, all pairs of such data, every estimator and code path", "why_tests_cant": "tests compare scores at a handful of inputs; a Lipschitz bound ranges over all pairs of inputs", "anchors": ["scoringrules/_crps.py:crps_ensemble", "scoringrules/_energy.py:es_ensemble", "scoringrules/_kernels.py:gksuv_ensemble", "scoringrules/_kernels.py:gksmv_ensemble", "scoringrules/_quantile.py:quantile_score", "scoringrules/_interval.py:interval_score"]}
{"id": "C119", "title": "Closed-form CRPS as a function of the observation", "statement": "For a fixed forecast with distribution function F, the closed-form CRPS is convex in the observation, its slope between two observations lies between 2F-1 at the two ends, it never changes faster than the observation, it is smallest at a median of the forecast, and it has the derivative 2F-1 where F is continuous.", "quantifier": "every closed-form family, all parameters the family's CRPS theorem covers, all pairs of observations in the family's domain", "why_tests_cant": "tests evaluate single observations; convexity and the slope bounds concern all pairs of real observations", "anchors": ["scoringrules/_crps.py:crps_normal", "scoringrules/_crps.py:crps_gamma", "scoringrules/_crps.py:crps_gpd", "scoringrules/_crps.py:crps_gev", "scoringrules/_crps.py:crps_beta", "scoringrules/_crps.py:crps_t", "scoringrules/_crps.py:crps_poisson", "scoringrules/_crps.py:crps_binomial"]}
{"id": "C120", "title": "expand_dims of the torch backend agrees with numpy", "statement": "For a tuple of axis numbers that name different positions of the result, the torch backend's own expand_dims returns the input with axes of length one at exactly those positions and with every entry in its place, which is the array numpy returns. For every other tuple (an axis out of range, or the same axis twice) it raises StopIteration and numpy raises AxisError or ValueError.", "quantifier": "all arrays of every rank and shape, all tuples of integers", "why_tests_cant": "tests run the energy, variogram and kernel scores on two or three shapes; the claim covers every rank and every tuple of axes", "anchors": ["scoringrules/backend/torch.py:expand_dims", "scoringrules/backend/numpy.py:expand_dims"]}
{"id": "C121", "title": "Scores of growing ensembles approach the score of the law", "statement": "If the members are drawn independently from one law, the ensemble score comes arbitrarily close to the score of that law as the number of members grows, in mean absolute distance and hence in probability. This holds for every estimator of the CRPS, the energy score, the Gaussian kernel score and the variogram score, including the biased ones, and for both code paths. The law needs a finite mean for the CRPS and the energy score, a finite second moment of the variogram for the variogram score, and nothing for the Gaussian kernel score.", "quantifier": "all observations, all laws with the stated moments, all tolerances, every listed estimator and both code paths", "why_tests_cant": "a test samples one law at one ensemble size and needs a tolerance; it cannot take the limit or range over laws, heavy-tailed ones included", "anchors": ["scoringrules/_crps.py:crps_ensemble", "scoringrules/_energy.py:es_ensemble", "scoringrules/_kernels.py:gksuv_ensemble", "scoringrules/_kernels.py:gksmv_ensemble", "scoringrules/_variogram.py:vs_ensemble"]}
{"id": "C122", "title": "The uncertainty band of the reliability diagram consists of ordered probabilities", "statement": "For outcomes 0 and 1 and forecast probabilities, whatever the random numbers, the band of reliability_diagram is defined at a forecast exactly when some bootstrap replicate reaches to both sides of it, and is NaN there otherwise. Where it is defined both ends lie in [0, 1]; the lower end is at most the upper end for alpha up to one half, and the ends are interchanged for alpha above. Each end leaves out a share alpha of the replicates, so the band covers 1 - 2 alpha of them. A kind of band other than 'consistency' and 'confidence' raises UnboundLocalError, an alpha outside [0, 1] ValueError.", "quantifier": "all samples of every size, all outcomes of the random number generators, both kinds of band, all alpha", "why_tests_cant": "tests only call reliability_diagram once and look at no number; the random draws make fixed expectations impossible", "anchors": ["scoringrules/visualization/reliability.py:_uncertainty_band", "scoringrules/visualization/reliability.py:reliability_diagram"]}
{"id": "C123", "title": "The ends of the uncertainty band ascend with the forecast", "statement": "The lower and the upper end of the uncertainty band of the reliability diagram are non-decreasing functions of the forecast probability, like the calibration curve they accompany.", "quantifier": "all samples, all outcomes of the random number generators, both kinds of band, all alpha", "why_tests_cant": "the plot is never checked numerically, and whether the band descends depends on the random draws", "anchors": ["scoringrules/visualization/reliability.py:_uncertainty_band"]}
{"id": "C124", "title": "Each backend can compute each closed form", "statement": "The closed-form scores return the same value with the numpy, jax and torch backends. False: on torch crps_beta, crps_gev, crps_gtct, crps_tt, crps_t, crps_loglogistic, crps_negbinom and logs_t raise on every input, and on jax crps_negbinom does; on numpy all eight, and on jax the other seven, return the value of the formula.", "quantifier": "every observation and all parameters, finite or not, for the eight scores and three backends", "why_tests_cant": "the input space is a continuum of every ensemble size, value and tie pattern; tests sample a handful of random draws with a tolerance", "anchors": ["scoringrules/core/crps/_closed.py:beta", "scoringrules/core/crps/_closed.py:gev", "scoringrules/core/crps/_closed.py:gtct", "scoringrules/core/crps/_closed.py:t", "scoringrules/core/crps/_closed.py:loglogistic", "scoringrules/core/crps/_closed.py:negbinom", "scoringrules/core/logarithmic.py:t", "scoringrules/backend/torch.py:betainc", "scoringrules/backend/torch.py:expi", "scoringrules/backend/jax.py:hypergeometric"]}
{"id": "C125", "title": "The active backend does not matter when a backend is named", "statement": "crps_ct and logs_tt called with a backend return the score whatever the active backend is. False: both compute a part with the active backend, so with torch active they raise for every input although numpy or jax was named.", "quantifier": "every observation and all parameters, every named backend and every active backend", "why_tests_cant": "the input space is a continuum of every ensemble size, value and tie pattern; tests sample a handful of random draws with a tolerance", "anchors": ["scoringrules/_crps.py:crps_ct", "scoringrules/core/logarithmic.py:tt", "scoringrules/core/stats.py:_t_cdf", "scoringrules/core/stats.py:_t_pdf"]}
{"id": "C126", "title": "Parameters outside their range are refused", "statement": "A closed-form score called with a negative scale, interchanged ends, a negative rate or another impossible parameter raises or returns NaN or plus infinity. False of the CRPS: the normal, logistic, Laplace and t CRPS with scale -s is minus the CRPS with scale s, the uniform CRPS with its ends interchanged is minus the CRPS, and a negative exponential rate is scored, so an impossible forecast beats every valid one. True of the log scores except the two-piece ones, and of the parameters the code checks.", "quantifier": "every finite observation and location, every negative scale", "why_tests_cant": "the input space is a continuum of every ensemble size, value and tie pattern; tests sample a handful of random draws with a tolerance", "anchors": ["scoringrules/core/crps/_closed.py:normal", "scoringrules/core/crps/_closed.py:logistic", "scoringrules/core/crps/_closed.py:laplace", "scoringrules/core/crps/_closed.py:t", "scoringrules/core/crps/_closed.py:uniform", "scoringrules/core/crps/_closed.py:exponential", "scoringrules/core/crps/_closed.py:gpd", "scoringrules/core/logarithmic.py:normal", "scoringrules/core/logarithmic.py:twopnormal"]}
{"id": "C127", "title": "Log score of an infinite observation", "statement": "The log score of an observation that is plus or minus infinity is plus infinity, because no density of the library is positive there. False for the logistic laws at minus infinity, gamma shapes above one, extreme value shapes in (-1, 0] at minus infinity, and Poisson (mean above one), binomial and negative binomial laws at plus infinity, where the code returns NaN.", "quantifier": "every valid finite parameter of every closed-form log score", "why_tests_cant": "the input space is a continuum of every ensemble size, value and tie pattern; tests sample a handful of random draws with a tolerance", "anchors": ["scoringrules/core/logarithmic.py:normal", "scoringrules/core/logarithmic.py:logistic", "scoringrules/core/logarithmic.py:gamma", "scoringrules/core/logarithmic.py:gev", "scoringrules/core/logarithmic.py:gpd", "scoringrules/core/logarithmic.py:poisson", "scoringrules/core/logarithmic.py:binomial", "scoringrules/core/logarithmic.py:negbinom", "scoringrules/core/logarithmic.py:tlogistic", "scoringrules/core/logarithmic.py:mixnorm"]}
{"id": "C128", "title": "A missing parameter gives a missing score", "statement": "A closed-form CRPS or log score with a NaN parameter is NaN. True of every CRPS whatever the observation and the other parameters. False of the generalised Pareto and extreme value log scores, which return plus infinity, and of log scores at an observation outside the support.", "quantifier": "every observation and every value of the other parameters, including infinities and NaN", "why_tests_cant": "the input space is a continuum of every ensemble size, value and tie pattern; tests sample a handful of random draws with a tolerance", "anchors": ["scoringrules/core/crps/_closed.py:normal", "scoringrules/core/crps/_closed.py:gpd", "scoringrules/core/crps/_closed.py:gev", "scoringrules/core/crps/_closed.py:gtct", "scoringrules/core/crps/_closed.py:mixnorm", "scoringrules/core/logarithmic.py:gpd", "scoringrules/core/logarithmic.py:gev", "scoringrules/core/logarithmic.py:exponential"]}
{"id": "C129", "title": "In binary64 the score of a finite observation is a number", "statement": "Computed with binary64 rounding, the score of a finite observation inside the support is a finite number, as the exact score is. False: the normal log score is infinite from 40 standard deviations on, the Laplace and exponential log scores from 747 scales on, the logistic log score is infinite or NaN below 358 scales, the mixture log score is infinite far from all components, crps_logistic and crps_gev with shape zero are infinite in one tail, and the log score of a normal law truncated to its upper tail is minus infinity.", "quantifier": "every rounding function with the properties of round-to-nearest, every scale from 2^-1000 to 2^1000 (2^20 where stated) and every observation in the stated range", "why_tests_cant": "Whole regions of the real line, and every way in which a library may round, cannot be sampled; a finite test suite uses observations near the centre, where nothing underflows.", "anchors": ["scoringrules/core/logarithmic.py:normal", "scoringrules/core/logarithmic.py:laplace", "scoringrules/core/logarithmic.py:logistic", "scoringrules/core/logarithmic.py:exponential", "scoringrules/core/logarithmic.py:tnormal", "scoringrules/core/logarithmic.py:mixnorm", "scoringrules/core/crps/_closed.py:logistic", "scoringrules/core/crps/_closed.py:gev"]}
{"id": "C130", "title": "In binary64 the Poisson scores are numbers", "statement": "Computed with binary64 rounding, the CRPS of a Poisson forecast and the log score of a count are numbers. False: crps_poisson is NaN from the observation 171 on and from the mean 746 on, and logs_poisson is infinite or NaN at every count from 171 on.", "quantifier": "every rounding function with the properties of round-to-nearest, every observation from 171 to 2^52 and every mean, every mean from 746 on and every observation", "why_tests_cant": "The statement is about all large counts and all large means and about every way of rounding.", "anchors": ["scoringrules/core/crps/_closed.py:poisson", "scoringrules/core/logarithmic.py:poisson", "scoringrules/core/stats.py:_pois_cdf", "scoringrules/core/stats.py:_pois_pdf"]}
{"id": "C131", "title": "Rounding moves the Brier, quantile, interval and ensemble scores only a little", "statement": "Computed with binary64 rounding, the Brier and quantile scores have a relative error of at most 2^-49 and the interval score one of at most 2^-48, as long as the differences of the inputs are zero or of ordinary size; the energy form of the ensemble CRPS differs from the integral, and the fair form from the fair estimator, by at most M^2 R / 2^46, for M members and an observation of absolute value at most R.", "quantifier": "every rounding function with the properties of round-to-nearest, every probability, level, interval and observation in the stated range, every ensemble of up to 2^20 members and every bound R from 2^-1000 to 2^900", "why_tests_cant": "The bound holds for every input and every ensemble size and for the accumulated error of millions of additions; a test compares with a tolerance on a few inputs.", "anchors": ["scoringrules/core/brier.py:brier_score", "scoringrules/_quantile.py:quantile_score", "scoringrules/core/interval/_score.py:interval_score", "scoringrules/core/crps/_gufuncs.py:_crps_ensemble_nrg_gufunc", "scoringrules/core/crps/_gufuncs.py:_crps_ensemble_fair_gufunc"]}
{"id": "C132", "title": "Backpropagation through a score returns its derivative", "statement": "On torch and jax, where a score has a derivative with respect to the observation, a distribution parameter or an ensemble member, backpropagation returns this derivative; in particular it never returns NaN and never leaves out a term.", "quantifier": "every observation, every admissible parameter, every ensemble of any size and dimension at which the score is differentiable, both libraries", "why_tests_cant": "Gradients are checked by finite differences at single points on one backend; whether a term is cut out of the graph or a masked branch turns the gradient into NaN depends on the inputs.", "anchors": ["scoringrules/backend/torch.py:sqrt", "scoringrules/core/crps/_closed.py:gtcnormal", "scoringrules/core/crps/_closed.py:gtclogistic", "scoringrules/core/logarithmic.py:tnormal", "scoringrules/core/logarithmic.py:tlogistic", "scoringrules/core/crps/_closed.py:mixnorm", "scoringrules/core/error_spread/_score.py:error_spread_score", "scoringrules/core/energy/_score.py:es_ensemble", "scoringrules/core/variogram/_score.py:vs_ensemble", "scoringrules/core/kernels/_approx.py:gauss_kern_mv", "scoringrules/core/crps/_closed.py:gpd", "scoringrules/core/crps/_closed.py:gev", "scoringrules/core/crps/_closed.py:t", "scoringrules/core/logarithmic.py:gpd", "scoringrules/core/logarithmic.py:gev", "scoringrules/core/stats.py:_gpd_cdf", "scoringrules/core/stats.py:_gev_cdf", "scoringrules/core/stats.py:_t_cdf", "scoringrules/core/logarithmic.py:clogs_ensemble", "scoringrules/core/logarithmic.py:mixnorm", "scoringrules/_logs.py:logs_ensemble", "scoringrules/_logs.py:clogs_ensemble", "scoringrules/core/crps/_closed.py:exponential", "scoringrules/core/crps/_closed.py:exponentialM", "scoringrules/core/crps/_closed.py:twopexponential", "scoringrules/core/crps/_closed.py:uniform", "scoringrules/core/crps/_closed.py:beta", "scoringrules/core/crps/_closed.py:_is_scalar_value", "scoringrules/core/crps/_closed.py:gamma", "scoringrules/core/crps/_closed.py:csg0", "scoringrules/core/crps/_closed.py:loglogistic", "scoringrules/core/crps/_closed.py:loglaplace", "scoringrules/core/stats.py:_gamma_cdf"]}
{"id": "C133", "title": "Threshold-weighted CRPS over adjacent intervals adds up", "statement": "The threshold-weighted CRPS of an ensemble over [a, c] is the sum of those over [a, b] and [b, c]; over the whole line it is the CRPS; and over a larger interval it is not smaller.", "quantifier": "every observation, every ensemble of any size, every estimator, all bounds a <= b <= c including infinite ones; nonnegative weights for the estimators nrg, qd and int", "why_tests_cant": "the input space is a continuum of every ensemble size, value and tie pattern; tests sample a handful of random draws with a tolerance", "anchors": ["scoringrules/_crps.py:twcrps_ensemble", "scoringrules/_crps.py:crps_ensemble"]}
{"id": "C134", "title": "Every estimator lies between 0 and the mean distance of the members from the observation", "statement": "For every estimator, with or without weights, the ensemble CRPS and the energy score are at least 0 and at most the (weighted) mean distance of the members from the observation.", "quantifier": "every observation, every ensemble of any size and dimension (at least two members for the fair and pwm estimators), all nonnegative weights with positive sum, every estimator", "why_tests_cant": "the input space is a continuum of every ensemble size, value and tie pattern; tests sample a handful of random draws with a tolerance", "anchors": ["scoringrules/_crps.py:crps_ensemble", "scoringrules/_energy.py:es_ensemble", "scoringrules/core/crps/_approx.py:ensemble"]}
{"id": "C135", "title": "Relabelling and merging outcomes", "statement": "Exchanging an event and its complement leaves the Brier and the logarithmic score unchanged; numbering the categories from the other end leaves the ranked probability score and the ranked logarithmic score unchanged; making two adjacent categories one lowers them by exactly the Brier or logarithmic score of the lost threshold.", "quantifier": "every outcome, every probability in [0, 1], every probability vector of any length, arrays of any shape and any category axis; also where the logarithmic scores are infinite", "why_tests_cant": "the input space is a continuum of every ensemble size, value and tie pattern; tests sample a handful of random draws with a tolerance", "anchors": ["scoringrules/_brier.py:brier_score", "scoringrules/_brier.py:log_score", "scoringrules/_brier.py:rps_score", "scoringrules/_brier.py:rls_score"]}
{"id": "C136", "title": "Symmetries and bounds of the kernel, variogram, quantile and interval scores", "statement": "Isometries of the data leave every estimator of the Gaussian kernel scores unchanged, and these lie between -1/2 and 1; exchanging the variables together with the pair weights leaves the variogram score unchanged; mirroring data and level leaves quantile and interval score unchanged, and an increasing affine map multiplies both by its slope.", "quantifier": "every observation, every ensemble of any size and dimension, every documented estimator, every isometry, every permutation of the variables, every level and every affine map", "why_tests_cant": "the input space is a continuum of every ensemble size, value and tie pattern; tests sample a handful of random draws with a tolerance", "anchors": ["scoringrules/_kernels.py:gksuv_ensemble", "scoringrules/_kernels.py:gksmv_ensemble", "scoringrules/_variogram.py:vs_ensemble", "scoringrules/_quantile.py:quantile_score", "scoringrules/_interval.py:interval_score"]}
{"id": "C137", "title": "In binary32 the score of a finite observation is a number", "statement": "Computed with binary32 rounding, as torch and jax do by default, the score of a finite observation inside the support is a finite number, as the exact score is. False: the normal log score is infinite from 16 standard deviations on, the Laplace and exponential log scores from about 105 scales on, the logistic log score is infinite or NaN far in either tail, crps_logistic is infinite 90 scales below the location, crps_gev with shape zero is infinite 20 scales above it, the log score of a normal law truncated to its upper tail is minus infinity, and the Poisson scores are NaN or infinite from the count 35 or the mean 52 on.", "quantifier": "every rounding function with the properties of round-to-nearest in binary32, every finite observation, location and scale in the stated regions", "why_tests_cant": "The statement is about every rounding function and whole unbounded regions of observations and parameters; tests check a few moderate values in double precision.", "anchors": ["scoringrules/core/logarithmic.py:normal", "scoringrules/core/logarithmic.py:logistic", "scoringrules/core/logarithmic.py:laplace", "scoringrules/core/logarithmic.py:exponential", "scoringrules/core/crps/_closed.py:logistic", "scoringrules/core/crps/_closed.py:gev", "scoringrules/core/crps/_closed.py:poisson", "scoringrules/core/logarithmic.py:poisson", "scoringrules/core/stats.py:_pois_cdf"]}
{"id": "C138", "title": "Binomial coefficients on torch and jax", "statement": "The method comb of the torch and jax backends returns the binomial coefficient. False with logarithms, gamma functions and exponentials that are rounded to a nearest number: in binary32 comb(8, k) is C(8, k) - 1 for every k from 1 to 7, in binary64 comb(5, k) is C(5, k) - 1 for every k from 1 to 4, so the binomial probabilities and the log score of a binomial forecast are wrong.", "quantifier": "every way to round to a nearest binary32 or binary64 number, every k strictly between 0 and n; the coefficients C(n, 0) and C(n, n) for every n up to 30", "why_tests_cant": "The statement is about every library that rounds correctly, whichever way it resolves ties; a test sees one library.", "anchors": ["scoringrules/backend/torch.py:comb", "scoringrules/backend/jax.py:comb", "scoringrules/backend/torch.py:factorial", "scoringrules/core/stats.py:_binom_pdf", "scoringrules/core/logarithmic.py:binomial"]}
{"id": "C139", "title": "Double precision data are scored in double precision on torch", "statement": "With double precision tensors the torch backend gives the score up to double precision rounding. False: pi, sqrt(2), the default weights of mixtures and the levels of the int estimator are single precision tensors. logs_normal is too small by a constant above 1e-8 at every observation, logs_mixnorm and logs_ensemble with default weights are off by a nonzero constant for every number of components, the default weights add up to one only if their number is a power of two, crps_normal is too large by more than 4e-8 standard deviations at the centre, and the int estimator misses its value for every ensemble size that is not a power of two.", "quantifier": "every way to round to a nearest binary32 number, every observation, location and scale, every number of components up to 2^24, every mixture", "why_tests_cant": "A test compares a few values with a tolerance; that an error is there for every observation, every mixture and every number of components is a statement about infinitely many inputs.", "anchors": ["scoringrules/core/stats.py:_norm_pdf", "scoringrules/core/stats.py:_norm_cdf", "scoringrules/core/logarithmic.py:normal", "scoringrules/_logs.py:logs_mixnorm", "scoringrules/_logs.py:logs_ensemble", "scoringrules/_crps.py:crps_mixnorm", "scoringrules/core/crps/_closed.py:normal", "scoringrules/core/crps/_approx.py:_crps_ensemble_int", "scoringrules/backend/torch.py:sqrt"]}
{"id": "C140", "title": "Scores can be backpropagated on torch", "statement": "score.sum().backward() does not raise on torch, for a gradient with respect to the ensemble, the observation, the weights or the parameters. False for owes_ensemble, vres_ensemble, owgksmv_ensemble and vrgksmv_ensemble, with and without ensemble weights: they multiply the result of norm or exp in place, which the backward pass needs, so differentiating by the ensemble raises for every input. False for logs_exponential2 and crps_exponentialM, which subtract the location in place from the user's observation. True for the other ensemble scores and the interval scores, in spite of their operations in place. What the operations keep is pinned down too: modifying an operand they have kept makes the backward pass raise.", "quantifier": "every state of the storages, every combination of tensors that require a gradient, every weight function", "why_tests_cant": "The tests compute scores, they never call backward; that no combination of tensors with and without gradient raises needs all of them.", "anchors": ["scoringrules/core/energy/_score.py:owes_ensemble", "scoringrules/core/energy/_score.py:vres_ensemble", "scoringrules/core/energy/_score_w.py:owes_ensemble_w", "scoringrules/core/energy/_score_w.py:vres_ensemble_w", "scoringrules/core/kernels/_approx.py:ow_ensemble_mv", "scoringrules/core/kernels/_approx.py:vr_ensemble_mv", "scoringrules/core/kernels/_approx_w.py:ow_ensemble_mv_w", "scoringrules/core/logarithmic.py:exponential2", "scoringrules/core/crps/_closed.py:exponentialM", "scoringrules/core/variogram/_score.py:vrvs_ensemble", "scoringrules/core/interval/_score.py:weighted_interval_score"]}
{"id": "C141", "title": "Integer data and boolean weights are scored", "statement": "The ensemble scores accept integer observations and ensembles, and weight functions that return booleans or integers, on numpy, jax and torch, and return floats. False on torch: owcrps_ensemble and vrcrps_ensemble raise for every weight function that returns booleans or integers, owes_ensemble and vres_ensemble too unless backend='torch' is named, and integer ensembles raise in the energy score, the Dawid-Sebastiani score, the error spread score and logs_ensemble. False on numpy for owcrps_ensemble with several integer ensembles and such a weight function. True on jax, true for crps_ensemble on every backend, and true in all other cases on numpy. Boolean observations of crps_ensemble are accepted by numpy and jax and refused by torch.", "quantifier": "every combination of element types of observation, ensemble and weight function, every array backend, single observations and batches", "why_tests_cant": "The tests draw normal (float) ensembles, and their weight functions return floats or are run with the backend named; the combinations of types and backends are not enumerated.", "anchors": ["scoringrules/core/crps/_approx.py:ow_ensemble", "scoringrules/core/crps/_approx.py:vr_ensemble", "scoringrules/core/crps/_approx_w.py:vr_ensemble_w", "scoringrules/core/energy/_score.py:es_ensemble", "scoringrules/core/energy/_score.py:owes_ensemble", "scoringrules/core/energy/_score.py:vres_ensemble", "scoringrules/core/utils.py:mv_weighted_score_weights", "scoringrules/core/dss/_score.py:ds_score_uv", "scoringrules/core/error_spread/_score.py:error_spread_score", "scoringrules/_logs.py:logs_ensemble"]}
{"id": "C142", "title": "Python numbers as arguments keep their value on torch", "statement": "Levels, thresholds and observations given as Python numbers (or lists of them) together with double precision tensors are used as given. False on torch, where asarray makes single precision tensors of numbers: quantile_score with alpha=0.1 scores every observation above the forecast with a larger level, crps_quantile refuses levels within 2^-25 of one and with alpha=0.1 gives a smaller score than it should to every quantile above the observation, interval_score with alpha=0.3 penalises too little, twcrps_ensemble with b=0.1 cuts at a larger threshold, and crps_ensemble(0.1, [0.1]) is not zero. What holds: the level used is within 2^-22, crps_quantile is twice the mean of the quantile scores up to 2^-22 of the mean distance, the threshold-weighted CRPS moves by at most three times the errors of the thresholds and the CRPS by at most the error of the observation, for every estimator; interval_score with alpha=0.1 is exact.", "quantifier": "every way to round to nearest, every observation, forecast and ensemble, every estimator", "why_tests_cant": "The tests compare with tolerances above single precision and feed numpy arrays; they cannot bound the error for all data.", "anchors": ["scoringrules/_quantile.py:quantile_score", "scoringrules/_crps.py:crps_quantile", "scoringrules/_interval.py:interval_score", "scoringrules/core/utils.py:uv_weighted_score_chain", "scoringrules/core/utils.py:univariate_array_check", "scoringrules/backend/torch.py:asarray"]}
{"id": "C143", "title": "Ensembles without spread are scored by a number", "statement": "crps_ensemble and es_ensemble score an ensemble of equal members by the distance of the member to the observation, for every estimator. logs_ensemble with the default bandwidth, dssuv_ensemble and error_spread_score are expected to give a number to every finite observation and every non-empty finite ensemble too; they do not: logs_ensemble is NaN whenever the quartiles of the members coincide, dssuv_ensemble is NaN whenever all members are equal, and error_spread_score is NaN for one or two members and for equal members.", "quantifier": "every observation, every ensemble size, every array shape and member axis (logs_ensemble), both paths, every estimator", "why_tests_cant": "the input space is a continuum of every ensemble size, value and tie pattern; tests sample a handful of random draws with a tolerance", "anchors": ["scoringrules/_crps.py:crps_ensemble", "scoringrules/_energy.py:es_ensemble", "scoringrules/_logs.py:logs_ensemble", "scoringrules/_dss.py:dssuv_ensemble", "scoringrules/_error_spread.py:error_spread_score"]}
{"id": "C144", "title": "Deprecated names do what the new names do", "statement": "energy_score, owenergy_score, twenergy_score, vrenergy_score, variogram_score, owvariogram_score, twvariogram_score and vrvariogram_score return or raise exactly what es_ensemble, owes_ensemble, twes_ensemble, vres_ensemble, vs_ensemble, owvs_ensemble, twvs_ensemble and vrvs_ensemble do, and issue one warning that names the old and the new name.", "quantifier": "every argument, also refused ones", "why_tests_cant": "the input space is a continuum of every ensemble size, value and tie pattern; tests sample a handful of random draws with a tolerance", "anchors": ["scoringrules/__init__.py:_deprecated_alias", "scoringrules/_energy.py:es_ensemble", "scoringrules/_variogram.py:vs_ensemble"]}
{"id": "C145", "title": "Ensemble scores as functions of the observation", "statement": "For every estimator of crps_ensemble the observation enters only through its mean distance to the members: the score is convex in the observation, smallest exactly at the medians of the members, and grows with slope one beyond them; with weights (nrg) it is smallest exactly at the weighted medians. Every estimator of es_ensemble is convex in the observation. dssuv_ensemble is smallest exactly at the ensemble mean. error_spread_score is zero at exactly two observations, one on each side of the ensemble mean.", "quantifier": "every ensemble (two or more members for fair and pwm, positive variance for dssuv_ensemble, three or more members that are not all equal for error_spread_score), every observation, both paths", "why_tests_cant": "the input space is a continuum of every ensemble size, value and tie pattern; tests sample a handful of random draws with a tolerance", "anchors": ["scoringrules/_crps.py:crps_ensemble", "scoringrules/_energy.py:es_ensemble", "scoringrules/_dss.py:dssuv_ensemble", "scoringrules/_error_spread.py:error_spread_score"]}
{"id": "C146", "title": "Quantile scores at many levels approach the CRPS of the law", "statement": "If the reported values are quantiles of a law on a bounded interval, crps_quantile at M levels near (k + 1/2)/M, and the weighted interval score of K central intervals with default weights, differ from the CRPS of that law by at most a constant (given by the interval and the observation) divided by the number of levels.", "quantifier": "for every probability law on a bounded interval, every choice of quantiles where several qualify, every observation, every number of levels, both code paths", "why_tests_cant": "the input space is a continuum of every ensemble size, value and tie pattern; tests sample a handful of random draws with a tolerance", "anchors": ["scoringrules/_crps.py:crps_quantile", "scoringrules/core/crps/_approx.py:quantile_pinball", "scoringrules/_interval.py:weighted_interval_score", "scoringrules/core/interval/_score.py:weighted_interval_score"]}
{"id": "C147", "title": "Pareto and extreme value scores are accurate for every shape", "statement": "In binary64 arithmetic logs_gpd, logs_gev and crps_gpd are close to the exact scores of the law whatever the shape. False: for shapes other than zero of size up to 2^-60 the base 1 + shape*x is rounded to 1, logs_gpd is 0 on [0, 32], logs_gev is constant on [-32, 32], crps_gpd is at least the observation. For shape zero the scores have an error of at most (y+1)/2^46.", "quantifier": "all roundings with the properties of binary64, all shapes up to 2^-60, all observations in the stated ranges", "why_tests_cant": "the input space is a continuum of every ensemble size, value and tie pattern; tests sample a handful of random draws with a tolerance", "anchors": ["scoringrules/core/stats.py:_gpd_pdf", "scoringrules/core/stats.py:_gpd_cdf", "scoringrules/core/stats.py:_gev_pdf", "scoringrules/core/crps/_closed.py:gpd", "scoringrules/core/logarithmic.py:gpd", "scoringrules/core/logarithmic.py:gev"]}
{"id": "C148", "title": "Axes of multivariate forecasts that do not exist are refused", "statement": "The multivariate ensemble scores (energy, variogram, Gaussian kernel, their outcome-weighted and vertically re-scaled versions, and the Dawid-Sebastiani score) end with an error when m_axis or v_axis is not an axis of the forecasts or when both name the same axis. False: v_axis from -2*ndim+1 to -ndim-1 is accepted and can score the observations along another axis than the forecasts.", "quantifier": "all arrays of all ranks, all integer axes, all weights, estimators and backends", "why_tests_cant": "The integers are unbounded and the wrong result needs axes of equal length.", "anchors": ["scoringrules/core/utils.py:multivariate_array_check", "scoringrules/core/utils.py:_multivariate_shape_permute", "scoringrules/_energy.py:es_ensemble", "scoringrules/_variogram.py:vs_ensemble", "scoringrules/_kernels.py:gksmv_ensemble", "scoringrules/_dss.py:dssmv_ensemble"]}
{"id": "C149", "title": "Closed-form CRPS are computed accurately", "statement": "In binary64 the closed-form CRPS of the normal, logistic, Laplace and exponential laws is computed with an error of at most a small multiple (2^-44, 2^-45, 2^-47, 2^-46) of |obs - location| + scale (|obs| + 1/rate for the exponential). So there is no cancellation that would lose the score entirely, and no spurious NaN or infinity.", "quantifier": "all observations, locations and scales of moderate size (between 2^-400 and 2^400), every rounding to nearest", "why_tests_cant": "Rounding errors depend on the exact bits of the inputs; tests sample a few and compare with a tolerance.", "anchors": ["scoringrules/core/crps/_closed.py:normal", "scoringrules/core/crps/_closed.py:logistic", "scoringrules/core/crps/_closed.py:laplace", "scoringrules/core/crps/_closed.py:exponential", "scoringrules/core/stats.py:_norm_cdf", "scoringrules/core/stats.py:_norm_pdf", "scoringrules/core/stats.py:_exp_cdf", "scoringrules/core/stats.py:_logis_cdf"]}
{"id": "C150", "title": "Scores do not jump where the code changes its formula", "statement": "The CRPS and log score of the generalised Pareto and extreme value laws with shape zero, and of the truncated and censored laws with an infinite bound, have branches of their own in the code. Each is the limit of the scores with a small shape, positive or negative, or with a bound that moves away (the other bound fixed, infinite or moving away too).", "quantifier": "all observations, locations, positive scales, point masses, degrees of freedom above one and fixed bounds; shape to zero, lower bound to minus infinity, upper bound to infinity", "why_tests_cant": "A limit is a statement about infinitely many parameter values; tests evaluate the special branch and the general branch at a few values and never compare them, and rounding hides the limit for very small shapes.", "anchors": ["scoringrules/core/crps/_closed.py:gpd", "scoringrules/core/crps/_closed.py:gev", "scoringrules/core/crps/_closed.py:gtcnormal", "scoringrules/core/crps/_closed.py:gtct", "scoringrules/core/crps/_closed.py:gtclogistic", "scoringrules/_crps.py:crps_tnormal", "scoringrules/_crps.py:crps_cnormal", "scoringrules/_crps.py:crps_tt", "scoringrules/_crps.py:crps_tlogistic"]}
{"id": "C151", "title": "Log scores are computed accurately", "statement": "The log scores of the normal, Laplace, logistic and exponential laws, computed in double precision operation by operation, are within a small multiple of the rounding unit of minus the logarithm of the density, relative to the size of the terms of the score (squared or absolute standardised observation, logarithm of the scale). False far from the location (C129), where the computed density is zero or NaN: the score is then not a number at all.", "quantifier": "every rounding function with the accuracy of double precision, all locations, scales and observations for which the logarithm of the density is at most about 680 in size (for the logistic law, twice the standardised observation)", "why_tests_cant": "Tests compare log scores with scipy at one or two points with tolerances of 1e-3 to 1e-9; they say nothing about the growth of the error with the distance or about where accuracy ends.", "anchors": ["scoringrules/core/logarithmic.py:normal", "scoringrules/core/logarithmic.py:laplace", "scoringrules/core/logarithmic.py:logistic", "scoringrules/core/logarithmic.py:exponential", "scoringrules/core/stats.py:_norm_pdf"]}
{"id": "C152", "title": "Closed-form CRPS move little when location and scale move little", "statement": "The CRPS of a normal, Laplace, logistic, t, generalised Pareto, exponential (with location, scale and point mass) or uniform (with point masses) law moves by at most the change of the observation plus the change of the location plus a constant times the change of the scale. The constants are 1/sqrt(pi), 3/4, 1, the expected absolute value of the standard law, 2/(1-shape), 2 and 2.", "quantifier": "all observations, locations and positive scales, all degrees of freedom above one, shapes below one and admissible point masses", "why_tests_cant": "A bound over all pairs of parameters; tests evaluate single parameter values and would not see a formula that jumps or grows too fast between them.", "anchors": ["scoringrules/core/crps/_closed.py:normal", "scoringrules/core/crps/_closed.py:laplace", "scoringrules/core/crps/_closed.py:logistic", "scoringrules/core/crps/_closed.py:t", "scoringrules/core/crps/_closed.py:gpd", "scoringrules/core/crps/_closed.py:exponentialM", "scoringrules/core/crps/_closed.py:uniform"]}
{"id": "C153", "title": "A closed-form forecast without spread is scored by its absolute error", "statement": "As the scale goes to zero the CRPS of the same laws goes to the absolute error of the location, at a rate proportional to the scale; with scale zero the law is a point mass and the score should be that absolute error (the value crps_ensemble gives for an ensemble without spread). False with scale exactly zero: all scores are NaN, only crps_exponentialM returns the absolute error, and it too returns NaN when the observation equals the location.", "quantifier": "all observations and locations, all scales, all degrees of freedom above one, shapes below one and admissible point masses", "why_tests_cant": "Tests use positive scales only, and a limit is a statement about infinitely many of them.", "anchors": ["scoringrules/core/crps/_closed.py:normal", "scoringrules/core/crps/_closed.py:laplace", "scoringrules/core/crps/_closed.py:logistic", "scoringrules/core/crps/_closed.py:t", "scoringrules/core/crps/_closed.py:gpd", "scoringrules/core/crps/_closed.py:exponentialM", "scoringrules/core/crps/_closed.py:uniform"]}
{"id": "C154", "title": "The energy score is accurate in binary64", "statement": "Computed in binary64 the energy score and the fair energy score (nrg and fair estimators, array path) differ from the exact ones by at most (D + M^2) / 2^46 times the mean distance of the members from the observation, plus 2^-500, in whatever order the backend adds up the entries. False for large data: with differences of 2^513 or more the squares in the norm overflow and the score is infinite or NaN although the energy score is an ordinary number. For differences up to 2^-540 the squares vanish, and a wrong forecast is scored zero.", "quantifier": "all observation vectors and ensembles with coordinates up to 2^479 and up to 2^20 members and coordinates, all orders of summation, every rounding with the properties of binary64", "why_tests_cant": "The error is bounded for all data and all summation orders; tests compare single values with a tolerance and use data near one, far from where the squares overflow or vanish.", "anchors": ["scoringrules/core/energy/_score.py:_es_ensemble_nrg", "scoringrules/core/energy/_score.py:_es_ensemble_fair", "scoringrules/backend/numpy.py:norm"]}
{"id": "C155", "title": "Members closer to the observation never score worse", "statement": "If every member of an ensemble moves towards the observation or stays where it is, crps_ensemble does not grow, with any of its seven estimators, on both paths; neither does es_ensemble in any dimension (moving on a straight way), nor twcrps_ensemble with a monotone chaining function. With the estimator nrg the score falls at least by the total way divided by the square of the number of members. With ensemble weights this holds for nrg, qd and int and is false for fair and akr: with the observation at the heavier of two members, the score grows when the lighter one moves towards it.", "quantifier": "all observations, all ensembles of every size and dimension, all simultaneous moves, all weights", "why_tests_cant": "A comparison between every two ensembles one of which is closer in every member; the tests never compare the scores of two forecasts.", "anchors": ["scoringrules/_crps.py:crps_ensemble", "scoringrules/_crps.py:twcrps_ensemble", "scoringrules/_energy.py:es_ensemble", "scoringrules/core/crps/_approx_w.py:_crps_ensemble_fair_w", "scoringrules/core/crps/_approx_w.py:_crps_ensemble_akr_w"]}
{"id": "C156", "title": "Log scores rise with the distance from the mode", "statement": "As a function of the observation, the log score of a distribution with one mode is smallest at the mode, and of two observations on the same side of the mode the one further away scores strictly worse (or both score +inf). Proved for normal, laplace, logistic, t, 2pnormal, 2pexponential, the truncated normal, logistic and t (the mode is the admissible point next to the location), exponential, exponential2, gpd with shape above -1, gamma, beta with shapes above 1, lognormal, loglaplace, loglogistic and gev with shape above -1, each with its mode in closed form. For gamma with shape at most 1, loglaplace with scale above 1 and loglogistic with scale at least 1 the score is +inf up to 0 and rises strictly from there. For the uniform law all admissible observations score the same. The Poisson, binomial, negative binomial and hypergeometric scores fall up to the mode and rise after it.", "quantifier": "all parameters in the stated ranges, all pairs of observations", "why_tests_cant": "A comparison between any two observations; the tests check single values against R.", "anchors": ["scoringrules/_logs.py:logs_normal", "scoringrules/_logs.py:logs_t", "scoringrules/_logs.py:logs_tnormal", "scoringrules/_logs.py:logs_gev", "scoringrules/_logs.py:logs_gpd", "scoringrules/_logs.py:logs_gamma", "scoringrules/_logs.py:logs_beta", "scoringrules/_logs.py:logs_loglogistic", "scoringrules/_logs.py:logs_hypergeometric", "scoringrules/core/logarithmic.py:gev", "scoringrules/core/logarithmic.py:loglogistic", "scoringrules/core/logarithmic.py:hypergeometric"]}
{"id": "C157", "title": "Probability, quantile and interval forecasts closer to what happened never score worse", "statement": "If the probability of an event moves towards its outcome, brier_score and log_score fall strictly. If probability moves towards the observed category (each cumulative probability moves towards its outcome; for instance mass moved from one category to another that is between it and the observed one), rps_score and rls_score do not grow, infinite values of the latter included. If quantiles move towards the observation, quantile_score (strictly for levels inside the unit interval) and crps_quantile on both paths do not grow; if both ends of an interval do, interval_score does not grow, also when the interval gets longer. weighted_interval_score keeps this on the numba path with non-negative weights; on the array path it is false: a median below the observation makes the score worse by moving towards it.", "quantifier": "all outcomes, categories, observations, pairs of forecasts one closer than the other, levels, numbers of categories and quantiles, array ranks and axes", "why_tests_cant": "A comparison between every two forecasts one of which is closer; the tests evaluate single forecasts and never compare two of them.", "anchors": ["scoringrules/_brier.py:brier_score", "scoringrules/_brier.py:log_score", "scoringrules/_brier.py:rps_score", "scoringrules/_brier.py:rls_score", "scoringrules/_quantile.py:quantile_score", "scoringrules/_crps.py:crps_quantile", "scoringrules/_interval.py:interval_score", "scoringrules/_interval.py:weighted_interval_score"]}
{"id": "C158", "title": "Weight moved to members closer to the observation never makes the score worse", "statement": "If weight moves from one member of a weighted ensemble to another that lies between it and the observation, crps_ensemble with the estimators nrg, qd and int does not grow, on both paths, and neither does es_ensemble with nrg, in every dimension; the score falls at least by the product of the moved weight, the weight of the member it was taken from and the distance of the two, for weights normalised to sum 1. With the weighted estimators fair and akr it is false: the score can grow.", "quantifier": "all observations, ensembles of every size and dimension, all non-negative weights with a positive sum, all pairs of members and all moved amounts", "why_tests_cant": "A comparison between every two weightings of the same members one of which is closer; the tests use weights only to compare them with no weights.", "anchors": ["scoringrules/_crps.py:crps_ensemble", "scoringrules/_energy.py:es_ensemble"]}
{"id": "C159", "title": "The Gaussian kernel score in binary64 is accurate for all finite data", "statement": "Computed in binary64, with every operation rounded and the sums taken in any order, the vectorised univariate and multivariate kernel scores (estimators nrg and fair) are finite and differ from the exact kernel score by at most (3 M^2 + 2 M + 352 D + 1182) / 2^52, smaller for nrg and for one dimension, however large or small the data are: where a difference, its square or the norm overflows, the kernel becomes zero, which is its value up to 2^-1075.", "quantifier": "all rounding functions with the properties of binary64 rounding, all orders of summation, all real observations and members of any size, up to 2^20 members and 2^20 dimensions", "why_tests_cant": "A test compares a few data sets with a tolerance; it cannot cover all sizes of data, all rounding errors and all orders of summation a backend may choose, nor show that overflow inside the kernel is always harmless.", "anchors": ["scoringrules/core/kernels/_approx.py:gauss_kern_uv", "scoringrules/core/kernels/_approx.py:gauss_kern_mv", "scoringrules/core/kernels/_approx.py:_ks_ensemble_nrg_uv", "scoringrules/core/kernels/_approx.py:_ks_ensemble_fair_uv", "scoringrules/core/kernels/_approx.py:_ks_ensemble_nrg_mv", "scoringrules/core/kernels/_approx.py:_ks_ensemble_fair_mv"]}
{"id": "C160", "title": "Which scores are convex in the forecast", "statement": "The closed-form CRPS of the normal, Laplace, logistic, t, generalised Pareto, exponential with point mass, uniform (lower end and width) and generalised extreme value families are numbers and are convex in observation, location and scale together; those of the exponential and gamma families are convex in observation and scale. Hence parameters that are locally best for a sample of observations are best. Brier, logarithmic, ranked probability and ranked logarithmic scores are convex in the probabilities, quantile, interval and weighted interval scores and the CRPS from quantiles in the reported values, on both paths. The ensemble CRPS is convex in the members, and log scores are convex in the parameters.", "quantifier": "For all observations, locations, positive scales, mixture weights, samples, shapes in the stated ranges, probability vectors, quantiles, intervals, array ranks, axes, estimators and ensemble sizes.", "why_tests_cant": "Convexity compares every mixture of every two forecasts; a test sees finitely many, and a fit that ends in a local minimum looks like a fit that ends in the global one.", "anchors": ["scoringrules/core/crps/_closed.py:normal", "scoringrules/core/crps/_closed.py:gev", "scoringrules/core/crps/_closed.py:gamma", "scoringrules/core/brier.py:rps_score", "scoringrules/_interval.py:weighted_interval_score", "scoringrules/_crps.py:crps_quantile", "scoringrules/_crps.py:crps_ensemble", "scoringrules/core/logarithmic.py:normal"]}
{"id": "C161", "title": "Bounds that are far away do not matter", "statement": "As the lower bound goes to minus infinity and the upper bound to plus infinity, in any way, the CRPS of the truncated and of the censored normal, logistic and t forecast approaches the CRPS of the unbounded forecast, and the log score of the truncated forecast approaches the unbounded log score. Censoring a forecast at bounds around the observation never makes its CRPS worse.", "quantifier": "For all observations, locations, positive scales and degrees of freedom (above one for the CRPS), and all lower and upper bounds beyond a threshold that exists for every tolerance.", "why_tests_cant": "A limit concerns all bounds beyond a threshold; the formulas for bounded, half-bounded and unbounded forecasts are separate code that tests only compare at a few points.", "anchors": ["scoringrules/core/crps/_closed.py:gtcnormal", "scoringrules/_crps.py:crps_tnormal", "scoringrules/_crps.py:crps_cnormal", "scoringrules/_crps.py:crps_tlogistic", "scoringrules/_crps.py:crps_clogistic", "scoringrules/core/crps/_closed.py:gtct", "scoringrules/_crps.py:crps_ct", "scoringrules/core/logarithmic.py:tnormal"]}
{"id": "C162", "title": "Forecasts with close distribution functions have close scores", "statement": "Two CRPS forecasts, from any closed-form families or ensembles with or without weights, differ in score by at most twice the area between their distribution functions, whatever is observed; if the distribution functions differ only on an interval and by at most d, the scores differ by at most 2 d times the length of the interval. A forecast whose distribution function is everywhere closer to the step at the observation scores at least as well. The factor two cannot be lowered.", "quantifier": "For all pairs of forecasts covered by strict propriety (C101) with monotone distribution functions, all observations, all intervals; for every factor below two a pair of weighted ensembles breaks the bound, on both paths.", "why_tests_cant": "The bound ties together every pair of families and every observation; tests compare a family with itself.", "anchors": ["scoringrules/core/crps/_closed.py:normal", "scoringrules/core/crps/_closed.py:logistic", "scoringrules/core/crps/_closed.py:uniform", "scoringrules/_crps.py:crps_ensemble", "scoringrules/core/crps/_approx_w.py:_crps_ensemble_nrg_w"]}
{"id": "C163", "title": "Families approach their limits", "statement": "As the degrees of freedom grow, the CRPS and the log score of the t distribution approach those of the normal distribution; as the size grows with the mean fixed, those of the negative binomial distribution approach those of the Poisson distribution, and so do those of the binomial distribution as the number of trials grows and the mean approaches a limit; as the population grows, the log score of the hypergeometric distribution approaches that of the binomial distribution, and its CRPS approaches the CRPS of the binomial distribution, from which crps_binomial differs by less than 1e-36 times a stated bound.", "quantifier": "For all observations, locations, positive scales, means, every sequence of probabilities with converging mean, every sequence of populations with converging share and every number of draws.", "why_tests_cant": "A limit concerns infinitely many parameters; the families are computed with unrelated special functions, and a test at large parameters cannot tell slow convergence from a wrong constant.", "anchors": ["scoringrules/core/crps/_closed.py:t", "scoringrules/core/crps/_closed.py:normal", "scoringrules/core/crps/_closed.py:negbinom", "scoringrules/core/crps/_closed.py:binomial", "scoringrules/core/crps/_closed.py:poisson", "scoringrules/core/crps/_closed.py:hypergeometric", "scoringrules/core/logarithmic.py:t", "scoringrules/_logs.py:logs_negbinom"]}
{"id": "C164", "title": "The variogram score is accurate in binary64", "statement": "Computed in binary64, with every operation rounded and the sums taken in any order, the vectorised variogram score of order between 1/2 and 2 is a number and differs from the exact score by at most (3 M + D^2 + 38) / 2^51 (estimator nrg) or (M^2 + D^2 + 38) / 2^51 (fair) times the same sum with absolute weights and with plus signs in place of the minus signs, plus terms of size 2^-469 in each entry. False for large data: with two coordinates 2^1024 apart a forecast that puts all its weight on the observation gets NaN instead of 0, for every order.", "quantifier": "all rounding functions with the properties of binary64 rounding, all orders of summation, all orders p between 1/2 and 2, all observations and members with coordinates up to 2^199, all pair weights up to 2^100 of either sign, up to 2^20 members and coordinates", "why_tests_cant": "A test compares a few data sets with a tolerance; it cannot cover all data, all rounding errors, all real orders and all orders of summation a backend may choose.", "anchors": ["scoringrules/core/variogram/_score.py:vs_ensemble"]}
{"id": "C165", "title": "The ensemble CRPS is accurate in binary64", "statement": "Computed in binary64, with every operation rounded and the sums taken in any order, the estimators of the vectorised ensemble CRPS are numbers. nrg and fair differ from the CRPS of the empirical distribution and from the fair CRPS by at most M^2 / 2^47 times the mean distance of the members to the observation, akr and akr_circperm by (M + 4) / 2^51 times the distances that enter, qd by (M + 5) / 2^51 and int by M^2 / 2^46 times the CRPS itself, always plus a term of size 2^-1050 and however large the data are compared with their distances; qd and int are never negative. False for pwm: with members 2^53 - 7, 2^53 - 7, 2^53 - 5 and the observation 2^53 - 7 it is -1 although the fair CRPS is 0; it is accurate relative to the largest absolute value only. False for data near the end of the range, where nrg is NaN although the score is 2^1022.", "quantifier": "all rounding functions with the properties of binary64 rounding, all orders of summation, all observations and members up to 2^959 in absolute value (pwm: bounds from 2^-900 to 2^900), up to 2^20 members, in ascending order for qd, int and pwm", "why_tests_cant": "A test compares a few data sets with a tolerance; it cannot cover all data, all rounding errors and all orders of summation a backend may choose, and tests with data of size one never see the cancellation in pwm.", "anchors": ["scoringrules/core/crps/_approx.py:_crps_ensemble_int", "scoringrules/core/crps/_approx.py:_crps_ensemble_nrg", "scoringrules/core/crps/_approx.py:_crps_ensemble_fair", "scoringrules/core/crps/_approx.py:_crps_ensemble_pwm", "scoringrules/core/crps/_approx.py:_crps_ensemble_akr", "scoringrules/core/crps/_approx.py:_crps_ensemble_akr_circperm", "scoringrules/core/crps/_approx.py:_crps_ensemble_qd"]}
{"id": "C166", "title": "The compiled ensemble CRPS loops are accurate in binary64", "statement": "Computed in binary64 with every operation rounded, in the order of the compiled loops, the default estimator qd is a nonnegative number that differs from the CRPS of the empirical distribution by at most (M + 6) / 2^51 times the CRPS itself plus 2^-1048, and the integral form int by at most M^2 / 2^46 times the CRPS plus 2^-1050. nrg and fair differ from the CRPS of the empirical distribution and from the fair CRPS by at most M^2 / 2^46 times the mean distance of the members to the observation plus 2^-1069. akr and akr_circperm differ from their exact values by at most (2 M + 10) / 2^51 times the distances that enter plus 2^-1050. False for pwm: with members 2^53 - 7, 2^53 - 7, 2^53 - 5 and the observation 2^53 - 7 it is -1 although the fair CRPS is 0; it is accurate relative to the largest absolute value only. False for data near the end of the range: with members -2^1023 and 2^1023 and the observation -2^1023 the score is 2^1022, but nrg returns NaN and qd returns infinity.", "quantifier": "all rounding functions with the properties of binary64 rounding, all observations and members up to 2^959 in absolute value (nrg and fair: 2^950; pwm: bounds from 2^-900 to 2^900), up to 2^20 members, in ascending order for qd, int and pwm", "why_tests_cant": "A test compares a few data sets with a tolerance; it cannot cover all data and all rounding errors of the loops, and tests with data of size one never see the cancellation in pwm or the overflow.", "anchors": ["scoringrules/core/crps/_gufuncs.py:_crps_ensemble_qd_gufunc", "scoringrules/core/crps/_gufuncs.py:_crps_ensemble_int_gufunc", "scoringrules/core/crps/_gufuncs.py:_crps_ensemble_nrg_gufunc", "scoringrules/core/crps/_gufuncs.py:_crps_ensemble_fair_gufunc", "scoringrules/core/crps/_gufuncs.py:_crps_ensemble_pwm_gufunc", "scoringrules/core/crps/_gufuncs.py:_crps_ensemble_akr_gufunc", "scoringrules/core/crps/_gufuncs.py:_crps_ensemble_akr_circperm_gufunc"]}
{"id": "C167", "title": "The CRPS from quantiles is accurate in binary64", "statement": "Computed in binary64 with every operation rounded, crps_quantile is a nonnegative number that differs from twice the mean pinball loss by at most (n + 11) / 2^51 times the score itself plus 2^-1068, n the number of quantiles. This holds for the array path, in whatever order the backend adds, and for the compiled loop. False for data near the end of the range: for the quantile 2^1023 of level 7/8 and the observation -2^1023 the score is 2^1022, but both paths return NaN, because the branch that is switched off multiplies an infinite difference by 0.", "quantifier": "all rounding functions to nearest with the properties of binary64 rounding, all observations and quantiles up to 2^959 in absolute value, up to 2^20 quantiles, all levels at least 2^-900 away from 0 and 1, all summation orders", "why_tests_cant": "A test compares a few data sets with a tolerance; it cannot cover all data, all summation orders and all rounding errors, and tests with data of size one never see the overflow.", "anchors": ["scoringrules/core/crps/_approx.py:quantile_pinball", "scoringrules/core/crps/_gufuncs.py:quantile_pinball_gufunc"]}
{"id": "C168", "title": "The compiled energy score is accurate in binary64", "statement": "Computed in binary64 with every operation rounded and a norm routine of relative error K / 2^51, the compiled energy score loops nrg and fair differ from the energy score and its fair form by at most (K + M^2) / 2^46 times the mean distance of the members from the observation plus 2^-1055, M the number of members; akr and akr_circperm differ from their exact values by at most (K + M + 6) / 2^51 times the distances that enter plus 2^-1055. False near the end of the range: for the members 2^1023 and -2^1023 and the observation 0 the energy score is 2^1022 and the result is not a finite number.", "quantifier": "all rounding functions with the properties of binary64 rounding (to nearest, for akr), all norm routines with an error bound K up to 2^20, all observations and members with coordinates up to 2^940 in absolute value, up to 2^20 members and coordinates", "why_tests_cant": "A test compares a few data sets with a tolerance; it cannot cover all data, all sizes and all rounding errors, and the norm routine of the compiled code depends on the installed library.", "anchors": ["scoringrules/core/energy/_gufuncs.py:_energy_score_nrg_gufunc", "scoringrules/core/energy/_gufuncs.py:_energy_score_fair_gufunc", "scoringrules/core/energy/_gufuncs.py:_energy_score_akr_gufunc", "scoringrules/core/energy/_gufuncs.py:_energy_score_akr_circperm_gufunc"]}
{"id": "C169", "title": "The compiled variogram score is accurate in binary64", "statement": "Computed in binary64 in the order of the compiled loops, the variogram score of order between 1/2 and 2 is a number and differs from the exact score by at most (3 M + D^2 + 42) / 2^51 (estimator nrg) or (M^2 D^2 + 40) / 2^51 (fair) times the same sum with absolute weights and with plus signs in place of the minus signs, plus terms of size 2^-469 in each entry. False for large data: with two coordinates 2^1024 apart a forecast that puts all its weight on the observation gets NaN instead of 0, for every order.", "quantifier": "all rounding functions with the properties of binary64 rounding, all orders p between 1/2 and 2, all observations and members with coordinates up to 2^199, all pair weights up to 2^100 of either sign (fair: 2^99, with a double that is a binary64 number), up to 2^20 members and coordinates (fair: up to 2^20 values in all)", "why_tests_cant": "A test compares a few data sets with a tolerance; it cannot cover all data, all rounding errors and all real orders, and the bound of the fair form concerns sums of up to 2^40 terms that no test runs.", "anchors": ["scoringrules/core/variogram/_gufuncs.py:_variogram_score_nrg_gufunc", "scoringrules/core/variogram/_gufuncs.py:_variogram_score_fair_gufunc"]}
{"id": "C170", "title": "The ranked probability score is accurate in binary64", "statement": "Computed in binary64, in whatever order the backend adds, the ranked probability score of K probabilities is a number and differs from the exact score by at most K (K + 7) / 2^46. A forecast that gives probability one to the category that occurs scores exactly zero.", "quantifier": "all rounding functions with the properties of binary64 rounding, all orders of summation in the cumulative sums and in the final sum, all numbers of categories K from 1 to 2^20, all nonnegative probabilities with a sum up to 1 + 2^-10, all observed categories", "why_tests_cant": "A test checks a few forecasts with one summation order; the bound covers all forecasts, all rounding errors and all the orders in which different backends add.", "anchors": ["scoringrules/core/brier.py:rps_score"]}
{"id": "C171", "title": "The logarithmic scores of probabilities are accurate in binary64", "statement": "Computed in binary64, the log score of a probability p of the outcome differs from -log p by at most (4 / p + 1) / 2^51 times |log p| + 1, and the ranked log score of K probabilities by at most (6 (K + 4) / d + K + 1) / 2^51 times the sum of |log p_j| + 1, where d is the smallest probability of the outcome at a threshold. False for small probabilities: for an event that happens, every forecast probability up to 2^-54 is lost when it is added to one, and the score is infinite instead of a number such as 60 log 2.", "quantifier": "all rounding functions with the properties of binary64 rounding, all orders of summation, all probabilities with p at least 2^-48 (ranked: d at least (K + 4) / 2^47), all outcomes, all numbers of categories from 1 to 2^20; the failure for all forecasts between 0 and 2^-54", "why_tests_cant": "A test checks a few forecast probabilities, usually not below 1e-16; the failure needs a tiny probability for an event that happens, and the bound covers all forecasts and summation orders.", "anchors": ["scoringrules/core/brier.py:log_score", "scoringrules/core/brier.py:rls_score"]}
{"id": "C172", "title": "Accuracy of the compiled Gaussian kernel score in binary64", "statement": "Computed in binary64 by the loops of the numba path, the univariate Gaussian kernel score of M finite members differs from the exact value by at most (M^2 + 2M + 246)/2^52 (nrg), (M^2 + M + 132)/2^51 (fair) and (3M + 254)/2^52 (akr and akr_circperm), whatever the size of the data. The multivariate forms, with a norm routine of relative error L/2^51, satisfy the same bounds with the constant enlarged by a multiple of L.", "quantifier": "for all binary64 rounding functions, all finite observations and all ensembles of at most 2^20 members (at least two for fair); for vectors all dimensions up to 2^20, all coordinates up to 2^940 and all norm routines of the stated accuracy", "why_tests_cant": "A test compares a few ensembles with a tolerance; it does not bound the error over all data, in particular where differences overflow and the kernel must come out as zero.", "anchors": ["scoringrules/core/kernels/_gufuncs.py:_ks_ensemble_uv_nrg_gufunc", "scoringrules/core/kernels/_gufuncs.py:_ks_ensemble_uv_fair_gufunc", "scoringrules/core/kernels/_gufuncs.py:_ks_ensemble_uv_akr_gufunc", "scoringrules/core/kernels/_gufuncs.py:_ks_ensemble_uv_akr_circperm_gufunc", "scoringrules/core/kernels/_gufuncs.py:_ks_ensemble_mv_nrg_gufunc", "scoringrules/core/kernels/_gufuncs.py:_ks_ensemble_mv_fair_gufunc", "scoringrules/core/kernels/_gufuncs.py:_ks_ensemble_mv_akr_gufunc", "scoringrules/core/kernels/_gufuncs.py:_ks_ensemble_mv_akr_circperm_gufunc"]}
{"id": "C173", "title": "Ensembles without spread in binary64", "statement": "The univariate Dawid-Sebastiani score and the error-spread score of an ensemble of equal members are NaN in binary64 as they are in exact arithmetic, because the computed spread is exactly zero. This holds for nonnegative integer members with an exactly representable sum and is false in general: three members 0.1 and the observation 0.1 get a Dawid-Sebastiani score between -78 and -75.", "quantifier": "for all binary64 rounding functions, all orders of summation, all finite observations, both settings of bias and all numbers M of members equal to n with M*n <= 2^53; the counterexample for all roundings to nearest, with either treatment of ties", "why_tests_cant": "Tests do not score constant ensembles of inexact decimals; a finite score looks like a valid result, so the failure is silent.", "anchors": ["scoringrules/core/dss/_gufuncs.py:_dss_uv_gufunc", "scoringrules/core/dss/_score.py:ds_score_uv", "scoringrules/core/error_spread/_gufunc.py:_error_spread_score_gufunc", "scoringrules/core/error_spread/_score.py:error_spread_score"]}
{"id": "C174", "title": "The Dawid-Sebastiani score in binary64 is a number", "statement": "The univariate Dawid-Sebastiani score of finite data with positive variance, computed in binary64 by the compiled function or the array function, is a finite number. This holds for data up to 2^200 in absolute value with two members at least 2^-200 apart, and is false in general: the members 2^600 and -2^600 give infinity and the members 2^-600 and -2^-600 give NaN, although the score is about 832 and -831.", "quantifier": "for all roundings to nearest binary64, all orders of summation, both settings of bias, all observations and all ensembles of at most 2^20 members in the stated range", "why_tests_cant": "Tests use data of ordinary size; the squares in the variance overflow or underflow only for extreme data, and the finite range can only be covered by a proof.", "anchors": ["scoringrules/core/dss/_gufuncs.py:_dss_uv_gufunc", "scoringrules/core/dss/_score.py:ds_score_uv"]}
{"id": "C175", "title": "The error-spread score in binary64 is a number", "statement": "The error-spread score of finite data with positive variance and at least three members, computed in binary64 by the compiled function or the array function, is a finite number. This holds for data up to 2^40 in absolute value with two members at least 2^-40 apart, and is false in general: the members 2^-600, -2^-600 and 0 with observation 0 give NaN, although the score is 2^-2400, which rounds to zero.", "quantifier": "for all roundings to nearest binary64, all orders of summation in the array function, all observations and all ensembles of 3 to 2^20 - 1 members in the stated range", "why_tests_cant": "The score divides by a computed spread and takes third and fourth powers; that no step overflows or divides by zero for any ensemble in the range cannot be covered by samples, and tests do not use members so small that their squares vanish.", "anchors": ["scoringrules/core/error_spread/_gufunc.py:_error_spread_score_gufunc", "scoringrules/core/error_spread/_score.py:error_spread_score"]}
