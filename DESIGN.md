# Design of the model and the proofs

Subject: `frazane/scoringrules` (Python), source in `/repo`. The Lean project is in
`/verif/lean`. Nothing here executes the Python code; the model was transcribed by reading.

## Layers

| layer | modules | content |
|---|---|---|
| numbers | `Verif/XF.lean` | `XF`: `nan`, `ninf`, `pinf`, `fin r` with `r : ℝ`, IEEE rules for special values, exact arithmetic on finite values |
| arrays | `Verif/Arr.lean` | n-d arrays = shape + index function; `moveaxis`, slices, `any`, broadcasting |
| model | `Verif/Model/*.lean` | one Lean definition per Python function, same branches, exceptions as values (`Except Err`) |
| specification | `Verif/Spec/*.lean` | small textbook definitions that do not mention the model (empirical CDF, CRPS integral, energy form, pinball loss, densities, ...) |
| proofs | `Verif/Lemmas/*.lean` | helper lemmas |
| properties | `Verif/Props/*.lean` | the theorems `Cxx_...` listed in `MANIFEST.json`, followed by `example`s showing that hypotheses are satisfiable |

Naming: a theorem whose name ends in `_partial` proves less than the property says; its comment
says what is missing. A theorem with `false`, `differs`, `fails`, `raises`, `silent`, `nan` in its name proves that
the property is false of the code, with a concrete witness.

## What is modelled

| Python source | Lean module |
|---|---|
| `core/crps/_gufuncs.py`, `_gufuncs_w.py`, `_approx.py`, `_approx_w.py` | `Model/Crps` |
| `_crps.py` (`crps_ensemble`), `core/utils.py` univariate part | `Model/Api` |
| `_crps.py` (`twcrps`, `owcrps`, `vrcrps`, `crps_quantile`) | `Model/WeightedUv` |
| `core/crps/_closed.py`, `core/stats.py`, closed-form part of `_crps.py` | `Model/Closed`, `Closed2`, `Stats`, `Special`, `Special2` |
| `core/logarithmic.py`, `_logs.py` | `Model/Logs`, `LogsEns` |
| `core/brier.py`, `_brier.py`, categorical checks of `core/utils.py` | `Model/Brier` |
| `_quantile.py`, `_interval.py`, `core/interval/*` | `Model/Quantile` |
| `core/energy/*`, `_energy.py`, multivariate part of `core/utils.py` | `Model/Energy`, `Multivariate` |
| `core/variogram/*`, `_variogram.py` | `Model/Variogram` |
| `core/kernels/*`, `_kernels.py` | `Model/Kernel` |
| `core/dss/*`, `_dss.py`, `core/error_spread/*`, `_error_spread.py` | `Model/Dss` |
| `backend/registry.py` | `Model/Registry` |
| choice of the code path in the public functions | `Model/Dispatch` |
| special functions of the jax and torch backends, `expand_dims` of torch | `Model/Backends`, `Model/Avail`, `Model/TorchArr` |
| numerical part of `visualization/reliability.py` | `Model/Reliability`, `Model/Band` |
| element types of `lazy_gufunc_wrapper_*`, in-place updates | `Model/Dtype` |
| some closed forms again, with rounding after every operation | `Model/Rounding` |
| Brier, quantile, interval score, energy and fair CRPS again, with rounding | `Model/RoundingEns` |
| the formulas of the torch and jax backends for gamma, factorial, comb, Poisson and binomial, with binary32 rounding | `Model/Rounding32` |
| single precision constants and weights among double precision data on torch | `Model/TorchConst` |
| storages and version counters of torch during the forward pass | `Model/Tape` |
| element types (bool, int, float) through the ensemble scores on numpy, jax and torch | `Model/TypeFlow` |
| Python numbers as arguments on torch | `Model/TorchArgs` |
| Deprecated names | `Model/Aliases` |
| Pareto and extreme value scores with rounding | `Model/RoundTail` |
| Closed-form CRPS with rounding | `Model/RoundClosed` |
| Energy score with rounding, sums in any order | `Model/RoundEnergy` |
| Variogram score with rounding, sums in any order | `Model/RoundVariogram` |
| Ensemble CRPS (array path) with rounding, sums in any order | `Model/RoundCrps` |
| Ensemble CRPS (numba path, all seven estimators) with rounding | `Model/RoundCrpsLoop` |
| CRPS from quantiles (both paths) with rounding | `Model/RoundQuantile` |
| energy score (numba path) with rounding | `Model/RoundEnergyLoop` |
| variogram score (numba path) with rounding | `Model/RoundVariogramLoop` |
| ranked probability score and log scores with rounding | `Model/RoundBrier` |
| Gaussian kernel score (numba path) with rounding | `Model/RoundKernelLoop` |
| univariate Dawid-Sebastiani and error-spread scores with rounding | `Model/RoundDss` |
| Gaussian kernel score with rounding, sums in any order | `Model/RoundKernel` |
| some closed forms and array ensemble scores again, with gradients on torch and jax | `Model/Grad`, `Model/GradLogs`, `Model/GradEns`, `Model/GradTail`, `Model/GradClogs`, `Model/GradEdge`, `Model/GradGamma` |
| Python loops, `backend/numpy.py` primitives | `Model/Py`, `XF`, `Arr` |

Not modelled: the jax and torch backends beyond the table (they run the same `_approx`/`_score` expressions with
other primitives), the deprecated aliases of `__init__.py`, the NaN-omitting gufuncs of `core/crps/_gufuncs.py:266-365` and
`apply_nan_policy_ens_mv` (neither is called by a public function), plotting, random number generation, float32, compilation,
warnings, performance, dtype promotion except in C42, printing.

## Trusted base

* The Lean 4.33.0 kernel and Mathlib's definitions (reals, integrals, `Real.exp`, `Real.log`,
  `Real.rpow`, `Real.Gamma`, ...).
* Axioms: every theorem depends on at most `propext`, `Classical.choice`, `Quot.sound`
  (checked with `#print axioms` over the theorems of `MANIFEST.json`; this project adds no axiom).
* The transcription of Python to Lean (each definition cites file and lines).
* Exact arithmetic: finite floats are modelled as reals. Rounding, overflow of finite
  operations to infinity, underflow, signed zeros and the float32/float64 distinction are NOT modelled, except in
  `Model/Rounding` (C129, C130), `Model/RoundingEns` (C131) and `Model/Rounding32` (C137, C138;
  library functions are assumed to return the correctly rounded value)
  (a division by zero uses the sign convention of `+0`). So "equal" in a theorem means "equal up to rounding" in the code.
* Decimal constants of the code are modelled as written (e.g. Euler's constant in `crps_gev`, `1e-36` in the binomial
  distribution function), not as the constant they stand for.
* numpy/numba primitives are modelled by their documented meaning: `sum`, `mean`, `cumsum`,
  `sort`/`argsort`, `roll`, `moveaxis`, `where`, comparisons with NaN, `guvectorize` looping over
  leading axes, IEEE division inside gufuncs (numba's gufunc target uses the numpy error model).
* External special functions (scipy `erf`, `gammainc`, `betainc`, `beta`, `gamma`, `comb`, `factorial`, `expi`, Bessel
  functions) are modelled by their mathematical definitions.
* Gradients (C132): the derivative rules of torch and jax as in `Model/Grad` (0 for `abs` at 0, half to each of two equal
  arguments of `maximum`, a zero cotangent for the branch of `where` that is not taken, `torch.norm` 0 at the zero vector,
  `jnp.linalg.norm` differentiated as `sqrt(sum(x * x))`), and that `torch.asarray` of a tensor is detached, as the comment in
  `backend/torch.py:35` says.
* Vectorised numpy expressions of the shape `obs[..., None] - fct` reduced over the last axis
  are modelled on one slice (1-D ensemble) and mapped over the batch; the batch plumbing
  (axis moves, shape checks, NaN policy, sorting, weights, dispatch) is modelled on n-d arrays. Where the
  reduction axis is wrong in the code (`vr_ensemble`, axis=1) the array-level expression is modelled.
* Weighted multivariate gufuncs read `ow = ow[0]`; the model takes this as unpacking the scalar argument.

## Properties, one by one

Each entry: what is modelled and how it is proved; then what is false or missing. The exact
theorem names are in `MANIFEST.json`; the English statements are in `properties.jsonl`.

* **C01 Ensemble CRPS is the integral definition** — *proved*. Model: `Gufunc.nrg`, `Approx.nrg` and their weighted forms (`Model/Crps`). Proof: the integrand is written as a double sum of products of indicators, each integrates to a minimum of two numbers (`Lemmas/CrpsInt`). Both paths, weighted and unweighted, any number of members; the specification is the Lebesgue integral of (F(z) - 1{y<=z})^2.
* **C02 qd and int estimators equal nrg** — *proved*. Model: the `qd` and `int` kernels, loops as folds with an explicit state. Proof: on a sorted list every pair sum collapses to a weighted sum; the `int` loop is the integral over the gaps between members. Unweighted and weighted, sorted flag included.
* **C03 pwm estimator equals fair** — *proved*. Model: `pwm` and `fair`. Proof: sorted sums; the single-member case computes 0/0 in `XF`. Two or more members: both equal the fair score; one member: both NaN.
* **C04 Backends agree without weights** — *proved*. Model: all seven kernels twice. Proof: both reduce to the same real formula on finite data. All seven estimators on finite data.
* **C05 Backends agree with weights** — *partial*. Model: weighted kernels of both paths. False for akr_circperm with an even number of members (C05_akr_circperm_disagrees, numba 0 against array 1); proved for everything else.
* **C06 CRPS is non-negative and zero only for a perfect forecast** — *proved*. Proof: through the integral of C01; the integrand vanishes only if the empirical distribution is the unit step. nrg, qd, int; weighted version counts only members with non-zero weight.
* **C07 Member order is irrelevant** — *proved*. Proof: permutation-invariant formulas; sorting is invariant. nrg, fair, pwm, qd, int, weighted and unweighted.
* **C08 Translation, reflection and scale equivariance** — *partial*. Proof: affine change of variable in the closed formulas; negative factors reverse the sorted order. Unweighted: all estimators, all real c and d. Weighted: false for pwm with negative c (C08_weighted_pwm_reflection_fails); proved for everything else.
* **C09 Constant weights equal no weights** — *partial*. Proof: constant weights normalise to 1/M, then the weighted formula is the unweighted one. False for akr_circperm on the array path with an even number of members (C09_akr_circperm_differs); proved for everything else.
* **C10 Only relative weights matter** — *proved*. Model: both normalisation passes (`core/utils.py:92-107` is applied twice by `crps_ensemble`). Proof in `XF` for all floats. For all float weights, including NaN and infinities, all policies and estimators.
* **C11 nan_policy='omit' equals dropping the members** — *partial*. Model: `apply_nan_policy_ens_uv` and the dispatch of `crps_ensemble` on n-dimensional arrays (`Model/Api`). All NaN patterns, weighted and unweighted, both paths, with and without sorted_ensemble; NaN when nothing is left. Only the numba qd kernel with sorted_ensemble=True is excluded: it is wrong with a leading NaN (C11_sorted_leading_nan).
* **C12 nan_policy semantics** — *partial*. Model: `apply_nan_policy_ens_uv` and the dispatch of `crps_ensemble` on n-dimensional arrays (`Model/Api`). raise and unknown policies at array level; propagate for every estimator and path. False for numba int with one member and NaN weight (C12_int_numba_ignores_nan_weight).
* **C13 omit is refused, never silently wrong, for unsupported estimators** — *proved*. Model: `apply_nan_policy_ens_uv` and the dispatch of `crps_ensemble` on n-dimensional arrays (`Model/Api`). omit raises NotImplementedError for the estimators whose kernels are not covered by it (akr, akr_circperm, int), at array level, both paths.
* **C14 Batches are scored slice by slice, along any ensemble axis** — *proved*. Model: `crps_ensemble` end to end on n-dimensional arrays, exceptions as values. Proof: index arithmetic of `moveaxis`. All ranks and axes, weighted and unweighted, all estimators; value and error behaviour of every slice.
* **C15 Incompatible shapes are rejected** — *proved*. Model: `crps_ensemble` end to end on n-dimensional arrays, exceptions as values. Proof: index arithmetic of `moveaxis`. Any rank, any valid axis.
* **C16 Invalid weights are rejected** — *partial*. Model: weight check, dispatch tables and axis handling of `crps_ensemble` (`Model/Api`), also of the multivariate scores. Wrong-shaped weights raise for propagate/raise. False in part: with omit a negative weight on a NaN member is accepted (C16_omit_accepts_negative) and broadcastable weights are accepted (C16_omit_broadcasts_weights).
* **C17 Unknown estimators are rejected** — *partial*. Model: weight check, dispatch tables and axis handling of `crps_ensemble` (`Model/Api`), also of the multivariate scores. All documented names accepted. False in part: the numba table also contains ownrg/vrnrg, which give a TypeError instead of the documented ValueError (C17_numba_table_leaks_names).
* **C18 sorted_ensemble is only an optimisation** — *proved*. Proof: a stable sort of a sorted list is the identity; tied members commute. Stated for all float ensembles in ascending order; ties covered by C18_any_sorting_permutation.
* **C19 The ensemble CRPS is proper** — *proved*. Proof: the difference of mean scores is the integral of (F-G)^2 (C01). With and without weights, gap given as an integral.
* **C20 The fair estimator is unbiased** — *proved*. Proof: finite average over all functions `Fin M -> Fin N`; expectation of pair terms. Exact average over all N^M samples.
* **C21 Threshold-weighted CRPS is the restricted integral** — *proved*. Model: `uv_weighted_score_chain` followed by `crps_ensemble`. Proof: clipping turns the integral over the line into the one over [a,b]. Any bounds a <= b (finite or infinite), nrg, qd and int, weighted and unweighted, both paths; C21_only_the_side_matters for all estimators.
* **C22 Trivial weighting recovers the CRPS** — *partial*. Model: chaining and weight functions (`Model/WeightedUv`). vr on the array path only for two-dimensional forecasts, see C24.
* **C23 Outcome-weight behaviour** — *proved*. Model: owCRPS/vrCRPS kernels of both paths. Specification: CRPS integral of the reweighted ensemble. Value formulas, non-negativity, homogeneity, negative weights rejected.
* **C24 vrcrps works slice-wise for every batch rank** — *partial*. Model: array-level expressions including the wrong reduction axis and the axis handling. False: the array path without ensemble weights averages over axis 1 (vr_ensemble, crps/_approx.py:173). It raises for one-dimensional forecasts (C24_false_scalar) and for most higher ranks (C24_false_rank3), and silently returns a wrong value for square ones (C24_false_silent). Proved for the numba path and for two-dimensional forecasts.
* **C25 Weighted CRPS variants respect m_axis together with weights/omit** — *partial*. Model: array-level expressions including the wrong reduction axis and the axis handling. False for nan_policy=omit: ValueError (C25_false_omit_raises) or a transposed mask (C25_false_omit_silent). Proved for propagate.
* **C26 Quantile score identities** — *proved*. Model: `Model/Quantile`. Specification: pinball loss, interval score. Consistency by convexity on finite samples. Any broadcastable shapes for quantile_score; any rank and axis for crps_quantile, both paths.
* **C27 Interval score is a sum of quantile scores** — *proved*. Model: `Model/Quantile`. Specification: pinball loss, interval score. Consistency by convexity on finite samples. Single numbers and arrays of cases with several intervals (no axis of length one, where np.squeeze does nothing).
* **C28 Weighted interval score** — *partial*. Model: `Model/Quantile`. Specification: pinball loss, interval score. Consistency by convexity on finite samples. False on the array path: core/interval/_score.py:39 adds w_median*median instead of w_median*|obs-median| (C28_false_array). Proved for the numba path; C28_wis_array_partial states what the array path returns.
* **C29 Quantile score is consistent** — *proved*. Model: `Model/Quantile`. Specification: pinball loss, interval score. Consistency by convexity on finite samples. Both directions: quantiles are optimal and only quantiles are optimal.
* **C30 Brier and log score** — *proved*. Model: `Model/Brier` including the argument checks. Propriety by squares and by Gibbs' inequality in extended reals. Any broadcastable shapes; strict propriety, infinite log scores included. NaN observations raise although the message lists them as allowed.
* **C31 RPS** — *proved*. Model: `Model/Brier` including the argument checks. Propriety by squares and by Gibbs' inequality in extended reals. Any rank and category axis; strict propriety.
* **C32 Ranked logarithmic score** — *proved*. Model: `Model/Brier` including the argument checks. Propriety by squares and by Gibbs' inequality in extended reals. Any rank and category axis, infinite scores included; strict propriety for positive forecasts.
* **C33 Energy score basics** — *proved*. Model: `Model/Energy`, `Model/Multivariate`, both paths. Energy score: all documented estimators; the value is related to an independent kernel-mean formula over Euclidean vectors; zero iff all members (with positive weight) equal the observation.
* **C34 Energy score paths agree for every estimator, weighted or not** — *partial*. Model: `Model/Energy`, `Model/Multivariate`, both paths. Paths agree without weights for every estimator and, with weights, for every estimator but akr_circperm with odd M (differs: witness) ; weighted owes numba kernel uses mean(fw) instead of the weighted mean (differs: witness). The model reads `ow = ow[0]` in the weighted gufuncs as unpacking the scalar argument.
* **C35 The energy score is proper** — *proved*. Proof: the Gaussian kernel is positive definite (power series of products), and the Euclidean distance is an integral of 1 minus Gaussian kernels, hence conditionally negative definite. Propriety over finitely supported distributions in R^D, unweighted and weighted; uses conditional negative definiteness of the Euclidean distance, proved in Lemmas/PosDef.
* **C36 Variogram score** — *proved*. Model: `Model/Variogram`, both paths, all four functions. Values, path agreement (unweighted and weighted, nrg and fair), non-negativity, translation, permutation, zero, homogeneity, propriety, default pair weights, and the outcome-weighted and vertically re-scaled variants are proved.
* **C37 Gaussian kernel score** — *partial*. Model: `Model/Kernel`, both paths, univariate and multivariate. Proved: values of nrg/fair, agreement of the paths without weights for all four estimators, non-negativity (positive definiteness of the Gaussian kernel in every dimension), zero at the observation, one variable = univariate, outcome-weighted and re-scaled values, slice-wise application. False parts proved as negations: weighted akr_circperm is rejected by the array path (dispatch tests for akr_circperm_w), weighted fair keeps the diagonal on the array path (paths differ; constant weights differ from no weights), vrgksmv with weights always fails on numba.
* **C38 Dawid-Sebastiani score** — *proved*. Model: `Model/Dss`. Proved for every ensemble of positive variance, both paths and both variance conventions; agreement of the paths for all inputs including missing and infinite values.
* **C39 Error-spread score** — *partial*. Model: `Model/Dss`. Values proved for every ensemble of at least three members not all equal; reflection, translation and homogeneity follow from one affine law. False part: the array path drops axes of length one from the result and the numba path does not, so the shapes differ (C39_squeeze).
* **C40 Backend registry** — *proved*. Model: registry as a state machine (`Model/Registry`); induction over histories. Proved over every finite history of register, lookup, set_active and active operations. Which libraries are installed is a parameter, taken not to change during a session.
* **C41 Scores do not modify their inputs** — *partial*. Model: arrays with an element type and in-place writes (`Model/Dtype`). False for a float array whose location is subtracted in place: crps_exponentialM and logs_exponential2 change the caller's observations (C41_exponentialM_writes, C41_exponential2_writes, C41_second_call_differs). The partial theorems give the cases in which the caller's data are left alone.
* **C42 Integer observations** — *partial*. Model: arrays with an element type and in-place writes (`Model/Dtype`). False: integer observations truncate the CRPS on the paths whose gufunc kernel writes into an array typed like the input (C42_witness) and raise on others; proved for float data and for every unaffected estimator. Energy score: nrg and fair without weights raise, every other case truncates.
* **C43 crps_uniform is the CRPS of its distribution** — *proved*. Model: the closed form (`Model/Closed`, `Model/Closed2`). Specification: documented distribution function (`Spec/Dist`) and the CRPS integral (`Spec/Crps`). Proof: explicit antiderivatives and limits (`Lemmas/Antideriv`, `ClosedInt`, `Gpd`, `Normal`, `ClosedScale`). Closed.uniform on scalars (elementwise function); real arithmetic; the CRPS integral converges and equals the closed form for all admissible parameters and every real observation.
* **C44 crps_exponential is the CRPS of its distribution** — *proved*. Model: the closed form (`Model/Closed`, `Model/Closed2`). Specification: documented distribution function (`Spec/Dist`) and the CRPS integral (`Spec/Crps`). Proof: explicit antiderivatives and limits (`Lemmas/Antideriv`, `ClosedInt`, `Gpd`, `Normal`, `ClosedScale`). Closed.exponential on scalars (elementwise function); real arithmetic; the CRPS integral converges and equals the closed form for all admissible parameters and every real observation.
* **C45 crps_exponentialM is the CRPS of its distribution** — *proved*. Model: the closed form (`Model/Closed`, `Model/Closed2`). Specification: documented distribution function (`Spec/Dist`) and the CRPS integral (`Spec/Crps`). Proof: explicit antiderivatives and limits (`Lemmas/Antideriv`, `ClosedInt`, `Gpd`, `Normal`, `ClosedScale`). Closed.exponentialM on scalars (elementwise function); real arithmetic; the CRPS integral converges and equals the closed form for all admissible parameters and every real observation.
* **C46 crps_laplace is the CRPS of its distribution** — *proved*. Model: the closed form (`Model/Closed`, `Model/Closed2`). Specification: documented distribution function (`Spec/Dist`) and the CRPS integral (`Spec/Crps`). Proof: explicit antiderivatives and limits (`Lemmas/Antideriv`, `ClosedInt`, `Gpd`, `Normal`, `ClosedScale`). Closed.laplace on scalars (elementwise function); real arithmetic; the CRPS integral converges and equals the closed form for all admissible parameters and every real observation.
* **C47 crps_2pexponential is the CRPS of its distribution** — *proved*. Model: the closed form (`Model/Closed`, `Model/Closed2`). Specification: documented distribution function (`Spec/Dist`) and the CRPS integral (`Spec/Crps`). Proof: explicit antiderivatives and limits (`Lemmas/Antideriv`, `ClosedInt`, `Gpd`, `Normal`, `ClosedScale`). Closed.twopexponential on scalars (elementwise function); real arithmetic; the CRPS integral converges and equals the closed form for all admissible parameters and every real observation.
* **C48 crps_logistic is the CRPS of its distribution** — *proved*. Model: the closed form (`Model/Closed`, `Model/Closed2`). Specification: documented distribution function (`Spec/Dist`) and the CRPS integral (`Spec/Crps`). Proof: explicit antiderivatives and limits (`Lemmas/Antideriv`, `ClosedInt`, `Gpd`, `Normal`, `ClosedScale`). Closed.logistic on scalars (elementwise function); real arithmetic; the CRPS integral converges and equals the closed form for all admissible parameters and every real observation.
* **C49 crps_gpd is the CRPS of its distribution** — *proved*. Model: the closed form (`Model/Closed`, `Model/Closed2`). Specification: documented distribution function (`Spec/Dist`) and the CRPS integral (`Spec/Crps`). Proof: explicit antiderivatives and limits (`Lemmas/Antideriv`, `ClosedInt`, `Gpd`, `Normal`, `ClosedScale`). Closed.gpd on scalars (elementwise function); real arithmetic; the CRPS integral converges and equals the closed form for all admissible parameters and every real observation.
* **C50 crps_normal is the CRPS of its distribution** — *proved*. Model: the closed form (`Model/Closed`, `Model/Closed2`). Specification: documented distribution function (`Spec/Dist`) and the CRPS integral (`Spec/Crps`). Proof: explicit antiderivatives and limits (`Lemmas/Antideriv`, `ClosedInt`, `Gpd`, `Normal`, `ClosedScale`). Closed.normal on scalars (elementwise function); real arithmetic; the CRPS integral converges and equals the closed form for all admissible parameters and every real observation.
* **C51 Location-scale equivariance of closed forms** — *proved*. Algebra on the models in `XF`. All location-scale families of the closed-form scores: normal, logistic, Laplace, t, GPD, GEV, the generalised, truncated and censored normal, logistic and t for every float observation and bound; exponentialM, two-piece exponential and uniform for finite ones. Log scores: normal, logistic, Laplace, t, GPD, GEV, truncated normal and logistic, exponential2, two-piece exponential, two-piece normal, uniform.
* **C52 Nested families coincide** — *proved*. Algebra on the models in `XF`. For finite observations. At infinite observations the generalised families return NaN where the plain ones return an infinity.
* **C53 Truncated/censored logistic accepts one-sided bounds** — *partial*. NaN propagation computed in `XF`; the positive part against the CRPS integral. False: with one finite bound the logistic formulas return NaN for every input (C53_false).
* **C54 Truncated/censored t accepts a bound at the location** — *partial*. NaN propagation computed in `XF`; the positive part against the CRPS integral. False: a bound at the location gives NaN (C54_false). The partial theorems cover no bounds and every bound other than the location.
* **C55 crps_hypergeometric is the CRPS** — *partial*. Specification: CRPS as a sum over the support. Proof: finite sums. False: the sum runs over 0..n with n the number of failure states (C55_false). Holds when min(m,k) is at most n.
* **C56 crps_loglaplace is defined for non-positive observations** — *partial*. NaN propagation computed in `XF`; the positive part against the CRPS integral. False: NaN at every non-positive observation (C56_false, C56_false_value); at positive observations it is the CRPS.
* **C57 Log scores are negative log densities** — *proved*. Specification: `Spec/Dens.IsDensity` (non-negative, total integral one, its integral is the documented distribution function). Proof: derivative of the distribution function off a finite set. All eight listed families, and also lognormal, loglogistic, loglaplace, two-piece normal, gamma, generalised extreme value, beta (off the end points), t, normal mixtures, truncated normal and truncated logistic and truncated t (two-sided and one-sided bounds). Each theorem also identifies the distribution function. The unbounded end point of a generalised Pareto density with shape below -1 is C57_gpd_endpoint.
* **C58 Discrete log scores are negative log probabilities** — *partial*. Specification: `Spec/Pmf` (probabilities summing to one). False in places: logs_negbinom is +inf everywhere for size below one (C58_negbinom_fails), logs_binomial and logs_hypergeometric are finite at some non-integers, logs_binomial is NaN beyond n when prob=1. Proved for everything else; Poisson in full.
* **C59 Alternative parameterisations are exclusive** — *proved*. Model: the argument logic with `Option` parameters. Every combination of given and omitted arguments.
* **C60 CORP decomposition** — *proved*. Model: `Model/Reliability`; isotonic regression is a parameter constrained by its defining optimality property. Isotonic regression (scipy) is a parameter assumed to return the least-squares monotone fit; its existence is proved. Also: fitted probabilities keep the mean and range of the outcomes.
* **C61 Adding exact copies of the ensemble changes nothing** — *proved*. Proof: through the pair-sum formulas. Any replication factor; difference formula between fair and nrg.
* **C62 Zero-weight members are ignored** — *proved*. Proof: in the weighted formulas; the sorting estimators commute with removing a zero-weight member. Zero-weight member at any position, five estimators.
* **C63 Conditional-likelihood log score for ensembles** — *proved*. Model: `Model/LogsEns` on arrays, with broadcasting. Values of logs_ensemble and clogs_ensemble for all shapes, axes and bandwidths (given or Silverman), scalar thresholds; defaults coincide; at or outside the thresholds zero with cens=False.
* **C64 Multivariate weights follow m_axis and v_axis** — *partial*. Model: `multivariate_array_check`, `multivariate_weight_check` on arrays. Proved for the energy, variogram and Gaussian kernel scores: without ensemble weights every pair of distinct axes (positive or negative) gives the score of the moved array; with weights the same holds when the ensemble axis precedes the variable axis. False otherwise, proved as negations: with the variable axis first the weights are moved by the wrong axis, which fails with an axis error when the ensemble axis is the last one and silently yields a wrong number otherwise (witness).
* **C65 Weighted pwm equals weighted fair** — *partial*. Model: weighted kernels of both paths. False as stated (C65_weighted_pwm_ne_fair); the exact difference is proved.
* **C66 Out-of-range m_axis is rejected** — *partial*. Model: weight check, dispatch tables and axis handling of `crps_ensemble` (`Model/Api`), also of the multivariate scores. False as stated: m_axis=-3 is accepted on a 2x2 forecast (C66_out_of_range_axis_accepted). Proved for m_axis >= ndim or m_axis < -2 ndim.
* **C67 Per-observation thresholds in clogs_ensemble** — *partial*. Model: `Model/LogsEns` on arrays, with broadcasting. False: per-observation thresholds raise ValueError (C67_false_error) or, when n = M, are paired with members (C67_false). Holds for scalar thresholds.
* **C68 CORP decomposition does not depend on the order of the sample** — *partial*. Model: `Model/Reliability`; isotonic regression is a parameter constrained by its defining optimality property. False with tied forecasts (C68_false); holds when forecasts are distinct.
* **C69 CRPS of truncated, censored and generalised normal distributions** — *proved*. Specification: `Spec/Gtc` (distribution restricted to an interval with point masses). Proof: `Lemmas/Gtc` for a general distribution given its first two primitives. All bounds finite or infinite; masses adding up to one give NaN (C69_full_mass_nan).
* **C70 CRPS of truncated and censored logistic distributions with two finite bounds** — *proved*. Specification: `Spec/Gtc` (distribution restricted to an interval with point masses). Proof: `Lemmas/Gtc` for a general distribution given its first two primitives.
* **C71 CRPS of the two-piece normal distribution** — *proved*. Proof: split at the location (`Lemmas/Split`).
* **C72 CRPS of normal mixtures** — *proved*. Proof: the CRPS of a mixture from convolutions of normal distributions (`Lemmas/Mix`, `NormalConv`).
* **C73 CRPS of the log-normal distribution** — *partial*. Proof: densities (`Lemmas/DensCrps`, `Lognormal`, `LogCrps`, `BetaInt`). False at negative observations (NaN); the CRPS at all others.
* **C74 CRPS of the log-logistic distribution** — *partial*. Proof: densities (`Lemmas/DensCrps`, `Lognormal`, `LogCrps`, `BetaInt`). False at negative observations (NaN); the CRPS at all others.
* **C75 CRPS of the gamma distribution** — *proved*. Specification: `Spec/Special` (integral of the gamma density). Proof: CRPS from first moments and the cross moment (`Lemmas/DensCrps`), incomplete gamma recurrences, Legendre duplication. Gamma CRPS closed form proved equal to the integral for all parameters and observations; public function with rate or scale.
* **C76 CRPS of the censored, shifted gamma distribution** — *partial*. As C75 with a censoring lemma (`Lemmas/DensCens`). Proved for non-negative observations and for non-positive shift. False otherwise: with a positive shift and a negative observation the code returns a value strictly below the CRPS (C76_false_negative).
* **C77 CRPS of the beta distribution** — *partial*. As C75 with incomplete beta recurrences. Proved for observations in [lower, upper]. False outside: the code returns NaN where the CRPS is finite (C77_false_outside).
* **C78 CRPS of Student's t distribution** — *proved*. As C75; the t distribution function through the substitution 1/(1+x^2) (`Lemmas/TInt`). Proved for df>1 (finite mean) and every observation.
* **C79 CRPS of the binomial distribution** — *partial*. Proof: the incomplete beta function equals the binomial sum (`Lemmas/BetaSum`); Markov's inequality bounds the effect of the constant 1e-36. Equal up to a stated error below 1e-36 scale for prob < 1. False for prob = 1: three times the score below n, minus the score above (C79_prob_one_fails).
* **C80 CRPS of the Poisson distribution** — *proved*. Proof: energy form of the CRPS for a mass function with finite mean (`Lemmas/DiscreteInf`, sums and integrals exchanged), a recurrence for the mean absolute difference (`Lemmas/DiscreteRec`), incomplete gamma function as Poisson sum. Proved for every mean >= 0 and every real observation.
* **C81 CRPS of the negative binomial distribution** — *proved*. As C80; the hypergeometric constant through Parseval's identity for the generating function on the unit circle (`Lemmas/Parseval`, `Lemmas/NegbinomCrps`) and a trigonometric substitution in Euler's integral. Proved for every size > 0, probability in (0,1] and real observation, and for the parametrisation by the mean.
* **C82 Generalised extreme value CRPS** — *proved*. The distribution function is written out in `Spec/Gev.lean`. Explicit primitives of F and F² in terms of the upper incomplete gamma function (`Lemmas/Gev.lean`) and, for shape zero, of the exponential integral (`Lemmas/Gumbel.lean`) give the CRPS integral; Euler's constant enters as the limit of E1(w) + log w, obtained from the derivative of the gamma function at one. `Lemmas/EulerGamma.lean` bounds the error of the decimal expansion in the source by 1e-7 from the 1024th harmonic number. `C57_gev` shows that `logs_gev` is minus the logarithm of the density of the same distribution, for every shape. Shape other than zero: exact equality with the CRPS integral. Shape zero: the code uses a decimal expansion of Euler's constant; the difference is stated exactly and bounded by 1e-7 times the scale.
* **C83 Truncated and censored t CRPS** — *partial*. Primitives of F and F² for the t distribution (`Lemmas/TGtc.lean`): x F + G and x F² + 2 G F - B H, where H is the distribution function of the squared kernel; the code's sign-and-incomplete-beta expression is shown to be H (`tH_code`, through the reflection of the incomplete beta function). The general lemmas on restricted distributions (`Lemmas/Gtc.lean`) finish the proof. The sign u/|u| is 0/0 at a bound equal to the location, hence `C83_false`. False with a bound at the location (C83_false: the code returns NaN where the CRPS exists). Proved for two, one and no bounds otherwise.
* **C84 Multivariate Dawid-Sebastiani score** — *partial*. `Spec/DssMv.lean` gives mean vector, covariance matrix and score on real vectors. The model (`Model/DssMv.lean`) uses exact determinants and inverses; the entries of the covariance matrix, the quadratic form and the error cases are computed as in the source. `Lemmas/DssMv.lean` shows that the covariance matrix is positive semidefinite and singular for at most as many members as variables, and that trace(S^-1 S0) + log det S >= D + log det S0 with equality only for S = S0 (log x <= x - 1 on the eigenvalues), from which strict propriety follows. In floating point a singular covariance may pass as barely invertible; this is outside the model. False for one variable on the array path (C84_false, C84_one_variable_raises). Proved: value, singular ensembles, both paths agree, affine equivariance, permutation, strict propriety, arrays of any shape including when the call raises (C84_slice_by_slice). Linear algebra is exact; a single member is not modelled on numba.
* **C85 Normal mixture scores on arrays** — *proved*. `Model/Mixnorm.lean` models the two API functions with `moveaxis`, the default weights and the broadcasting of the closed forms; `Spec.mixAt` reads a mixture off the slices. The proof reduces to C72 row by row. Reduces to C72 on every slice.
* **C86 Backends agree on discrete distributions** — *partial*. `Model/Backends.lean` writes the special functions of the three backends as in their files: jax and torch through exp(lgamma) and floor division. Equality is proved for natural arguments with k <= n (`C86_comb`, `C86_binomial`, `C86_poisson`, `C86_negbinom_partial`); the failures for non-integer size (`C86_comb_real`, `C86_negbinom_false`) and for k > n on jax (`C86_comb_jax`, `C86_binomial_jax`, `C86_hypergeometric_jax`) carry witnesses. Missing from the full statement: it is false. Rounding of exp(lgamma) before the floor division is outside the model. False for non-integer sizes on jax and torch, for k > n on jax, and for negative arguments of gamma on torch (C86_negbinom_false, C86_comb_jax, C86_gamma_negative). Proved for positive arguments and natural k <= n.
* **C87 apply_along_axis of the torch backend** — *partial*. Both branches of the torch function are modelled; whether vmap accepts the function is a Boolean argument. `C87_partial` proves the vmap branch for every array; `C87_false` shows the fallback summing columns instead of rows. False when vmap refuses the function (C87_false). Proved for the vmap branch.
* **C88 NaN-omitting akr estimators** — *proved*. The loops are modelled step by step (`Model/Nanomit.lean`), the search for the k-th valid member as a recursion. A loop that skips NaN is a loop over the numbers; the rest is induction over the list. For real members and NaN; with infinite members the two differ (C88_infinite).
* **C89 Multivariate NaN policy** — *proved*. One observation with its list of members; the code does the same for every leading index.
* **C90 Binomial CRPS on arrays** — *partial*. `Model/DiscreteArr.lean` models the inserted axes, the broadcast, the loop over `zip(..., strict=True)` and the errors. Proved for scalars and one-dimensional arrays (both branches); `C90_matrix_raises` and `C90_false` show what happens for every matrix of observations. Missing: the statement is false from rank two on; empty arrays raise. False for arrays of rank two (C90_false, C90_matrix_raises). Proved for scalars and one-dimensional arrays.
* **C91 Hypergeometric CRPS on arrays** — *partial*. Both branches with broadcasting, `reshape(-1)` and the final reshape. `C91_scalar_n` holds for all shapes; `C91_array_n_partial` for n of the full shape; `C91_broadcast_raises` shows that any smaller array n raises. The value of each element is that of the scalar formula, on which C55 reports. False when n has to be broadcast (C91_false, C91_broadcast_raises). Proved for scalar n with all shapes and for n of the full shape.
* **C92 Outcome-weighted and re-scaled scores on arrays** — *proved*. `Spec.SliceBySlice` says what an array call must do in terms of the calls on the slices, including when it must raise. The shared patterns of the scores are proved once (`Lemmas/SliceBySlice.lean`). Proved for all shapes, axes and weight functions, including the exact condition under which the call raises.
* **C93 Outcome-weighted multivariate scores with ensemble weights on arrays** — *partial*. Same specification. Proved when the ensemble axis precedes the variable axis (for `vrgksmv_ensemble` on the array path). Missing because false: `C93_false` (ensemble axis last: AxisError) and `C93_vrgksmv_numba_raises` (the numba function is not a gufunc and always raises). Proved when the ensemble axis precedes the variable axis. False for the ensemble axis last (C93_false: AxisError although the weights have the documented shape) and for vrgksmv_ensemble with numba (C93_vrgksmv_numba_raises).
* **C94 Documented estimators are accepted on all arrays** — *proved*. The unweighted statements give the result array outright; they also supply the hypothesis `ho` of the slice theorems of C37 and C64. Proved. For the weighted multivariate calls with the other axis order see C64.
* **C95 The vectorised CRPS code acts on every slice separately** — *proved*. `Model/Np.lean` models the numpy operations on whole arrays (`expand_dims`, broadcasting, `sum`, `mean`, `roll`, `concatenate`, fancy indexing, in-place products), `Model/CrpsNp.lean` transcribes `_approx.py` and `_approx_w.py` with them line by line. `Lemmas/Np.lean` evaluates such code entry by entry (`IsB`: batch shape, tail shape and entries of an array). C95 removes the simplification that the kernels of `Model/Crps.lean` are applied slice by slice on the array path. Proved for the literal array code (Model/CrpsNp over the numpy operations of Model/Np), both against the one-slice formulas and as a statement about the array code alone (C95_slices).
* **C96 Vectorised energy score acts vector by vector** — *proved*. `Model/EnergyNp.lean` transcribes `_score.py` and `_score_w.py` line by line over `Model/Np.lean`; `Lemmas/NpTensor.lean` evaluates arrays with three and four axes after the batch. C96 removes the simplification that the kernels of `Model/Energy.lean` are applied slice by slice on the array path. Proved for the literal array code (Model/EnergyNp over the numpy operations of Model/Np), both against the one-vector formulas and as a statement about the array code alone (C96_slices).
* **C97 Vectorised variogram score acts vector by vector** — *proved*. `Model/VariogramNp.lean` in the same way. Pair weights may carry the batch axes or not; both cases are proved (`C97_estimators`, `C97_shared_weights`). Proved for the literal array code (Model/VariogramNp), with pair weights per batch entry or one shared matrix (C97_shared_weights).
* **C98 Vectorised kernel scores act slice by slice** — *proved*. `Model/KernelNp.lean` in the same way, univariate and multivariate. Proved for the literal array code (Model/KernelNp), univariate and multivariate, both against the one-slice formulas and as a statement about the array code alone (C98_slices).
* **C99 Public ensemble functions, run on whole arrays, give one score per observation** — *proved*. `Model/ApiNp.lean` composes the argument checks with the array code of C95-C98. `Lemmas/ApiNp.lean` proves which shapes the checks let through, for every axis argument (`check_shape` also covers axis numbers below `-ndim`). The theorems say that the result equals that of the slice-wise model about which the score theorems speak, exceptions included; the variogram score is covered without pair weights and with one matrix of them. No multivariate statement is made for axis arguments that do not denote two different axes. Proved: the whole call on arrays (checks followed by the literal array code) has the same outcome as the slice-wise model; univariate functions without hypotheses, multivariate ones for two different in-range axes.
* **C100 Variogram pair weights may differ between observations** — *proved*. `Model/PairWeights.lean` has the three public variogram functions with an array of pair weights: on the array path the literal array code of `Model/ApiNp.lean`, on the numba path a gufunc call whose loop axes are broadcast (`loopMat`, `pairLoopOk`). The theorems compare with the one-observation scores `vs1`, `owvs1`, `vrvs1`; `C100_shared` says that one matrix gives the function of `Model/Variogram.lean`, exceptions included. Both paths; one matrix of pair weights per observation, or one for all.
* **C101 CRPS functions are strictly proper scores** — *proved*. `Spec/Proper.lean` defines the distribution function `distr P` of a law, the mean of an extended-real score (`HasMean`: finite almost surely, integrable, with that integral), the entropy and the Cramér distance, and `CrpsProper A S G`. `Lemmas/Proper.lean` proves by Fubini that the expected CRPS is entropy plus Cramér distance (`expected_crps`) and that the distance vanishes only for equal distribution functions (right-continuity). `Props/Proper.lean` applies this to each family for which an earlier theorem identifies the code's value with the CRPS; `C101_truth_wins` compares any two laws, `C101_normal_parameters` and `C101_logistic_parameters` show that the parameters themselves are identified. Excluded: the Gumbel case of `crps_gev` (35-digit Euler constant) and `crps_binomial` (adds 1e-36, see C79), whose values are not exactly the CRPS. Mean score under every law with finite mean = entropy + Cramér distance, zero distance iff equal distribution functions. GEV with shape 0 and the binomial are left out: their values carry a decimal Euler constant and a 1e-36 offset.
* **C102 Logarithmic scores are strictly proper** — *proved*. `Spec/Proper.lean` defines `LogProper S G` (every density `p`, both means finite) and `LogProperN` (mass functions). `Lemmas/LogProper.lean` proves Gibbs' inequality with its equality case for densities (`logProper_of`) and mass functions (`logProperN_of`); `Props/LogProper.lean` applies them to the densities identified in C57 and C58. Each example computes a mean under the uniform law on [1, 2] or a fair coin, so the hypotheses are met. `C102_normal_mean` gives the mean in closed form. The endpoint exceptions of the generalised Pareto and beta scores (C57) do not matter: they have probability zero. Means have to exist as hypotheses; the negative binomial score with size below one is +inf everywhere (C58), so nothing is claimed there.
* **C103 Gaussian kernel scores are strictly proper** — *proved*. `Spec/Mmd.lean` defines the mean of a kernel over two independent draws, the squared kernel distance `mmd2`, the law `ensLaw` of a weighted ensemble and the propriety statements `KernelProper`, `OwProper`, `VrProper`. `Lemmas/Mmd.lean` writes the Gaussian kernel as the characteristic function of a normal law of full support, so the distance is the mean squared difference of characteristic functions; it is zero only for equal measures because the support is everything and characteristic functions determine finite measures. `Props/KernelProper.lean` combines this with the values proved for C37. The vertically re-scaled multivariate score with ensemble weights is treated on the array path only (the numba path raises, C37). Values from C37; the kernel distance of two finite measures vanishes only if they are equal. With ensemble weights the multivariate vertically re-scaled score is covered on the array path only, since the numba path raises (C37).
* **C104 Energy score and distance-based weighted scores are strictly proper** — *proved*. `Lemmas/EnergyMmd.lean` proves r = (1/C) ∫ (1 - exp(-s r²)) s^(-3/2) ds with C > 0, so by Fubini the energy distance of two measures of equal mass is a mixture of Gaussian kernel distances and vanishes only for equal measures. For the vertically re-scaled scores the masses differ: the kernel ‖x‖ + ‖y‖ - ‖x - y‖ compares the measures completed to equal mass by a point mass at zero (`mmd2_cdist`), which is why mass at zero is not seen. `Props/EnergyProper.lean` rewrites the documented scores as kernel scores and uses the values proved for C23, C24, C33 and C34. Values from C23, C24, C33, C34. The numba path of the outcome-weighted energy score with ensemble weights is left out because it returns another value (C34); the array path of the unweighted vertically re-scaled CRPS is covered for two-dimensional forecasts (C24).
* **C105 A missing value gives a missing kernel, energy or variogram score** — *proved*. `Lemmas/KsNan.lean` shows that a NaN summand makes every accumulated sum NaN, for the loops of the gufuncs and the array code, with and without ensemble weights; `Props/ScoreNan.lean` states the result for the public functions: if a call returns `.ok r` on data with `Spec.HasNan` or `Spec.HasNanMv`, then r is NaN. `C105_vs_order_zero` proves the exception at p = 0. The outcome- and vertically re-weighted variogram scores are stated for given pair weights. Any call that returns a number on data with a NaN returns NaN; order zero of the variogram score is the proved exception. owvs/vrvs are stated for given pair weights.
* **C106 A missing observation gives a missing closed-form score** — *partial*. `Props/ClosedNan.lean`: `C106_crps_elementary` and `C106_crps_other` cover all CRPS families; `C106_logs_partial` lists the log scores for which the claim holds; the theorems ending in `_false` give the values of the six others. `XF.comb` follows scipy in returning zero when its range test fails, which a NaN argument does. False for six log scores (uniform, beta with shapes one, negative binomial, GPD, GEV with shape not zero, hypergeometric): witnesses C106_logs_*_false. Proved for every CRPS family and the other log scores. That scipy's comb is zero on NaN is taken from its source as remembered, not run.
* **C107 Missing values in the binary, ranked, quantile, interval, Dawid-Sebastiani, error-spread and ensemble log scores** — *partial*. `Props/OtherNan.lean`, directly on the models: a NaN summand makes each sum NaN. The `_false` theorems give the values of the exceptions: 17/16 for a missing category under the probabilities 1/4 and 3/4, zero or the finite censored score for a missing observation of `clogs_ensemble` with any finite ensemble, the median for the array code of the weighted interval score with no interval. `C107_clogs_member_partial` is what holds for the members of `clogs_ensemble`; for `rps_score` and `rls_score` the NaN case with one-hot vectors is `C107_ranked`. False for a missing category (rps_score, rls_score), for a missing observation in clogs_ensemble, and for the array weighted interval score without intervals; witnesses end in _false. Proved for the other scores.
* **C108 Quantile and interval scores are smallest for the quantiles of the law of the observation** — *partial*. `Spec/Elicit.lean` defines best reports (`Best`) and quantiles of a law (`LawQuantile`). `Props/QuantileLaw.lean` bounds the change of the pinball loss from q to q' by (F(q) - alpha)(q' - q) and the like (`step_le`), which gives both directions without densities; the interval score is a sum of two pinball losses, and sums over separate reports are minimised one by one (`separate_min`). `C108_wis_array_false`: on the array backends the median enters as such (C28), so the expected score can be lowered without bound and there is no best report under any law. False of weighted_interval_score on the array backends, where no report is a best one (C108_wis_array_false, a consequence of C28); proved on the numba path and for the other scores on all paths.
* **C109 Threshold-weighted scores are proper and see exactly what the chaining function keeps** — *proved*. `Spec/TwProper.lean` states both forms. `Props/ThresholdProper.lean` transports the law of the observation through the chaining function (`hasMean_of_map`) and applies C101, C103 and C104 to the image; for interval thresholds `integral_region` turns the integrals of the clamped distribution functions into integrals over the region. Chaining functions are `ChainFn` (elementwise, keeping NaN; NaN is needed because out-of-range reads of model arrays are NaN) and `MvChain` (any function of whole arrays that acts on each vector). Estimator `nrg`, for interval thresholds also `qd` and `int`.
* **C110 Variogram scores are proper and see exactly the expected variograms** — *proved*. `Spec/VsProper.lean` states the decomposition for any features (`FeatProper`, `OwFeatProper`). `Props/VariogramProper.lean` proves it by expanding squares (`sq_mean`) and uses the values proved for C36; the documented vertically re-scaled score is shown to be the squared difference of the weighted variograms (`vrvs_sq`). `C110_not_strict` shifts all members by a constant.
* **C111 Which ensemble estimators are unbiased for the score of the law the members come from** — *proved*. `Spec/Unbiased.lean` defines independent draws (`iid`, the product measure) and the scores of a law (`ksLaw`, `esLaw`, `vsLaw`; for the CRPS the integral `crps (distr Q)`). `Lemmas/Iid.lean`: one member has law Q, two different members have law Q x Q (`iid_pair`), so every estimator that averages over pairs of different members has the right mean (`ksFair_iid`, `ksCirc_iid`) while `nrg` also counts each member with itself (`ks_iid`). All scores are brought to kernel form; that the shifts of `akr` and `akr_circperm` pair different members is `prevF_ne`, `sigmaF_ne`, `halfF_ne`. `crpsEntropy_eq` shows that the entropy of C101 is half the mean distance. Members drawn independently from any law; unweighted ensembles. pwm needs members not declared sorted.
* **C112 Pooling two ensembles never scores worse than the mean of their scores** — *proved*. `Props/Pooling.lean`, specification `Spec/Pool.lean` (`PoolGain`). The CRPS part integrates the pointwise identity for the square of a mixture of two distribution functions, and the distance is zero only for equal functions because both are right-continuous. The kernel scores expand the double sum over the concatenation into the four blocks (`cross_append`); the cross blocks are identified with the mean of the kernel over the product of the two empirical laws, so the distance is `mmd2` and its sign and zeros come from C106 to C108. The variogram score is the same identity for a squared mean of features. Members with weight one (`ones`) reduce the unweighted statements to the weighted ones.
* **C113 Which ensembles have the smallest expected error-spread score** — *partial*. `Props/EssProper.lean`. The score is the square of a monic quadratic in the observation, so its mean follows from four moments (`es3_integral`); the two squares are the differences of its coefficients from the orthogonal polynomial of degree two. The second half is false of the code: the skewness is the sum of cubed standardised members over (M - 1)(M - 2), without the factor M of the sample skewness. `C113_moments_false`: the ensemble 0, 0, 3 has the mean, variance and sample skewness of a law on 0, 1, 5 and expected score 15, where a symmetric ensemble with another mean and variance has 3. `C113_copies_limit`: with more and more copies of an ensemble the skewness term disappears. `C113_symmetric_best`: even with the right factor the score would not be strictly proper for (mean, variance, skewness), since symmetric ensembles always attain the minimum. Propriety and the exact gap proved. False for ensembles with the sample moments of the law (C113_moments_false): the skewness in the code lacks the factor M, and its term vanishes as members are added (C113_copies_limit).
* **C114 Leaving out the argument backend means the documented default** — *partial*. `Model/Dispatch.lean` adds the argument `backend` and the registry of C40 to the public functions: most compare the argument itself with "numba" (`byArgument`), `crps_quantile` and `weighted_interval_score` compare the name of the backend object (`byName`). `Props/Dispatch.lean`: for the second kind the claim holds. The first kind runs the array code whenever `backend` is left out, whatever the history (`C114_default_is_array`), so with numba imported every difference between the paths becomes a difference between the default and the documented default; `C114_false` gives two (weighted akr_circperm, vrcrps_ensemble on arrays of rank three), `C114_crps_partial` what holds for the CRPS. False of all functions that test the argument (C114_default_is_array, C114_false): with numba available the default is the array code, not numba. Proved for crps_quantile and weighted_interval_score, for named backends, for unavailable ones, and for the unweighted CRPS, where both paths agree.
* **C115 Scores of different functions agree where theory identifies them** — *proved*. `Props/Identities.lean`. Every statement relates the outputs of two public functions; the integrand is introduced as the function whose values the first call returns. Brier: by the integral form (C01, C02, C21). Quantiles: between two multiples of 1/M every quantile is the order statistic (`quantile_eq_order_stat`), the pinball loss is linear in the level, so the integral over such a piece is its length times the value at the midpoint, and the sum of midpoints is the rank form of the CRPS. RPS: the integrand of the CRPS on the category numbers is constant on unit intervals (`integral_unit_steps`); the probabilities must sum to one, since crps_ensemble normalises its weights and rps_score does not.
* **C116 Closed-form CRPS of an infinite observation** — *partial*. `C116_limit` proves, for every law with finite mean, that the exact CRPS tends to plus infinity with the observation. The other theorems evaluate each closed form at both infinities. Eleven families give plus infinity. The rest give NaN for some or all parameters (`C116_*_false`), because the formula subtracts infinity from itself or multiplies it by zero. For the truncated and censored families the infinite value is shown by comparing with the finite value at the bound, where all other terms agree. The negative binomial law at plus infinity is left out: it needs scipy's `betainc` at an infinite parameter, which is not modelled. Plus infinity in both directions: exponential, exponentialM, 2pexponential, laplace, normal, uniform, gpd, gamma, csg0, mixnorm (positive weights), binomial. One direction or some parameters only: logistic, gev, lognormal, loglogistic, poisson, negbinom, hypergeometric, truncated and censored families with finite bounds. NaN: logistic at minus infinity, Gumbel at plus infinity, loglaplace, t, 2pnormal, beta, most hypergeometric laws, truncated and censored families with default bounds.
* **C117 Ensemble CRPS with infinite data** — *partial*. `C117_limit_obs` and `C117_limit_member` bound the energy form from below. `C117_nonfinite` shows, kernel by kernel (`Lemmas/CrpsNonfin.lean`), that one term of every formula is not finite and that no later operation makes it finite again; sorting, weights and the three nan policies are included. The exact values (`Lemmas/CrpsInf.lean`) are for the unweighted call with `nan_policy="propagate"`. For the numba `qd` loop the invariant is that the factor multiplying an infinite difference has the same sign as the difference. Not covered: the exact value of `int` with an infinite member (except minus infinity on the numba path) and of the weighted kernels. Never finite: proved for every estimator, path, weight, policy and flag. Plus infinity: infinite observation for nrg, fair, pwm, akr, akr_circperm (both paths), qd (numba), int (array, and numba at plus infinity); infinite member for qd (numba). NaN, so the claim is false: infinite observation for qd (array) and int (numba, minus infinity); infinite member for nrg, fair, pwm, akr, akr_circperm, qd (array), int (numba, minus infinity).
* **C118 Small changes of the data change the scores by a bounded amount** — *proved*. `Props/Stable.lean` (helpers in `Lemmas/Stable.lean`). One estimate for kernels that are Lipschitz in both arguments covers the full, fair and circular double sums, so it applies to `negDist` (CRPS, energy score) and to the Gaussian kernel, whose steepest slope is exp(-1/2). `C118_crps_sharp` exhibits data that attain both constants. The quantile and interval scores are done by cases on where the observation lies. The statements speak only of the returned values and of absolute differences of the data. Constants are attained for the CRPS (C118_crps_sharp).
* **C119 Closed-form CRPS as a function of the observation** — *partial*. `Spec/CrpsShape.lean` states the shape without the model: finite on a set of observations, slope between 2F(y)-1 and 2F(y')-1, and at most one in size. `Lemmas/CrpsShape.lean` derives it from the integral that defines the CRPS; `Props/CrpsShape.lean` applies it to every family whose closed form was proved equal to that integral, and draws convexity and the minimum at the median from it (`C119_convex`, `C119_median`), and the derivative 2F-1 where F is continuous (`C119_derivative`). `crps_gev` with shape zero is included although its value is off by a constant (C82). False for `crps_binomial` with probability one, where the slope is -3 (`C119_binomial_false`, from C79); other binomial forecasts are not covered because their value is only known up to the error of C79. Families with a restricted domain (log-normal and the like, beta, csg0) are covered on that domain. All closed-form families except crps_binomial, for which the property is false at probability one (C119_binomial_false); families with a restricted domain are covered on that domain.
* **C120 expand_dims of the torch backend agrees with numpy** — *proved*. `Model/TorchArr.lean` follows `torch.py:121-129` line by line: the normalised axes, the list comprehension that takes the next size or raises `StopIteration`, and `reshape` in row-major order. `Spec/ExpandDims.lean` says what an array with extra axes of length one is. `Props/TorchArr.lean` counts the free positions, shows that the iterator runs out exactly when an axis is out of range or named twice, and compares with the numpy model.
* **C121 Scores of growing ensembles approach the score of the law** — *proved*. `Spec/Limit.lean` defines convergence in mean of a sequence of random scores, one probability space per ensemble size. `Lemmas/IidLimit.lean` proves a law of large numbers for sums over pairs of members: truncate the kernel, bound the second moment of the truncated sum by 12 C² M (pairs that share no member are uncorrelated), and let the truncation go. Only first moments of the kernel are used, so the law needs no variance. `Props/Limit.lean` applies it to the full, fair and circular double sums of every estimator. `C121_in_probability` is the Markov inequality. Unweighted ensembles, members not declared sorted, nan_policy propagate. Almost sure convergence is not claimed.
* **C122 The uncertainty band of the reliability diagram consists of ordered probabilities** — *proved*. `Model/Band.lean` follows `_uncertainty_band` with the random numbers as an argument (`Draw`: the resampled positions and the answer of `bernoulli.rvs`), `np.interp` with NaN outside the knots, and `np.nanpercentile` per column. `GoodDraw` only asks for positions in range and zeros and ones, so the theorems hold for every outcome of the generators. `Lemmas/Band.lean` treats the polygon through ascending knots and the linear-interpolation quantile. `C122_level` counts the replicates below each end. Random numbers are arguments. The isotonic regression of scipy is characterised by its defining property, as in C60.
* **C123 The ends of the uncertainty band ascend with the forecast** — *partial*. False of the code: replicates that do not reach a forecast are dropped there (`nanpercentile`), so neighbouring forecasts are summarised over different replicates. `C123_false` gives two replicates of two forecasts where both ends fall from 1 to 0.05 and 0.95. `C123_partial` proves the claim when every replicate contains the smallest and the largest forecast: then each replicate's polygon ascends, and quantiles preserve pointwise order. False when a replicate misses an extreme forecast (C123_false); proved when none does.
* **C124 Each backend can compute each closed form** — *partial*. `Model/Avail.lean` gives the eight closed forms the backend as an argument and the special functions as calls that can raise, in the order of the code. `C124_partial` compares them with the numpy models, `C124_false` and `C124_errors` say which combinations raise and with what. False on torch (all eight) and on jax for the negative binomial (C124_false); proved for the other combinations. Values computed by torch before it raises are not modelled.
* **C125 The active backend does not matter when a backend is named** — *partial*. False of the code: `crps_ct` and `tt` of `logarithmic.py` omit `backend=` in a call of `_t_cdf` or `_t_pdf`. `Model/Avail.lean` takes the active backend as a second argument; `C125_partial` covers numpy and jax active, `C125_false` torch active. False when torch is active and another backend is named (C125_false); proved when numpy or jax is active.
* **C126 Parameters outside their range are refused** — *partial*. `Props/BadParams.lean`. `C126_crps_false` and `C126_ends_false` compute the CRPS of a negative scale, interchanged ends or a negative rate and compare it with the valid CRPS, which is positive because the distribution function lies strictly between zero and one. `C126_logs_partial` and `C126_caught_partial` cover what is refused; `C126_logs_false` is the two-piece normal log score. False of the CRPS functions and of the two-piece log scores; proved for the other log scores and for the parameters the code checks.
* **C127 Log score of an infinite observation** — *partial*. `Props/LogsInf.lean`. The density functions are computed at the infinities in the float model. The `_partial` theorems cover the end of the line where the family behaves; the `_false` theorems give NaN for every parameter in the stated range. False for the logistic, gamma, extreme value and count families at one end of the line, where NaN is returned; proved for all others.
* **C128 A missing parameter gives a missing score** — *partial*. `Props/ParamNan.lean`. NaN is propagated through each formula for all values of the other arguments. `C128_gpd_false`, `C128_gev_false` and `C128_outside_false` are the exceptions. Proved for every CRPS. False for the generalised Pareto and extreme value log scores and outside the support of the other log scores.
* **C129 In binary64 the score of a finite observation is a number** — *partial*. `Model/Rounding.lean`, `Lemmas/Rounding.lean`, `Props/Rounding.lean`. The functions are modelled a second time with a rounding function after every operation; `Binary64` collects what is used of it (monotone, odd, exact on integers, relative error 2^-53 or absolute error 2^-1075, underflow, overflow), and `rn64_nearest` (`Lemmas/Nearest64.lean`) shows that rounding to nearest has these properties. `C129_exact`: without rounding these are the functions of the exact model. The `_false` theorems follow the rounded values through the formula, with powers of e bounded by integer arithmetic; `C129_normal_partial` is what holds within 36 standard deviations. False of the code: negations on whole regions for eight functions, for every rounding function with the stated properties; `C129_normal_partial` covers observations within 36 standard deviations.
* **C130 In binary64 the Poisson scores are numbers** — *partial*. `Props/RoundingPoisson.lean`, on the same model: `gamma(172)` is at least 2^1024, so the distribution function is infinity divided by infinity; `exp(-2 * mean)` underflows where the Bessel function overflows. `C130_logs_partial` covers counts up to 64. False of the code: negations for all observations from 171 on and all means from 746 on; `C130_logs_partial` covers counts up to 64.
* **C131 Rounding moves the Brier, quantile, interval and ensemble scores only a little** — *proved*. `Model/RoundingEns.lean`, `Lemmas/RoundingEns.lean`, `Props/RoundingError.lean`. The functions are modelled a second time with a rounding function after every operation; `C131_exact`: without rounding they are those of the exact model. The absolute errors of the two nested loops are followed by an invariant that relates the rounded loop to the exact one (`nrgLoop_near`); relative errors are added up operation by operation.
* **C132 Backpropagation through a score returns its derivative** — *partial*. `Model/Grad.lean` models reverse-mode differentiation: a node has a value and a function that sends the cotangent of the node to the gradient of one chosen leaf, with the rules of the two libraries for each operation. The scores are modelled a second time on nodes; their values are those of the first model. `Spec/Grad.lean` says what a gradient is (`IsGradient`): the derivative of the score as a function of the chosen argument. `Lemmas/Grad.lean`: each rule multiplies a finite cotangent by the derivative (`Tr`); `Bad` nodes return NaN for every cotangent. Proved for the CRPS and the logarithmic score (`Model/GradLogs`, `Props/GradLogs`) of the normal, logistic, Laplace and lognormal distribution and every estimator of the ensemble CRPS but `int` away from ties (`Model/GradEns`, `Lemmas/GradSort`, `Props/GradSort`; the sort keeps its order near an untied member). False (`Props/Grad.lean`, `GradEns.lean`, `GradMix.lean`, `GradVs.lean`) for the truncated and censored normal and logistic with an infinite bound (NaN; CRPS and logarithmic score), the energy and the multivariate Gaussian kernel score on jax (NaN for every ensemble), the variogram score with `p < 1` (NaN for every ensemble, both libraries), the normal mixture with respect to the standard deviations and the error-spread score with respect to the members on torch (a wrong number).  `Props/GradTail.lean`: the generalised Pareto, generalised extreme value and t distributions (C119 gives the derivative of the CRPS where it is not read off the formula); NaN for `crps_gev` always, for `crps_gpd`, `logs_gpd` and `logs_gev` with shape 0, for `crps_t` at the location; wrong with respect to a shape 0. `Props/GradClogs.lean`: `logs_ensemble` and the logarithmic score of the normal mixture always; `clogs_ensemble` off the bounds, but NaN with respect to the members with the default bounds and `cens=True`, with respect to the bandwidth with an infinite bound, and with respect to both if the bounds are equal and `cens=False`. `Props/GradEdge.lean` (`Model/GradEdge`), `GradGtc.lean`, `GradBeta.lean`: the exponential scores, the uniform score, the truncated and censored scores with finite bounds at observations on, between and beyond the bounds, and `crps_beta` on jax. At a bound `B.minimum`/`B.maximum` halve the cotangent, so the gradient with respect to the observation is half the derivative (`Lemmas/GradEdge`: `Pt` describes what such a rule passes on, right or wrong). `crps_exponentialM` and `crps_beta` skip the scaling when `_is_scalar_value` finds a default value, so on jax the gradient with respect to that parameter is 0. The `_partial` theorems are the remaining cases. `Model/GradGamma`, `Props/GradGamma`: the gamma, shifted gamma, log-logistic and log-Laplace CRPS, with the rules for the incomplete gamma functions and the exponential integral (`C132_special`); shapes of gamma laws and the scale of the log-logistic are not the leaf. False of the truncated and censored normal and logistic distribution with infinite bounds (CRPS and logarithmic score), the energy and multivariate kernel score on jax, the variogram score with p < 1, crps_gev, the generalised Pareto scores and logs_gev with shape 0, crps_t at the location, clogs_ensemble with infinite or equal bounds, crps_tnormal, crps_tlogistic and crps_uniform at a bound, crps_2pexponential at the location, crps_gamma (rate) with shape at most one at observations that are not positive, crps_csg0 (rate) likewise without a shift, crps_exponentialM and crps_beta on jax at default parameter values, and on torch of the normal mixture and the error-spread score; proved for the other scores modelled with gradients.
* **C133 Threshold-weighted CRPS over adjacent intervals adds up** — *proved*. `Props/TwSplit.lean`, on the API model. `Lemmas/Pairs.lean`: every estimator is a sum over pairs of members with nonnegative coefficients of the detour `|a - y| + |b - y| - |a - b|`, and the detour after clamping to [a, b] and to [b, c] adds up to that after clamping to [a, c].
* **C134 Every estimator lies between 0 and the mean distance of the members from the observation** — *partial*. `Props/TwSplit.lean`, from the same representation as sums over pairs: the coefficients of each member add up to its weight. `C134_weighted_fair_false`: with two weighted members, the heavier of which is the observation, the `fair` estimator is negative. `C134_fair_zero`: without weights it is 0 whenever the observation lies between two members. False with weights for the estimator `fair` (`C134_weighted_fair_false`); proved without weights for every estimator and with weights for `nrg`, `qd` and `int`.
* **C135 Relabelling and merging outcomes** — *proved*. `Props/Relabel.lean`, from the values C30 to C32: the thresholds of the reversed forecast are the complements of the thresholds of the forecast, and merging drops one threshold.
* **C136 Symmetries and bounds of the kernel, variogram, quantile and interval scores** — *proved*. `Props/Symmetry.lean`. Every estimator of the kernel scores is `E k(X,X')/2 + k(y,y)/2 - E k(X,y)` with some law of the pair of members (`gksuv_form`, `gksmv_form`), so it only depends on the values of the kernel. `C136_fair_negative` shows that the lower bound 0 of `nrg` is not one of `fair`.
* **C137 In binary32 the score of a finite observation is a number** — *partial*. `Props/Rounding32.lean`, with the functions of `Model/Rounding` and the torch and jax versions of `Model/Rounding32`, for every rounding function with the properties `Binary32`. `Lemmas/Nearest32.lean` shows that rounding to nearest has them (`rn32_nearest`). False of the code on whole regions; `C137_normal_partial` covers observations within 11 standard deviations, `C137_exact` is the exact score being a number. False of the code: negations on whole regions for nine functions, for every rounding function with the stated properties; `C137_normal_partial` covers observations within 11 standard deviations.
* **C138 Binomial coefficients on torch and jax** — *partial*. `Props/Comb32.lean`, `Props/Comb64.lean`. The logarithms of 2, 3, 5 and 7 are enclosed to 1e-9, which decides how `log(k!)` is rounded for `k <= 8`: up for `k <= 7` and down for `k = 8`, so the floor division loses one. `Props/Comb64.lean` does the same in binary64 for `n = 5`, with logarithms enclosed to 1e-18. False of the code; `C138_comb_partial` covers `k = 0` and `k = n`. False of the code: comb(8, k) in binary32 and comb(5, k) in binary64 are one too small for every k strictly between 0 and n; `C138_comb_partial` covers k = 0 and k = n.
* **C139 Double precision data are scored in double precision on torch** — *partial*. `Model/TorchConst.lean`, `Props/TorchConst.lean`: what torch computes from Python numbers alone is rounded to binary32, the operations on the data are exact, so the theorems isolate the error of the constants. The four constants are computed to the last bit for every way to round to nearest; that the error of a mixture never cancels uses that pi is irrational. `C139_crps_normal_partial` bounds the error of `crps_normal` for every observation. False of the code: constant errors of logs_normal and logs_mixnorm, wrong crps_normal at the centre, wrong weights and int estimates for every number that is not a power of two; `C139_crps_normal_partial` bounds the error of crps_normal everywhere.
* **C140 Scores can be backpropagated on torch** — *partial*. `Model/Tape.lean`, `Lemmas/Tape.lean`, `Props/Tape.lean`: the functions of the array path are transcribed operation by operation with the storages and version counters of torch; each operation keeps what its backward formula needs (`derivatives.yaml`, trusted), an operation in place raises the counter of a storage, and `backward` raises if a kept storage has another version. The numbers are left out. The theorems hold for every state and every choice of tensors that require a gradient, and say exactly which scores raise. False of the code for the outcome-weighted and vertically re-scaled energy and multivariate kernel scores (in place on results of norm and exp) and for obs -= location; the `_partial` theorems cover all other functions with operations in place and the exact conditions.
* **C141 Integer data and boolean weights are scored** — *partial*. `Model/TypeFlow.lean`, `Props/TypeFlow.lean`: the functions of the array path are transcribed with the element types only (`bool`, `int`, `float`); what torch, numpy and jax accept in `mean`, `std`, `norm`, `-` and `*=` is trusted. Each theorem covers all combinations of types; false of the code on torch and, for one score, on numpy, with the exact conditions. False on torch for weight functions that return booleans or integers and for integer ensembles in scores that use norm, mean or std, and on numpy for owcrps_ensemble with integer ensembles; the `_partial` theorems list what is accepted.
* **C142 Python numbers as arguments keep their value on torch** — *partial*. `Model/TorchArgs.lean`, `Props/TorchArgs.lean`: one argument is a Python number, rounded to binary32 by `as_tensor`; operations between it and other numbers are rounded too, operations on the double precision data are exact. The witnesses are computed to the last bit for every way to round to nearest; the bounds of the `_partial` theorems use that the scores are Lipschitz (C118). False on torch for levels, thresholds and observations given as Python numbers with double precision tensors; the `_partial` theorems bound the error.
* **C143 Ensembles without spread are scored by a number** — *partial*. `Lemmas/Pairs` writes every estimator of the CRPS and of the energy score as a sum over pairs of members, which is the distance for equal members. The three false parts follow the NaN: Silverman's bandwidth is zero when the quartiles coincide, so that every kernel is `0/0`; the Dawid-Sebastiani score adds an infinite (or `0/0`) bias term and the logarithm of zero; the skewness of the error-spread score is `0/0`. Arithmetic is exact here: in floating point the mean of equal members may be off by a rounding error, except for zeros. False for logs_ensemble with the default bandwidth (C143_logs_false), dssuv_ensemble (C143_dss_false) and error_spread_score (C143_ess_false); proved for crps_ensemble, es_ensemble and logs_ensemble with a positive bandwidth.
* **C144 Deprecated names do what the new names do** — *proved*. The wrapper is modelled as a pair of the warnings and the result; each alias unfolds to the new function.
* **C145 Ensemble scores as functions of the observation** — *proved*. The pair form of `Lemmas/Pairs` splits every estimator into the mean distance and a part without the observation. Weighted sums of distances are compared from a point to its right neighbour, where their slope is the weight below minus the weight above; reflection gives the left side. The error-spread score is the square of a quadratic in the observation with two real roots.
* **C146 Quantile scores at many levels approach the CRPS of the law** — *proved*. `Props/QuantileCrps`: on the levels `(k + 1/2) / M` the mean quantile score is the CRPS of the ensemble of reported quantiles (`midLevels_pinball`), whose distribution function is within `1 / (2 M)` of that of the law (`ecdf_near`); other levels change each quantile score by at most the distance of the levels (`pinball_level`). The wrong median term of the array path (finding 1 of C28) has weight `1 / (2 K + 1)` and vanishes in the limit. The laws live on a bounded interval; a rate for laws with unbounded support would depend on their tails.
* **C147 Pareto and extreme value scores are accurate for every shape** — *partial*. `Model/RoundTail.lean`, `Props/RoundTail.lean`: every operation of the Pareto and extreme value densities and scores is rounded. For binary64 rounding and tiny shapes the base of the power is exactly one, which fixes the computed scores; the exact scores are bounded with Bernoulli's inequality and the tangent of the logarithm. For shape zero a bound on the error is proved. False of the code for tiny shapes other than zero (`C147_logs_gpd_false`, `C147_logs_gev_false`, `C147_crps_gpd_false`); `C147_logs_gpd_partial` and `C147_crps_gpd_partial` bound the error for shape zero.
* **C148 Axes of multivariate forecasts that do not exist are refused** — *partial*. `Props/MvAxisRange.lean`: `Refused` says that each of ten scores ends with an error, on both paths and for all other arguments. It is proved from the array check for equal axes and for axes beyond the range; the axes that are accepted although they do not exist are described for all arrays, with a concrete wrong score. False of the code for `v_axis` from `-2 * ndim + 1` to `-ndim - 1` (`C148_accepted`, with a wrong score in `C148_wrong_score_false`); proved for equal axes and for all other axes out of range.
* **C149 Closed-form CRPS are computed accurately** — *proved*. `Model/RoundClosed.lean`, `Props/RoundClosed.lean`: every operation of the closed forms is rounded. The standardised observation has a small relative error (`std_near`), the exact score is 1-Lipschitz in it (C119), and each remaining operation adds a known multiple of `2 ^ -51`; `exp` and `erf` have bounded derivative along a relative change of their argument (`exp_rel_arg`, `Φ_rel_arg`). `exp`, `erf`, `log` and `sqrt` are taken as correctly rounded. The parameters and the observation are between `2 ^ -400` and `2 ^ 400` in size, so that no operation overflows; for the logistic score the standardised observation is at least -680, above the overflow of `exp`, which starts near -709.
* **C150 Scores do not jump where the code changes its formula** — *partial*. `Spec/LimitCase.lean`, `Lemmas/CrpsLimit.lean`, `Props/LimitCase.lean`: `Approaches` says that scores are numbers in the end and tend to a score that is a number. The CRPS limits come from the integral definition by dominated convergence (`crps_tendsto`), with one bound on both tails for all shapes of size at most a quarter (Bernoulli's inequality) and, for bounds, a multiple of the tails of the free law. For the extreme value law the limit and the value differ by the error of the decimal constant, as in C82. False for the logistic law with one infinite bound, where the code returns NaN although the limit is a number. False of crps_tlogistic and crps_clogistic with one infinite bound (NaN) and of crps_tt and crps_ct with a fixed bound at the location (NaN); for crps_gev the limit is reached up to the error of the decimal constant in the code, bounded by 1e-7 times the scale.
* **C151 Log scores are computed accurately** — *partial*. `Lemmas/RoundLogs.lean`, `Props/RoundLogs.lean`: `LNear` says that a computed number is positive and that its logarithm is near a given one. Products, quotients, squares, square roots, `exp` and `log(1 + exp)` keep this, and each rounding adds `2 ^ -50` as long as the logarithm is at most 690 in size; the density is followed through the code in this way, although its own size runs over 600 orders of magnitude. False where the computed density underflows or overflows (`C151_false`, from C129); proved for log-densities up to 680 in size.
* **C152 Closed-form CRPS move little when location and scale move little** — *proved*. `Spec/ParamLip.lean`, `Lemmas/ParamLip.lean`, `Props/ParamLip.lean`: the score is `σ c((y - μ)/σ)` by equivariance (C51), where `c` is convex and 1-Lipschitz (C119) and lies between `|z| - K` and `|z| + K`; the change with the scale then lies between `-K` and `c(0)` times the change of the scale. The lower bound on `c` is read off the formulas, for the t law from the limit at minus infinity.
* **C153 A closed-form forecast without spread is scored by its absolute error** — *partial*. `Props/ParamLip.lean`: for positive scales the bounds on `c` of C152; with scale zero the standardised observation is NaN or infinite, the standard score is then not a number (C106, C116), and zero times it is NaN. False with scale zero, where the code returns NaN (`C153_zero_false`, at every observation); proved for positive scales with a rate, and for `crps_exponentialM` with scale zero away from the location.
* **C154 The energy score is accurate in binary64** — *partial*. `Model/RoundEnergy.lean`, `Lemmas/RoundEnergy.lean`, `Props/RoundEnergy.lean`: the order of summation is an argument, restricted by the inductive relation `RSum` (entries are added two at a time, every addition rounded). `SqNear` bounds an error by a relative and an absolute part; squares, sums in any order, roots and quotients keep it. The absolute part comes from squares that underflow and grows to its square root in the norm. False for differences of 2^513 or more (infinite or NaN, `C154_overflow_false`) and up to 2^-540 (zero, `C154_underflow_false`); proved for coordinates up to 2^479, with an absolute error of 2^-500.
* **C155 Members closer to the observation never score worse** — *partial*. `Spec/Closer.lean`, `Props/Closer.lean`: `OnTheWay y x' x` is equality in the triangle inequality. The scores are sums of detours over pairs of members with non-negative factors (`Lemmas/Pairs.lean`), and each detour only shrinks; the pairs of a member with itself give the amount. Monotone functions keep `OnTheWay` on the line. With weights the claim is false for fair and akr (C155_weighted_false), therefore the theorem for nrg, qd and int is marked partial.
* **C156 Log scores rise with the distance from the mode** — *proved*. `Spec/LogShape.lean`, `Lemmas/LogShape.lean`, `Props/LogShape.lean`: by C57 and C58 the scores are negative logarithms of densities; `Peak` says that a density falls on both sides of a point and is kept by location, scale, truncation and passing to `exp X`. The peaks of `x^p exp(-q x)` and `x^a (1-x)^b` come from `log x < x - 1`; gamma, gev and loglogistic are compositions of these with monotone functions. Counts: quotients of neighbouring probabilities.
* **C157 Probability, quantile and interval forecasts closer to what happened never score worse** — *partial*. `Spec/Closer.lean`, `Props/CloserProb.lean`: `TowardsCategory` asks every cumulative probability to move towards its outcome; `towards_shift` derives it from moving mass between categories. The scores are sums of squared errors, logarithms or pinball losses that fall one by one; the interval score is a sum of two pinball losses (C27). False for weighted_interval_score on the array path (`C157_wis_false`); proved on the numba path and for all other scores.
* **C158 Weight moved to members closer to the observation never makes the score worse** — *partial*. `Props/CloserWeights.lean`: the scores are half the sum of products of two weights and a detour (`Lemmas/Pairs.lean`). Moving weight changes this quadratic form by a linear part, in which every detour shrinks and the one of the member itself by twice the distance, and a square that is smaller. `fair` and `akr`: three members each. False for the weighted estimators fair and akr (`C158_fair_false`, `C158_akr_false`); proved for nrg, qd, int and the energy score.
* **C159 The Gaussian kernel score in binary64 is accurate for all finite data** — *proved*. `Model/RoundKernel.lean`, `Lemmas/RoundKernel.lean`, `Props/RoundKernel.lean`: two points less than 64 apart in every coordinate have a distance with small relative error, and the exponential of minus its half square loses at most four times that (`exp_rel_arg`); otherwise the argument is at most -2048 after every rounding, overflow included, and the exponential underflows to zero. The sums are bounded with the machinery of C154.
* **C160 Which scores are convex in the forecast** — *partial*. `Spec/Convex.lean`, `Props/Convex.lean`, `Props/ConvexProb.lean`: the standard CRPS is convex (C119) and the families scale, so the score is the perspective `σ c((y - μ) / σ)` of a convex function. `C160_minimum` walks a short way from a local minimum towards any other parameters. Scores of probabilities and quantiles are sums of squares, logarithms or maxima of linear functions. For members in increasing order the pair distances are linear. False for crps_ensemble in members of different order (`C160_members_false`; proved for ensembles in increasing order) and for the log score of the normal distribution (`C160_logs_false`).
* **C161 Bounds that are far away do not matter** — *proved*. `Spec/FarBounds.lean`, `Lemmas/FarBounds.lean`, `Props/FarBounds.lean`: by C69, C70 and C83 the bounded scores are the integral for the truncated and the censored distribution function, which converge pointwise to the unbounded one and are dominated by its square-integrable distance to the step, so dominated convergence applies. The truncated log score differs by the logarithm of the probability between the bounds.
* **C162 Forecasts with close distribution functions have close scores** — *proved*. `Spec/CloseLaws.lean`, `Props/CloseLaws.lean`: a score that is strictly proper in the sense of C101 is the CRPS integral (take the point mass at the observation); the difference of two squares is at most twice the difference. Sharpness: weight moved from 0 to 1, observation 1.
* **C163 Families approach their limits** — *proved*. `Lemmas/FamilyLimit.lean`, `Props/FamilyLimit.lean`: distribution functions that converge everywhere and have tails below a multiple of one over the distance have convergent CRPS (dominated convergence). For counts the tails come from Markov's inequality; the probabilities converge by the Poisson limit theorem and its variants. For the t distribution the density without its constant is dominated by 2 / (1 + x^2), and the constant converges because every density has integral one.
* **C164 The variogram score is accurate in binary64** — *partial*. `Model/RoundVariogram.lean`, `Lemmas/RoundVariogram.lean`, `Lemmas/RoundVariogram2.lean`, `Props/RoundVariogram.lean`: a power up to one is subadditive, so it keeps a relative error and takes the absolute error to the same power; orders up to two are squares of such powers. After the difference the error is measured against the sum of the two terms (`Sized`), and squares, weights, sums in any order, means and differences keep that form.
* **C165 The ensemble CRPS is accurate in binary64** — *partial*. `Model/RoundCrps.lean`, `Lemmas/RoundCrps.lean`, `Lemmas/RoundCrps2.lean`, `Props/RoundCrps.lean`: a difference of two numbers is rounded once, so a computed distance has a small relative error, and sums and means of distances keep it. For int, rounding is monotone, so it commutes with the sorting of the distribution function, and the real sum is read off the exact model (`Lemmas/RoundCrpsIntA.lean`). The terms of qd are products of distances and half-integers, which binary64 holds exactly, so the whole score keeps a relative error. pwm adds and subtracts means of the data instead of distances; in the counterexample every rounding is to a unique nearest number and all orders of adding three numbers are checked.
* **C166 The compiled ensemble CRPS loops are accurate in binary64** — *partial*. `Model/RoundCrpsLoop.lean`, `Lemmas/RoundCrpsLoop.lean`, `Lemmas/RoundCrpsLoop2.lean`, `Lemmas/RoundCrpsLoop3.lean`, `Lemmas/RoundCrpsInt.lean`, `Props/RoundCrpsLoop.lean`: a loop that adds one rounded entry at a time is one of the orders of summation of C165, started from zero, so the error lemmas of C165 apply to the list of entries. The factor 2 / M^2 of qd is rounded once and costs one more relative error. The real sum over the pairs of the double loop is read off the exact model. For the integral form the accumulated distribution function has a relative error, and so has its distance to one, which is never below 1 / M.
* **C167 The CRPS from quantiles is accurate in binary64** — *partial*. Model/RoundQuantile rounds every operation of both paths. One of the two branches of a term is exactly 0, the other is a product of two rounded factors. The specification is the mean pinball loss, defined without the model. The negation for large data is a computed witness that gives NaN in both paths.
* **C168 The compiled energy score is accurate in binary64** — *partial*. `Model/RoundEnergyLoop.lean`, `Lemmas/RoundEnergyLoop.lean`, `Props/RoundEnergyLoop.lean`: inside compiled code `np.linalg.norm` of a vector is a library routine whose source is not in the repository, so the model takes it as an argument and the theorems assume a bound on its error (`NormAcc`); the correctly rounded norm satisfies it. The rounded difference of two vectors is close to the difference in the Euclidean norm, so every computed distance has a small relative error, and the loops are orders of summation started from zero as in C166. The real sum over the pairs of the double loop is read off the exact model.
* **C169 The compiled variogram score is accurate in binary64** — *partial*. `Model/RoundVariogramLoop.lean`, `Lemmas/RoundVariogramLoop.lean`, `Lemmas/RoundVariogramLoop2.lean`, `Props/RoundVariogramLoop.lean`: the nested loops are folds over one list of index tuples (`grid_fold`, `fair_fold`), so each accumulator is a sum started from zero (`Sized.sumFrom`); the terms are bounded as in C164. The sum over the pairs `k < m` of doubled terms is the sum over all pairs (`pairsAll_eq`), for the score and for the size of the error.
* **C170 The ranked probability score is accurate in binary64** — *proved*. `Model/RoundBrier.lean`, `Lemmas/RoundBrier.lean`, `Props/RoundRps.lean`: the entries of the cumulative sums and the final sum are sums in an arbitrary order (`RSum`). All probabilities are nonnegative, so each cumulative sum has a small relative error (`cum_near`); the square of the difference of two such sums has a small error relative to the square of their sum (`dsq_near`). The cumulative sums of equal rows are equal numbers, whatever the rounding, which gives the exact zero.
* **C171 The logarithmic scores of probabilities are accurate in binary64** — *partial*. `Model/RoundBrier.lean`, `Lemmas/RoundLog.lean`, `Props/RoundLogScore.lean`: the two additions in `|fct + obs - 1|` each make an absolute error of at most 2^-51 (`rd_mid`), which the logarithm divides by the probability (`log1_near`); the ranked score adds the errors of the cumulative sums from C170. For a small probability the first addition gives exactly one and the second exactly zero, so the logarithm is minus infinity (`log1_absorbed`). The logarithm itself is taken as correctly rounded.
* **C172 Accuracy of the compiled Gaussian kernel score in binary64** — *partial*. The loops accumulate the kernel values one by one, so both sums are rounded sums (`RSum`) of values in [0, 1], each with absolute error `t`; the bounds add the error of the sums, the divisions and the last two subtractions. The kernel is accurate for arguments of moderate size, and for large ones both the computed and the exact kernel are below `2 ^ -1000`, which is why there is no restriction on the size of univariate data.
* **C173 Ensembles without spread in binary64** — *partial*. `Model/RoundDss.lean`, `Lemmas/RoundDss.lean`, `Props/RoundDss.lean`: sums of small integers are exact in every order (`RSum.nats`), so the mean is the common member and all deviations are zero. For three members `0.1` the sum lies half way between two binary64 numbers, and a third of either rounds to a neighbour of `0.1` (`mean_tenth`), whichever way the tie goes. The remaining steps are exact or kept between two binary64 numbers (`between_kept`).
* **C174 The Dawid-Sebastiani score in binary64 is a number** — *partial*. `Model/RoundDss.lean`, `Lemmas/RoundDss2.lean`, `Props/RoundDss2.lean`: small integers times a power of two are binary64 numbers (`Nearest64.kept`), and rounding keeps a number between two binary64 numbers, so every intermediate result stays between two powers of two (`RSum.absBand`, `RSum.posBand`, `var_band`); in particular one member is at least `2 ^ -201` away from the computed mean, whatever that is. In the counterexamples the squares overflow to infinity or underflow to zero.
* **C175 The error-spread score in binary64 is a number** — *partial*. `Model/RoundDss.lean`, `Lemmas/RoundEss.lean`, `Props/RoundEss.lean`: as for C174, every intermediate result stays below a power of two; the loops of the compiled function are sums that begin with a zero (`RSum.loop`, `var_bandZ`, `mean_bandZ`). The spread is at least `2 ^ -52`, so the ratios are at most `2 ^ 94` and the sum of their cubes is at most `2 ^ 302` (`ess_moments`). In the counterexample the squares underflow to zero and a deviation of zero is divided by a spread of zero.

## Disagreements between the code and its properties

Proved in Lean (a theorem with a concrete witness, and a `_partial` theorem for the part that holds):

1. C05, C09: weighted `akr_circperm`: numpy shifts by `int((M-1)/2)`, numba uses `int(i+1+(M-1)/2) % M`; they differ for even M.
2. C08: weighted `pwm` is not reflection equivariant; C65: weighted `pwm` is not the weighted `fair` score.
3. C11: numba `qd` with `sorted_ensemble=True` and `omit` is wrong when the leading entry is NaN (the zero put in its place breaks the order).
4. C12: numba `int` with one member ignores a NaN weight.
5. C16: with `omit`, a negative weight on a NaN member is accepted, and weights that merely broadcast are accepted.
6. C17: the numba tables also contain `ownrg`/`vrnrg`, which lead to a TypeError instead of the documented ValueError.
7. C24: `vr_ensemble` (numpy path, no weights) averages over `axis=1`: error for scalars and most ranks, silently wrong for square arrays.
8. C25: owcrps/vrcrps with `omit` move the ensemble axis twice: error or a transposed mask.
9. C28: the numpy weighted interval score adds `w_median*median` instead of `w_median*|obs-median|`.
10. C34: weighted numba `owes` uses the unweighted mean of `fw`; weighted `akr_circperm` rolls in opposite directions.
11. C37: the numpy weighted kernel score refuses the documented `akr_circperm`; the weighted `fair` kernel score keeps the
    diagonal on numpy; `vrgksmv` with weights always fails on numba.
12. C39: the numpy error-spread score drops axes of length one.
13. C41: `crps_exponentialM` and `logs_exponential2` subtract `location` in place from the caller's array.
14. C42: integer observations give an integer output buffer for lazily wrapped gufuncs (truncated scores or errors).
15. C53: `gtclogistic` is NaN for one-sided bounds. C54: `gtct` is NaN if a bound equals the location.
16. C55: `hypergeometric` sums over 0..n where n is the number of failures.
17. C56: `loglaplace` is NaN for observations <= 0; C73, C74: `lognormal`, `loglogistic` are NaN for negative observations;
    C77: `crps_beta` is NaN outside the interval. In all of these the CRPS is a finite number.
18. C58: `logs_negbinom` is +inf everywhere for size below one; `logs_binomial`, `logs_hypergeometric` are finite at some
    non-integers; `logs_binomial` is NaN beyond n when prob = 1.
19. C64: multivariate weights are moved by the wrong axis when the variable axis comes first.
20. C66: `m_axis` between `-2 ndim` and `-ndim-1` is accepted.
21. C67: per-observation thresholds of `clogs_ensemble` raise, or are paired with members.
22. C68: the CORP decomposition depends on the order of tied forecasts.
23. C69: `gtcnormal` is NaN when `lmass + umass = 1` (the limit of two point masses).
24. C76: `crps_csg0` is strictly below the CRPS at negative observations with a positive shift.
25. C79: `crps_binomial` with `prob = 1` is three times the CRPS below `n` and negative above.
26. C84: `dssmv_ensemble` on the array path raises for one variable (`np.cov` returns a 0-d array) and for an empty batch;
    the numba path returns the score, respectively an empty array.
27. C86: `comb` of the jax and torch backends uses floor division, so it rounds down for a non-integer first argument and
    `logs_negbinom` is wrong there for a non-integer size (the repository's test carries a TODO about the difference); on jax
    it is NaN for k > n, which makes `crps_hypergeometric` NaN whenever m < n and `logs_binomial` NaN above n. The torch
    `gamma` is the absolute value of the gamma function for negative arguments.
28. C87: the torch `apply_along_axis` applies the function across columns when vmap refuses it.
29. C90: `crps_binomial` with a matrix of observations and scalar n raises, or returns shape (a, 1) if the second length is n + 1.
30. C91: `crps_hypergeometric` raises if n is an array that has to be broadcast against the other arguments.
31. C106: a missing observation is hidden by `logs_uniform` (the score of a point inside the interval) and by `logs_beta` with
    both shapes one; it gives +inf in `logs_negbinom`, `logs_gpd`, `logs_gev` (shape not zero) and `logs_hypergeometric`.
32. C107: `clogs_ensemble` scores a missing observation as if it were outside the thresholds (0, or the finite censored score);
    `rps_score` and `rls_score` turn a missing category into an all-zero one-hot vector and return a number.
33. C108: on the array backends the expected weighted interval score has no minimum: lowering the median lowers the score
    without bound, whatever the law of the observation (a consequence of C28).
34. C113: the error-spread score divides the sum of cubed standardised members by (M - 1)(M - 2) without the factor M of the sample
    skewness. An ensemble with exactly the moments of the law is beaten by one with wrong moments, and the skewness has no effect
    on large ensembles.
35. C114: all ensemble scores test `backend == "numba"`, so that leaving `backend` out never uses numba although the documentation
    says it is the default; `crps_quantile` and `weighted_interval_score` do use it. The results differ wherever the paths do.
36. Infinite observations (C116): `crps_logistic` at minus infinity, `crps_gev` with shape zero at plus infinity, `crps_t`, `crps_2pnormal`, `crps_beta`, `crps_loglaplace`, most `crps_hypergeometric` laws and all truncated or censored families with their default bounds return NaN, where the exact score is plus infinity. `crps_tnormal` with no bounds and `crps_normal` are the same law and disagree there.
37. Infinite data in `crps_ensemble` (C117): an infinite observation gives NaN for `qd` (the default) on the array path and, at minus infinity, for `int` on the numba path; an infinite member gives NaN for `nrg`, `fair`, `pwm`, `akr` and `akr_circperm`, and for `qd` it gives plus infinity on the numba path and NaN on the array path. The exact score is plus infinity in all these cases.
38. Uncertainty band (C122, C123): `alpha` is used on both sides, so `alpha = 0.05` draws a 90 percent band, and an `alpha` above one half (say 0.95 meant as a level) interchanges the ends without an error. A misspelt `uncertainty_band` raises UnboundLocalError. The band need not ascend with the forecast, since replicates that do not reach a forecast are dropped there.
39. Backends (C124, C125): on torch `betainc` and `expi` raise `NotImplementedError` and `lgamma` refuses Python numbers, so eight closed forms raise on every input; on jax `crps_negbinom` does. The docstrings name no such limit. `crps_ct` (`_crps.py:1665-1666`), `logs_tt` (`logarithmic.py:460`) and `crps_binomial` (`_closed.py:82-83`, `101-102`, not modelled) drop the `backend` argument in a helper call and so use the active backend.
40. Invalid parameters (C126): scales are not checked. A negative scale turns the normal, logistic, Laplace and t CRPS into minus the CRPS, which tends to minus infinity as the observation moves away, and `crps_uniform(y, b, a)` is minus `crps_uniform(y, a, b)`. The log scores give NaN or plus infinity instead, except the two-piece ones.
41. Infinite observations (C127): `logs_logistic(-inf)`, `logs_gamma(inf)` with shape above one, `logs_gev(-inf)` with shape in (-1, 0], `logs_poisson(inf)` with mean above one, `logs_binomial(inf)` and `logs_negbinom(inf)` are NaN instead of plus infinity.
42. Missing parameters (C128): `logs_gpd` and `logs_gev` return plus infinity when a parameter is NaN, so a missing forecast looks like an impossible event instead of a missing score.
43. Binary64 (C129): log scores take the logarithm of a computed density instead of computing the log density, so they are infinite in the tails (normal: 40 standard deviations; Laplace, exponential: about 746 scales; logistic: 358 scales below, NaN from 711). `crps_logistic` is infinite from 711 scales below the location on, `crps_gev` with shape zero from 40 scales above. `logs_tnormal` truncated to the upper tail (lower bound 16 standard deviations above the location or more) is minus infinity, the best possible score.
44. Binary64 (C130): `crps_poisson` is NaN from the observation 171 on and from the mean 746 on; `logs_poisson` is never a number from the count 171 on.
45. Gradients (C132): `B.sqrt` of the torch backend is `torch.sqrt(torch.asarray(x))` (`backend/torch.py:181`), which cuts the graph; `asarray` of the same class (line 35) avoids this on purpose. The gradient of `crps_mixnorm` with respect to a standard deviation is therefore `2 w phi(z)`, positive for every observation, so that gradient descent shrinks the standard deviations to 0; the gradient of `error_spread_score` with respect to the members lacks the terms through the ensemble standard deviation. (`B.sqrt(df)` in the t density is affected too, but these closed forms raise on torch anyway.)
46. Gradients (C132): `crps_tnormal`, `crps_cnormal`, `crps_gtcnormal` with an infinite bound (the default) return NaN gradients for location and scale on both libraries, because the branch masked by `where` multiplies 0 by infinity. The same holds for `crps_tlogistic`, `crps_clogistic`, `crps_gtclogistic` and for `logs_tlogistic`; `logs_tnormal` (and `logs_tlogistic` without an upper bound only) returns NaN for the scale only.
47. Gradients (C132): on jax the gradient of `es_ensemble` and `gksmv_ensemble` with respect to the ensemble is NaN for every ensemble (the norm of a member minus itself), for `gksmv_ensemble` also with respect to the observation. With `p < 1` (default 0.5) every gradient of `vs_ensemble` is NaN on both libraries (`|x_i - x_i| ** p`).
48. `crps_gev` calls `float` on a result of size one (`_closed.py`), which `jax.grad` cannot trace (read, not modelled).
49. Gradients (C132): `crps_gev` returns NaN gradients for the observation, the location and the scale, for every observation and shape (`B.nan * s` in `_gev_cdf`). `crps_gpd`, `logs_gpd` and `logs_gev` return NaN for these three with shape 0, the default of `crps_gpd`, and `crps_gpd` also above the upper end of a bounded support. With respect to a shape 0 the gradient is finite and wrong: 0 for the logarithmic scores, too small by `σ (1 - M) x² exp(-x)` for `crps_gpd`; below the location that of `crps_gpd` with respect to another shape is NaN. `crps_t` returns NaN where the observation is the location.
50. Gradients (C132): `clogs_ensemble` called with its defaults returns NaN gradients for every member of every ensemble: the probability outside `(-inf, inf)` is 0, and the discarded branch `-log(0)` turns the cotangent 0 into 0/0. The score itself equals that of `logs_ensemble`, whose gradient is right. With respect to the bandwidth one infinite bound is enough for NaN; with equal bounds and `cens=False` the score is constantly 0 and its gradient NaN.
51. Gradients (C132): on jax, `crps_exponentialM` and `crps_beta` return the gradient 0 with respect to a parameter that has its default value (mass 0, location 0, scale 1, limits 0 and 1), because `_is_scalar_value` then leaves the parameter out of the formula. An optimiser started at the defaults never moves. On torch `x.size` is a method, `_is_scalar_value` is always false, and the gradients are right.
52. Gradients (C132): at an observation equal to a bound, the gradients of `crps_tnormal`, `crps_tlogistic` and `crps_uniform` with respect to the observation are half the derivative (-1/2 instead of -1), because `B.minimum`/`B.maximum` share the cotangent between equal arguments. `crps_2pexponential` returns 0 at the location, where the score has a nonzero derivative in general. `crps_exponential` at 0 is right: two such errors cancel.
53. Weighted `fair` estimates (C134) can be negative: with two members and weights 0.9 and 0.1, an observation equal to the heavier member scores 0.1 - 0.5 = -0.4. Dividing by `1 - sum(w^2)` makes the spread of two members half their distance whatever their weights are. A correct estimate of a nonnegative score below 0 is no error in itself, but the unweighted estimator never does this.
54. Single precision (C137): torch and jax compute in binary32 unless told otherwise, where the failures of items on binary64 start much earlier: `logs_normal` is infinite from 16 standard deviations on, `crps_gev` with shape 0 is infinite 20 scales above the location, `logs_tnormal` is minus infinity for a lower bound 9 standard deviations above the location, and `crps_poisson` is NaN from the count 35 or the mean 52 on.
55. Binomial coefficients (C138): `comb` of the torch and jax backends divides `exp(lgamma)` values with `//`. These are not integers, so a quotient just below an integer loses one: in binary32 `comb(8, k)` is one too small for every `k` from 1 to 7, whichever way ties are rounded, and in binary64 `comb(5, k)` for `k` from 1 to 4 (both for libraries that round `lgamma` and `exp` correctly). In binary32 `logs_binomial(1, 8, 0.5)` is then 3.59 instead of 3.47.
56. Precision on torch (C139): `torch.asarray(torch.pi)`, `torch.sqrt(torch.asarray(2.0))`, `torch.ones` and `torch.zeros` are single precision, so with double precision data `logs_normal` is too small by 2.8e-8 at every observation, `crps_normal` is too large by 5e-8 standard deviations at its centre, and default mixture weights and the levels of the `int` estimator are single precision. They should be made with the dtype of the data.
57. Backpropagation on torch (C140): `owes_ensemble`, `vres_ensemble`, `owgksmv_ensemble` and `vrgksmv_ensemble` raise a RuntimeError ("modified by an inplace operation") in `backward` whenever the ensemble requires a gradient, because `spread_norm *= ...`, `err_norm *= ...` and `spread_kern *= ...` overwrite results of `norm` and `exp` that the backward pass needs. Writing `spread_norm = spread_norm * ...` repairs them. `obs -= location` in `logs_exponential2` and `crps_exponentialM` raises for an observation that requires a gradient.
58. Element types (C141): on torch `owcrps_ensemble` and `vrcrps_ensemble` raise for every weight function that returns booleans or integers, `lambda x: x > 0` for one, because `torch.mean` accepts floats only; `mv_weighted_score_weights` converts the weights (`* 1.0`), but only if `backend == "torch"` is named, so `owes_ensemble` and `vres_ensemble` raise when torch is the active backend. On numpy `owcrps_ensemble` with several integer ensembles and such a weight function raises a casting error in `e_2 *= ...`, while each of the observations alone is scored.
59. Python numbers on torch (C142): `torch.as_tensor(0.1)` is a single precision tensor, so `quantile_score(obs, fct, 0.1)`, `twcrps_ensemble(obs, fct, b=0.1)` and `crps_ensemble(0.1, fct)` with double precision tensors use 0.100000001490116; `crps_quantile` raises for a level like `1 - 1e-9`. (`owcrps_ensemble` compares with the Python number itself, so the two weightings use different thresholds.) All parameters of the closed forms pass through the same `asarray`.
60. **Ensembles without spread score NaN (C143).** `logs_ensemble` and `clogs_ensemble` take Silverman's bandwidth by default (`_logs.py:57-62`), which is zero whenever the quartiles of the members coincide, e.g. `[0, 0, 0, 0, 1]`; the score is then NaN for every observation. `dssuv_ensemble` is NaN for equal members (`core/dss/_score.py:17-21`) and `error_spread_score` for equal members and for fewer than three members (`core/error_spread/_score.py:15-17`). Dry precipitation ensembles are of this kind.
61. **Small shapes are lost to rounding (C147).** `_gpd_pdf`, `_gpd_cdf` and `_gev_pdf` compute `(1 + shape * x) ** (-1 / shape)` (`core/stats.py:125,163,187`). For shapes up to about `1e-18` that are not exactly zero the base is rounded to one, so the law disappears: `logs_gpd` is 0 for every observation from 0 to 32, `logs_gev` is one constant below 2 for every observation from -32 to 32, and `crps_gpd` treats the whole mass as lying far away. Only shape zero is treated apart. `log1p` would keep the value.
62. **A `v_axis` below `-ndim` is accepted (C148).** `multivariate_array_check` adds `ndim` to a negative axis once and hands the result to `moveaxis`, which adds it again (`core/utils.py:74-88`). A `v_axis` from `-2 * ndim + 1` to `-ndim - 1` is therefore not refused, and when the ensemble axis comes after the axis reached, the observations are permuted along another axis than the forecasts: `es_ensemble` of a perfect forecast with `m_axis=2, v_axis=-5` on arrays of three axes is 1 instead of an error.
63. Gradients (C132): `crps_gamma` with shape at most one (so also an exponential law) at an observation that is not positive, and `crps_csg0` with shape at most one and without a shift, return NaN for the gradient with respect to the rate, although the scores are differentiable there. The incomplete gamma function has infinite slope at zero, which is multiplied by the clipped observation 0.
64. Scale zero (C153): crps_normal, crps_laplace, crps_logistic, crps_t, crps_gpd and crps_uniform (equal ends) return NaN for every observation when the scale is zero, although the law is then a point mass, whose CRPS is the absolute error; for small scales the scores tend to it. crps_exponentialM returns the absolute error, except for an observation at the location.
65. Norm in binary64 (C154): the array path of es_ensemble forms the squares of the differences without scaling. Differences of 2^513 (about 2.7e154) or more give an infinite score, or NaN when members are that far apart; differences below 2^-540 (about 2.8e-163) are scored zero. The numba path calls a scaled norm and is not modelled with rounding.
66. Weighted `fair` and `akr` (C155, again from the weights that do not match, see C134): with two members of weights p > q and the observation at the heavier one, `crps_ensemble` grows when the other member moves towards the observation. `C155_weighted_false`.
67. Weighted interval score (C157, again from `w_median*median`, see C28): on the array path a median below the observation raises `weighted_interval_score` by moving towards it; on the numba path it does not.
68. Weighted `fair` and `akr` (C158): moving weight to a member closer to the observation can raise the score. Observation 0, members 0, 1, 10: the fair score of the weights 6, 0, 2 is -2.5, of the weights 6, 1, 1 it is about -1.5.
69. `crps_ensemble` is not convex in the members (C160): member by member, the mean of the ensembles (1, 3) and (3, 1) is (2, 2); for the observation 0 the scores are 1.5, 1.5 and 2 (fair: 1, 1 and 2). Averaging members of unordered ensembles is therefore not safe; sort first (for ensembles in increasing order the claim is proved). The log score of the normal distribution is not convex in the scale, while the CRPS is.
70. `vs_ensemble` of a perfect forecast is NaN when two coordinates are 2^1024 or more apart (C164): the variogram entries of observation and forecast are both infinite and their difference is NaN, also for the default order 0.5, for which the true entry is about 2^512. The exact score is 0.
71. The estimator `pwm` of `crps_ensemble` loses all accuracy when the data are large compared with their distances (C165): for members 2^53 - 7, 2^53 - 7, 2^53 - 5 and observation 2^53 - 7 the array path returns -1 in binary64, with every order of summation, while the fair CRPS, which it equals in exact arithmetic, is 0. The estimator `fair` returns 0 up to 2^-43 for the same data. Without rounding both agree (C03).
72. Near the end of the binary64 range the compiled loops of `crps_ensemble` lose scores that are binary64 numbers (C166): for members -2^1023 and 2^1023 and observation -2^1023 the score is 2^1022, the default estimator `qd` returns infinity and `nrg` returns NaN. The loop for `pwm` has the same loss of accuracy for large data as the array path (item 71).
73. `crps_quantile` returns NaN for finite data whose difference overflows (C167): for the quantile 2^1023 of level 7/8 and the observation -2^1023 the score is 2^1022, but both paths multiply the infinite difference by the indicator 0 of the branch that does not apply.
74. The two paths of the energy score have different ranges in binary64 (C154, C168): the array path squares the coordinates, overflows for differences of 2^513 and returns 0 for differences below 2^-540, while the compiled loops with a scaled norm routine are accurate up to 2^940 and down to the smallest numbers. For the members 2^1023 and -2^1023 the compiled loop fails too.
75. The compiled fair variogram score adds all M(M-1)/2 pairs and all D^2 coordinate pairs into one variable (C169), so the bound on its error grows like M^2 D^2; the array form sums each pair of members by itself and its bound grows like M^2 + D^2 (C164).
76. `log_score` and `rls_score` form the probability of the outcome as `|fct + obs - 1|`. For an event that happens (`obs = 1`) the forecast is added to one and one is subtracted again, so every probability up to 2^-54 (about 5.6e-17) becomes zero and the score infinite, and a probability near 1e-12 keeps about four digits; `-log(fct)` would be accurate for all of them (C171). With `where(obs == 1, fct, 1 - fct)` nothing would be lost.
77. **Equal members are not recognised in binary64 (C173).** The spread of equal members is computed from deviations from a rounded mean (`core/dss/_gufuncs.py:10-14`, `core/dss/_score.py:17-18`, `core/error_spread/_gufunc.py:17-24`). Three members 0.1 have the computed mean 0.1 plus or minus one unit in the last place, so the spread is about 1.7e-17 instead of 0: with the observation 0.1 the Dawid-Sebastiani score comes out between -78 and -75 and the error-spread score is a number, where exact arithmetic gives NaN (`C173_dss_false`, `C173_ess_false`). A single such forecast dominates an average of scores without any warning.
78. C174: `dssuv_ensemble` squares the deviations without scaling, so members of size 2^600 give infinity and members of size 2^-600 give NaN (`C174_overflow_false`, `C174_underflow_false`), although the score is a logarithm of moderate size.
79. C175: `error_spread_score` squares the deviations without scaling, so the members 2^-600, -2^-600 and 0 get the spread zero and the score NaN (`C175_underflow_false`), although the members differ and the score, 2^-2400, rounds to zero.

Seen while reading, not (or not fully) expressed as theorems:

* `gufunc` variants take the scalar outcome weight as `ow[0]`, which depends on how numba types a `()` argument.
* `logs_loglaplace`, `logs_gev`, `logs_gpd` are missing from `__all__`.
* `omit` with an infinite observation gives NaN where the unmasked score is infinite (0 * inf); a single infinite member gives inf on numba, NaN on numpy.
* The documentation example of `vrcrps_ensemble` passes the weight function positionally, where it lands in `a`.
* A category outside 1..K in `rps_score` becomes an all-zero one-hot vector without an error.
* `crps_clogistic`/`crps_ct` and the weighted kernel `gauss_kern_uv` call helpers without passing `backend` on.
* Docstrings: exponentialM says sigma < 0; 2pexponential says y < 0 for y < location; the normal formula lacks a factor 2.
* Surplus observations in the reliability diagram are ignored silently; its `ax` argument is ignored.
* On torch `B.beta(1 / 2, df / 2)` passes a python float to `torch.lgamma`, which only takes tensors (`crps_t`, `logs_t`).
* `TorchBackend.hypergeometric` returns `NotImplementedError` instead of raising it; torch's `comb` in floats can be off by one, because exp(lgamma) is inexact before the floor division.
* `crps_mixnorm` with zero components and no weights raises ZeroDivisionError, `logs_mixnorm` does not.
* The variogram score of order p = 0 hides a missing component, since nan**0 is one (C105).
* The vertically re-scaled energy score and CRPS do not see mass at the reference point 0 (C104).
* torch `arange(n)` with one argument passes None as `stop`, so `TorchBackend.indices` and `crps_hypergeometric` with array parameters fail there; torch `betainc` and `expi` raise NotImplementedError.
* `owvs_ensemble` and `vrvs_ensemble` do not convert the pair weights `w` to an array.
* `nan_policy_check`, `apply_nan_policy_ens_mv` and `estimator_gufuncs_nanomit` are not used by any public function.

## Mutation testing

`seeded/LOG.jsonl` records edits of the model in a scratch copy that mimic realistic bugs, the claim each breaks, the
theorems that stopped proving and the theorems tightened because of a surviving edit.
