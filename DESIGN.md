# Design of the formal model of gwkokab

## 1. What this is

`/verif/lean` is a Lean 4 model of gwkokab (`/repo/src/gwkokab`, `/repo/src/gwkanal`) at the pinned
commit, together with specifications and theorems for the properties of `properties.jsonl`.

Layout (all under `lean/Verif/`):

* `Model/*.lean`  – definitions that mirror the Python functions, branch by branch.  Every definition cites
  the file and lines it models and names its simplifications.
* `Spec/*.lean`   – small specifications that do not use model helpers (where the statement needs vocabulary).
* `Lemmas/*.lean` – helper lemmas.
* `Props/*.lean`  – the property theorems (one file per area), each followed by a non-vacuity `example`.

## 2. Trusted base

* Lean 4.33.0's kernel, and the axioms `propext`, `Classical.choice`, `Quot.sound` (checked with
  `#print axioms`; the gate repeats the check).  No own axioms, no `sorry`, no `native_decide`/`bv_decide`.
* The reading of the Python source: the model is hand-written from the text; nothing was executed.
* **Numbers.** Two idealisations are used.
  1. Where code branches on or produces infinities/NaN (mixtures, likelihoods, tapers, Monte-Carlo sums)
     the model uses `XR` = finite real | +inf | -inf | NaN with the IEEE-754 rules for
     `+ - * /`, `exp`, `log`, comparisons, `where`, `logsumexp`, `nan_to_num` – but exact real arithmetic on the
     finite part: no rounding, no overflow to inf, no signed zero.
  2. Where only algebra/analysis matters (coordinate changes, Jacobians, normalisation) the model uses `ℝ`,
     with explicit guards wherever the code guards.
  Rounding and overflow are therefore *outside* the model, except in `Model/RoundedLikelihood.lean` (C109), `Model/RoundedPowerLaw.lean` (C110) and in `Model/Rounding.lean` (C107), which writes the conversions, the smoothing window,
  `logsubexp`, `truncnorm_logpdf`, the mass-ratio support check and power-law sampling once more with every operation rounded to a nearest number of an arbitrary binary
  format (single, double, …) and overflowing.  There, the elementary functions are taken as correctly rounded, ties are broken in any way symmetric in
  the sign, subnormals are kept, zero has no sign, and XLA neither fuses nor reorders operations
  (C109 leaves the order of the additions of a `sum` open).
* **External libraries** are parameters with a stated contract: JAX's PRNG (`split` = free term
  constructor: distinct derivations are distinct keys), `re.fullmatch`, `jenkspy.jenks_breaks`, numpyro base
  distributions (arbitrary functions `log_prob`/`support`/`sample`), neural networks (arbitrary functions), file systems.
* **PRNG keys.** `Model/Key.lean`: `split k n` gives the children `sub k 0, …, sub k (n-1)`, where child `i` does not depend
  on `n` (JAX's default threefry derivation with `jax_threefry_partitionable`, the default of current releases); different paths give different keys.
* **Numerical library functions** are idealised as exact: `log_ndtr` is the logarithm of `ndtr`, `ndtr` the Gaussian mass,
  `logsumexp([x, y], b=[1, -1])` is `log(exp x - exp y)`, `jnp.interp` uses exact equality of neighbouring abscissae
  instead of its one-ulp tolerance, optax's `warmup_cosine_decay_schedule` and `sigmoid_binary_cross_entropy` (0.2.6) are written from their documentation, `jnp.arange` has no rounding, numpyro's clipping of the log of a zero mixture weight is dropped, `solve_triangular` and
  `cho_solve` are the exact inverse.
* Arrays are modelled per batch element (a `List`/function for the event axis); broadcasting of
  batch shapes, dtype promotion, device placement and `jit` are not modelled.

## 3. Treatment of properties the code violates

If the code as written violates a property, the full property stays in `properties.jsonl`, the model follows the
code, the *negation* is proved with a concrete witness (theorem name `..._fails`/`..._violated`), and the part
that does hold is proved as `..._partial`.  The list is in section 5.

## 4. Plan per property

Each line: what is modelled / how it is proved.

| id | model | proof |
|----|-------|-------|
| C01 | `Joint.lean`: the offset loop of `__init__`, `log_prob` loop over slices | induction on the marginal list with generalised offset; slices = consecutive blocks, sum of block log-probs |
| C02 | tree of distributions, `_flatten` for the three methods | structural induction on trees; density/size/support preserved |
| C03 | `sample` with key split and concatenation | block k of the concatenation is draw k (uses C01 offsets) |
| C04 | lazy joint `log_prob`, `support`, `sample` | agreement when the declared event shapes of the marginals others depend on are scalar (partial; Spec/Lazy says what a declared shape is without the model), counterexample with a vector marginal |
| C05 | `ScaledMixture.log_prob` over `XR` | masked logsumexp lemma; permutation invariance from `List.Perm` |
| C06 | flowMC likelihood over `XR` | case analysis on `where`/`nan_to_num` tail; finite case explicit formula |
| C07 | bucketed likelihood with masks | fold over buckets = sum over events; masked entries dropped by `where` |
| C08, C09 | `jenks.py` line by line, breaks from an oracle; `OracleBreaks` (Spec/Jenks) says what jenkspy guarantees of the breaks | list induction; mask/unpad round trip; the number and the sizes of the buckets from the breaks |
| C10, C11 | combine functions, while loop with fuel | field identities; induction over batches; inverted loop test exhibited |
| C12 | injection estimator over `XR` and `ℝ` | logsumexp lemma; Cauchy–Schwarz |
| C13 | column shuffling, log of output, weighted mean | index lemma; case split; sums of squares |
| C14, C15 | `utils/transformations.py` over `ℝ` (+ `XR` guards) | field_simp/rpow algebra, nlinarith |
| C16, C17 | `models/transformations.py` | from C14; derivatives via `HasDerivAt`/Fréchet determinants |
| C18–C20 | `constraints.py`; `_LazyConstraint.__eq__` (Model/LazyEq) | list induction; equality counterexamples; equal dictionaries are permutations, and instantiating the marginals does not depend on the order of the dependencies |
| C21 | composed bijections with numpyro's Abs/Ordered/Power/Sigmoid/Affine | monotonicity; counterexample for mass-ratio version |
| C22–C24 | power laws over `ℝ` | interval integrals from Mathlib |
| C25 | `kernel.py` over `XR` | monotonicity/limits of explicit formula |
| C26, C27 | `utils/math.py`, `checks.py` | algebra; induction over grids |
| C28 | cosmology as piecewise-linear interpolation of a cumulative trapezoid | induction over the grid |
| C29–C32 | registries, batching, splitting, regex matching | list induction, association lists |
| C33 | Dirichlet element | integrals, telescoping product |
| C34, C35 | DFS and classification with explicit iteration order | DFS invariant (white/grey/black), permutations |
| C36–C39 | schedules, HMC kernel (integrator, acceptance, momentum from the Cholesky factor, the two halves of the key, a chain over a list of keys), saving | induction over loops; shear composition; for the chain: the law of the momentum by change of variables, one step by Fubini, then induction over the keys, the position after some steps being a measurable function of the draws of those keys only.  Assumed of the generators: `normal` and `uniform` have their laws and different keys are independent; assumed of `cholesky`: `L Lᵀ = M` |
| C40, C41 | column maps and axis bookkeeping | index lemmas |
| C42 | PRNG keys as free terms | injectivity of derivation paths; collision exhibited |
| C43–C45 | population rows, tiled covariance, variance filter | list lemmas; matrix algebra |
| C46–C48 | injection and PE priors | decision tables + Jacobian identities |
| C49, C50 | flag-driven column lists and hyper-parameter names; when a name is the value of an argument of a component (Spec/HyperParameterUse) | structural equality for all flags; string lemmas; declared iff used: the tables of declared and read names compared once per stem, lifted to all flags and counts |
| C51–C53 | common helpers, error generators, save/load of models | list/real lemmas; inductive relation for the re-draw loop |
| C54 | spin covariance and truncated-normal mixtures, `jax.scipy.stats.truncnorm`, skew normal | determinants; the density of each mixture integrates to one (Gaussian measure) |
| C55 | members of the parameter enumeration, equality, hash, dictionaries keyed by members | case analysis; decision over the finite table of members inside the kernel |
| C56 | configuration and event files | list induction over files and groups |
| C57 | log-space training targets | monotonicity of `log`; zero target exhibited |
| C58, C59 | event noise loop, file names of events | index lemmas; injectivity of decimal numerals |
| C60 | Laplace proposal and importance weights of the analytic likelihood; the eigenvalue test on complex roots of the characteristic polynomial; numpyro's `cholesky_of_inverse` over any Cholesky factorisation | matrix algebra; weight × proposal = target; spectral theorem: the test decides positive definiteness of the fitted precision |
| C61 | the closed-form effective-spin prior, branch by branch, against the law of the effective spin | antiderivatives with the dilogarithm, Tonelli, convolution of densities |
| C62 | masses and spins per component, with both numerical normalisations on the code's grids | the tables are those of the mass model, so its normalisers are reused; the density factorises per component; Fubini over spins and tilts |
| C63 | the three named factories and the eccentricity model (Model/EccMatters) as the look-ups in program order, the blocks, `JointDistribution` and `ScaledMixture` (Model/FullModels); numpyro's `Beta` and `HalfNormal` transcribed | every block is the log of its density (C25, C54, C26, C28, C62), C01 adds the blocks, C05 scales; with validation on or off: outside a support either the component mask or the zero density gives −inf; beta spins at an end point of `[0, 1]` only where the density vanishes |
| C64 | `_available_prior`, `_is_lazy_prior`, `get_processed_priors` and the split into sampled and fixed parameters (Model/Priors) | case analysis of the loop, entry by entry; the pattern matching is that of C32 |
| C65 | the categorical draw, the component draws, the selection, `mean` and `variance` (Model/MixtureSampling); the uniform of the draw and the component draws are independent random variables | the index law is the measure of an interval; the sample law is the mixture of the component laws; moments by linearity of the integral |
| C66 | the look-ups, the validation loop and the mass matrix of the driver, the template settings (Model/SamplerConfig); JSON values without NaN, nested lists to depth two; `eigvalsh` as the eigenvalues of the symmetrised matrix | the table of settings is sorted by kind; the eigenvalue test is equivalent to a positive quadratic form (Mathlib's spectral theorem) |
| C67 | the numbers of flowMC_info and `generate_heuristics` as integer arithmetic (Model/Scripts) | the rounded-up quotient as a Galois connection |
| C68 | `loadtxt` with its reshaping, standard deviation, reciprocal (Model/Scripts) | algebra; the result is an instance of the diagonal case of C66 |
| C69 | `np.quantile` with linear interpolation (specified by position in the sorted sample, Spec/Quantile), the two drawing loops and the file names (Model/Scripts); drawing itself is a list of (parameter, curves) | order statistics of the sorted list; counting by index; induction over files |
| C70 | Files are lists of lines, lines lists of words (`Model/Tables`); three ways of writing, five of reading. For each pair: exact theorem of what the reader gets, for all names and rows. |
| C71 | The loop of `corner_overplot.py` over `Model/Tables`; which column ends up under which heading, for every permutation. |
| C72 | `Model/Diagnostics`: the integer grid of `np.linspace`, the inclusive selection of xarray; the diagnostic is a given function. Order and ends by arithmetic on ℕ. |
| C73 | `Model/NumpyroSettings`: JSON values and the branches of the driver; exact set of accepted files, and what the library is called with. |
| C74 | `Model/Rng`: state machine of two attributes over the free keys of `Model/Key`; induction on the number of readings. |
| C75 | `Model/Version`: the function of three inputs; case analysis. |
| C76 | `Model/SpinPriorJoint`: the four terms with complex dilogarithms. `Lemmas/Dilog` differentiates the dilogarithm, `Lemmas/SpinPriorJoint` shows `F` is an antiderivative, `...Density`/`...Value` identify the four terms with the two convolutions of the specification, `...Law` derives the joint law (polar coordinates, affine changes of variables, Tonelli). |
| C77 | `Model/Training`: `train_regressor` with the network and the optimiser as arbitrary functions; the loops are shown to be a fold of optimiser steps over the batching of `Spec/Training`. |
| C78 | `Model/Training.schedule` (optax's warm-up cosine schedule as a function of the step); algebra and monotonicity of the cosine against `Spec/Training.documentedRate`. |
| C79 | `Model/Training.entry`, `lossFn`; Gibbs' inequality with its case of equality. |
| C80 | Training, the model file and the estimator that reads it, as one path. | Composition of C79 with `Model/PoissonMean.logPdet`, `logVT` and `Model/ModelFile`. |
| C81 | The models of C63 for both values of `validate_args`; `ScaledMixture.log_prob` behind `@validate_sample`; the smoothed mass-ratio wrapper. | Both log densities are logs of the same real number, hence equal (`EccentricityMattersModel`: the value is computed from the support and the density inside it, for every event, so also at `m1 = mmin`); the mixture terms coincide because the component mask replaces the missing check. |
| C82 | `Sage.run` from its inputs to the function handed to flowMC and to numpyro, as the composition of the models of C35, C02, C03, C07 and C06; the population model is an arbitrary function of its keyword arguments. | The index map, the constants and the other names give the keyword arguments the table means; both prior constructions give the sum of the log priors; padding and buckets cancel by C07; C06 for the rest. |
| C83 | `Monk.run` from its inputs to the function handed to flowMC, as the composition of the models of C35, C02, C03, C56, C74 and C60. | As C82 for the arguments and the prior; the file is read by induction over its groups; C60 for the value. |
| C84 | argparse's reading of a command line for options that are flags, take one value or a list of words (long options, `=`, unambiguous abbreviations, negative numbers, required options, exclusive groups, defaults, conversions); the option table and the constructor call of each of the twelve programs, one entry per source line. `--`, option files and positional arguments are not used by the programs; `--help` ends the program. | Soundness and completeness of the reader against an inductive specification, for every sensible option table and every list of words, by induction; the tables are checked by kernel computation (finite data of the source); composed with C49. |
| C85 | The weights of the raw rows (`nan_to_num`, `softmax` with IEEE special values), `jax.random.choice` as inverse cumulative sum of a uniform number, the ordering of the masses, the loop over the realisations. The generator of the raw rows, the Poisson number and the uniform numbers are arguments. | The index is `i` exactly on one step of the cumulative sum, hence the law by Lebesgue measure of disjoint intervals; the limit by the strong law of large numbers; the ordered law by exchanging the masses, a measure-preserving map. |
| C86 | `wipe_log_rate`, the keyword arguments of `compute_probs` (index clamping, names given twice), `NPowerlawMGaussian` as in Model/Hybrids with an arbitrary distribution per component, the validated `ScaledMixture.log_prob`, averaging and saving as in Model/Ppd (Model/PpdModel) | the components do not read a rate (table of look-ups), the mixture density by C05, the columns by C40, the file by C41 |
| C87 | the estimators of Model/PoissonMean; a campaign is a sequence of independent draws with density `q` and independent uniform numbers deciding what is found; the draws of the neural estimators follow the law of their component (Spec/Survey) | the estimate is a mean of independent weights (C12, C13); its mean by Fubini and the density, convergence by the strong law of large numbers, the variance by pairwise independence |
| C88 | `read_json`, `write_json`, `format_json_with_gaps` together with Python's JSON writer (`indent=4`, ASCII escapes) and reader (Model/Json); Spec/Json says which texts write a value (any blanks, any spelling of a string: plain characters, short escapes, `\uXXXX` in either case, surrogate pairs) | mutual induction over the value: what is written renders the value, a rendered value with any blanks and any spelling is read back, doubling line ends keeps a rendering; writing fails exactly on values with a foreign part, and what is then left is a proper beginning of the file that any replacement of the foreign parts would have given |
| C89 | the whole of `Sage.run` (C82) with data drawn from the event posteriors and the injection campaign of C87; Spec/Hierarchy states the exact log posterior | the value of C82 at given samples, the strong law of large numbers for the weights of each event and for the injections, continuity of the logarithm; for the mean: independence of the events; for models that are only right outside a set of measure zero the samples and injections are moved into the good set, which changes nothing almost surely (Lemmas/HierarchyNull) |
| C90 | `main` of `chain_plot.py` and `ess_plot.py`, on the text tables of C70 and with the quantiles of C69 (Model/Plots); the estimator of the effective sample size is a parameter | what the readers return for written tables (C70), then the shapes of the arrays |
| C91 | the colour branch of `scatter2d.py` and the colours of `scatter3d.py` (Model/Plots) | splitting a list by class keeps its elements; the error branches directly |
| C92 | the models of C83 and C60; the draws of a key are the first `n` of a sequence of independent standard normal vectors, those of different keys are independent (Spec/MonkLimit) | change of variables for the fitted proposal gives the mean of a weight; strong law of large numbers per batch; a product of independent events for the mean; C87 for injections |
| C93 | `variance_of_single_event_likelihood` over the buckets and `compute_variance` (Model/SageVariance), on the model of C82 | list induction over buckets for the value; central limit theorem for each event and the injections, characteristic functions for their independent sum, delta method for the logarithm, Slutsky for the estimated standard deviation, sub-sequences for sample sizes in any proportion (Lemmas/Normal, Lemmas/Uncertainty); the exact variances as integrals (Spec/Uncertainty) |
| C94 | `ScaledMixture` (Model/Mixture), the named models (Model/FullModels), the three estimators of the expected number (Model/PoissonMean), the analysis of C82 | log-sum-exp commutes with a finite shift, special values included, by cases on the kind of the entries (Lemmas/Rates); dictionaries that agree but for `log_rate` give the same components; the value of C82 at two rates; `x + 1 < e^x` for the uniqueness of the best rate |
| C95 | the factors of Model/Hybrids as distributions (Model/HybridDensity), joined and mixed; laws by their textbook densities (Spec/HybridDensity) | class by class: the factor evaluates to its law (C24, C28, C30, C54); joints by the slices of C02, mixtures by the log-sum-exp of C05, induction over factors and components; masses by iterated integrals, the push-forward of the mass ratio by a change of variables, the volume bounded on bounded redshifts |
| C96 | the factors of the smoothed models (Model/Hybrids) as distributions, `MixtureGeneral` for the masses and for the components, the grid normalisation, the wrapper of Model/Smoothed (Model/SmoothedDensity); laws and smoothing by formulas (Spec/SmoothedDensity) | factors and joints as in C95; `MixtureGeneral` by its log-softmax (weights summing to one are unchanged) and log-sum-exp; normalisations by the trapezoid and interpolation facts of C25; the look-ups of C50 give the wrapper's arguments; marginals by iterated integrals |
| C97 | no new model: the densities of C25 and C96; exact integrals and peak densities by formulas (Spec/GridNorm) | trapezoid error at most half a spacing times the total variation, cell by cell; variation of the laws from 'no value below both neighbours' (powers, bell curves, indicator of an interval), of products and sums by discrete sums; the Planck window has slope at most two (its derivative by `2 + g² ≤ eᵍ + e⁻ᵍ`), so neighbouring tables differ by a stated amount; below the first cell the window is under `4x²`, hence the violation |
| C98 | `NPowerlawMGaussianCore` as the inputs of the `Sage` model: constants, flags and component numbers read back from the keyword arguments, hyper-parameters, columns, no where-functions (Model/HybridSage); the exact log posterior of the documented population over vectors with one entry per column (Spec/EndToEnd) | composition: the keyword arguments give back the options (no declared name is a flag), every declared name gets a number (C50), the model has the density of the documented laws (C95) on the columns (C49), which is measurable and integrable (Tonelli over the columns), so the estimator converges (C89, C82, C87); for Gaussian events (`monkInputs`) the same population enters C92 |
| C99 | `NSmoothedPowerlawMSmoothedGaussianCore` and `NBrokenPowerlawMGaussianCore` as the inputs of the `Sage` model (Model/SmoothedSage); the documented smoothed population over vectors with one entry per column (Spec/SmoothedSage) | as for C98 with the density of C96; the check of the beta spins reads the numbers the laws are built from, so it passes where the concentrations exceed one and rejects the point otherwise; the tabulated total is a measurable function of the grid and is determined between the bounds; the smoothed power law over its total is bounded cell by cell (the window rises with slope at most 2, the total linearly in the first cell where it is positive), so a uniform law in the mass ratio dominates |
| C100 | `EccentricityMattersCore` as the inputs of the `Sage` model and `EccentricityMattersModel` built from its keyword arguments (Model/EccSage); the documented eccentric population over vectors with one entry per column (Spec/EccSage) | the density of C63 away from primary masses equal to `mmin`, a set of measure zero; the total rate by Tonelli; then the almost-everywhere versions of C89 and, for Gaussian events, of C92 (what holds almost everywhere holds almost surely at all draws: the proposals are affine images of normal vectors) |
| C101 | the configuration as a dictionary, Python's binding of its entries to the factory's signature, the factory's branches; executing a custom module is a given function (Model/Selection) | case analysis; look-ups in dictionaries |
| C102 | Python values with nested objects, the table of declared data and kept fields of every class, flattening into leaves and a static description, rebuilding (Model/Pytree); NumPyro's own classes are assumed to declare everything, and its validation flag is left out | structural induction on nested values; the tables are compared entry by entry with the attributes the constructors set |
| C103 | the run as a fold over the schedule, with the position and acceptance buffers and the files after each strategy (Model/FlowMCFiles); a save is atomic, a step's row has no `-inf` | invariant at every loop boundary and inside a loop; an in-range write of the buffer fills exactly the next loop's entries; induction on the number of strategies for the files |
| C104 | reading a posterior predictive file and the panels drawn from it (Model/PpdPlot), on top of Model/Ppd and the quantiles of Model/Scripts | the marginal loop for an array without an axis of samples, linearity of the iterated trapezoidal rule, and C41, C69 |
| C105 | PlotFiles: the option tables of the eleven scripts, left-to-right handling of options by argparse with `FileType`, the files, drawing as a parameter | induction over the command line for every tool of the table; table facts by kernel evaluation; the violations for every tool, file system and library behaviour |
| C106 | Logging: environment, handlers, sinks and `set_log_level` branch by branch; loguru by its documented behaviour | induction over messages and over histories of set-ups and messages |
| C107 | Rounding: the formulas with every operation rounded; `Nearest f fl` says what a rounding to nearest is | monotonicity of rounding and exactness on the format (any format, any tie rule); relative error bound; concrete witnesses by exact rational arithmetic |
| C108 | `flowMC_info.main` from the content of the file and the options to table, picture and suggestions (Model/FlowInfo), next to the settings reader of C66 | the look-ups by induction over the list; the rounded-up quotient over the integers; the specification of C66 (`Acceptable`) as hypothesis |
| C109 | `logsumexp`, the two likelihoods, the mixture density and the injection rate with every operation rounded (Model/RoundedLikelihood); a `Reduction` gives for every array an order of additions, any order allowed, extra zeros allowed | every order is a binary tree whose leaves are a permutation of the entries; error of a tree by induction (small sums are exact, others off by 2^-p), Lipschitz bounds of exp below zero and of log above one; with `fl = fin` the definitions are those of Likelihood, Mixture and PoissonMean; end to end: the rounded rows are those of the events (induction over buckets and rows), each weight is within `eps + B 2^-p` of the exact one, and the robustness lemmas of C111 carry this through the sums; the expected number the same way over the injections; joint distributions (Model/RoundedJoint) by induction over the marginals, each addition growing the size by at most a factor 1 + 2^-p, and a population of joint distributions from this and the mixture; the loop of the analytic likelihood (Model/RoundedAnalytic) by induction over the batches, `logaddexp` being the two-term case of the sum of exponentials, and its posterior as a sum of inexact log estimates; `C109_error_overflow` (Props/RoundedError): both moments overflow, their difference is NaN, and NaN fails the loop condition |
| C110 | `doubly_truncated_power_law_log_norm_constant` and `..._log_prob` with every operation rounded (Model/RoundedPowerLaw); the exact mass is the integral of `x^alpha` (Spec/RoundedPowerLaw), and `amplification` is the condition number of the difference of the two powers (of the two logarithms at slope -1) times the error of a power | forward error analysis: exponent, powers, difference, quotient, logarithm, each step a relative bound; the condition number is at most `1 + 2/(abs(1+alpha) log(high/low))`. Violations: at slope `-1 + 2^-p` both powers lie within half a unit of `1 + 4*2^-p`; powers below half the smallest subnormal round to zero; powers above the largest number to infinity; populations (Model/RoundedPopulation, Spec/RoundedPopulation): each component by `C110_log_density`, the sum by `C109_mixture_accurate` and monotonicity of sums of exponentials (`C110_population`), the posterior by `C109_end_to_end` (`C110_posterior`); the expected number of injections (Props/RoundedRate): `C109_rate_end_to_end` from `C109_rate_accurate` and the distance of the sums of weights, for populations `C110_expected_number`, all together `C110_analysis` |
| C111 | the models of the whole analysis (Sage), of `ScaledMixture.log_prob` and of the three expected-rate estimators, each run with two population models; `Within e` (Spec/Robust): both values `-inf`, or both finite and at most `e` apart | sums of weights change by a factor between `e^-e` and `e^e` (induction over the lists, NaN terms dropped by the estimator on both sides), so logs of sums change by at most `e`; added up over the events through the value theorems of C82, with the estimators through C12 and C13 |

## 5. Findings (code violates the stated property)

Each line: what the code does, and the theorem (in `lean/Verif/Props`) that proves it of the model.

| id | finding | theorem |
|----|---------|---------|
| C04 | a lazy joint distribution with a vector-valued earlier marginal evaluates later marginals at a different argument than `sample` used | `C04_vector_marginal_violated` |
| C10 | with `n_samples = 1` the batch variance is 0/0 = NaN and stays NaN in every combination | `C10_single_draw_violated` |
| C11 | the adaptive loop goes on while the error is *at most* the bound and stops once it exceeds it: a precise event runs to the step limit, an imprecise one stops at once | `C11_exit_violated` |
| C13 | only `PowerlawRedshift` contributes its normalisation to the detection-probability estimate; a Madau–Dickinson model does not | `C13_madau_violated` |
| C15 | Cartesian to spherical at the origin is NaN | `C15_spherical_origin_violated` |
| C16 | equal masses and boundary points fall outside the declared open codomains; a block transform of one event raises or has the wrong shape; blocks given out of order are not re-ordered | `C16_equal_masses_violated`, `C16_chirp_eta_boundary_violated`, `C16_primary_ratio_boundary_violated`, `C16_block_single_violated`, `C16_block_order_violated` |
| C17 | the distance Jacobian is the derivative of the exact distance, not of the interpolated map that is applied | `C17_luminosity_distance_violated` |
| C20 | constraint equality ignores the number of parts and their slices; slices beyond the event are clamped; the feasible point follows the list, not the slices; comparing the supports of two lazy joint distributions of which one continues the other raises `ValueError` | `C20_lazy_eq_raises`, `C20_eq_length_violated`, `C20_eq_slices_violated`, `C20_out_of_range_violated`, `C20_feasible_order_violated` |
| C21 | the bijection to positive increasing vectors reaches a zero first coordinate; the mass-ratio sandwich bijection leaves the constraint when `mmax` is small | `C21_positive_increasing_violated`, `C21_ratio_sandwich_violated` |
| C22 | the cdf at negative arguments is not monotone | `C22_cdf_negative_violated` |
| C23 | the derivative rule of the cdf has the wrong sign in `high` at alpha = -1, is non-zero outside the support, and its alpha direction at -1 is only a finite difference | `C23_cdf_high_violated`, `C23_cdf_outside_violated`, `C23_cdf_alpha_violated` |
| C24 | a broken power law whose break is outside the mass range is NaN | `C24_break_outside_violated` |
| C25 | NaN for `delta > mmax - mmin` (two-component) and for `delta_m1 <= 0` (two-peak) | `C25_two_component_wide_violated`, `C25_two_peak_width_violated` |
| C26 | the concentration check accepts non-positive variances | `C26_check_nonpositive_violated` |
| C28 | redshifts and distances beyond the table are clamped silently | `C28_clamped_violated` |
| C29 | calling the registry with a plain name never finds a model, even one registered under that name | `C29_plain_name_lookup_violated` |
| C31 | the training split is not a multiple of the batch size and the epoch loss divides by the wrong count | `C31_whole_batches_violated`, `C31_epoch_loss_divisor_violated` |
| C32 | an exact key with a falsy value falls through to the patterns | `C32_falsy_exact_value_violated` |
| C33 | an order beyond the dimension is accepted and gives NaN | `C33_order_too_large_violated` |
| C35 | an alias of an alias, or of an unknown name, is dropped without an error | `C35_alias_chain_dropped_violated` |
| C37 | the HMC proposal makes one more step than configured | `C37_configured_step_count_violated` |
| C40 | an alias of a rate parameter makes `wipe_log_rate` delete an unrelated column | `C40_alias_of_rate_violated` |
| C42 | with two or more realisations a population key equals a noise key | `C42_reuse_violated` |
| C44 | overlapping tiles give an indefinite covariance | `C44_psd_overlapping_violated` |
| C45 | a posterior with a single free parameter, or with a single row, is read back as a vector and filtering it raises | `C45_single_parameter_violated`, `C45_single_row_violated` |
| C46 | upper-case FAR columns are ignored; groups with FAR columns only raise; aligned-spin files raise unless every row is found | `C46_uppercase_violated`, `C46_group_far_violated`, `C46_aligned_violated` |
| C47 | detected component masses with the effective spin but without the mass ratio lack a factor m1 | `C47_effective_detected_violated` |
| C48 | several parameter choices get the wrong reference prior | `C48_uncovered_violated` |
| C49 | the generator drops the precessing spin; both exclusive spin flags together give two factors for one pair of columns | `C49_generated_precessing_spin_violated`, `C49_both_spin_models_violated` |
| C50 | the mean/variance check reads names that are never declared; zero components raise `UnboundLocalError`; the o3/o4 checks ignore the secondary spin; `n_pls_m_gs` demands priors for a location and a scale of five angles, which the model never reads; the generator demands the hyper-parameters of the precessing spin, which it drops | `C50_beta_spin_check_violated`, `C50_no_components_violated`, `C50_secondary_spin_unchecked_violated`, `C50_unused_angles_violated`, `C50_unused_precession_violated` |
| C52 | extreme noise gives negative masses; the re-draw loop may never end; the eccentricity mask writes 1.0 instead of NaN | `C52_banana_negative_masses_violated`, `C52_truncated_normal_never_returns_violated`, `C52_eccentricity_mask_violated` |
| C53 | a network that is not wrapped by `filter_checkpoint` (in particular a loaded one) cannot be saved; a file without some layer group loads silently with fresh random weights for that layer and the following ones | `C53_plain_network_violated`, `C53_missing_layer_violated` |
| C54 | epsilon = ±1 passes the argument check and gives NaN | `C54_skew_normal_epsilon_one_violated` |
| C57 | a zero training target is -inf in log space | `C57_zero_target_violated` |
| C58 | a parameter without an error generator is filled with uninitialised memory | `C58_uncovered_violated` |
| C61 | the effective-spin prior is `+inf` at `|chi_eff| = q amax/(1+q)` for `q < 1/2` and NaN at `chi_eff = 0` for `q = 1`; the density is finite there | `C61_density_violated_at_secondary`, `C61_density_violated_at_zero` |
| C64 | a parameter absent from the prior file is not reported: it becomes the constant `None` | `C64_missing_prior_violated`, `C64_no_entry_is_none` |
| C65 | `mean` and `variance` are not divided by the total scale, so they describe the samples only if the scales sum to one | `C65_mean_variance_violated` |
| C66 | a non-symmetric matrix passes the test for positive definiteness; a string passes as mass matrix | `C66_asymmetric_violated`, `C66_string_violated` |
| C67 | 'Forgetting' is reported one loop late unless the window is a whole number of loops; the suggested batch may exceed the training set | `C67_forgetting_violated`, `C67_suggested_batch_violated` |
| C68 | a pilot run of one parameter is always refused | `C68_single_parameter_violated` |
| C69 | for few samples the 90% band need not contain any; files with different headers are drawn into one figure | `C69_coverage_violated`, `C69_figures_violated` |
| C70 | scripts that draw all samples take the first sample for the header; a column asked for by name in a posterior file is the next column (the last is empty); the first column of a NumPyro chain is not found; the histogram of a catalogue draws the header as a sample | `C70_first_sample_violated`, `C70_named_posterior_violated`, `C70_named_chain_violated`, `C70_histogram_catalogue_violated`, `C70_loadtxt_catalogue_violated` |
| C71 | the permutation of columns is applied in the wrong direction | `C71_order_violated` |
| C72 | the value drawn at iteration d uses d + 1 draws; without labels the parameters are labelled with file names, or the plot fails | `C72_draws_violated`, `C72_default_labels_violated` |
| C73 | any chain method is accepted; a missing one is a KeyError | `C73_method_unchecked_violated`, `C73_method_missing_violated` |
| C74 | an analysis given a key cannot read its events; given both, the seed recorded is not that of the keys | `C74_key_only_violated`, `C74_key_and_seed_violated` |
| C75 | an unknown value of the environment variable makes the import fail | `C75_import_violated` |
| C77 | the reported training loss divides by the number of full batches (15 rows in batches of 10: 2 instead of 1); with several outputs the call raises after writing two files; with no more rows than a batch all validation losses are NaN | `C77_curves_violated`, `C77_outputs_violated`, `C77_validation_violated` |
| C78 | the decay ends as many steps early as the warm-up has; a run with at most twice as many epochs as warm-up epochs raises | `C78_documented_violated`, `C78_short_violated`, `C78_short_run_violated` |
| C80 | networks trained with `bce_logits` are read back as log of the logit (−inf for y ≤ 1/2, above one for y ≥ 3/4); log-trained networks are read back as −inf by the pdet estimator; the stored flag is ignored | `C80_bce_violated`, `C80_bce_above_one_violated`, `C80_log_violated`, `C80_flag_violated` |
| C63 | at m1 = m2 = mmin the eccentricity model has log density +inf (the secondary's interval has no width) | `C63_eccentricity_matters_edge_violated` |
| C81 | a `ScaledMixture` built without a support is not zero outside its components' supports when validation is off (no model of the package builds one) | `C81_mixture_no_support_violated` |
| C84 | the analyses of Gaussian events accept `--variance-cut-threshold` and ignore it | `C84_variance_cut_ignored_violated` |
| C84 | the numbers of components are not required options: without them the analysis is built with `None` components | `C84_component_counts_violated` |
| C84 | the analyses read `--add-phi-1` (an option of the generator) as an abbreviation of `--add-phi-12` and fit another angle | `C84_abbreviation_violated` |
| C85 | if no row of the pool can be detected, the "detected" events are copies of the first row | `C85_nothing_detectable_violated` |
| C85 | masses are put in order after the draw, so a component with independent masses is generated with twice the density the analysis evaluates | `C85_ordered_law`, `C85_gaussian_component_violated` |
| C85 | one Poisson number for all realisations of a run | `C85_same_counts_violated` |
| C85 | detected events are taken with replacement, so a catalogue can contain the same event twice | `C85_repeated_events_violated` |
| C86 | `wipe_log_rate` gives every component the same weight: for several components the predictive file is the posterior mean of the plain sum of the components' densities | `C86_relative_rates_lost_violated` |
| C86 | a rate given as a constant is not wiped, so the predictive file is scaled by it | `C86_fixed_rate_violated` |
| C87 | where the population extends beyond the injections the estimate stays finite and silently leaves that part out | `C87_uncovered_violated` |
| C88 | a name given twice in a JSON file (a prior, for example) is accepted and only the last entry counts | `C88_duplicate_names_violated` |
| C88 | a failing `write_json` has already replaced the previous file by a part of the new one | `C88_failed_write_violated` |
| C88 | two surrogate characters come back as one character | `C88_surrogates_violated` |
| C89 | where the prior of the posterior samples vanishes the likelihood of an event is cut off; the estimate converges all the same, to a smaller number, and nothing reports it | `C89_uncovered_violated` |
| C90 | with `--band` and one parameter every chain is drawn with areas of no width; the spread between the chains is lost | `C90_band_single_violated` |
| C90 | the effective sample size of the production chains is divided by the number of training draws | `C90_ess_violated` |
| C91 | class numbers are used as indices into the palette: classes numbered from one always stop the script, classes with the same integer part share a colour | `C91_numbering_violated`, `C91_from_one_violated`, `C91_same_colour_violated` |
| C91 | `--legend` of `scatter2d` has no visible effect (`plt.legend` is never called) | `C91_legend_violated` |
| C91 | `--color` of `scatter3d` and `batch_scatter3d` always fails | `C91_3d_violated` |
| C92 | the number of batches is chosen by looking at the weights, so the posterior density is not unbiased: with two draws in a batch and at most two batches its mean is not the exact density (it is for a fixed single batch) | `C92_adaptive_violated` |
| C95 | the Gaussian components of `NPowerlawMGaussian` give positive density to events whose secondary is heavier than the primary | `C95_mass_order_violated` |
| C96 | `NSmoothedPowerlawMSmoothedGaussian` and `NBrokenPowerlawMGaussian` accept `lambda_i` that add up to more than one; the last weight is then negative and every event of the support has log density NaN | `C96_weights_violated` |
| C97 | The mass-ratio density of the smoothed models is not normalised for primaries just above the minimum mass: the table is interpolated linearly down to zero, the exact total falls off like the window, and the integral over the mass ratio is below any ε there (`SmoothedTwoComponentPrimaryMassRatio`, `NSmoothedPowerlawMSmoothedGaussian` always; the other two when both minimum masses agree) | `C97_ratio_total_violated`, `C97_models`, `C97_two_component`, `C97_two_peak` |
| C98 | Beta-distributed spin magnitudes are excluded: with them the analysis raises a `KeyError` in its where-function before any density is computed (C50). The likelihoods of the events are taken to be bounded, and the samples and injections to reach the population (C89 shows what happens otherwise). | `C98_consistent`, `C50_beta_spin_check_violated` |
| C99 | Beta-distributed spin magnitudes are included where both concentrations exceed one; the analysis rejects the other points by the primary spin only, the secondary one is not checked (`C50_secondary_spin_unchecked_violated`). The mass-ratio power law is divided by a tabulated total that tends to zero at the smallest secondary mass; the quotient stays bounded (`Smoothing.ratio_bounded`), so the expected number of mergers is finite. Negative weights (C96) are excluded by hypothesis. | `C99_rate_integrable`, `C99_unpeaked_primary_rejected`, `C96_weights_violated` |
| C100 | At a primary mass equal to `mmin` the code's density is infinite (the width of the secondary mass vanishes); such events have probability zero, so neither the limit nor the mean is affected. | `C100_consistent`, `C100_unbiased` |
| C101 | an option of the selection-function file that the estimator does not know (a misspelt `far_cut`, or a cut given to a neural estimator) is ignored without a message | `C101_unknown_options_ignored_violated` |
| C102 | a `BlockTransform` passed to a compiled function has the domain and codomain `real` there, because `domain` and `codomain` are set by the constructor and not declared | `C102_block_transform_violated` |
| C102 | `DoublyTruncatedPowerLaw` declares `_support` as static: one element of a batch has its own bounds and the support of the whole batch | `C102_power_law_support_violated` |
| C102 | `_LazyConstraint` declares its integer slices and dependencies as leaves: in a compiled function they are arrays and the support check raises | `C102_lazy_support_violated` |
| C105 | eleven plotting scripts declare `--output` with `argparse.FileType("w")`, which empties the file while the options are still being read: a forgotten option, an unreadable data file, an error in the data or `--help` destroys the plot that was there, and naming the data as output destroys the data; `--zlabel` of batch_scatter3d, `--delimiter` of hist_overplot and `--size` of joint_plot are ignored; joint_plot ends with an AttributeError (`g.close`) after saving | `C105_plot_lost_violated`, `C105_plot_lost_by_help_violated`, `C105_data_lost_violated`, `C105_ignored_options_violated`, `C105_joint_plot_violated` |
| C106 | `set_log_level` documents `WARNING` as the level when `GWKOKAB_LOG_LEVEL` is unset; the code uses `TRACE`, so everything is logged | `C106_default_level_violated` |
| C107 | the symmetric mass ratio of two equal masses of 34.1 is above 1/4 in single and in double precision, and `symmetric_mass_ratio_to_delta_m` of it is NaN (no guard, unlike `Mc_eta_to_m1_m2`) | `C107_eta_violated` |
| C107 | a power-law draw can fall outside the support: slope 2 on [32, 64] in double precision, uniform draw 0, gives a number below 32, whose log density is -inf | `C107_sample_violated` |
| C107 | `truncnorm_logpdf` returns +inf inside the interval when the scale is much larger than the interval (single precision: scale 2^30 on [-1, 1]), because `1 - ndtr(a) - ndtr(-b)` is computed as 0 | `C107_truncnorm_violated` |
| C109 | the estimated squared Monte-Carlo error is computed outside the log domain: when the squares of all weights overflow (single precision: weights of `exp 66`) it is NaN, and the loop ends after one batch whatever the limits; the estimate itself stays accurate, so C109 is not violated | `C109_error_overflow` |
| C110 | the power-law log density is +inf at every point of the support for the slope next to -1 (`-1 + 2^-p`) and any bounds between 25 and 100, because both powers round to the same number; also when the powers of both bounds underflow (single precision: slope -70 above 5), and -inf at every point when the power of the upper bound overflows (single precision: slope 20 up to 100) | `C110_flat_violated`, `C110_steep_violated`, `C110_overflow_violated` |
| C108 | a settings file without `history_window` is accepted by the sampler (default 100), but `flowMC_info` stops with `KeyError`; with the default scalar mass matrix the report does not know the number of dimensions, and its advice to pass `--n_dims` names an option that does not exist (it is `--n-dims`) | `C108_window_violated`, `C108_dimensions` |

## 6. Coverage by file

Which model modules cover which source file.  Anything not named is outside the model.  Each definition in a module cites the exact lines.

| Source | Model modules | Not modelled there |
|---|---|---|
| gwkanal/core/flowMC_based.py | FlowMC, FlowMCFiles, Hmc, SamplerConfig | the flowMC library itself, the neural flow, plots |
| gwkanal/core/guru.py | Graph, Guru, Rng, Argparse, Programs | help texts |
| gwkanal/core/monk.py, inference_io/_discrete.py | Monk, Events, HybridAnalyses | HDF5/text decoding |
| gwkanal/core/numpyro_based.py | Numpyro, NumpyroSettings | the NUTS library, profiler files |
| gwkanal/core/population.py | Population, Thinning | HDF5 encoding |
| gwkanal/core/sage.py | Sage, SageVariance, HybridAnalyses, Likelihood, VarianceCut | loading of PE files (see Events) |
| gwkanal/*/genie.py | Errors, HybridAnalyses, Programs | help texts |
| gwkanal/*/sage.py, */monk.py, ecc_matters/common.py | HybridAnalyses, HybridSage, SmoothedSage, EccSage, FullModels, EccMatters, Programs | help texts |
| gwkanal/utils/checks.py, common.py, jenks.py, ppd.py, priors.py, regex.py | Beta, Common, Json, Jenks, Ppd, PpdModel, Dirichlet, Priors, Regex | file system errors other than a missing file |
| gwkanal/utils/genie_parser.py | Argparse, Programs | help texts |
| gwkanal/utils/logger.py | Logging | the layout of a line, the messages about version and devices |
| gwkanal/utils/ppd_parser.py | none | imported by nothing |
| gwkokab/cosmology | Cosmology | interpolation grids as floats |
| gwkokab/errors.py | Errors | |
| gwkokab/inference | Analytic, LaplaceFit, Likelihood, RoundedAnalytic, RoundedLikelihood | JAX compilation |
| gwkokab/models/constraints.py | Constraints, Pytree | |
| gwkokab/models/hybrids | FullModels, MultiSpin, Hybrids, HybridDensity, Smoothed, SmoothedDensity | |
| gwkokab/models/mass | MassModels, Smoothed | float evaluation of the integrals |
| gwkokab/models/redshift | Cosmology | |
| gwkokab/models/spin, sundry | Spin, Beta | |
| gwkokab/models/transformations.py | Transforms, Constraints, Cosmology, Pytree | |
| gwkokab/models/utils | PowerLaw, Joint, Lazy, LazyEq, Mixture, MixtureSampling, Pytree, RoundedJoint, RoundedLikelihood, RoundedPopulation, RoundedPowerLaw | NumPyro's base classes |
| gwkokab/models/wrappers.py | Registry | |
| gwkokab/parameters.py | Parameters | |
| gwkokab/poisson_mean | SpinPrior, SpinPriorJoint, Injections, PoissonMean, Selection, RoundedLikelihood | the JAX re-implementation of spence (unreached) |
| gwkokab/utils/kernel.py, math.py | Numeric, Beta, Rounding | |
| gwkokab/utils/tools.py, train.py | Tools, Jenks, ModelFile, TrainTargets, Training | the optimiser and the network |
| gwkokab/utils/transformations.py | Conversions, Rounding | |
| gwkokab/version.py | Version | |
| gwkokab_scripts/flowMC_info.py, flowMC_cfg_template.py, diag_mass_matrix.py, ppd_plot.py | Scripts, FlowInfo, PpdPlot, SamplerConfig, Json | drawing |
| gwkokab_scripts/r_hat_plot.py, ess_evolution_plot.py, numpyro_cfg_template.py | Diagnostics, NumpyroSettings | arviz, drawing |
| gwkokab_scripts/chain_plot.py, ess_plot.py, scatter2d.py, scatter3d.py, batch_scatter3d.py | Plots, Tables | drawing, the estimator of the effective sample size |
| other gwkokab_scripts | Tables (how they read their files) | drawing |
| the options and files of all plotting scripts with `argparse.FileType` | PlotFiles | short option names, `nargs` (a value is one string), what is drawn |
