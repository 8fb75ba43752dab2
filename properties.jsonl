{"id": "C01", "title": "Joint density factorises over disjoint, covering blocks", "statement": "JointDistribution(d1,...,dn).log_prob(x) is the sum over k of dk.log_prob(x_k), where x_1,...,x_n are consecutive blocks of x (block k has as many coordinates as dk's event, one if dk is scalar) that are pairwise disjoint, in order, and together use every coordinate of x exactly once; event_shape is the total. Constructing a joint with no marginals raises.", "quantifier": "every non-empty list of marginals of any event sizes, every vector of the right length", "why_tests_cant": "the block boundaries depend on every prefix of the marginal list; a wrong running offset shows only on particular mixtures of scalar and vector marginals", "anchors": ["src/gwkokab/models/utils/_joindistribution.py: JointDistribution.__init__, log_prob"]}
{"id": "C02", "title": "Flattening a nested joint never changes the density or the event layout", "statement": "For every nesting of JointDistributions and each flatten_method (None, 'shallow', 'deep'), the constructed joint has the same event size, the same log_prob at every point and the same default support as the unflattened one; 'deep' leaves no JointDistribution among the marginals, 'shallow' removes exactly one level; any other flatten_method raises.", "quantifier": "every finite tree of joint distributions, every method, every point", "why_tests_cant": "trees are of unbounded depth and width; tests try two or three shapes", "anchors": ["src/gwkokab/models/utils/_joindistribution.py: _flatten_marginal_distributions, JointDistribution"]}
{"id": "C03", "title": "Joint sampling and joint density agree on the column layout", "statement": "The k-th block of JointDistribution.sample is exactly what marginal k drew, with its own sub-key, and is the block that log_prob hands back to marginal k; if every marginal's draws lie in its own support then the joint sample lies in the joint support.", "quantifier": "every list of marginals and every key", "why_tests_cant": "swapped columns give plausible samples; no finite set of seeds excludes a layout mismatch", "anchors": ["src/gwkokab/models/utils/_joindistribution.py: JointDistribution.sample, log_prob; models/constraints.py: _AllConstraint"]}
{"id": "C04", "title": "Lazy joint distribution: sampling and density use the same dependencies", "statement": "For LazyJointDistribution, the value that sample passes to a lazy marginal for each named dependency is the value that log_prob and support read for that dependency from the resulting vector; log_prob is the sum of the (instantiated) marginals' log_probs on their blocks; sampling follows partial_order so a dependency is drawn before it is used; inconsistent constructor arguments raise.", "quantifier": "every list of marginals, dependency map and order", "why_tests_cant": "the two methods index differently (event coordinate vs marginal number) and agree whenever all marginals are scalar, which is the only case tests exercise", "anchors": ["src/gwkokab/models/utils/_lazyjointdistribution.py: LazyJointDistribution.log_prob, sample, _LazyConstraint.__call__"]}
{"id": "C05", "title": "Scaled mixture density is the sum of scaled component densities", "statement": "ScaledMixture.log_prob(x) is log of the sum over components of exp(log_scale_k + log p_k(x)), components that are -inf (or outside their support when a mixture support is given) contribute nothing, the result is -inf exactly when all components are excluded, never NaN when no component is NaN/+inf, and does not depend on the order of components; cdf is the scaled sum of component cdfs; inconsistent constructor arguments raise.", "quantifier": "every number of components, all log scales, all component values including -inf", "why_tests_cant": "all-masked and mixed -inf patterns are exponentially many and each is a potential NaN", "anchors": ["src/gwkokab/models/utils/_scaledmixture.py: ScaledMixture.__init__, component_log_probs, log_prob, cdf"]}
{"id": "C06", "title": "The Poisson log-likelihood is never NaN or +inf and rejects excluded points", "statement": "The discrete Poisson likelihood returns a value that is never NaN and never +inf for whatever values the model, the priors and the detection estimator return (NaN and +inf included). In the flowMC form it is -inf whenever the prior log density is -inf or NaN, and, when where-functions are configured, whenever one of them rejects the point, the prior support excludes it or a coordinate is not finite (without where-functions the support is not consulted, which is stated explicitly). When everything is finite it is log prior + constants + sum of event terms - expected rate. The numpyro factor is always finite and equals the lowest float for rejected points.", "quantifier": "every parameter vector, any model output including inf/NaN, any number of events", "why_tests_cant": "samplers visit pathological corners that no finite test list contains; one NaN silently corrupts a chain", "anchors": ["src/gwkokab/inference/poissonlikelihood_flowMC.py", "src/gwkokab/inference/poissonlikelihood_numpyro.py", "src/gwkokab/inference/poissonlikelihood_utils.py"]}
{"id": "C07", "title": "Padding, bucketing and event order do not change the likelihood", "statement": "The event part of the discrete Poisson likelihood depends only on the multiset of events (each a set of unmasked samples with its reference prior): it is unchanged by the values stored in padded positions, by the amount of padding, by the partition of events into buckets, by the order of buckets and of events, and equals the plain per-event Monte-Carlo average summed over events.", "quantifier": "every data set, every bucketing, every padding value and amount", "why_tests_cant": "the number of bucketings is exponential in the number of events", "anchors": ["src/gwkokab/inference/poissonlikelihood_flowMC.py", "src/gwkokab/inference/poissonlikelihood_utils.py", "src/gwkanal/utils/jenks.py: pad_and_stack", "src/gwkanal/core/sage.py: read_data"]}
{"id": "C08", "title": "Bucketing loses, duplicates and misaligns no event", "statement": "pad_and_stack returns buckets whose unpadded rows (selected by the returned mask) are exactly the input events, each once, in size order, and the k-th row of every stacked array (data, log reference prior) comes from the same event; each bucket row is padded to the bucket maximum with the pad value; mismatched lengths raise.", "quantifier": "every list of events of any lengths, every break vector of the clustering oracle", "why_tests_cant": "arbitrary length multisets and bucket boundaries", "anchors": ["src/gwkanal/utils/jenks.py: pad_and_stack, _pad_and_stack_bucket, _bucket_mask, _get_subsets"]}
{"id": "C09", "title": "Bucket boundaries are a partition, and automatic bucket choice terminates", "statement": "The bucket boundary list starts at 0, ends at the number of events, is non-decreasing and cuts the size-sorted events into consecutive groups; events of equal size are in the same bucket; a requested number of buckets is what one gets (at most the number of distinct sizes), none of them empty; total loss is between 0 and 100 per cent; the automatic choice always returns, stops at the first bucket count whose improvement is below the threshold and never exceeds the number of distinct sizes.", "quantifier": "every list of sizes and every threshold", "why_tests_cant": "depends on ties among sizes and on the clustering's breaks", "anchors": ["src/gwkanal/utils/jenks.py: _right_most_index, _jenks_natural_breaks, _partition_data, _loss, _total_loss"]}
{"id": "C10", "title": "Streaming Monte-Carlo combination equals the pooled estimate", "statement": "Combining batch means, batch log-means and batch error estimates with the combine functions used by the analytic likelihood gives exactly the mean, log-mean and variance of the mean of all draws pooled together, for any number and sizes of batches, starting from the empty state, including batches that are entirely -inf.", "quantifier": "every sequence of batches of any sizes", "why_tests_cant": "the update is a recurrence; errors appear only after many steps or at the zero-count start", "anchors": ["src/gwkokab/inference/analyticallikelihood.py: combine_monte_carlo_estimates, combine_monte_carlo_errors and log variants"]}
{"id": "C11", "title": "Adaptive Monte-Carlo loop: bounded, and stops because the error target is met", "statement": "The per-event adaptive loop performs at most n_max_steps further batches, and stops earlier only when its estimated squared error is at or below the requested minimum; the returned estimate is the pooled estimate of exactly the batches drawn.", "quantifier": "every stream of draws, every error target and step limit", "why_tests_cant": "loop-exit conditions cannot be sampled; an inverted comparison still terminates and returns a plausible number", "anchors": ["src/gwkokab/inference/analyticallikelihood.py: while_body_fn, cond_fn"]}
{"id": "C12", "title": "Injection-based expected rate and its variance", "statement": "The injection estimator returns T/N times the sum of exp(log p - log w) over found injections, treating NaN and -inf model values as zero; it is finite and non-negative whenever no model value is +inf, independent of the order of injections; its variance estimate is non-negative whenever the number found is at most N and equals T^2/N^2 (sum w^2 - (sum w)^2/N).", "quantifier": "every set of injections and model values", "why_tests_cant": "sign of the variance is an inequality over all weight vectors (Cauchy-Schwarz)", "anchors": ["src/gwkokab/poisson_mean/_injection_based.py: InjectionBasedPoissonMean"]}
{"id": "C13", "title": "Neural detection estimators feed the right columns and never produce NaN", "statement": "The neural VT / p_det callbacks give the network, for each of its named inputs, the column of that name in the caller's parameter order; unknown names raise; the log of the network output is -inf for non-positive output and NaN only for NaN output; the expected rate is the rate-weighted sum over components of the mean detection probability (times the redshift normalisation for unnormalised redshift densities) and its variance is non-negative.", "quantifier": "every pair of parameter lists, every network output", "why_tests_cant": "column permutations; all output signs", "anchors": ["src/gwkokab/poisson_mean/_neural_vt.py", "src/gwkokab/poisson_mean/_neural_pdet.py"]}
{"id": "C14", "title": "Mass and redshift conversions are mutually inverse", "statement": "On positive masses (m1 >= m2 where the convention requires it): (m1,m2)->(Mc,eta)->(m1,m2), (m1,q)<->(m1,m2), (q,m2)->m1, (M,q), delta<->eta and detector<->source mass conversions are inverse to each other; eta lies in (0,1/4] with 1/4 exactly at equal masses, q in (0,1]; the documented guards (m1=0, q=0, z=-1) return inf.", "quantifier": "all real masses, ratios and redshifts in the stated domains", "why_tests_cant": "an identity over the reals", "anchors": ["src/gwkokab/utils/transformations.py"]}
{"id": "C15", "title": "Spin conversions: round trip and physical bounds", "statement": "(chi1z,chi2z)<->(chi_eff,chi_minus) is a bijection for positive masses; |chi_eff| <= 1 and |chi_minus| <= 1 whenever |chi_iz| <= 1; 0 <= chi_p <= 1 for spin magnitudes in [0,1], cos tilts in [-1,1] and q in [0,1]; polar/spherical conversions preserve the radius and invert each other.", "quantifier": "all real spins, tilts, masses", "why_tests_cant": "an inequality over the reals", "anchors": ["src/gwkokab/utils/transformations.py: chieff, m1_m2_chieff_chiminus_to_chi1z_chi2z, chi_p_from_components, cart_to_polar, cart_to_spherical"]}
{"id": "C16", "title": "Every coordinate Transform inverts on its declared domain and maps into its codomain", "statement": "For each Transform in models/transformations.py: inv(T(x)) = x and T(x) satisfies the declared codomain constraint for every x satisfying the declared domain constraint, and T(inv(y)) = y for y in the codomain.", "quantifier": "every point of the domain / codomain of every transform", "why_tests_cant": "boundary points (equal masses, zero mass ratio) are measure zero", "anchors": ["src/gwkokab/models/transformations.py"]}
{"id": "C17", "title": "log_abs_det_jacobian is the log of the true Jacobian determinant", "statement": "For each Transform the returned log_abs_det_jacobian(x, T(x)) is the natural log of the absolute value of the determinant of T's derivative at x; for BlockTransform it is the sum over blocks.", "quantifier": "every interior point of the domain of every transform", "why_tests_cant": "a pointwise analytic identity; finite differences at some points cannot establish it", "anchors": ["src/gwkokab/models/transformations.py: log_abs_det_jacobian of each class"]}
{"id": "C18", "title": "Ordering constraints mean what their documentation says, and their feasible points are feasible", "statement": "increasing/decreasing/strict/positive vector constraints accept x exactly when the documented pairwise condition for all i<j (and positivity) holds, for every length; feasible_like(prototype) always satisfies the constraint, for every prototype length.", "quantifier": "vectors of every length", "why_tests_cant": "the code compares neighbours only; the documented claim is over all pairs", "anchors": ["src/gwkokab/models/constraints.py: _IncreasingVector ... _PositiveDecreasingVector"]}
{"id": "C19", "title": "The two mass-sandwich constraints describe the same set", "statement": "mass_ratio_mass_sandwich accepts (m1,q) exactly when mass_sandwich accepts (m1,m1*q), and exactly when 0 < mmin <= m1 <= mmax and mmin/m1 <= q <= 1; both feasible points are feasible whenever 0 < mmin <= mmax.", "quantifier": "all real m1, q, mmin, mmax", "why_tests_cant": "an equivalence over the reals", "anchors": ["src/gwkokab/models/constraints.py: _MassSandwichConstraint, _MassRatioMassSandwichConstraint"]}
{"id": "C20", "title": "Composite constraints are exact conjunction / disjunction, with sound equality and feasible points", "statement": "all_constraint accepts x iff every sub-constraint accepts its own block; any_constraint accepts iff at least one does; transform_constraint accepts y iff y is in every codomain along the way and its pull-back is in the base support; two constraints compare equal only if they accept the same points; feasible_like is accepted.", "quantifier": "every list of constraints and slices, every point", "why_tests_cant": "equality uses zip and ignores slices; the failing pairs are of different lengths or slices", "anchors": ["src/gwkokab/models/constraints.py: _AllConstraint, _AnyConstraint, _TransformedConstraint", "src/gwkokab/models/utils/_lazyjointdistribution.py::_LazyConstraint.__eq__"]}
{"id": "C21", "title": "Unconstrained-to-constrained maps land in the constraint", "statement": "biject_to(c) for each registered ordering or mass constraint c maps every unconstrained real vector to a point that c accepts.", "quantifier": "every real vector, every mmin < mmax", "why_tests_cant": "the failing region depends on mmin/mmax and on the vector", "anchors": ["src/gwkokab/models/transformations.py: _transform_to_positive_ordered_vector, _transform_to_mass_sandwich"]}
{"id": "C22", "title": "Doubly truncated power law is a normalised distribution with exact inverse cdf", "statement": "DoublyTruncatedPowerLaw(alpha, low, high): exp(log_prob) integrates to one over [low, high]; cdf is its integral, is non-decreasing from 0 to 1; icdf maps [0,1] into [low,high] and is the inverse of cdf; the special case alpha=-1 agrees.", "quantifier": "all real alpha, 0 < low < high, all x and quantiles", "why_tests_cant": "an integral identity over a continuum of parameters including the singular exponent", "anchors": ["src/gwkokab/models/utils/_doubletruncpowerlaw.py: DoublyTruncatedPowerLaw"]}
{"id": "C23", "title": "Custom derivatives of the power law equal the true derivatives", "statement": "The hand-written JVPs for the log normalisation, cdf and inverse cdf of the truncated power law equal the partial derivatives of the function they accompany, for every parameter including alpha = -1.", "quantifier": "all parameters, all tangent directions", "why_tests_cant": "gradient-based samplers use these silently; a sign slip in one branch biases inference only there", "anchors": ["src/gwkokab/models/utils/_doubletruncpowerlaw.py: custom_jvp rules"]}
{"id": "C24", "title": "Two-dimensional and broken power-law mass models are normalised", "statement": "PowerlawPrimaryMassRatio and BrokenPowerlaw have exp(log_prob) integrating to one over their support, are -inf outside, and BrokenPowerlaw is continuous at the break.", "quantifier": "all real exponents and ordered mass bounds", "why_tests_cant": "an integral identity", "anchors": ["src/gwkokab/models/mass/_models.py"]}
{"id": "C25", "title": "Planck-taper smoothing is a proper window", "statement": "The Planck taper window is 0 (log -inf) at and below the lower edge, 1 at and above the upper edge, in (0,1) and strictly increasing in between, satisfies S(x)+S(1-x)=1, and its log never is NaN for real input; smoothed mass models are -inf when the smoothing width is non-positive or the mass is below the minimum, and never NaN.", "quantifier": "all real x, all widths", "why_tests_cant": "the formula has overflowing intermediate terms near both edges", "anchors": ["src/gwkokab/utils/kernel.py: log_planck_taper_window", "src/gwkokab/models/mass/_models.py", "src/gwkokab/models/hybrids/_utils.py: _SmoothedPowerlawMassRatioAndRest"]}
{"id": "C26", "title": "Beta distribution parameter conversion", "statement": "beta_dist_mean_variance_to_concentrations and its inverse are inverse to each other; the concentrations are positive exactly when 0<mean<1 and 0<variance<mean(1-mean); BetaFromMeanVar has the requested mean and variance; the concentration check used to reject points is exactly alpha>alpha_min and beta>beta_min.", "quantifier": "all real mean/variance", "why_tests_cant": "an identity over the reals", "anchors": ["src/gwkokab/utils/math.py", "src/gwkanal/utils/checks.py"]}
{"id": "C27", "title": "Numerical helpers are exact where they claim", "statement": "truncnorm_logpdf is -inf outside its bounds and otherwise log of the truncated normal density; the cumulative trapezoid starts at 0, has the right length, is additive and monotone for non-negative integrands and exact for linear ones; log-difference-of-exponentials equals log(exp a - exp b) for a>b and is -inf at a=b.", "quantifier": "all real inputs, grids of all lengths", "why_tests_cant": "identities over unbounded grids", "anchors": ["src/gwkokab/utils/math.py"]}
{"id": "C28", "title": "Cosmological distances are strictly increasing and invertible", "statement": "For every cosmology with positive expansion rate the comoving and luminosity distance interpolants are strictly increasing on the grid, DL_to_z inverts z_to_DL on the grid range, differential comoving volume is non-negative; redshift sampling returns values in [0,z_max] and -inf density outside.", "quantifier": "all cosmological parameters in range, all redshifts", "why_tests_cant": "monotonicity of a tabulated integral over a continuum", "anchors": ["src/gwkokab/cosmology/_cosmology.py", "src/gwkokab/models/redshift/_models.py"]}
{"id": "C29", "title": "Model registry: last registration wins and look-ups find what was registered", "statement": "After any sequence of registrations a look-up by a key returns the most recently registered value for that key, whichever accepted spelling of the key (single name, tuple, list) was used for registering or looking up; malformed keys raise.", "quantifier": "every sequence of registrations and look-ups", "why_tests_cant": "key normalisation differs between the two paths", "anchors": ["src/gwkokab/models/wrappers.py: ModelRegistry"]}
{"id": "C30", "title": "Batching covers the array exactly", "statement": "batch_and_remainder(x, b) returns full batches of size b and a remainder shorter than b whose concatenation is x, for every length and every positive b; the batched map over it equals the plain map.", "quantifier": "every array length and batch size", "why_tests_cant": "off-by-one at multiples of the batch size", "anchors": ["src/gwkokab/utils/tools.py: batch_and_remainder"]}
{"id": "C31", "title": "Train/test split is a partition with whole training batches", "statement": "_train_test_data_split returns train and test parts that together are exactly the data, the training part has a length that is a multiple of the batch size, and the test part is non-empty whenever there is more data than a batch.", "quantifier": "every data length, batch size and test fraction", "why_tests_cant": "depends on arithmetic relations between three integers", "anchors": ["src/gwkokab/utils/train.py: _train_test_data_split"]}
{"id": "C32", "title": "Regex prior matching: exact names take precedence and every name is answered", "statement": "match_all returns exactly one entry for every requested name; if the name itself is a key of the pattern table its value is that key's value; otherwise the first pattern that fully matches; otherwise None (with a warning).", "quantifier": "every list of names, every pattern table, every regex engine behaviour", "why_tests_cant": "precedence depends on value truthiness and on table order", "anchors": ["src/gwkanal/utils/regex.py: match_all"]}
{"id": "C33", "title": "Dirichlet elements: conditional densities of the uniform distribution on the simplex", "statement": "DirichletElement of order n in dimension N is a normalised density on [0, 1-S] given the earlier elements' sum S, its samples lie in that interval, sampling inverts its cdf, the product of the N conditionals is constant ((N-1)!) on the simplex and the last element makes the sum exactly one; invalid order/dimension or missing concentrations raise.", "quantifier": "every N >= 2, every order, every earlier element values", "why_tests_cant": "a family indexed by N and n", "anchors": ["src/gwkanal/utils/priors.py: _DirichletElement, DirichletElement"]}
{"id": "C34", "title": "Prior dependency sort: valid order on acyclic graphs, cycle report exactly on cyclic ones", "statement": "For lazily-defined priors the dependency order lists every node exactly once, with each node after everything it depends on whenever the graph has no cycle, for every iteration order of the sets involved; the cycle check ends on every graph and answers yes if and only if the dependency graph has a cycle.", "quantifier": "every finite dependency graph and every set-iteration order", "why_tests_cant": "graphs are unbounded; Python set order is arbitrary", "anchors": ["src/gwkanal/core/guru.py: _topological_sort, _check_cycles"]}
{"id": "C35", "title": "Parameter classification: every parameter in exactly one role, aliases share an index", "statement": "classify_model_parameters puts each model parameter in exactly one of constants, variables (indexed 0..n-1 in sorted order, distinct indices for distinct variables), lazy variables, and duplicates; a duplicate gets the value or index of the parameter it names; nothing is silently dropped.", "quantifier": "every prior table and parameter list", "why_tests_cant": "alias chains and dictionary order matter", "anchors": ["src/gwkanal/core/guru.py: _classify_model_parameters, classify_model_parameters"]}
{"id": "C36", "title": "flowMC runs exactly the configured schedule", "statement": "The sampler executes exactly the strategies of strategy_order in that order, each once per occurrence: for each training loop local, global and training steps in the documented order, the transition, then for each production loop the production steps; buffers start and end consistently.", "quantifier": "every number of training / production loops", "why_tests_cant": "loop counts are unbounded", "anchors": ["src/gwkanal/core/flowMC_based.py: Sampler.sample, strategy_order"]}
{"id": "C37", "title": "HMC kernel is reversible, volume preserving, keeps the target distribution and never accepts an impossible point", "statement": "The leapfrog integrator of the HMC kernel is reversible under momentum flip and volume preserving, performs the configured number of steps, the accept rule satisfies detailed balance for exp(-H), a proposal whose density is NaN or -inf is never accepted, and the carried log density always equals the density of the carried position.  The momentum drawn through the Cholesky factor of the mass matrix has the density that the kinetic energy says, and a chain that starts in the target distribution and runs any number of steps with different keys stays in it.", "quantifier": "every target density and gradient, every position, momentum, step size and mass matrix, any number of steps", "why_tests_cant": "reversibility is an identity over all states; invariants over arbitrarily long chains", "anchors": ["src/gwkanal/core/flowMC_based.py: _HMC"]}
{"id": "C38", "title": "Saved flowMC chains: only local production steps, aligned and distinctly named", "statement": "The saved sample selection keeps exactly the local steps of every production loop in order; chains of different lengths are padded with NaN to the longest without altering values; chain file names are pairwise distinct and sort in chain order.", "quantifier": "every number of loops, steps and chains", "why_tests_cant": "modular index arithmetic; zero-padding width at powers of ten", "anchors": ["src/gwkanal/core/flowMC_based.py: _same_length_arrays, _save_chains, _save_samples"]}
{"id": "C39", "title": "NumPyro chains: every chain run and saved once, in order", "statement": "For every n_chains >= 1 and device count the batched runs sum to n_chains, chain indices 0..n_chains-1 are each written once, and the combined file is the header followed by the concatenation of all chains in index order.", "quantifier": "every number of chains, devices and samples", "why_tests_cant": "remainder batches occur only for some pairs of counts", "anchors": ["src/gwkanal/core/numpyro_based.py: _run_mcmc, _save_inference_data"]}
{"id": "C40", "title": "Removing log-rate columns keeps the name-to-column map right", "statement": "wipe_log_rate removes exactly the columns of rate parameters and afterwards every remaining name points to the column holding the same values as before.", "quantifier": "every name-to-index map and sample matrix", "why_tests_cant": "depends on the order and multiplicity of indices", "anchors": ["src/gwkanal/utils/ppd.py: wipe_log_rate"]}
{"id": "C41", "title": "Posterior-predictive marginals integrate the right axes", "statement": "For every number of parameters the k-th marginal is obtained by integrating out all axes except the k-th, in the original axis numbering, and is written under the k-th parameter's name and grid.", "quantifier": "every number of parameters and grid sizes", "why_tests_cant": "axis numbers shift as axes are removed", "anchors": ["src/gwkanal/utils/ppd.py: _compute_marginal_probs, get_all_marginals, compute_and_save_ppd"]}
{"id": "C42", "title": "Population generation never reuses a random key for two purposes", "statement": "Across one run of the population generator all keys handed to random draws (population size, population draw, detection thinning, per-event and per-error-parameter noise, per-realisation) are pairwise distinct derivations of the seed.", "quantifier": "every number of realisations, events and error parameters", "why_tests_cant": "key collisions occur only for special counts and are invisible in the output", "anchors": ["src/gwkanal/core/population.py: produce, _generate_realizations, _add_error"]}
{"id": "C43", "title": "Generated populations keep rows aligned and masses ordered", "statement": "In generated populations m1 >= m2 in every row, the pair of masses is the pair that was drawn, every other column stays with its row through thinning/resampling, and the component indices stay aligned with the rows.", "quantifier": "every draw and every size", "why_tests_cant": "row permutations are invisible in marginal checks", "anchors": ["src/gwkanal/core/population.py: _generate_population"]}
{"id": "C44", "title": "Tiled covariance assembly", "statement": "The covariance written for an event has, for each pair of parameters, the sample covariance if some tile contains both and zero otherwise; it is symmetric, and is positive semi-definite.", "quantifier": "every tiling and covariance", "why_tests_cant": "overlapping tiles are rare in tests", "anchors": ["src/gwkanal/core/population.py: add_mean_and_covariance"]}
{"id": "C45", "title": "Variance-cut filter keeps exactly the rows below threshold", "statement": "The variance filter after sampling keeps exactly the posterior rows whose likelihood variance is below the threshold, in order; rows with NaN variance are dropped; the mask has one entry per row for every batch size.", "quantifier": "every number of rows, batch size and variance values", "why_tests_cant": "remainder batches and NaN rows", "anchors": ["src/gwkanal/core/sage.py: variance cut", "src/gwkokab/inference/poissonlikelihood_utils.py: variance_of_single_event"]}
{"id": "C46", "title": "Injection loading selects exactly the found injections", "statement": "get_found_injections marks an injection found iff it passes the threshold in at least one search (IFAR above, or FAR below the inverse), or the SNR cut where that applies; loading then returns exactly those rows in order in the requested columns; missing data raise.", "quantifier": "every injection file content", "why_tests_cant": "combinations of present/absent columns and thresholds", "anchors": ["src/gwkokab/poisson_mean/_injection_based_helper.py: get_found_injections, load_injection_data"]}
{"id": "C47", "title": "Injection prior is converted with the right Jacobian", "statement": "For every supported combination of requested parameters the sampling density returned for injections is the original density times the absolute Jacobian of the change of variables to exactly those parameters.", "quantifier": "every parameter combination and every injection", "why_tests_cant": "the number of flag combinations times a continuum of injections", "anchors": ["src/gwkokab/poisson_mean/_injection_based_helper.py: apply_injection_prior, primary_mass_to_chirp_mass_jacobian"]}
{"id": "C48", "title": "Event reference prior is converted with the right Jacobian", "statement": "For every supported mass prior, distance prior and spin prior option and every requested parameter combination, the log reference prior attached to posterior samples is the log density of the stated prior in exactly the requested parameters (up to a constant).", "quantifier": "every option combination and every sample", "why_tests_cant": "flag combinations times a continuum of samples", "anchors": ["src/gwkanal/core/inference_io/_discrete.py"]}
{"id": "C49", "title": "Analysis column order equals model coordinate order", "statement": "For every combination of component flags, the list of data columns an analysis requests is, coordinate by coordinate, the list of quantities the constructed model's event vector has, so the model is evaluated on the right columns.", "quantifier": "every flag combination and component count", "why_tests_cant": "2^18 flag combinations", "anchors": ["src/gwkanal/n_pls_m_gs/sage.py: parameters", "src/gwkanal/o3_n_pls_m_gs/sage.py", "src/gwkanal/o4_n_bpls_m_gs/sage.py", "src/gwkokab/models/hybrids/_npowerlawmgaussian.py: _build_non_mass_distributions", "src/gwkokab/models/hybrids/_utils.py: build_non_mass_distributions"]}
{"id": "C50", "title": "The hyper-parameters an analysis declares are the ones its model reads", "statement": "For every flag combination and component counts the declared model_parameters are exactly the names the built model uses: each name the builder looks up without a default is declared (so construction cannot fail on a complete prior file), each optional name is declared too (an undeclared one could never be given a prior), and no declared name is without effect on the model. Each per-component name takes precedence over the shared name, and the admissibility checks read names that exist.", "quantifier": "every flag combination and number of components", "why_tests_cant": "names are assembled from strings; component counts are unbounded", "anchors": ["src/gwkanal/n_pls_m_gs/sage.py: model_parameters, where_fns_list", "src/gwkanal/n_pls_m_gs/genie.py: all_params", "src/gwkanal/o3_n_pls_m_gs/sage.py: model_parameters", "src/gwkanal/o4_n_bpls_m_gs/sage.py: model_parameters", "src/gwkokab/models/hybrids/_ncombination.py"]}
{"id": "C51", "title": "Name expansion and grid-range tables", "statement": "expand_arguments(name, n) gives n pairwise distinct names name_0..name_{n-1} in order; ppd_ranges assigns every listed parameter its range, the last listing winning, leaves the others unset, and raises on unknown names.", "quantifier": "every name, count and table", "why_tests_cant": "unbounded counts", "anchors": ["src/gwkanal/utils/common.py: expand_arguments, ppd_ranges"]}
{"id": "C52", "title": "Measurement-error generators produce physical values", "statement": "truncated_normal_error returns values within the stated bounds or NaN-filtered as documented; the banana error for masses returns component masses with m1 >= m2 > 0 when it keeps a sample; sizes match what was requested.", "quantifier": "all draws and parameters", "why_tests_cant": "tails of the random draws", "anchors": ["src/gwkokab/errors.py"]}
{"id": "C53", "title": "Saved network models load back unchanged", "statement": "load_model(save_model(m, names, settings)) gives the same architecture, weights and names; wrong extensions or missing fields raise.", "quantifier": "every width, depth and weight list", "why_tests_cant": "architectures are unbounded", "anchors": ["src/gwkokab/utils/train.py: save_model, load_model"]}
{"id": "C54", "title": "Gaussian spin covariance is a covariance", "statement": "The covariance built from scales and correlation is symmetric, and positive semi-definite exactly when |rho| <= 1 or a scale is zero (positive definite exactly when |rho| < 1 and both scales are non-zero); the isotropic/truncated-normal and two-truncated-normal mixtures, the spin-orientation and minimum-tilt models have densities that are the mixtures with weight zeta of their normalised components and integrate to one; the skew-normal effective-spin model is its documented piecewise density divided by its integral for every epsilon strictly inside (-1, 1).", "quantifier": "all real scales and correlations", "why_tests_cant": "an inequality over the reals", "anchors": ["src/gwkokab/models/spin/_models.py"]}
{"id": "C55", "title": "Parameter names behave as strings", "statement": "Two Parameters members are equal iff their values are, a member equals and hashes like its string value, so tables keyed by members can be looked up by strings and vice versa; all member values are pairwise distinct.", "quantifier": "all members and all strings", "why_tests_cant": "equality/hash contract over all strings", "anchors": ["src/gwkokab/parameters.py: Parameters"]}
{"id": "C56", "title": "Sub-sampling and reading of event files", "statement": "Reading posterior samples keeps, per event, at most the requested number of rows, each of them a row of the file with all columns from the same row; missing columns or files raise; files are processed in sorted order so that data and reference priors line up.", "quantifier": "every set of files, columns and sample limits", "why_tests_cant": "file sets are unbounded", "anchors": ["src/gwkanal/core/inference_io/_discrete.py: from_json, _subsample, _validate_columns"]}
{"id": "C57", "title": "Log-space training targets preserve the order of the targets", "statement": "When training in log space, a smaller target value never gets a larger prepared target than a bigger one; in particular a target of zero is prepared as a value below that of every positive target.", "quantifier": "every pair of non-negative targets", "why_tests_cant": "needs all pairs, including zero, where the logarithm is replaced", "anchors": ["src/gwkokab/utils/train.py: train_regressor (train_in_log)"]}
{"id": "C58", "title": "Noise files of simulated events", "statement": "For every simulated event, each parameter's noise column is the output of the error generator registered for it, applied to that event's own values with that event's own key; rows with a missing value are dropped, events with no row left are skipped, and the file does not depend on anything but the registered generators, the values and the key.", "quantifier": "every set of error generators, parameter list, event and key", "why_tests_cant": "uninitialised columns look like plausible numbers and column swaps keep the shape", "anchors": ["src/gwkanal/core/population.py: PopulationFactory._add_error"]}
{"id": "C59", "title": "Data file names always end in .dat", "statement": "Normalising a file name yields a name ending in .dat, never changes a name already ending so, only ever appends the extension, and raises for every name with another extension.", "quantifier": "every file name", "why_tests_cant": "the set of names is infinite", "anchors": ["src/gwkanal/core/population.py: ensure_dat_extension"]}
{"id": "C60", "title": "Analytic likelihood is an unbiased importance-sampling estimate", "statement": "For Gaussian events the analytic log posterior is the log prior plus n log T plus, for each event, the log of the mean importance weight of the pooled draws, minus the expected rate; each weight is the population density times the event Gaussian over the proposal Gaussian the draw was made from, so its expectation is the integral of the population density against the event Gaussian whatever proposal was fitted; it is never NaN or +inf; a fit that is not positive definite falls back to the event's own Gaussian.", "quantifier": "every dimension, population density, event, proposal, prior value, expected rate and stream of normal draws", "why_tests_cant": "an expectation over all draws, and an identity in every dimension", "anchors": ["src/gwkokab/inference/analyticallikelihood.py: analytical_likelihood, mvn_samples, mvn_log_prob_scaled"]}
{"id": "C61", "title": "Effective-spin prior is the exact density of isotropic spins", "statement": "chi_effective_prior_from_isotropic_spins(chi_eff, q, amax) is the probability density, at chi_eff, of (a1 cos t1 + q a2 cos t2)/(1+q) for two independent spins with magnitudes uniform on [0, amax] and isotropic directions: it is the convolution of the two aligned-spin densities at every chi_eff, in every branch (opposite signs allowed, same sign required, outside), it integrates to one, and it is finite wherever the density is.", "quantifier": "every mass ratio 0 < q <= 1, every amax > 0, every chi_eff", "why_tests_cant": "The value is a closed form with dilogarithms on a continuum of (chi_eff, q, amax); a test compares it with a histogram at a few points and cannot establish equality, normalisation for every q, or the measure-zero points where the formula breaks.", "anchors": ["src/gwkokab/poisson_mean/_analytic_spin_prior.py:chi_effective_prior_from_isotropic_spins", "src/gwkokab/poisson_mean/_analytic_spin_prior.py:Li2"]}
{"id": "C62", "title": "Masses and spins per component are one proper density", "statement": "BrokenPowerlawTwoPeakMultiSpinMultiTilt is, in masses, spin magnitudes and tilts together, the density its parameters describe: for each mass component the two-peak mass density of that component times the product of its own truncated spin distributions times its own tilt mixture, summed over components with the common numerical normalisations; integrating over spins and tilts gives back the two-peak mass model; it is -inf outside the support and never NaN or +inf.", "quantifier": "every admissible set of mass, spin and tilt parameters and every event (m1, q, a1, a2, cos t1, cos t2)", "why_tests_cant": "an identity of integrals over a six-dimensional continuum for all parameters", "anchors": ["src/gwkokab/models/hybrids/_bp2pmultispinfull.py: BrokenPowerlawTwoPeakMultiSpinMultiTilt"]}
{"id": "C63", "title": "The named population models put the right distributions together", "statement": "PowerlawPeak, BrokenPowerlawTwoPeakFull, BrokenPowerlawTwoPeakMultiSpinMultiTiltFull and EccentricityMattersModel return, for named hyper-parameters and the chosen flags, the intensity exp(log_rate) times the product of the mass density and, for each flag that is set, the spin, tilt, eccentricity and redshift densities with the named parameters and documented defaults, the coordinates in the order masses, spins, tilts, eccentricity, redshift; the log density is never NaN or +inf, with argument validation on or off; a missing name raises KeyError for the first name in program order and names of flags that are off are never needed.", "quantifier": "every combination of flags, validation on or off, every dictionary with admissible values or with a missing name, every event (for the eccentricity model every event with m1 different from mmin; at m1 = m2 = mmin its log density is +inf)", "why_tests_cant": "all flag combinations times a continuum of parameters and events, and all dictionaries with missing names", "anchors": ["src/gwkokab/models/hybrids/_powerlawpeak.py: PowerlawPeak", "src/gwkokab/models/hybrids/_bp2pfull.py: BrokenPowerlawTwoPeakFull", "src/gwkokab/models/hybrids/_bp2pmultispinfull.py: BrokenPowerlawTwoPeakMultiSpinMultiTiltFull"]}
{"id": "C64", "title": "The prior file says what is sampled and what is fixed", "statement": "From the declared model parameters and a prior file, the prior processing returns exactly the declared names: a name with a distribution entry gets that distribution with the entry's arguments, a lazy entry stays lazy, a plain value (number, or the name of another parameter) stays a constant; an entry with an unknown or missing distribution name or wrong arguments is an error; the sampled parameters are exactly those with a distribution entry; a parameter without any entry is an error.", "quantifier": "every list of declared names, every prior file and every set of known distributions", "why_tests_cant": "all prior files, with any entries and any patterns, times all lists of names", "anchors": ["src/gwkanal/utils/priors.py: get_processed_priors, _available_prior, _is_lazy_prior", "src/gwkanal/core/guru.py: Guru.classify_model_parameters"]}
{"id": "C65", "title": "Samples of a scaled mixture follow its normalised density", "statement": "ScaledMixture.sample draws the component i with probability exp(log_scale_i) divided by the sum of the scales and then a value of that component, so its samples follow the mixture density divided by the total scale; the mean and the variance it reports are the mean and the variance of these samples.", "quantifier": "every number of components, every vector of log scales and all component laws", "why_tests_cant": "a statement about a probability law for all component laws and all scales", "anchors": ["src/gwkokab/models/utils/_scaledmixture.py: ScaledMixture.sample, sample_with_intermediates, mean, variance"]}
{"id": "C66", "title": "Only usable sampler settings start a run", "statement": "The flowMC driver accepts a settings file exactly when every count is an integer from one on, the rates are numbers, the local sampler is MALA or HMC, the hidden units are positive integers and the mass matrix is a positive number, a diagonal of n positive numbers or a symmetric positive definite n by n matrix; it then uses the settings of the file and the documented defaults; otherwise it raises KeyError, TypeError or ValueError for a setting that is really missing, of the wrong type or out of range; the template settings are accepted in any dimension.", "quantifier": "every settings file (any keys, any JSON values) and every dimension of the prior", "why_tests_cant": "all JSON files times all dimensions; the positive-definiteness of a matrix is a statement about all vectors", "anchors": ["src/gwkanal/core/flowMC_based.py: FlowMCBased.driver", "src/gwkokab_scripts/flowMC_cfg_template.py: get_cfg"]}
{"id": "C67", "title": "The configuration report describes the training set", "statement": "For a flowMC configuration flowMC_info reports, for every training loop, the number of collected samples, the number of samples visible in the history window of all chains and the number the flow trains on; 'Saturated' marks the loop after which the window is full for the first time, 'Forgetting' the loops after which some sample has left the window; the suggested settings are consistent with each other.", "quantifier": "every configuration (chains, steps, thinning, window, examples) and every loop number; every dimension", "why_tests_cant": "all configurations times all loops", "anchors": ["src/gwkokab_scripts/flowMC_info.py: main, generate_heuristics"]}
{"id": "C68", "title": "A pilot run gives a usable mass matrix", "statement": "diag_mass_matrix prints, for a pilot run with at least two samples, one number per parameter, the reciprocal of the unbiased variance of that parameter plus eps; the numbers are positive and are accepted by the driver as diagonal mass matrix.", "quantifier": "every file of samples, any number of rows and parameters, every eps > 0", "why_tests_cant": "all data sets", "anchors": ["src/gwkokab_scripts/diag_mass_matrix.py: main", "src/gwkanal/core/flowMC_based.py: FlowMCBased.driver"]}
{"id": "C69", "title": "Plotted bands are nested, cover the samples and belong to one parameter", "statement": "The curves drawn by ppd_plot are, at every grid point, ordered (90% band around 50% band around median), lie within the samples and do not depend on the order of the samples; the 90% band contains 90% of the samples; every figure shows one parameter, for all the files, and every parameter gets its own file.", "quantifier": "every set of data files, headers and samples", "why_tests_cant": "all samples at all grid points, and all combinations of files", "anchors": ["src/gwkokab_scripts/ppd_plot.py: get_quantiles, main"]}
{"id": "C70", "title": "Text tables survive the round trip between tools", "statement": "Every tool of the package that reads a table of samples written by another tool of the package gets, under each parameter's name, exactly the values written under that name, in order, and every sample once. This covers catalogues and event files, chains, posterior samples and the filtered posterior, read by the event loader, the plotting scripts, the convergence diagnostics and the mass-matrix script.", "quantifier": "every list of distinct parameter names, every number of samples and all values, every writer and every reader", "why_tests_cant": "The reader and the writer are different programs with different conventions for the header line; a test of either with its own fixture passes whatever the other does.", "anchors": ["src/gwkanal/core/population.py:_generate_realizations", "src/gwkanal/core/flowMC_based.py:_save_chains,_save_samples", "src/gwkanal/core/numpyro_based.py:_save_inference_data", "src/gwkokab_scripts/corner_plot.py:main", "src/gwkokab_scripts/chain_plot.py:main", "src/gwkokab_scripts/scatter2d.py:main", "src/gwkokab_scripts/joint_plot.py:main", "src/gwkokab_scripts/hist_overplot.py:main"]}
{"id": "C71", "title": "Overplotted corner plots put each column under its own heading", "statement": "For files with the same parameters in any order, the overplot script draws under each heading the column of that name of each file; a file with other columns is refused.", "quantifier": "every list of files, every order of their columns, all samples", "why_tests_cant": "The reordering is right for files with equal or pairwise exchanged columns, which is what a test would try; it fails for the other permutations.", "anchors": ["src/gwkokab_scripts/corner_overplot.py:main"]}
{"id": "C72", "title": "Convergence plots: the chains are cut at increasing places and each point uses the draws up to its place", "statement": "The R-hat and effective-sample-size plots show n_split points at increasing iterations, the first at a n_split-th of the draws and the last at the end; the value at iteration d is the diagnostic of the first d draws of all chains; each curve is labelled with its parameter.", "quantifier": "every number of draws and of splits, every diagnostic, all chains and labels", "why_tests_cant": "The off-by-one changes every point slightly and a plot shows no error.", "anchors": ["src/gwkokab_scripts/r_hat_plot.py:main", "src/gwkokab_scripts/ess_evolution_plot.py:main"]}
{"id": "C73", "title": "The NumPyro settings file is used as written", "statement": "A settings file is accepted exactly if it has the sections kernel and mcmc, a chain method, a positive number of chains (1 by default) and a possible dense_mass; then the requested number of chains is run, the method used is one the sampler knows, and every other setting reaches the sampler unchanged; the template is accepted.", "quantifier": "every JSON content, every number of devices", "why_tests_cant": "Needs all combinations of missing and ill-typed entries and of device counts.", "anchors": ["src/gwkanal/core/numpyro_based.py:NumpyroBased.driver,_run_mcmc", "src/gwkokab_scripts/numpyro_cfg_template.py:get_cfg"]}
{"id": "C74", "title": "Random keys of an analysis: reproducible from the seed and never used twice", "statement": "set_rng_key accepts a key, or else a non-negative integer seed, and nothing else; keys read afterwards are all different, depend on the seed only, and are different for different seeds; the seed recorded is the one the events are subsampled with.", "quantifier": "every history of set_rng_key and rng_key, every number of readings", "why_tests_cant": "Distinctness has to hold for any number of readings.", "anchors": ["src/gwkanal/core/guru.py:Guru.rng_key,Guru.set_rng_key", "src/gwkanal/core/sage.py:Sage.read_data"]}
{"id": "C75", "title": "Version string", "statement": "The version is the plain release number unless the nightly variable is set to a true value; then it carries the commit, or the day if the commit is unknown, and versions of different commits differ. Importing the package never fails because of the variable.", "quantifier": "every value of the environment variable, every commit and date", "why_tests_cant": "The environment is read at import, once per process.", "anchors": ["src/gwkokab/version.py:get_version"]}
{"id": "C76", "title": "Joint effective/precessing spin prior is the exact joint density of isotropic spins", "statement": "prior_chieff_chip_isotropic(chieff, chip, q, amax) is the joint probability density, at (chieff, chip), of the effective spin (a1 cos t1 + q a2 cos t2)/(1+q) and the precessing spin max(a1 sin t1, (3+4q)/(4+3q) q a2 sin t2) of two independent spins with magnitudes uniform on [0, amax] and isotropic directions. It equals the analytic joint density at every real pair (inside, on the edges and outside of the support, equal masses included), is finite and non-negative everywhere, vanishes outside 0 < chip <= amax, |chieff| <= amax, is even in chieff, integrates to one, and its integral over chip is the effective-spin prior of C61.", "quantifier": "every mass ratio 0 < q <= 1, every amax > 0, every real chieff and chip", "why_tests_cant": "The value is a sum of four closed forms in complex dilogarithms whose branch conditions depend on three continuous inputs; a test compares a histogram with it at a few points and cannot establish equality on every branch, normalisation for every q, or consistency with the one-dimensional prior.", "anchors": ["src/gwkokab/poisson_mean/_analytic_spin_prior.py:prior_chieff_chip_isotropic", "src/gwkokab/poisson_mean/_analytic_spin_prior.py:I1", "src/gwkokab/poisson_mean/_analytic_spin_prior.py:F", "src/gwkokab/poisson_mean/_analytic_spin_prior.py:G", "src/gwkokab/poisson_mean/_analytic_spin_prior.py:g"]}
{"id": "C77", "title": "A training run visits every training row once per epoch and saves the network it reports", "statement": "train_regressor first checks its arguments (checkpoint name ending in .hdf5, columns present, split possible, schedule, loss name); a call that fails a check raises and writes no file. An accepted call saves, under the given path with the input names and the log flag, the network obtained from the freshly initialised one by one optimiser step per batch, epochs times over consecutive batches of at most batch_size rows which cut the (permuted) training rows in order without loss or repetition. The saved network does not depend on the held-out rows. The loss curves have one entry per epoch: the average of the batch losses of that epoch and the loss on the held-out rows after it. The call then ends normally.", "quantifier": "every data file, number of rows, batch size, split, number of epochs, network and optimiser (arbitrary functions), loss name and random permutation", "why_tests_cant": "The batch layout depends on the remainder of the row count by the batch size, and independence of the held-out rows is a statement about pairs of data files; the network and optimiser are black boxes in a test only for the one instance tried.", "anchors": ["src/gwkokab/utils/train.py:train_regressor", "src/gwkokab/utils/train.py:make_step"]}
{"id": "C78", "title": "The learning rate follows the documented warm-up and cosine decay", "statement": "With the cosine option the learning rate rises linearly from zero to learning_rate over warmup_epochs epochs, is learning_rate when warm-up ends, and from there decays along half a cosine to min_lr, reached at the last step of the run; it never leaves [0, learning_rate], never rises after warm-up and never falls below min_lr after it. Every number of epochs has a schedule. Without the option the rate is constant.", "quantifier": "every number of rows, batch size, epochs, warm-up epochs, learning rate, lowest rate and step", "why_tests_cant": "The relation between three step counts (rows per epoch, warm-up, total) and the schedule holds or fails by arithmetic over all of them; a test at the defaults only sees a plausible curve.", "anchors": ["src/gwkokab/utils/train.py:train_regressor"]}
{"id": "C79", "title": "The training losses are minimised exactly at the target", "statement": "The mse loss of a batch is the mean of the squared differences: non-negative and zero exactly when the network reproduces every target. The bce_logits loss of an entry is the cross-entropy of the forecast sigmoid(output) for the target clipped to [1e-6, 1 - 1e-6]; it is smallest exactly when sigmoid(output) is the clipped target, so the minimising forecast of a probability is that probability up to 1e-6.", "quantifier": "every finite target, every finite output and every batch", "why_tests_cant": "Being the unique global minimiser is a statement about all outputs.", "anchors": ["src/gwkokab/utils/train.py:mse_loss_fn", "src/gwkokab/utils/train.py:bce_logits_loss_fn"]}
{"id": "C80", "title": "A fitted network is read back as the quantity it was fitted to", "statement": "If a network output minimises the training loss at a row with positive target y, then the estimator made from the saved network gives log(y) at that row: the pdet estimator for networks trained on detection probabilities (with either loss, in log space or not), the VT estimator for networks trained in log space.", "quantifier": "every positive target (a probability for pdet), loss, log flag, row, column selection and network", "why_tests_cant": "It relates a training option chosen in one program to what a different program does with the file, for all targets; each is tested alone.", "anchors": ["src/gwkokab/utils/train.py:train_regressor", "src/gwkokab/utils/train.py:load_model", "src/gwkokab/poisson_mean/_neural_pdet.py", "src/gwkokab/poisson_mean/_neural_vt.py"]}
{"id": "C81", "title": "Argument validation does not change a population density", "statement": "A population model built with validate_args=True and the same model built with validate_args=False (or with numpyro's global setting on and off) have the same log density at every event, inside the support and outside it.", "quantifier": "every admissible set of hyper-parameters and flags, every real event; for ScaledMixture every number of components, every component density and support, every point", "why_tests_cant": "Validation changes where masks are applied at four nested levels; agreement must hold at every event outside the support, a continuum with many ways to be outside.", "anchors": ["src/gwkokab/models/utils/_scaledmixture.py: ScaledMixture.log_prob", "src/gwkokab/models/hybrids/_utils.py: _SmoothedPowerlawMassRatioAndRest", "src/gwkokab/models/hybrids/_powerlawpeak.py: PowerlawPeak", "src/gwkokab/models/hybrids/_bp2pfull.py: BrokenPowerlawTwoPeakFull", "src/gwkokab/models/hybrids/_bp2pmultispinfull.py: BrokenPowerlawTwoPeakMultiSpinMultiTiltFull", "src/gwkanal/ecc_matters/common.py: EccentricityMattersModel"]}
{"id": "C82", "title": "An analysis of discrete data samples the posterior its inputs describe", "statement": "For every prior table with distinct names, scalar distributions and one level of other-name references, every population model, where-functions, event samples with matching reference priors, rate estimator and positive observing time: if the analysis starts, its columns are exactly the sampled parameters in alphabetical order; the log density handed to flowMC at a vector inside the priors is the sum of the log prior densities (a lazily defined prior being built from the values of the parameters it names) plus the sum over events of the logarithm of T_obs times the mean of model density over reference prior, minus the expected number of events, the model receiving exactly the keyword arguments the table and the model's constants mean; the density numpyro explores is the same number; a vector outside a prior or rejected by a where-function gets minus infinity under flowMC; the bucket settings, the clustering and the order of the events change nothing; an analysis whose table and data are accepted stops only if a constant of the model is also sampled or is another name of a sampled parameter.", "quantifier": "all prior tables, all population models (arbitrary functions of their keyword arguments), all where-functions, all event lists of all lengths and sizes, all bucket settings, clusterings, iteration orders of sets, and all vectors of values", "why_tests_cant": "Each piece (index map, padding, masks, log constants, lazily built priors) is tested alone on one input; an error in how they are composed - a constant counted twice, an index that points to the wrong column, padding that leaks into the mean - shows only for particular tables and event sizes and gives a plausible number", "anchors": ["src/gwkanal/core/sage.py:Sage.run", "src/gwkanal/core/sage.py:Sage.read_data", "src/gwkanal/core/guru.py:Guru.classify_model_parameters", "src/gwkokab/inference/poissonlikelihood_flowMC.py:flowMC_poisson_likelihood", "src/gwkokab/inference/poissonlikelihood_numpyro.py:numpyro_poisson_likelihood"]}
{"id": "C83", "title": "An analysis of Gaussian events samples the posterior its inputs describe", "statement": "For every prior table, population model, HDF5 file of Gaussian events and settings: if the analysis starts, its columns are exactly the sampled parameters in alphabetical order; the log density handed to the sampler at a vector inside the priors is the sum of the log prior densities plus, for every group of the file whose name starts with event_, the logarithm of T_obs times the mean importance weight of its draws, minus the expected number of events; each weight is population density times the Gaussian of the event over the Gaussian proposal the draw was made from, and the proposal is one Newton step of the log density when the fitted precision is positive definite and the event itself otherwise; the random keys of an event are its own and the same at every vector; a vector outside a prior gets minus infinity; the value is never NaN or plus infinity; a file without events, with an incomplete event or another extension, and a constant that is also sampled stop the analysis.", "quantifier": "all prior tables, population models (arbitrary functions of their keyword arguments with arbitrary derivatives), files, dimensions, numbers of events, settings, seeds, streams of normal draws and vectors of values", "why_tests_cant": "The composition of index map, file order, Cholesky factors, eigenvalue test, fits and keys is exercised by no unit test, and an error in it yields a plausible number for most inputs", "anchors": ["src/gwkanal/core/monk.py:Monk.run", "src/gwkanal/core/monk.py:_read_mean_covariances", "src/gwkokab/inference/analyticallikelihood.py:analytical_likelihood", "src/gwkokab/inference/analyticallikelihood.py:is_positive_semi_definite"]}
{"id": "C84", "title": "What is asked for on the command line is what is run", "statement": "For every one of the twelve analysis and generation programs and every command line: the program starts exactly if the words form a sequence of its options with their values, every number can be read, no two mutually exclusive options are given and no required option is missing. Then every setting (seed, file names, thresholds, numbers of components, sampler limits) has the value given last for its own option, or its documented default; an optional piece of the population model is present exactly if its own option was given; the two spin-magnitude models, and the two effective-spin models, are never combined; the columns read from the events are distinct and are the coordinates of every component of the model; and every option has an effect.", "quantifier": "every program, every list of command-line words (any length, order, repetition, unambiguous abbreviation, attached or separate values), every reading of numbers", "why_tests_cant": "There are infinitely many command lines, twelve programs and about thirty options each; a test runs one command line, and a swapped keyword shows only when both options differ.", "anchors": ["src/gwkanal/core/guru.py:guru_arg_parser", "src/gwkanal/core/sage.py:sage_arg_parser", "src/gwkanal/core/monk.py:monk_arg_parser", "src/gwkanal/n_pls_m_gs/sage.py", "src/gwkanal/n_pls_m_gs/monk.py", "src/gwkanal/n_pls_m_gs/genie.py", "src/gwkanal/n_pls_m_gs/common.py", "src/gwkanal/o3_n_pls_m_gs/sage.py", "src/gwkanal/o4_n_bpls_m_gs/sage.py", "src/gwkanal/ecc_matters/sage.py", "src/gwkanal/ecc_matters/monk.py", "src/gwkanal/ecc_matters/genie.py", "src/gwkanal/utils/genie_parser.py"]}
{"id": "C85", "title": "A synthetic catalogue is drawn from the population seen through the detector", "statement": "Every event of a generated realisation is a row of its own raw population; with a selection function it is a row that can be detected, and it is any given row with probability proportional to that row's detection probability, so that with a growing pool the law of an event converges almost surely to the population density times the detection probability, normalised. Putting the masses in order does not change the law of a model that draws ordered masses. Every realisation has as many events as the Poisson number drawn for it, different realisations are independent, and no event is repeated.", "quantifier": "every selection function (including NaN and infinite values), every pool of rows, every set of events, all random numbers; every population law and measurable integrable detection probability (large pools); every density of the masses; every number of realisations", "why_tests_cant": "The claim is about probability laws over all random numbers and an infinite limit; a test sees one catalogue.", "anchors": ["src/gwkanal/core/population.py:PopulationFactory._generate_population", "src/gwkanal/core/population.py:PopulationFactory._generate_realizations"]}
{"id": "C86", "title": "The posterior predictive file holds the posterior mean of the density of an event", "statement": "For every table of posterior samples and every grid, the predictive file written after removing the rate parameters holds, at every grid point, the posterior mean of the probability density of one event of the population there (each component weighted with its share of the total rate), every sample being evaluated with its own hyper-parameters and the fixed ones; with the rates kept it holds the posterior mean of the differential rate.", "quantifier": "all tables of posterior samples, column mappings and fixed values; all numbers of power-law and Gaussian components and choices of optional pieces; all component distributions; all grids", "why_tests_cant": "The relative weight of components is invisible on test populations with one component or equal rates, and the averaging must use the right row for every sample.", "anchors": ["src/gwkanal/utils/ppd.py: wipe_log_rate, compute_probs, compute_and_save_ppd", " src/gwkokab/models/hybrids/_npowerlawmgaussian.py: NPowerlawMGaussian", " src/gwkokab/models/utils/_scaledmixture.py: ScaledMixture.log_prob"]}
{"id": "C87", "title": "The expected number of detections is estimated without bias", "statement": "For every population and every injection campaign whose injections reach wherever the population can be detected, the estimated expected number of detections is almost surely finite, its mean over campaigns is the observation time times the integral of the differential rate times the detection probability, it converges to that value as the campaign grows, and the reported variance has mean (1 - 1/N) times the true variance. The same holds of the neural estimators, over the draws from the components.", "quantifier": "All populations (differential rates), all measurable detection probabilities in [0,1], all injection densities covering the detectable population, all campaign sizes N >= 1 and all observation times; all mixtures, networks and numbers of draws for the neural estimators.", "why_tests_cant": "A test sees one campaign and one estimate; absence of bias, consistency and the mean of the variance estimate are statements about all campaigns.", "anchors": ["src/gwkokab/poisson_mean/_injection_based.py:poisson_mean_from_sensitivity_injections", "src/gwkokab/poisson_mean/_neural_vt.py:poisson_mean_from_neural_vt", "src/gwkokab/poisson_mean/_neural_pdet.py:poisson_mean_from_neural_pdet"]}
{"id": "C88", "title": "A JSON file is read back as the value that was written", "statement": "For every value a JSON file can hold (nested lists and dictionaries of numbers, booleans, nulls and Unicode strings), writing it with write_json and reading it with read_json returns the same value and touches no other file; the blanks, line ends and empty lines of a file, in particular the empty lines that the settings template puts between its sections, and the way a string is spelled (plain, escaped, as hexadecimal code units) do not change what is read; different values have different files; writing fails exactly for the values that hold a part JSON cannot express.", "quantifier": "All JSON values of any depth and size, all strings of Unicode code points without a surrogate pair, all previous contents of the directory, all layouts (any blanks and line ends between the parts of the text) and all lists of section names.", "why_tests_cant": "There are infinitely many values and layouts; a test checks a few files.", "anchors": ["src/gwkanal/utils/common.py:read_json", "src/gwkanal/utils/common.py:write_json", "src/gwkokab_scripts/flowMC_cfg_template.py:format_json_with_gaps", "src/gwkanal/core/guru.py:classify_model_parameters"]}
{"id": "C89", "title": "The log posterior of an analysis converges to the exact one", "statement": "Let a population analysis be run on posterior samples drawn from the posteriors of the events and on the found ones of an injection campaign. As the numbers of samples and injections grow, the log density the sampler is given at any admissible parameter values converges almost surely to the exact log posterior of the hierarchical model, log prior + sum over events of log(T times the integral of likelihood times differential rate) - T times the integral of rate times detection probability, minus the log evidences of the events, which do not depend on the parameters; so differences between parameter values converge to the exact differences. For any numbers of samples the exponential of that log density, for a known expected number, has exactly the right mean. Both need the samples and the injections to reach wherever the population can be seen.", "quantifier": "all parameter tables, values, populations, likelihoods, priors, injection campaigns, all growing sequences of sample counts, almost all outcomes of the sampling", "why_tests_cant": "A test sees one random data set with finitely many samples and a tolerance; the claim is about the limit and the mean over all data sets, for every population.", "anchors": ["src/gwkanal/core/sage.py:run", "src/gwkokab/inference/poissonlikelihood_flowMC.py", "src/gwkokab/inference/poissonlikelihood_utils.py", "src/gwkokab/poisson_mean/_injection_based.py"]}
{"id": "C90", "title": "Plots of chains show the chains", "statement": "The chain plot gives each parameter its own labelled axis with one line per chain file, in the order of the samples; with the band option it shows at every step the 5-95% and 25-75% quantile areas and the mean across the chains. The effective-sample-size plot shows, for training and for production, the effective sample size of each parameter divided by the number of draws it was computed from. Chains of different lengths and missing labels are refused.", "quantifier": "all numbers of chains, parameters and samples, all values, all ways of writing the header, all estimators of the effective sample size", "why_tests_cant": "A test compares one picture with a stored one; whether the right numbers are drawn for every shape of the input (one parameter, unequal numbers of draws) is not visible there.", "anchors": ["src/gwkokab_scripts/chain_plot.py:main", "src/gwkokab_scripts/ess_plot.py:main"]}
{"id": "C91", "title": "Points are drawn in the colour of their class", "statement": "A scatter plot with a file of class numbers draws every point exactly once, points of one class in one colour and points of different classes in different colours, with the names given for the legend; three-dimensional scatter plots take their colours from the column asked for.", "quantifier": "all data, class numbers, palettes, legends and colour choices", "why_tests_cant": "A test draws one data set; the claim is about all class numberings.", "anchors": ["src/gwkokab_scripts/scatter2d.py:main", "src/gwkokab_scripts/scatter3d.py:main", "src/gwkokab_scripts/batch_scatter3d.py:main"]}
{"id": "C92", "title": "The log posterior of Gaussian events converges to the exact one", "statement": "For events summarised by a Gaussian, the log posterior of an analysis converges, with probability one, to the exact value log prior + sum over events of log(T times the integral of the rate against the event's Gaussian) - expected number, when the number of draws in a batch grows (and the number of injections, where the expected number comes from injections). Its exponential has the exact posterior density as its mean over the draws.", "quantifier": "all populations, priors, fixed parameters, event files and numbers of events, all observation times, all expected-number estimators that converge, all error targets and numbers of batches", "why_tests_cant": "A statement about a limit and a mean over random draws; a test sees finitely many of them, and a bias of the estimator hides in their scatter.", "anchors": ["src/gwkanal/core/monk.py:Monk.run", "src/gwkokab/inference/analyticallikelihood.py:analytical_likelihood"]}
{"id": "C93", "title": "The reported variance of the log likelihood is the variance of its error", "statement": "The variance by which posterior samples are cut (the sum over events of the variance of the single-event Monte Carlo sums plus the variance of the expected number) is Σ over events of Σw²/(Σw)² - 1/n plus the variance of the expected number, for the importance weights w of the event, whatever the bucketing and the order of events. As numbers of posterior samples and injections grow, in any proportion, its ratio to the exact leading-order variance tends to one almost surely, and the difference between the log density handed to the sampler and the exact log posterior, divided by the square root of the reported variance, becomes a standard normal variable.", "quantifier": "every analysis, data set and bucketing; every population, event likelihoods, sampling priors and injection campaign whose weights have finite non-zero variance; every growth of the sample sizes; every interval", "why_tests_cant": "A claim about the limit distribution of a random error over all populations and sample sizes; a test sees one realisation.", "anchors": ["src/gwkokab/inference/poissonlikelihood_utils.py:variance_of_single_event_likelihood", "src/gwkanal/core/sage.py:compute_variance", "src/gwkokab/poisson_mean/_injection_based.py:get_selection_fn_and_poisson_mean_estimator"]}
{"id": "C94", "title": "What the log rates do to a likelihood", "statement": "Raising the log rate of every component of a population model by c raises the log density of the model by c at every point (for every mixture, special values included, and for the named power-law models whatever their flags), and multiplies the expected number of events of every estimator by e^c. The log density handed to the sampler then changes by the change of the log prior plus c for each event minus (e^c - 1) times the expected number. Under a flat prior there is one best overall rate, the one at which the expected number of events equals the observed number, and a longer observing time is made up for exactly by proportionally lower rates.", "quantifier": "every mixture, dictionary of hyper-parameters, set of flags and point; every list of injections and every list of components; every analysis, data set, bucketing and pair of parameter values that differ by the overall rate", "why_tests_cant": "A statement about every parameter value, data set and shift of the rate; a test compares a few points of one model.", "anchors": ["src/gwkokab/models/utils/_scaledmixture.py:ScaledMixture", "src/gwkokab/models/hybrids", "src/gwkokab/poisson_mean/_injection_based.py", "src/gwkokab/poisson_mean/_neural_vt.py", "src/gwkokab/poisson_mean/_neural_pdet.py", "src/gwkokab/inference/poissonlikelihood_flowMC.py:flowMC_poisson_likelihood"]}
{"id": "C95", "title": "The density of the multi-component population model", "statement": "For every choice of the optional pieces, every number of power-law and Gaussian components and every complete set of meaningful hyper-parameters, NPowerlawMGaussian builds a model whose log density at an event is a number or minus infinity, namely the log of the sum over the components of exp(log_rate) times the product of the documented densities (component masses, spins, tilts, effective spin, eccentricity, angles, redshift), each evaluated at the columns it is named after; each component has unit mass, except for the redshift law, whose mass is the finite merger count per unit observer time for a local rate of one; an event whose secondary is heavier than the primary gets no density.", "quantifier": "all 21 option flags, all numbers of components, all dictionaries of hyper-parameters that are complete and meaningful, all real event vectors (away from end points where a beta density blows up), validation on or off, all proper cosmologies", "why_tests_cant": "a test fixes one combination of flags, one number of components and one event; the combinations are exponential in the flags and the coordinates of every factor shift with each of them", "anchors": ["src/gwkokab/models/hybrids/_npowerlawmgaussian.py:NPowerlawMGaussian", "src/gwkokab/models/hybrids/_ncombination.py", "src/gwkokab/models/utils/_jointdistribution.py", "src/gwkokab/models/utils/_scaledmixture.py"]}
{"id": "C96", "title": "The smoothed multi-component models have the documented density", "statement": "For NSmoothedPowerlawMSmoothedGaussian and NBrokenPowerlawMGaussian with any optional pieces, any numbers of power-law (broken power-law) and Gaussian components and any complete set of meaningful hyper-parameters, construction succeeds and the log probability of an event (the primary mass first, the mass ratio last) is the log of: the exponential of log_rate, times the lambda-weighted mixture of the components' densities at the columns each piece is about, times the Planck window of the primary mass, divided by the total of the windowed mixture of the primary-mass laws on 1000 points, times the smoothed power law of the mass ratio divided by its total at that primary mass; it is zero outside the mass bounds and outside mass ratios in [0, 1], and never NaN. Integrated over the remaining coordinates each component leaves its primary-mass law times the total of the redshift law. Weights that exceed one are rejected.", "quantifier": "every combination of optional pieces, component count, dictionary of hyper-parameters, cosmology, validation flag and event", "why_tests_cant": "Each of the hundreds of combinations of pieces and component counts is a different distribution; agreement of its log probability with the product of the laws of the pieces, its support handling and its grid normalisation for every event and every hyper-parameter value cannot be sampled.", "anchors": ["src/gwkokab/models/hybrids/_o3_n_pls_m_gs.py:NSmoothedPowerlawMSmoothedGaussian", "src/gwkokab/models/hybrids/_o4_n_bpls_m_gs.py:NBrokenPowerlawMGaussian", "src/gwkokab/models/hybrids/_utils.py:_SmoothedPowerlawMassRatioAndRest"]}
{"id": "C97", "title": "Grid normalisations of the smoothed mass models", "statement": "The smoothed mass models divide by totals computed on fixed grids, and are meant to be normalised. The primary-mass total is within a stated number of grid spacings times the peak density of the exact integral, and the density integrated over the mass ratio leaves the primary-mass density, up to a stated error, for all hyper-parameters and every primary mass.", "quantifier": "all hyper-parameters with positive widths and ordered masses, all primary masses", "why_tests_cant": "The error depends on every hyper-parameter at once; a test compares a handful of values with a numerical integral that has its own error, and misses the sliver of masses next to the minimum where the table fails.", "anchors": ["src/gwkokab/models/_models.py:SmoothedTwoComponentPrimaryMassRatio", "src/gwkokab/models/_bpls.py:BrokenPowerlawTwoPeak", "src/gwkokab/models/hybrids/_utils.py:_SmoothedPowerlawMassRatioAndRest"]}
{"id": "C98", "title": "An n_pls_m_gs analysis estimates the exact log posterior of the documented population", "statement": "Take an n_pls_m_gs analysis of discrete data (any number of power-law and Gaussian components, any combination of the optional parameters other than beta-distributed spin magnitudes, with which the analysis raises, C50) with any meaningful prior table over the declared hyper-parameters, any events with bounded likelihoods and any injection campaign, whose samples and injections reach wherever the population can be seen. At any values of the sampled parameters within their priors, the log density handed to flowMC and the log density of the numpyro model converge almost surely, as the numbers of posterior samples and injections grow, to log prior + sum over events of log(T * integral of likelihood times rho) - T * integral of rho times detection probability, up to the evidences of the events, where rho is the documented population: the sum over components of exp(log_rate_i) times the product of the documented densities of the quantities, each with the hyper-parameters of component i that the prior table means (fixed numbers, names of other parameters, sampled values). With a known expected number the density has exactly the right mean for any number of samples. For Gaussian events the same holds of the log density of the monk analysis as the draws per batch and the injections grow, the likelihood of an event being the normal density with its mean and covariance.", "quantifier": "All component numbers, option combinations, prior tables, parameter values, events, likelihoods, priors of the samples, injection campaigns, cosmologies and bucket settings", "why_tests_cant": "Names, columns, densities, prior translation, bucketing and Monte Carlo estimates are written in different files and only together give the posterior; a test evaluates one analysis on one data set and cannot know the exact posterior it should converge to.", "anchors": ["src/gwkanal/n_pls_m_gs/sage.py:NPowerlawMGaussianCore", "src/gwkanal/core/sage.py:Sage", "src/gwkanal/core/guru.py:Guru", "src/gwkokab/models/hybrids/_npowerlawmgaussian.py:NPowerlawMGaussian", "src/gwkokab/inference/poissonlikelihood_flowMC.py", "src/gwkokab/inference/poissonlikelihood_utils.py", "src/gwkanal/n_pls_m_gs/monk.py:NPowerlawMGaussianMonk", "src/gwkanal/core/monk.py:Monk"]}
{"id": "C99", "title": "The smoothed o3 and o4 analyses estimate the exact log posterior of the documented smoothed population", "statement": "Take an o3_n_pls_m_gs or o4_n_bpls_m_gs analysis of discrete data (any number of power-law and Gaussian components, any combination of the optional parameters) with any meaningful prior table over the declared hyper-parameters, any events with bounded likelihoods and any injection campaign, whose samples and injections reach wherever the population can be seen. At any values of the sampled parameters within their priors for which the weights are not negative, the beta laws of the spins (if any) have concentrations above one and some mass lies between the bounds, the log density handed to flowMC and the log density of the numpyro model converge almost surely, as the numbers of posterior samples and injections grow, to log prior + sum over events of log(T * integral of likelihood times rho) - T * integral of rho times detection probability, up to the evidences of the events, where rho is the documented population: the rate times the weighted mixture of the components with its primary mass smoothed and normalised on the grid, times the smoothed power law of the mass ratio normalised by the tabulated total. The tabulated total exists and is determined between the mass bounds, and rho is integrable even where the tabulated total tends to zero. With a known expected number the density has exactly the right mean for any number of samples. Where the beta law of a component's primary spin has a concentration of at most one, the log density handed to flowMC is -inf.", "quantifier": "All component numbers, option combinations, prior tables, parameter values, events, likelihoods, priors of the samples, injection campaigns, cosmologies and bucket settings, for both analyses", "why_tests_cant": "Names, columns, densities, normalisation tables, prior translation, bucketing and Monte Carlo estimates have to fit together for every combination; a test sees one random estimate of one of them and does not know the exact value", "anchors": ["src/gwkanal/o3_n_pls_m_gs/sage.py:NSmoothedPowerlawMSmoothedGaussianCore", "src/gwkanal/o4_n_bpls_m_gs/sage.py:NBrokenPowerlawMGaussianCore", "src/gwkokab/models/hybrids/_o3_n_pls_m_gs.py:NSmoothedPowerlawMSmoothedGaussian", "src/gwkokab/models/hybrids/_o4_n_bpls_m_gs.py:NBrokenPowerlawMGaussian", "src/gwkokab/models/hybrids/_utils.py:_SmoothedPowerlawMassRatioAndRest", "src/gwkanal/core/sage.py:Sage"]}
{"id": "C100", "title": "An ecc_matters analysis estimates the exact log posterior of the documented eccentric population", "statement": "Take an ecc_matters analysis of discrete data with any meaningful prior table over its eight hyper-parameters, any events with bounded likelihoods and any injection campaign, whose samples and injections reach wherever the population can be seen. At any values of the sampled parameters within their priors for which the hyper-parameters are proper (positive masses, bounds in order, positive width), the table means exactly one population: exp(log_rate) times a power law in the primary mass, a secondary mass uniform between mmin and the primary, and a normal eccentricity restricted to [low, high]; its total is exp(log_rate). The log density handed to flowMC and the log density of the numpyro model converge almost surely, as the numbers of posterior samples and injections grow, to log prior + sum over events of log(T * integral of likelihood times rho) - T * integral of rho times detection probability, up to the evidences of the events. With a known expected number the density has exactly the right mean for any number of samples. For Gaussian events the same holds of the log density of the monk analysis as the draws per batch and the injections grow, the likelihood of an event being the normal density with its mean and covariance. The code's infinite density at primary masses equal to mmin does no harm, almost surely.", "quantifier": "All prior tables, parameter values, events, likelihoods, priors of the samples, injection campaigns and bucket settings", "why_tests_cant": "The estimate is random and the exact posterior is an integral no test computes; the density of the code is infinite on a set of measure zero, which a test either never meets or meets alone.", "anchors": ["src/gwkanal/ecc_matters/sage.py:EccentricityMattersCore", "src/gwkanal/ecc_matters/common.py:EccentricityMattersModel", "src/gwkanal/core/sage.py:Sage", "src/gwkokab/inference/poissonlikelihood_flowMC.py", "src/gwkokab/models/mass/_models.py:Wysocki2019MassModel", "src/gwkanal/ecc_matters/monk.py:EccentricityMattersMonk", "src/gwkanal/core/monk.py:Monk"]}
{"id": "C101", "title": "The selection-function file decides the estimator, and its options take effect", "statement": "For every selection-function file (a JSON object): injection, neural_vt, neural_pdet and custom select the documented estimator with the program's parameters in its order, the given file and batch size, each given option and the documented default of each missing one; custom modules get every other option; files without a type or a file name, with an unknown type, or that set what the program sets are rejected with the corresponding error; and an option the estimator does not know is not silently ignored.", "quantifier": "every JSON object, every parameter list, every custom module", "why_tests_cant": "options are optional and open-ended; a misspelt option looks like a default", "anchors": ["src/gwkokab/poisson_mean/poisson_factory.py: get_selection_fn_and_poisson_mean_estimator", "src/gwkanal/core/sage.py: Sage.run", "src/gwkanal/core/monk.py: Monk.run", "src/gwkanal/n_pls_m_gs/genie.py: main", "src/gwkanal/ecc_matters/genie.py: main"]}
{"id": "C102", "title": "Models survive being passed to compiled functions", "statement": "A model, constraint or transform of the package that is passed as an argument to a function compiled or vectorised by JAX behaves inside that function like the object that was passed: every attribute set by its constructor is there with the same value, at any depth of nesting. When the arrays in it are replaced by others, e.g. by one element of a batch, the function sees the model with those arrays everywhere, including its support. The numbers and positions of coordinates and components stay Python integers, so that slicing works in compiled code.", "quantifier": "all objects of the 39 distribution, constraint and transform classes of the package, with arbitrary nesting (mixtures of joints of joints, transformed supports, ...), all arrays and all maps of the leaves", "why_tests_cant": "Each class declares by hand which attributes survive; a forgotten name only shows when that attribute is used inside a compiled function, and nesting and batching multiply the cases", "anchors": ["src/gwkokab/models/utils/_scaledmixture.py:ScaledMixture", "src/gwkokab/models/utils/_joindistribution.py:JointDistribution", "src/gwkokab/models/utils/_lazyjointdistribution.py:_LazyConstraint.tree_flatten", "src/gwkokab/models/utils/_doubletruncpowerlaw.py:DoublyTruncatedPowerLaw", "src/gwkokab/models/transformations.py:BlockTransform.tree_flatten", "src/gwkokab/models/constraints.py:_AllConstraint.tree_flatten"]}
{"id": "C103", "title": "A stopped flowMC run leaves files that say what it has done", "statement": "The flowMC sampler writes its files after every strategy of its schedule. Whenever a run is stopped after a strategy, the chain files hold exactly the steps made so far at their places and empty entries elsewhere, training steps never appear in the production files, the acceptance files have an entry exactly at the steps of their kind that have been made and both columns the same length, there is no posterior sample file before production, and from the first production strategy on it holds, for every chain, exactly the local steps of the production loops started so far, in order, with no empty row.", "quantifier": "all numbers of local and global steps, thinnings, training and production loops, chains, and every point of the schedule at which the run is stopped", "why_tests_cant": "A test stops a run at a few points of one schedule; the claim is about every stopping point of every schedule.", "anchors": ["src/gwkanal/core/flowMC_based.py:Sampler.sample", "src/gwkanal/core/flowMC_based.py:_save_samples", "src/gwkanal/core/flowMC_based.py:_save_chains", "src/gwkanal/core/flowMC_based.py:_save_acceptances"]}
{"id": "C104", "title": "The plot of a posterior predictive file shows the posterior mean, with its bands", "statement": "The plotting program reads every file the posterior predictive program writes, for distinct parameter names, at least one posterior sample and non-empty grids, and draws one panel per parameter, in order, under the parameter's own name: the x axis is the parameter's grid, the bands are the quantiles over the posterior samples of its marginal density, and the predictive curve is at every grid point the mean over the posterior samples of those same marginal densities, so it lies between the smallest and the largest of them.", "quantifier": "all densities, numbers of posterior samples, parameters and grids", "why_tests_cant": "The predictive curve is recomputed from the mean array in another program than the bands; that both agree is an identity of multi-dimensional integrals over arbitrary grids.", "anchors": ["src/gwkokab_scripts/ppd_plot.py:main", "src/gwkokab_scripts/ppd_plot.py:get_quantiles", "src/gwkanal/utils/ppd.py:get_all_marginals", "src/gwkanal/utils/ppd.py:compute_and_save_ppd"]}
{"id": "C105", "title": "Plotting tools touch no file but their output, and that only when they have a plot", "statement": "A plotting tool changes no file except the one named as its output. After a run that ends normally that file holds the drawing of the data and of all the options given. A run that fails leaves every file, including an earlier plot under the output name and the data, as it was. Every option a tool accepts has an effect, and a correct command line ends normally.", "quantifier": "every plotting script that declares its output with argparse.FileType, every command line (options in any order, repeated, unknown, missing), every content of the files, every behaviour of the plotting and table libraries", "why_tests_cant": "The loss depends on the order of the options, on which option is wrong and on what is in the files; a test tries a few command lines in an empty directory, where nothing can be lost.", "anchors": ["src/gwkokab_scripts/corner_plot.py:make_parser", "src/gwkokab_scripts/corner_plot.py:main", "src/gwkokab_scripts/joint_plot.py:main", "src/gwkokab_scripts/hist_overplot.py:main", "src/gwkokab_scripts/batch_scatter3d.py:main"]}
{"id": "C106", "title": "The log holds the messages of the chosen level and is never overwritten", "statement": "A program writes to the log file named by the environment variables every message of at least the level they ask for, in order, after whatever the file held, and nothing to any other file or the terminal. A level that does not exist is refused before anything has changed. Without a level in the environment the documented level WARNING is used.", "quantifier": "every environment, every content of earlier logs, every sequence of messages and of set-ups of the log", "why_tests_cant": "Which messages are lost or added depends on the level, on what was logged before and on what is in the file; a test looks at one level and one message.", "anchors": ["src/gwkanal/utils/logger.py:set_log_level", "src/gwkanal/utils/logger.py:log_info"]}
{"id": "C107", "title": "Rounding does not push conversions out of their documented ranges", "statement": "Computed in floating point, every conversion stays in its documented range: the smoothing window is never NaN, at most 1, exactly 0 up to its lower and exactly 1 from its upper edge; effective spins and spin differences stay in [-1, 1], precession spins, mass ratios and relative mass differences in [0, 1]; computed secondary masses do not exceed the primary; changing frames keeps the mass order; the mass-ratio support check accepts every point of the support; component masses from chirp mass and symmetric mass ratio are ordered and not NaN; the symmetric mass ratio stays in [0, 1/4] and within a few units in the last place of its exact value; draws from a truncated power law lie in its support; the log density of a truncated normal is finite inside its interval.", "quantifier": "Every binary floating-point format with at least three bits (single and double precision among them), every rounding to nearest, every representable input in range.", "why_tests_cant": "Rounding errors show up for isolated inputs (about one equal-mass pair in twenty); tests with tolerances hide them and no sample covers the format.", "anchors": ["src/gwkokab/utils/transformations.py", "src/gwkokab/utils/kernel.py::log_planck_taper_window", "src/gwkokab/utils/math.py::logsubexp", "src/gwkokab/models/constraints.py", "src/gwkokab/models/utils/_doubletruncpowerlaw.py::doubly_truncated_power_law_icdf", "src/gwkokab/utils/math.py::truncnorm_logpdf"]}
{"id": "C108", "title": "The configuration report is about the run the sampler would do", "statement": "For every settings file that the flowMC sampler accepts, flowMC_info reports, whatever its options, on the run the sampler would do with it: the samples kept per loop, the capacity of the windows and every row of the table are those of the settings used (defaults included); the table lists the training loops from the first on, as many as asked for and otherwise up to the first forgetting one; the picture, drawn exactly if asked for and under the given name, has every training loop; the number of dimensions is that of the command line, the file or the mass matrix, and that of the run if a diagonal or matrix is given; a missing file or setting ends the program with an error that names it.", "quantifier": "all settings files, options and numbers of dimensions", "why_tests_cant": "Tests run a few settings files; that two programs read the same file the same way, defaults included, concerns all files.", "anchors": ["src/gwkokab_scripts/flowMC_info.py:main", "src/gwkokab_scripts/flowMC_info.py:infer_n_dims", "src/gwkokab_scripts/flowMC_info.py:generate_heuristics", "src/gwkanal/core/flowMC_based.py:FlowMCBased.driver"]}
{"id": "C109", "title": "Log likelihoods and expected rates survive rounding", "statement": "Computed in floating point, with the additions in whatever order, the log likelihood is a finite number close to its exact value whenever every event has a posterior sample of finite weight and prior and rate are finite: no NaN or infinity appears, nothing is turned into -inf, and the error is a stated number of units in the last place, for flowMC and for numpyro; if the computed population model is itself off by at most eps in the log density, and the expected number by at most eta, the result is within eps for each event, eta and a stated number of units in the last place of the exact log posterior of the exact model; an event without any weight gives -inf; padding an event changes no more than the order of the additions does; the log density of a mixture is -inf only where every component is, and otherwise close to the logarithm of the sum of the scaled densities; the log density of a joint distribution is -inf exactly where that of a marginal is, and otherwise within k eps and a stated number of units in the last place of the exact sum if its k marginals are off by at most eps, and a mixture of such joint distributions is as close to the logarithm of the sum of rates times products of densities; the Monte-Carlo estimate of an event by the analytic likelihood is -inf if no draw has weight and otherwise within a stated number of units in the last place of the logarithm of the mean weight of all draws made, however many batches the loop makes, and so is the log posterior over all events; where the squares of all weights overflow, the estimated squared error is NaN and the loop ends after one batch, and the estimate of that batch is still close to the exact one; the expected rate of the injections is never NaN or negative, is zero if no injection has weight and is close to its exact value, also when the computed log densities are themselves off by at most eps.", "quantifier": "Every binary floating-point format with room to spare in its exponents (single and double precision among them), every rounding to nearest, every order of the additions, every set of events and samples of bounded number and size.", "why_tests_cant": "The order of the additions depends on the device and the compiler, and the sizes of the terms on the data; no test covers the orders and magnitudes.", "anchors": ["src/gwkokab/inference/poissonlikelihood_flowMC.py::flowMC_poisson_likelihood", "src/gwkokab/inference/poissonlikelihood_numpyro.py::numpyro_poisson_likelihood", "src/gwkokab/models/utils/_scaledmixture.py::ScaledMixture.log_prob", "src/gwkokab/poisson_mean/_injection_based.py", "src/gwkokab/models/utils/_joindistribution.py::JointDistribution.log_prob", "src/gwkokab/inference/analyticallikelihood.py::combine_monte_carlo_log_estimates"]}
{"id": "C110", "title": "The normalised power law density survives rounding away from a slope of -1", "statement": "Computed in floating point, the log normalisation constant and the log density of the doubly truncated power law are finite at every point of the support and close to the exact values, with the error a stated number of units in the last place: for every slope, -1 included, and all bounds for which the powers neither overflow nor underflow and the bounds differ enough for the precision (the condition depends only on the slope, the logarithms of the bounds and their ratio). The same holds for a whole population of such power laws with their rates: where no component has support the computed log rate density is -inf, elsewhere it is finite and close to the logarithm of the exact rate density, and the log posterior computed from it, every operation rounded, is finite and close to the log posterior of the exact rate density. So is the expected number of detections computed from injections, and with it the log posterior of a whole analysis in which everything behind the parameters of the population is rounded.", "quantifier": "Every binary floating-point format with room for its precision on both ends of the exponents (single and double among them), every way of breaking ties, every slope, every pair of bounds 0 < low < high in range, every point of the support; every number of components and every order of the additions; every number of events and samples.", "why_tests_cant": "The density enters every likelihood; tests try a handful of slopes in one precision, the loss of digits depends on slope, bounds and precision together and is total only next to slope -1 or for very steep slopes.", "anchors": ["src/gwkokab/models/utils/_doubletruncpowerlaw.py:doubly_truncated_power_law_log_norm_constant", "src/gwkokab/models/utils/_doubletruncpowerlaw.py:doubly_truncated_power_law_log_prob", "src/gwkokab/models/utils/_scaledmixture.py:ScaledMixture.log_prob", "src/gwkokab/inference/poissonlikelihood_flowMC.py"]}
{"id": "C111", "title": "Small errors of the population model's log density stay small", "statement": "If the log density of the population model is off by at most eps at every posterior sample and every injection (impossible points stay impossible), then the log posterior of the analysis is off by at most eps for each event plus a fraction e^eps - 1 of the expected number of events, for both samplers. Errors of a mixture's log scales and of its components' log densities add up to at most their sum. Errors of a neural sensitivity estimate of at most eps in the log change the expected number by at most the fraction e^eps - 1.", "quantifier": "all analyses, numbers of events, of posterior samples and of injections, all population models and all sizes of error", "why_tests_cant": "An approximation (a table, a trained network, single precision) enters the posterior through thousands of samples; a test compares a few points and cannot bound the error of the posterior for every data set and every model.", "anchors": ["src/gwkokab/inference/poissonlikelihood_flowMC.py:flowMC_poisson_likelihood", "src/gwkokab/inference/poissonlikelihood_numpyro.py:numpyro_poisson_likelihood", "src/gwkokab/models/utils/_scaledmixture.py:ScaledMixture.log_prob", "src/gwkokab/poisson_mean/_injection_based.py", "src/gwkokab/poisson_mean/_neural_vt.py"]}
