{
 "claims": [
  {
   "property": "C01",
   "status": "proved",
   "theorems": [
    "GW.Joint.C01_logProb_is_sum_over_blocks",
    "GW.Joint.C01_blocks_exist_unique",
    "GW.Joint.C01_slices_tile_event",
    "GW.Joint.C01_empty_rejected"
   ],
   "note": ""
  },
  {
   "property": "C02",
   "status": "partial",
   "theorems": [
    "GW.Joint.C02_flatten_preserves_density",
    "GW.Joint.C02_flatten_preserves_default_support",
    "GW.Joint.C02_flatten_drops_nested_support",
    "GW.Joint.C02_flatten_shape",
    "GW.Joint.C02_deep_idempotent",
    "GW.Joint.C02_unknown_method_rejected"
   ],
   "note": "Density, event shape and default supports are preserved by flattening; a user-supplied support of a nested joint is dropped (C02_flatten_drops_nested_support)."
  },
  {
   "property": "C03",
   "status": "proved",
   "theorems": [
    "GW.Joint.C03_sample_layout",
    "GW.Joint.C03_keys_distinct"
   ],
   "note": ""
  },
  {
   "property": "C04",
   "status": "partial",
   "theorems": [
    "GW.Lazy.C04_sample_and_logProb_agree_partial",
    "GW.Lazy.C04_vector_marginal_violated",
    "GW.Lazy.C04_bad_arguments_rejected"
   ],
   "note": "Agreement of sample and log_prob proved when every marginal that others depend on is scalar; with an earlier vector marginal the code reads the wrong coordinate (C04_vector_marginal_violated)."
  },
  {
   "property": "C05",
   "status": "proved",
   "theorems": [
    "GW.Mixture.C05_logProb_is_log_of_scaled_sum",
    "GW.Mixture.C05_order_irrelevant",
    "GW.Mixture.C05_cdf",
    "GW.Mixture.C05_constructor_accepts_iff"
   ],
   "note": ""
  },
  {
   "property": "C06",
   "status": "proved",
   "theorems": [
    "GW.Likelihood.C06_never_nan_or_posinf",
    "GW.Likelihood.C06_rejected_points_get_neginf",
    "GW.Likelihood.C06_zero_prior_rejected",
    "GW.Likelihood.C06_finite_value",
    "GW.Likelihood.C06_impossible_event_rejected",
    "GW.Likelihood.C06_support_unchecked_without_where_fns",
    "GW.Likelihood.C06_numpyro_factor_finite",
    "GW.Likelihood.C06_numpyro_value",
    "GW.Likelihood.C06_parameters_from_coordinates"
   ],
   "note": "With where_fns=None the prior support is never consulted (C06_support_unchecked_without_where_fns); in the numpyro form a rejected point gets the most negative float rather than -inf."
  },
  {
   "property": "C07",
   "status": "proved",
   "theorems": [
    "GW.Likelihood.C07_only_unmasked_samples_matter",
    "GW.Likelihood.C07_bucketing_irrelevant",
    "GW.Likelihood.C07_read_data_keeps_events",
    "GW.Likelihood.C07_sum_of_log_averages"
   ],
   "note": ""
  },
  {
   "property": "C08",
   "status": "proved",
   "theorems": [
    "GW.Jenks.C08_buckets_are_the_events",
    "GW.Jenks.C08_mask_recovers_events",
    "GW.Jenks.C08_bad_arguments_rejected",
    "GW.Jenks.C08_no_events",
    "GW.Jenks.C08_returns"
   ],
   "note": ""
  },
  {
   "property": "C09",
   "status": "proved",
   "theorems": [
    "GW.Jenks.C09_boundaries_partition",
    "GW.Jenks.C09_losses_are_percentages",
    "GW.Jenks.C09_automatic_choice",
    "GW.Jenks.C09_equal_sizes_together",
    "GW.Jenks.C09_requested_number",
    "GW.Jenks.C09_zero_rejected",
    "GW.Jenks.C09_automatic_returns"
   ],
   "note": ""
  },
  {
   "property": "C10",
   "status": "partial",
   "theorems": [
    "GW.Analytic.C10_batch",
    "GW.Analytic.C10_combine",
    "GW.Analytic.C10_stream",
    "GW.Analytic.C10_single_draw_violated"
   ],
   "note": "Proved for any number of batches of any sizes >= 2, from the empty state, including all-zero weights; with n_samples = 1 the variance is NaN (C10_single_draw_violated)."
  },
  {
   "property": "C11",
   "status": "partial",
   "theorems": [
    "GW.Analytic.C11_pooled_partial",
    "GW.Analytic.C11_exit_violated",
    "GW.Analytic.C11_keys"
   ],
   "note": "Bound, pooled estimate and distinct keys proved for all streams; the stopping rule is the opposite of the documented one (C11_exit_violated)."
  },
  {
   "property": "C12",
   "status": "proved",
   "theorems": [
    "GW.PoissonMean.C12_mean",
    "GW.PoissonMean.C12_order",
    "GW.PoissonMean.C12_variance"
   ],
   "note": ""
  },
  {
   "property": "C13",
   "status": "partial",
   "theorems": [
    "GW.PoissonMean.C13_columns",
    "GW.PoissonMean.C13_rejects",
    "GW.PoissonMean.C13_log_pdet",
    "GW.PoissonMean.C13_vt_mean",
    "GW.PoissonMean.C13_vt_variance",
    "GW.PoissonMean.C13_pdet",
    "GW.PoissonMean.C13_madau_violated"
   ],
   "note": "Proved for all parameter lists and network outputs; a MadauDickinsonRedshift marginal is not recognised, so its normalisation is missing from the p_det estimate (C13_madau_violated). A NaN network output gives NaN."
  },
  {
   "property": "C14",
   "status": "proved",
   "theorems": [
    "GW.Conv.C14_chirp_roundtrip",
    "GW.Conv.C14_chirp_roundtrip_inv",
    "GW.Conv.C14_eta_range",
    "GW.Conv.C14_mass_ratio",
    "GW.Conv.C14_mass_ratio_inv",
    "GW.Conv.C14_secondary_inv",
    "GW.Conv.C14_delta_eta",
    "GW.Conv.C14_redshifted_masses",
    "GW.Conv.C14_eta_from_q",
    "GW.Conv.C14_log_chirp_and_reduced",
    "GW.Conv.C14_formulas",
    "GW.Conv.C14_guards"
   ],
   "note": ""
  },
  {
   "property": "C15",
   "status": "partial",
   "theorems": [
    "GW.Conv.C15_chi_roundtrip",
    "GW.Conv.C15_chi_roundtrip_inv",
    "GW.Conv.C15_chi_bounds",
    "GW.Conv.C15_chi_bounds_tilts",
    "GW.Conv.C15_chi_p",
    "GW.Conv.C15_polar",
    "GW.Conv.C15_spherical",
    "GW.Conv.C15_spherical_origin_violated",
    "GW.Conv.C15_spherical_inv"
   ],
   "note": "Round trips, bounds and special values proved; at the origin the spherical conversion yields NaN (C15_spherical_origin_violated)."
  },
  {
   "property": "C16",
   "status": "partial",
   "theorems": [
    "GW.Transforms.C16_block_batch_partial",
    "GW.Transforms.C16_block_single_violated",
    "GW.Transforms.C16_block_order_violated",
    "GW.Transforms.C16_primary_ratio_partial",
    "GW.Transforms.C16_primary_ratio_boundary_violated",
    "GW.Transforms.C16_chirp_eta_partial",
    "GW.Transforms.C16_chirp_eta_boundary_violated",
    "GW.Transforms.C16_delta_eta",
    "GW.Transforms.C16_chirp_delta_partial",
    "GW.Transforms.C16_source_detected",
    "GW.Transforms.C16_components_detected",
    "GW.Transforms.C16_to_primary_ratio_partial",
    "GW.Transforms.C16_equal_masses_violated",
    "GW.Transforms.C16_ratio_secondary_partial",
    "GW.Transforms.C16_total_ratio_partial"
   ],
   "note": "Round trips proved on the interior of every declared domain; closed boundary points (C16_primary_ratio_boundary_violated, C16_chirp_eta_boundary_violated), equal masses and single (unbatched) events in BlockTransform are counterexamples. RedshiftToLuminosityDistance is covered with the cosmology."
  },
  {
   "property": "C17",
   "status": "partial",
   "theorems": [
    "GW.Transforms.C17_block_sum",
    "GW.Transforms.C17_block_det",
    "GW.Cosmo.C17_luminosity_distance_partial",
    "GW.Cosmo.C17_luminosity_distance_violated",
    "GW.Transforms.C17_primary_ratio",
    "GW.Transforms.C17_delta_eta",
    "GW.Transforms.C17_source_detected",
    "GW.Transforms.C17_components_detected",
    "GW.Transforms.C17_to_primary_ratio",
    "GW.Transforms.C17_ratio_secondary",
    "GW.Transforms.C17_total_ratio",
    "GW.Transforms.C17_chirp_eta",
    "GW.Transforms.C17_chirp_delta"
   ],
   "note": "Exact log Jacobians proved for the closed-form transforms; RedshiftToLuminosityDistance reports the derivative of the ideal map rather than of its interpolant: two-sided bound (C17_luminosity_distance_partial) and a counterexample to equality (C17_luminosity_distance_violated)."
  },
  {
   "property": "C18",
   "status": "proved",
   "theorems": [
    "GW.Constraints.C18_accepts_iff",
    "GW.Constraints.C18_total",
    "GW.Constraints.C18_feasible"
   ],
   "note": ""
  },
  {
   "property": "C19",
   "status": "proved",
   "theorems": [
    "GW.Constraints.C19_sandwich_iff",
    "GW.Constraints.C19_same_set",
    "GW.Constraints.C19_ratio_iff",
    "GW.Constraints.C19_finite_only",
    "GW.Constraints.C19_feasible",
    "GW.Constraints.C19_wrong_length"
   ],
   "note": ""
  },
  {
   "property": "C20",
   "status": "partial",
   "theorems": [
    "GW.Constraints.C20_all_iff",
    "GW.Constraints.C20_all_length",
    "GW.Constraints.C20_out_of_range_violated",
    "GW.Constraints.C20_negative_position",
    "GW.Constraints.C20_any_iff",
    "GW.Constraints.C20_any_feasible",
    "GW.Constraints.C20_transform_iff",
    "GW.Constraints.C20_transform_feasible",
    "GW.Constraints.C20_eq_sound_partial",
    "GW.Constraints.C20_eq_length_violated",
    "GW.Constraints.C20_eq_slices_violated",
    "GW.Constraints.C20_all_feasible_partial",
    "GW.Constraints.C20_feasible_order_violated",
    "GW.Lazy.C20_lazy_check",
    "GW.Lazy.C20_lazy_eq_sound",
    "GW.Lazy.C20_lazy_eq_self",
    "GW.Lazy.C20_lazy_eq_raises"
   ],
   "note": "Membership of all/any/transformed constraints proved; counterexamples for out-of-range slices, equality and feasible points listed out of order."
  },
  {
   "property": "C21",
   "status": "partial",
   "theorems": [
    "GW.Transforms.C21_increasing",
    "GW.Transforms.C21_positive_increasing_violated",
    "GW.Transforms.C21_decreasing",
    "GW.Transforms.C21_sandwich",
    "GW.Transforms.C21_ratio_sandwich_partial",
    "GW.Transforms.C21_ratio_sandwich_violated"
   ],
   "note": "Increasing, decreasing and mass-sandwich maps land in their constraint for every real vector, except a zero first coordinate (C21_positive_increasing_violated) and narrow mass ranges mmax < 3 mmin (C21_ratio_sandwich_violated)."
  },
  {
   "property": "C22",
   "status": "partial",
   "theorems": [
    "GW.PowerLaw.C22_normalised",
    "GW.PowerLaw.C22_cdf",
    "GW.PowerLaw.C22_cdf_monotone",
    "GW.PowerLaw.C22_icdf",
    "GW.PowerLaw.C22_sample_law",
    "GW.PowerLaw.C22_cdf_negative_violated"
   ],
   "note": "Density, normalisation, support, cdf/icdf inverse pair and the law of samples proved for all exponents; the cdf is monotone for non-negative arguments but not over all reals (C22_cdf_negative_violated)."
  },
  {
   "property": "C23",
   "status": "partial",
   "theorems": [
    "GW.PowerLaw.C23_log_norm",
    "GW.PowerLaw.C23_cdf_partial",
    "GW.PowerLaw.C23_cdf_high_violated",
    "GW.PowerLaw.C23_cdf_outside_violated",
    "GW.PowerLaw.C23_cdf_alpha_violated",
    "GW.PowerLaw.C23_icdf_partial"
   ],
   "note": "log-norm rule exact everywhere including alpha=-1; cdf and icdf rules exact for alpha != -1 inside the support; at alpha=-1 the cdf rule has the wrong sign in the high direction and an approximate alpha direction, outside the support it is non-zero (C23_*_violated)."
  },
  {
   "property": "C24",
   "status": "partial",
   "theorems": [
    "GW.Mass.C24_primary_ratio",
    "GW.Mass.C24_primary_ratio_sample",
    "GW.Mass.C24_wysocki",
    "GW.Mass.C24_wysocki_sample",
    "GW.Mass.C24_broken",
    "GW.Mass.C24_break_outside_violated"
   ],
   "note": "Proved for PowerlawPrimaryMassRatio, Wysocki2019MassModel and BrokenPowerlaw (break inside the mass range); NaN with a break outside it (C24_break_outside_violated). Smoothed models are normalised numerically by trapezoids."
  },
  {
   "property": "C25",
   "status": "partial",
   "theorems": [
    "GW.Num.C25_log_window",
    "GW.Num.C25_log_window_special",
    "GW.Num.C25_window_shape",
    "GW.Num.C25_window_continuous",
    "GW.Mass.C25_two_component",
    "GW.Mass.C25_two_component_width",
    "GW.Mass.C25_two_component_wide_violated",
    "GW.Mass.C25_two_peak",
    "GW.Mass.C25_two_peak_width_violated",
    "GW.Mass.C25_and_rest",
    "GW.Mass.C25_and_rest_width",
    "GW.Mass.C25_and_rest_ordered",
    "GW.Mass.C25_mixture_norm_width",
    "GW.Mass.C25_mixture_norm"
   ],
   "note": "The window is settled for every real and special float; the three smoothed mass models are never NaN, -inf off support and equal the documented density for documented parameters. Violated: SmoothedTwoComponentPrimaryMassRatio is NaN on its whole support when delta > mmax - mmin (C25_two_component_wide_violated) and BrokenPowerlawTwoPeak is NaN instead of -inf when delta_m1 <= 0 (C25_two_peak_width_violated)."
  },
  {
   "property": "C26",
   "status": "partial",
   "theorems": [
    "GW.Beta.C26_conc_roundtrip",
    "GW.Beta.C26_mean_roundtrip",
    "GW.Beta.C26_positive_iff",
    "GW.Beta.C26_same_formula",
    "GW.Beta.C26_moments",
    "GW.Beta.C26_check_iff",
    "GW.Beta.C26_check_admissible",
    "GW.Beta.C26_check_nonpositive_violated"
   ],
   "note": "beta_dist_mean_variance_check ignores the sign of the variance, C26_check_nonpositive_violated."
  },
  {
   "property": "C27",
   "status": "proved",
   "theorems": [
    "GW.Num.C27_logsubexp",
    "GW.Num.C27_truncnorm",
    "GW.Num.C27_truncnorm_bad_scale",
    "GW.Num.C27_cumtrapz",
    "GW.Num.C27_trapezoid_sum",
    "GW.Num.C27_cumtrapz_product",
    "GW.Num.C27_cumtrapz_boundary"
   ],
   "note": ""
  },
  {
   "property": "C28",
   "status": "partial",
   "theorems": [
    "GW.Cosmo.C28_distances",
    "GW.Cosmo.C28_inverse",
    "GW.Cosmo.C28_clamped_violated",
    "GW.Cosmo.C28_accuracy",
    "GW.Cosmo.C28_distance_slope",
    "GW.Cosmo.C28_volume",
    "GW.Cosmo.C28_volume_table",
    "GW.Cosmo.C28_density",
    "GW.Cosmo.C28_psi",
    "GW.Cosmo.C28_sample",
    "GW.Cosmo.C28_total"
   ],
   "note": "Distances strictly increasing and inverted on the whole grid range, trapezoid accuracy bound, comoving volume, redshift densities and inverse-cdf sampling for every proper cosmology. False beyond the grid (C28_clamped_violated): redshifts are clamped there. The redshift log_prob is not divided by its normalisation."
  },
  {
   "property": "C29",
   "status": "partial",
   "theorems": [
    "GW.Registry.C29_last_registration_wins_partial",
    "GW.Registry.C29_malformed_rejected",
    "GW.Registry.C29_plain_name_lookup_violated"
   ],
   "note": "Look-up by tuple is proved for all histories; look-up by plain name always fails (C29_plain_name_lookup_violated), so the full property is false of the code."
  },
  {
   "property": "C30",
   "status": "proved",
   "theorems": [
    "GW.Tools.C30_batches_and_remainder_cover",
    "GW.Tools.C30_batched_map_eq_map",
    "GW.Tools.C30_zero_batch_rejected"
   ],
   "note": ""
  },
  {
   "property": "C31",
   "status": "partial",
   "theorems": [
    "GW.Tools.C31_split_is_partition",
    "GW.Tools.C31_both_parts_nonempty",
    "GW.Tools.C31_whole_batches_partial",
    "GW.Tools.C31_whole_batches_violated",
    "GW.Tools.C31_epoch_batches_cover",
    "GW.Tools.C31_epoch_loss_divisor",
    "GW.Tools.C31_epoch_loss_divisor_violated"
   ],
   "note": "Partition and non-emptiness proved for all inputs; the training part is not always a multiple of the batch size (C31_whole_batches_violated)."
  },
  {
   "property": "C32",
   "status": "partial",
   "theorems": [
    "GW.Regex.C32_every_name_answered",
    "GW.Regex.C32_exact_name_wins_partial",
    "GW.Regex.C32_first_pattern",
    "GW.Regex.C32_alias",
    "GW.Regex.C32_alias_target",
    "GW.Regex.C32_falsy_exact_value_violated"
   ],
   "note": "Proved for truthy exact values, patterns and aliases; an exact key with a falsy value loses to an earlier pattern (C32_falsy_exact_value_violated)."
  },
  {
   "property": "C33",
   "status": "partial",
   "theorems": [
    "GW.Dirichlet.C33_log_prob",
    "GW.Dirichlet.C33_normalised",
    "GW.Dirichlet.C33_sample",
    "GW.Dirichlet.C33_product_constant",
    "GW.Dirichlet.C33_construction",
    "GW.Dirichlet.C33_errors",
    "GW.Dirichlet.C33_order_too_large_violated"
   ],
   "note": "All claims proved for order < n_dimensions; order >= n_dimensions is not rejected and gives a NaN density (C33_order_too_large_violated)."
  },
  {
   "property": "C34",
   "status": "proved",
   "theorems": [
    "GW.Graph.C34_sort_lists_every_node_once",
    "GW.Graph.C34_sort_respects_dependencies",
    "GW.Graph.C34_cycle_reported_iff_cyclic"
   ],
   "note": ""
  },
  {
   "property": "C35",
   "status": "partial",
   "theorems": [
    "GW.Guru.C35_roles",
    "GW.Guru.C35_rejected_iff_bad_or_cyclic",
    "GW.Guru.C35_nothing_dropped_partial",
    "GW.Guru.C35_alias_chain_dropped_violated",
    "GW.Guru.C35_lazy_order",
    "GW.Guru.C35_indices",
    "GW.Guru.C35_model_constants_win",
    "GW.Guru.C35_lazy_setup_is_consistent"
   ],
   "note": "Roles, indices, rejection, lazy order and consistency of the lazy prior (hypotheses of C04) proved for every table. 'Nothing silently dropped' fails for an alias of an alias or of an unknown name (C35_alias_chain_dropped_violated); proved for aliases of non-aliases."
  },
  {
   "property": "C36",
   "status": "proved",
   "theorems": [
    "GW.FlowMC.C36_schedule_executed",
    "GW.FlowMC.C36_buffers"
   ],
   "note": ""
  },
  {
   "property": "C37",
   "status": "partial",
   "theorems": [
    "GW.Hmc.C37_integrator_is_succ_steps",
    "GW.Hmc.C37_configured_step_count_violated",
    "GW.Hmc.C37_reversible",
    "GW.Hmc.C37_volume_preserving",
    "GW.Hmc.C37_detailed_balance",
    "GW.Hmc.C37_impossible_never_accepted",
    "GW.Hmc.C37_carried_density",
    "GW.Hmc.C37_moves_iff_accepted",
    "GW.Hmc.C37_target_invariant",
    "GW.Hmc.C37_kernel_leaves_target_invariant",
    "GW.Hmc.C37_momentum_law",
    "GW.Hmc.C37_step_law",
    "GW.Hmc.C37_chain_law"
   ],
   "note": "Everything but the step count is proved, including that a chain of any length whose keys differ keeps the target distribution (C37_chain_law, with the momentum drawn through the Cholesky factor and the two halves of each key); the integrator performs n_leapfrog + 1 leapfrog steps (C37_configured_step_count_violated)."
  },
  {
   "property": "C38",
   "status": "proved",
   "theorems": [
    "GW.FlowMC.C38_saved_rows_are_local_rows",
    "GW.FlowMC.C38_run_selects_production_local_steps",
    "GW.FlowMC.C38_padding",
    "GW.FlowMC.C38_chain_files_sorted"
   ],
   "note": ""
  },
  {
   "property": "C39",
   "status": "proved",
   "theorems": [
    "GW.Numpyro.C39_every_chain_saved_once",
    "GW.Numpyro.C39_no_chain_rejected"
   ],
   "note": ""
  },
  {
   "property": "C40",
   "status": "partial",
   "theorems": [
    "GW.Ppd.C40_wipe_log_rate_partial",
    "GW.Ppd.C40_missing_column_rejected",
    "GW.Ppd.C40_alias_of_rate_violated"
   ],
   "note": "Proved when no name shares a rate column; with an alias of a rate parameter an unrelated column is deleted (C40_alias_of_rate_violated)."
  },
  {
   "property": "C41",
   "status": "proved",
   "theorems": [
    "GW.Ppd.C41_marginal",
    "GW.Ppd.C41_density_grid",
    "GW.Ppd.C41_saved_file",
    "GW.Ppd.C41_mismatch_rejected"
   ],
   "note": ""
  },
  {
   "property": "C42",
   "status": "partial",
   "theorems": [
    "GW.Population.C42_generation_distinct",
    "GW.Population.C42_noise_distinct",
    "GW.Population.C42_single_realization_partial",
    "GW.Population.C42_reuse_violated"
   ],
   "note": "All draws of the generation phase, and all noise draws, have pairwise distinct keys; the whole run only with one realisation: with more, population draw j and noise draw j of realisation 1 share a key (C42_reuse_violated)."
  },
  {
   "property": "C43",
   "status": "proved",
   "theorems": [
    "GW.Population.C43_rows_aligned",
    "GW.Population.C43_missing_mass"
   ],
   "note": ""
  },
  {
   "property": "C44",
   "status": "partial",
   "theorems": [
    "GW.Population.C44_entries",
    "GW.Population.C44_untiled",
    "GW.Population.C44_errors",
    "GW.Population.C44_symmetric",
    "GW.Population.C44_psd_untiled",
    "GW.Population.C44_psd_disjoint_partial",
    "GW.Population.C44_psd_overlapping_violated"
   ],
   "note": "Entries and symmetry proved for every tiling; positive semi-definiteness proved without tiles and for disjoint tiles, and fails for overlapping tiles (C44_psd_overlapping_violated)."
  },
  {
   "property": "C45",
   "status": "partial",
   "theorems": [
    "GW.VarianceCut.C45_mask_one_entry_per_row",
    "GW.VarianceCut.C45_keeps_rows_below_threshold_partial",
    "GW.VarianceCut.C45_no_rows",
    "GW.VarianceCut.C45_single_parameter_violated",
    "GW.VarianceCut.C45_single_row_violated",
    "GW.Likelihood.C45_event_variance"
   ],
   "note": "Proved for posterior files with at least two rows and columns; one-column and one-row files always raise (C45_single_parameter_violated, C45_single_row_violated)."
  },
  {
   "property": "C46",
   "status": "partial",
   "theorems": [
    "GW.Injections.C46_default_threshold",
    "GW.Injections.C46_open",
    "GW.Injections.C46_spin_vector",
    "GW.Injections.C46_weights",
    "GW.Injections.C46_found_ifar",
    "GW.Injections.C46_found_far",
    "GW.Injections.C46_found_snr",
    "GW.Injections.C46_found_raises",
    "GW.Injections.C46_uppercase_violated",
    "GW.Injections.C46_group_far_violated",
    "GW.Injections.C46_load",
    "GW.Injections.C46_load_raises",
    "GW.Injections.C46_aligned_violated",
    "GW.Injections.C46_spin_volume",
    "GW.Injections.C46_density"
   ],
   "note": "Proved for the ifar/FAR/SNR selection and the loader; fails for upper-case FAR columns, for read-only groups carrying only FAR, and for aligned-spin files with rows not found (C46_*_violated)."
  },
  {
   "property": "C47",
   "status": "partial",
   "theorems": [
    "GW.Injections.C47_plain",
    "GW.Injections.C47_density",
    "GW.Injections.C47_raises",
    "GW.Injections.C47_effective_detected_violated",
    "GW.Injections.C47_columns"
   ],
   "note": "Proved for all seven mass coordinate choices, with or without distance, chi_1/chi_2 and effective spins (isotropic effective-spin densities taken as given functions). Fails for detected masses with effective spin and no mass ratio (C47_effective_detected_violated)."
  },
  {
   "property": "C48",
   "status": "partial",
   "theorems": [
    "GW.Events.C48_density",
    "GW.Events.C48_uncovered_violated",
    "GW.Events.C48_raises"
   ],
   "note": "Proved (C48_density) for every covered mass prior/coordinate pair with every distance and spin option; the complement is wrong in the code: flat source masses with detected masses, mass_1 with mass_2_source, chirp masses (C48_uncovered_violated). Effective-spin densities are given functions."
  },
  {
   "property": "C49",
   "status": "partial",
   "theorems": [
    "GW.Hybrids.C49_o3_columns_are_coordinates",
    "GW.Hybrids.C49_o4_columns_are_coordinates",
    "GW.Hybrids.C49_columns_are_coordinates",
    "GW.Hybrids.C49_generated_columns_are_coordinates_partial",
    "GW.Hybrids.C49_generated_precessing_spin_violated",
    "GW.Hybrids.C49_both_spin_models_violated"
   ],
   "note": "Columns equal coordinates, in order, for every admissible option combination, component count and hyper-parameters of n_pls_m_gs (sage, monk), o3_n_pls_m_gs and o4_n_bpls_m_gs. For synthetic populations (genie) it is proved without the precessing spin; with it the property is false and the violation is proved, as is the mismatch when both exclusive spin models are switched on by direct use of the classes."
  },
  {
   "property": "C50",
   "status": "partial",
   "theorems": [
    "GW.Hybrids.C50_values",
    "GW.Hybrids.C50_o3_values",
    "GW.Hybrids.C50_o4_values",
    "GW.Hybrids.C50_only_declared_names_required",
    "GW.Hybrids.C50_genie_only_declared_names_required",
    "GW.Hybrids.C50_o3_only_declared_names_required",
    "GW.Hybrids.C50_o4_only_declared_names_required",
    "GW.Hybrids.C50_complete_priors_suffice",
    "GW.Hybrids.C50_no_components_violated",
    "GW.Hybrids.C50_declared_names_distinct",
    "GW.Hybrids.C50_beta_spin_check_violated",
    "GW.Hybrids.C50_beta_spin_check_reads",
    "GW.Hybrids.C50_o3_check_reads_primary_partial",
    "GW.Hybrids.C50_secondary_spin_unchecked_violated",
    "GW.Hybrids.C50_o3_declared_iff_used",
    "GW.Hybrids.C50_o4_declared_iff_used",
    "GW.Hybrids.C50_declared_iff_used_partial",
    "GW.Hybrids.C50_genie_declared_iff_used_partial",
    "GW.Hybrids.C50_unused_angles_violated",
    "GW.Hybrids.C50_unused_precession_violated"
   ],
   "note": "Proved for all four analyses: a failing construction names a declared hyper-parameter that was not given, complete prior files suffice, names are distinct, every argument gets its own or the shared value, and the declared names are exactly the used ones for the smoothed analyses; n_pls_m_gs and the generator declare in addition names without effect (proved violated: location and scale of five angles, the precessing spin). The admissibility checks violate the last clause: the n_pls_m_gs beta-spin check asks for names that are never declared (proved violated), and the smoothed analyses' check ignores the secondary spin (proved violated)."
  },
  {
   "property": "C51",
   "status": "proved",
   "theorems": [
    "GW.Common.C51_expand_arguments",
    "GW.Common.C51_ppd_ranges"
   ],
   "note": ""
  },
  {
   "property": "C52",
   "status": "partial",
   "theorems": [
    "GW.Errors.C52_banana_partial",
    "GW.Errors.C52_banana_physical_partial",
    "GW.Errors.C52_banana_negative_masses_violated",
    "GW.Errors.C52_banana_exact",
    "GW.Errors.C52_truncated_normal",
    "GW.Errors.C52_truncated_normal_returns_partial",
    "GW.Errors.C52_truncated_normal_never_returns_violated",
    "GW.Errors.C52_angles",
    "GW.Errors.C52_detection_time",
    "GW.Errors.C52_eccentricity",
    "GW.Errors.C52_eccentricity_mask_violated"
   ],
   "note": "Finite banana masses are physical unless the noise is below -10 sigma (negative masses otherwise: C52_banana_negative_masses_violated); truncated_normal_error is correct whenever it returns, but need not return (C52_truncated_normal_never_returns_violated); out-of-range eccentricities become 1 instead of NaN (C52_eccentricity_mask_violated)."
  },
  {
   "property": "C53",
   "status": "partial",
   "theorems": [
    "GW.ModelFile.C53_save_load_roundtrip_partial",
    "GW.ModelFile.C53_plain_network_violated",
    "GW.ModelFile.C53_bad_files_rejected",
    "GW.ModelFile.C53_missing_fields_partial",
    "GW.ModelFile.C53_extra_layer_rejected",
    "GW.ModelFile.C53_missing_layer_violated",
    "GW.ModelFile.C53_attributes_kept"
   ],
   "note": "Round trip proved for every architecture when the network is wrapped by filter_checkpoint as in training; a plain network, e.g. a loaded one, cannot be saved (C53_plain_network_violated); missing names, sizes, weights or biases raise, but a missing layer group is silently replaced by fresh random weights (C53_missing_layer_violated)."
  },
  {
   "property": "C54",
   "status": "proved",
   "theorems": [
    "GW.Spin.C54_covariance",
    "GW.Spin.C54_isotropic_mixture",
    "GW.Spin.C54_two_truncated_normals_nd",
    "GW.Spin.C54_two_truncated_normals",
    "GW.Spin.C54_spin_orientation",
    "GW.Spin.C54_minimum_tilt",
    "GW.Spin.C54_minimum_tilt_extended",
    "GW.Spin.C54_skew_normal",
    "GW.Spin.C54_skew_normal_epsilon_one_violated"
   ],
   "note": "The end points epsilon = +-1 are accepted by the argument constraint but give NaN (C54_skew_normal_epsilon_one_violated)."
  },
  {
   "property": "C55",
   "status": "proved",
   "theorems": [
    "GW.Parameters.C55_values_distinct",
    "GW.Parameters.C55_names",
    "GW.Parameters.C55_equality",
    "GW.Parameters.C55_members_equal",
    "GW.Parameters.C55_equality_contract",
    "GW.Parameters.C55_lookup_by_string",
    "GW.Parameters.C55_assignment",
    "GW.Parameters.C55_no_duplicate_keys",
    "GW.Parameters.C55_by_value"
   ],
   "note": ""
  },
  {
   "property": "C56",
   "status": "proved",
   "theorems": [
    "GW.Events.C56_from_json",
    "GW.Events.C56_from_json_fields",
    "GW.Events.C56_from_json_raises",
    "GW.Events.C56_load",
    "GW.Events.C56_own_seed",
    "GW.Events.C56_load_raises",
    "GW.Events.C56_prefix",
    "GW.Events.C56_means",
    "GW.Events.C56_means_raises"
   ],
   "note": ""
  },
  {
   "property": "C57",
   "status": "partial",
   "theorems": [
    "GW.TrainTargets.C57_positive_targets_ordered_partial",
    "GW.TrainTargets.C57_zero_target_violated",
    "GW.TrainTargets.C57_targets_finite"
   ],
   "note": "Order is preserved on positive targets; zero targets are mapped above almost every positive target (C57_zero_target_violated)."
  },
  {
   "property": "C58",
   "status": "partial",
   "theorems": [
    "GW.Population.C58_columns",
    "GW.Population.C58_rows",
    "GW.Population.C58_determined",
    "GW.Population.C58_uncovered_violated"
   ],
   "note": "Proved when every parameter has a generator; a parameter without one gets uninitialised memory (C58_uncovered_violated)."
  },
  {
   "property": "C59",
   "status": "proved",
   "theorems": [
    "GW.Population.C59_dat_extension"
   ],
   "note": ""
  },
  {
   "property": "C60",
   "status": "proved",
   "theorems": [
    "GW.Analytic.C60_gaussian",
    "GW.Analytic.C60_weight",
    "GW.Analytic.C60_proposal",
    "GW.Analytic.C60_unbiased",
    "GW.Analytic.C60_laplace_exact",
    "GW.Analytic.C60_fallback",
    "GW.Analytic.C60_posterior",
    "GW.Analytic.C60_cholesky_of_inverse",
    "GW.Analytic.C60_eigenvalue_test",
    "GW.Analytic.C60_proposal_fit",
    "GW.Analytic.C60_proposal_is_gaussian",
    "GW.Analytic.C60_gaussian_population_exact"
   ],
   "note": ""
  },
  {
   "property": "C61",
   "status": "partial",
   "theorems": [
    "GW.SpinPrior.C61_density_partial",
    "GW.SpinPrior.C61_law",
    "GW.SpinPrior.C61_normalised",
    "GW.SpinPrior.C61_density_violated_at_secondary",
    "GW.SpinPrior.C61_density_violated_at_zero",
    "GW.SpinPrior.C61_injection"
   ],
   "note": "C61_law and C61_normalised hold without exception (almost everywhere equality of densities). C61_density_partial gives the value at every point except two singular ones, where the statement is false of the code: C61_density_violated_at_secondary (+inf at |chi_eff| = q amax/(1+q), q < 1/2) and C61_density_violated_at_zero (NaN at chi_eff = 0, q = 1). The joint (chi_eff, chi_p) prior is C76; spence is idealised as the exact dilogarithm."
  },
  {
   "property": "C62",
   "status": "proved",
   "theorems": [
    "GW.MultiSpin.C62_density",
    "GW.MultiSpin.C62_mass_marginal"
   ],
   "note": ""
  },
  {
   "property": "C63",
   "status": "partial",
   "theorems": [
    "GW.Full.C63_powerlaw_peak_partial",
    "GW.Full.C63_powerlaw_peak_missing",
    "GW.Full.C63_broken_powerlaw",
    "GW.Full.C63_broken_powerlaw_missing",
    "GW.Full.C63_multi_spin",
    "GW.Full.C63_multi_spin_missing",
    "GW.Full.C63_eccentricity_matters_partial",
    "GW.Full.C63_eccentricity_matters_edge_violated"
   ],
   "note": "Proved except on sets of measure zero: beta spins at an end point of [0, 1] where the density does not vanish, and the eccentricity model at m1 = mmin, where its log density is +inf (C63_eccentricity_matters_edge_violated)."
  },
  {
   "property": "C64",
   "status": "partial",
   "theorems": [
    "GW.Priors.C64_processed",
    "GW.Priors.C64_rejected",
    "GW.Priors.C64_no_entry_is_none",
    "GW.Priors.C64_missing_prior_violated",
    "GW.Priors.C64_sampled"
   ],
   "note": "Everything but the last clause is proved; a parameter without any entry becomes the constant None instead of an error (C64_missing_prior_violated, C64_no_entry_is_none)."
  },
  {
   "property": "C65",
   "status": "partial",
   "theorems": [
    "GW.Mixture.C65_index",
    "GW.Mixture.C65_index_law",
    "GW.Mixture.C65_sample_law",
    "GW.Mixture.C65_sample_density",
    "GW.Mixture.C65_mean",
    "GW.Mixture.C65_mean_variance",
    "GW.Mixture.C65_mean_variance_violated"
   ],
   "note": "The law of the samples is proved for all scales; mean and variance agree with it when the scales sum to one (C65_mean, C65_mean_variance) and not otherwise (C65_mean_variance_violated)."
  },
  {
   "property": "C66",
   "status": "partial",
   "theorems": [
    "GW.Settings.C66_accepted_iff",
    "GW.Settings.C66_used",
    "GW.Settings.C66_missing",
    "GW.Settings.C66_error_justified",
    "GW.Settings.C66_template_accepted",
    "GW.Settings.C66_asymmetric_violated",
    "GW.Settings.C66_string_violated"
   ],
   "note": "Acceptance is characterised exactly (C66_accepted_iff); two clauses are false of the code: a non-symmetric matrix (C66_asymmetric_violated) and a string (C66_string_violated) pass as mass matrix."
  },
  {
   "property": "C67",
   "status": "partial",
   "theorems": [
    "GW.Scripts.C67_pool",
    "GW.Scripts.C67_saturated",
    "GW.Scripts.C67_forgetting_partial",
    "GW.Scripts.C67_forgetting_violated",
    "GW.Scripts.C67_suggestions",
    "GW.Scripts.C67_suggested_batch_violated"
   ],
   "note": "'Forgetting' is at most one loop late and exact when the window is a whole number of loops (C67_forgetting_partial); with the template's own settings it is late (C67_forgetting_violated). The suggested batch can exceed the suggested training set (C67_suggested_batch_violated)."
  },
  {
   "property": "C68",
   "status": "partial",
   "theorems": [
    "GW.Scripts.C68_mass",
    "GW.Scripts.C68_single_parameter_violated"
   ],
   "note": "Proved for at least two parameters; a pilot run of one parameter is always refused (C68_single_parameter_violated). The rounding to eight digits on printing is not modelled."
  },
  {
   "property": "C69",
   "status": "partial",
   "theorems": [
    "GW.Scripts.C69_bands",
    "GW.Scripts.C69_coverage_partial",
    "GW.Scripts.C69_coverage_violated",
    "GW.Scripts.C69_figures_partial",
    "GW.Scripts.C69_figures_violated"
   ],
   "note": "Order, range and permutation invariance are proved; the p-band leaves out at most 2*ceil(p(N-1)) samples (C69_coverage_partial), which for small N is more than 10% (C69_coverage_violated). Figures and file names are right when all files have the same headers (C69_figures_partial) and not otherwise (C69_figures_violated)."
  },
  {
   "property": "C70",
   "status": "partial",
   "theorems": [
    "GW.Tables.C70_catalogue",
    "GW.Tables.C70_catalogue_missing",
    "GW.Tables.C70_histogram",
    "GW.Tables.C70_histogram_refused",
    "GW.Tables.C70_loadtxt",
    "GW.Tables.C70_loadtxt_skip",
    "GW.Tables.C70_first_sample_violated",
    "GW.Tables.C70_named_posterior_violated",
    "GW.Tables.C70_named_chain_violated",
    "GW.Tables.C70_histogram_catalogue_violated",
    "GW.Tables.C70_loadtxt_catalogue_violated"
   ],
   "note": "Holds for catalogues read by name, for histograms of posterior files, and for loadtxt. Fails for the other pairs of writer and reader, see the _violated theorems: the scripts that draw all samples lose the first one, and a column asked for by name in a posterior file is the next one."
  },
  {
   "property": "C71",
   "status": "partial",
   "theorems": [
    "GW.Tables.C71_columns_partial",
    "GW.Tables.C71_order_violated",
    "GW.Tables.C71_refused"
   ],
   "note": "Proved for orders that are their own inverse; C71_order_violated shows that a cyclic order of three columns is drawn under the wrong headings."
  },
  {
   "property": "C72",
   "status": "partial",
   "theorems": [
    "GW.Diagnostics.C72_divisions",
    "GW.Diagnostics.C72_divisions_distinct",
    "GW.Diagnostics.C72_last_point_partial",
    "GW.Diagnostics.C72_draws",
    "GW.Diagnostics.C72_draws_violated",
    "GW.Diagnostics.C72_labels",
    "GW.Diagnostics.C72_default_labels_violated"
   ],
   "note": "Cuts proved in full. The value at iteration d is that of d + 1 draws except at the end (C72_draws_violated), and the default labels are file names (C72_default_labels_violated)."
  },
  {
   "property": "C73",
   "status": "partial",
   "theorems": [
    "GW.NumpyroSettings.C73_accepted_iff",
    "GW.NumpyroSettings.C73_missing_section",
    "GW.NumpyroSettings.C73_chains",
    "GW.NumpyroSettings.C73_method",
    "GW.NumpyroSettings.C73_passed",
    "GW.NumpyroSettings.C73_template",
    "GW.NumpyroSettings.C73_method_unchecked_violated",
    "GW.NumpyroSettings.C73_method_missing_violated"
   ],
   "note": "Proved, except that the chain method is not checked (C73_method_unchecked_violated) and is the one setting that may not be left out (C73_method_missing_violated)."
  },
  {
   "property": "C74",
   "status": "partial",
   "theorems": [
    "GW.Rng.C74_accepted_iff",
    "GW.Rng.C74_unset",
    "GW.Rng.C74_distinct",
    "GW.Rng.C74_reproducible",
    "GW.Rng.C74_seeds_independent",
    "GW.Rng.C74_event_seeds",
    "GW.Rng.C74_key_only_violated",
    "GW.Rng.C74_key_and_seed_violated"
   ],
   "note": "Proved for seeds. With a key instead, reading the events fails (C74_key_only_violated); with both, the recorded seed is not that of the keys (C74_key_and_seed_violated)."
  },
  {
   "property": "C75",
   "status": "partial",
   "theorems": [
    "GW.Version.C75_release",
    "GW.Version.C75_nightly",
    "GW.Version.C75_distinguishes",
    "GW.Version.C75_import_violated"
   ],
   "note": "Proved, except that an unknown value of the variable makes the import fail (C75_import_violated)."
  },
  {
   "property": "C76",
   "status": "proved",
   "theorems": [
    "GW.SpinPriorJoint.C76_density",
    "GW.SpinPriorJoint.C76_law",
    "GW.SpinPriorJoint.C76_normalised",
    "GW.SpinPriorJoint.C76_marginal",
    "GW.SpinPriorJoint.C76_symmetric",
    "GW.SpinPriorJoint.C76_support"
   ],
   "note": "Proved for all real arguments. Floats are idealised as exact extended reals and scipy's complex spence as the exact dilogarithm; the JAX re-implementation of spence (never reached, the module imports NumPy) is not modelled."
  },
  {
   "property": "C77",
   "status": "partial",
   "theorems": [
    "GW.Training.C77_training",
    "GW.Training.C77_held_out",
    "GW.Training.C77_rejected",
    "GW.Training.C77_bad_arguments",
    "GW.Training.C77_curves_partial",
    "GW.Training.C77_single_output",
    "GW.Training.C77_outputs_violated",
    "GW.Training.C77_validation_violated",
    "GW.Training.C77_curves_violated"
   ],
   "note": "Violated for the reported training loss, several outputs and small data sets (C77_*_violated); the training run itself is proved in full."
  },
  {
   "property": "C78",
   "status": "partial",
   "theorems": [
    "GW.Training.C78_short_run_violated",
    "GW.Training.C78_exists_partial",
    "GW.Training.C78_warmup",
    "GW.Training.C78_range",
    "GW.Training.C78_documented_partial",
    "GW.Training.C78_finished",
    "GW.Training.C78_documented_violated",
    "GW.Training.C78_short_violated",
    "GW.Training.C78_constant"
   ],
   "note": "Violated: the decay ends early by the length of the warm-up, and short runs raise (C78_*_violated)."
  },
  {
   "property": "C79",
   "status": "proved",
   "theorems": [
    "GW.Training.C79_mse",
    "GW.Training.C79_bce",
    "GW.Training.C79_bce_minimum",
    "GW.Training.C79_bce_accuracy",
    "GW.Training.C79_mse_batch"
   ],
   "note": ""
  },
  {
   "property": "C80",
   "status": "partial",
   "theorems": [
    "GW.Training.C80_round_trip_partial",
    "GW.Training.C80_bce_violated",
    "GW.Training.C80_bce_above_one_violated",
    "GW.Training.C80_log_violated",
    "GW.Training.C80_flag_violated"
   ],
   "note": "Holds for squared error with matching space; violated for bce_logits and for log-trained networks loaded as pdet (C80_*_violated)."
  },
  {
   "property": "C81",
   "status": "proved",
   "theorems": [
    "GW.Full.C81_powerlaw_peak",
    "GW.Full.C81_broken_powerlaw",
    "GW.Full.C81_multi_spin",
    "GW.Full.C81_eccentricity_matters",
    "GW.Mass.C81_smoothed_ratio",
    "GW.Mixture.C81_mixture",
    "GW.Mixture.C81_mixture_no_support_violated"
   ],
   "note": "every model of the package; C81_mixture_no_support_violated shows that the support argument, which every model passes, is needed"
  },
  {
   "property": "C82",
   "status": "proved",
   "theorems": [
    "GW.Sage.C82_labels",
    "GW.Sage.C82_flowMC_value",
    "GW.Sage.C82_numpyro_value",
    "GW.Sage.C82_outside_rejected",
    "GW.Sage.C82_buckets_irrelevant",
    "GW.Sage.C82_stops_iff",
    "GW.Sage.C82_counts_must_match"
   ],
   "note": ""
  },
  {
   "property": "C83",
   "status": "proved",
   "theorems": [
    "GW.Monk.C83_labels",
    "GW.Monk.C83_value",
    "GW.Monk.C83_outside_rejected",
    "GW.Monk.C83_never_nan",
    "GW.Monk.C83_stops_iff",
    "GW.Monk.C83_bad_file"
   ],
   "note": ""
  },
  {
   "property": "C84",
   "status": "partial",
   "theorems": [
    "GW.Cli.C84_reading",
    "GW.Cli.C84_value",
    "GW.Cli.C84_tables",
    "GW.Cli.C84_starts_iff",
    "GW.Cli.C84_settings",
    "GW.Cli.C84_types",
    "GW.Cli.C84_defaults",
    "GW.Cli.C84_required",
    "GW.Cli.C84_pieces",
    "GW.Cli.C84_exclusive",
    "GW.Cli.C84_columns_distinct",
    "GW.Cli.C84_model_has_columns",
    "GW.Cli.C84_o3_model_has_columns",
    "GW.Cli.C84_o4_model_has_columns",
    "GW.Cli.C84_every_option_used",
    "GW.Cli.C84_variance_cut_ignored_violated",
    "GW.Cli.C84_abbreviation_violated",
    "GW.Cli.C84_component_counts_violated"
   ],
   "note": "proved for all twelve programs and all command lines except that every option has an effect: --variance-cut-threshold is accepted and ignored by the analyses of Gaussian events; the numbers of components may be omitted; the analyses read the generator's --add-phi-1 as an abbreviation of --add-phi-12"
  },
  {
   "property": "C85",
   "status": "partial",
   "theorems": [
    "GW.Population.C85_detectable",
    "GW.Population.C85_pool_law",
    "GW.Population.C85_events",
    "GW.Population.C85_large_pool",
    "GW.Population.C85_nothing_detectable_violated",
    "GW.Population.C85_ordered_law",
    "GW.Population.C85_ordered_model",
    "GW.Population.C85_gaussian_component_violated",
    "GW.Population.C85_realizations",
    "GW.Population.C85_same_counts_violated",
    "GW.Population.C85_repeated_events_violated"
   ],
   "note": "law of the detected events, the limit of large pools, the law of the ordered masses and the numbers of events are proved; the claim fails when no row is detectable (the first row is returned), for Gaussian components (ordering the masses changes the law), because all realisations share one Poisson number, and because events are taken with replacement (all as _violated theorems)"
  },
  {
   "property": "C86",
   "status": "partial",
   "theorems": [
    "GW.Ppd.C86_differential_rate",
    "GW.Ppd.C86_wiped",
    "GW.Ppd.C86_predictive_partial",
    "GW.Ppd.C86_relative_rates_lost_violated",
    "GW.Ppd.C86_fixed_rate_violated"
   ],
   "note": "Proved for the rates kept and for one sampled component; refuted for several components (the relative rates are lost, the result integrates to the number of components) and for a rate given as a constant (it is not removed)."
  },
  {
   "property": "C87",
   "status": "proved",
   "theorems": [
    "GW.PoissonMean.C87_unbiased",
    "GW.PoissonMean.C87_consistent",
    "GW.PoissonMean.C87_variance",
    "GW.PoissonMean.C87_uncovered_violated",
    "GW.PoissonMean.C87_neural_unbiased",
    "GW.PoissonMean.C87_neural_consistent",
    "GW.PoissonMean.C87_neural_variance",
    "GW.PoissonMean.C87_pdet"
   ],
   "note": "C87_uncovered_violated shows that the condition on the reach of the injections, part of the statement, is needed: without it the estimate silently leaves out what was not injected"
  },
  {
   "property": "C88",
   "status": "proved",
   "theorems": [
    "GW.Json.C88_round_trip",
    "GW.Json.C88_layout",
    "GW.Json.C88_template",
    "GW.Json.C88_injective",
    "GW.Json.C88_missing",
    "GW.Json.C88_duplicate_names_violated",
    "GW.Json.C88_failed_write_violated",
    "GW.Json.C88_write_fails_iff",
    "GW.Json.C88_surrogates_violated"
   ],
   "note": "Three exceptions are recorded as findings: names given twice, a failing write, strings of surrogates."
  },
  {
   "property": "C89",
   "status": "proved",
   "theorems": [
    "GW.Hierarchy.C89_consistent",
    "GW.Hierarchy.C89_consistent_numpyro",
    "GW.Hierarchy.C89_comparison",
    "GW.Hierarchy.C89_unbiased",
    "GW.Hierarchy.C89_uncovered_violated",
    "GW.Hierarchy.C89_consistent_almost_everywhere",
    "GW.Hierarchy.C89_consistent_numpyro_almost_everywhere",
    "GW.Hierarchy.C89_unbiased_almost_everywhere"
   ],
   "note": "Consistency for the densities given to flowMC and to numpyro; the likelihood estimate is unbiased for flowMC's density."
  },
  {
   "property": "C90",
   "status": "partial",
   "theorems": [
    "GW.Plots.C90_chains",
    "GW.Plots.C90_band_partial",
    "GW.Plots.C90_band_single_violated",
    "GW.Plots.C90_band_width",
    "GW.Plots.C90_refused",
    "GW.Plots.C90_ess_partial",
    "GW.Plots.C90_ess_refused",
    "GW.Plots.C90_ess_violated"
   ],
   "note": "Lines proved for all inputs (C90_chains, C90_refused); bands for at least two parameters (C90_band_partial), false for one (C90_band_single_violated); effective sample sizes for equal numbers of draws (C90_ess_partial), false otherwise (C90_ess_violated)."
  },
  {
   "property": "C91",
   "status": "partial",
   "theorems": [
    "GW.Plots.C91_classes_partial",
    "GW.Plots.C91_legend_violated",
    "GW.Plots.C91_numbering_violated",
    "GW.Plots.C91_from_one_violated",
    "GW.Plots.C91_same_colour_violated",
    "GW.Plots.C91_3d_violated"
   ],
   "note": "Proved for classes numbered 0, ..., K-1 (C91_classes_partial); false for other numberings, for the legend and for the colours in three dimensions (violated theorems), see DESIGN.md section 5."
  },
  {
   "property": "C92",
   "status": "partial",
   "theorems": [
    "GW.Monk.C92_consistent_almost_everywhere",
    "GW.Monk.C92_consistent",
    "GW.Monk.C92_consistent_injections_almost_everywhere",
    "GW.Monk.C92_consistent_injections",
    "GW.Monk.C92_unbiased_almost_everywhere_partial",
    "GW.Monk.C92_unbiased_partial",
    "GW.Monk.C92_adaptive_violated"
   ],
   "note": "Convergence is proved (C92_consistent, C92_consistent_injections). The density is unbiased when one batch is drawn (C92_unbiased_partial); when the number of batches is adapted to the weights it is not (C92_adaptive_violated)."
  },
  {
   "property": "C93",
   "status": "proved",
   "theorems": [
    "GW.Hierarchy.C93_value",
    "GW.Hierarchy.C93_exists",
    "GW.Hierarchy.C93_consistent",
    "GW.Hierarchy.C93_normal"
   ],
   "note": ""
  },
  {
   "property": "C94",
   "status": "proved",
   "theorems": [
    "GW.Rates.C94_mixture",
    "GW.Rates.C94_powerlaw_peak",
    "GW.Rates.C94_broken_powerlaw",
    "GW.Rates.C94_multi_spin",
    "GW.Rates.C94_injections",
    "GW.Rates.C94_neural",
    "GW.Rates.C94_likelihood",
    "GW.Rates.C94_best_rate",
    "GW.Rates.C94_time"
   ],
   "note": ""
  },
  {
   "property": "C95",
   "status": "partial",
   "theorems": [
    "GW.Hybrids.C95_laws",
    "GW.Hybrids.C95_density",
    "GW.Hybrids.C95_named_columns",
    "GW.Hybrids.C95_normalised",
    "GW.Hybrids.C95_volume",
    "GW.Hybrids.C95_lookup_errors",
    "GW.Hybrids.C95_mass_order_violated"
   ],
   "note": "everything but the order of the masses is proved for all models; the Gaussian components violate that part (C95_mass_order_violated)"
  },
  {
   "property": "C96",
   "status": "partial",
   "theorems": [
    "GW.Hybrids.C96_laws",
    "GW.Hybrids.C96_o3_density",
    "GW.Hybrids.C96_o4_density",
    "GW.Hybrids.C96_named_columns",
    "GW.Hybrids.C96_total_pos",
    "GW.Hybrids.C96_marginal",
    "GW.Hybrids.C96_lookup_errors",
    "GW.Hybrids.C96_weights_violated"
   ],
   "note": "density, columns, normalisation, marginals and look-up errors are proved for all models; that weights exceeding one are rejected is false (C96_weights_violated)"
  },
  {
   "property": "C97",
   "status": "partial",
   "theorems": [
    "GW.Hybrids.C97_trapezoid",
    "GW.Hybrids.C97_mass_total",
    "GW.Hybrids.C97_ratio_total",
    "GW.Hybrids.C97_ratio_total_violated",
    "GW.Hybrids.C97_models",
    "GW.Mass.C97_two_component",
    "GW.Mass.C97_two_peak"
   ],
   "note": "The error bounds hold for every primary mass above the smallest secondary when the mass-ratio grid reaches below the smallest mass ratio (0.005 m1max ≤ m2min). The statement fails just above the minimum mass, where the mass-ratio density integrates to less than any given fraction (C97_ratio_total_violated)."
  },
  {
   "property": "C98",
   "status": "proved",
   "theorems": [
    "GW.EndToEnd.C98_hyperparameters",
    "GW.EndToEnd.C98_population_exists",
    "GW.EndToEnd.C98_rate_integrable",
    "GW.EndToEnd.C98_consistent",
    "GW.EndToEnd.C98_consistent_numpyro",
    "GW.EndToEnd.C98_unbiased",
    "GW.EndToEnd.C98_gaussian_events"
   ],
   "note": "For flowMC and numpyro, any options except beta-distributed spin magnitudes, with which the analysis raises (C50_beta_spin_check_violated)."
  },
  {
   "property": "C99",
   "status": "proved",
   "theorems": [
    "GW.EndToEnd.C99_hyperparameters",
    "GW.EndToEnd.C99_population_exists",
    "GW.EndToEnd.C99_ratio_total",
    "GW.EndToEnd.C99_rate_integrable",
    "GW.EndToEnd.C99_consistent",
    "GW.EndToEnd.C99_consistent_numpyro",
    "GW.EndToEnd.C99_unbiased",
    "GW.EndToEnd.C99_unpeaked_primary_rejected"
   ],
   "note": ""
  },
  {
   "property": "C100",
   "status": "proved",
   "theorems": [
    "GW.EndToEnd.C100_columns",
    "GW.EndToEnd.C100_population_exists",
    "GW.EndToEnd.C100_total_rate",
    "GW.EndToEnd.C100_consistent",
    "GW.EndToEnd.C100_consistent_numpyro",
    "GW.EndToEnd.C100_unbiased",
    "GW.EndToEnd.C100_gaussian_events"
   ],
   "note": ""
  },
  {
   "property": "C101",
   "status": "partial",
   "theorems": [
    "GW.Selection.C101_documented_estimators",
    "GW.Selection.C101_custom_estimators",
    "GW.Selection.C101_unusable_files_rejected",
    "GW.Selection.C101_unknown_options_ignored_violated"
   ],
   "note": "Everything but the last clause is proved; the last clause is proved violated: an unknown (for example misspelt) option of the three built-in estimators has no effect and is not reported."
  },
  {
   "property": "C102",
   "status": "partial",
   "theorems": [
    "GW.Pytree.C102_round_trip_partial",
    "GW.Pytree.C102_new_arrays_partial",
    "GW.Pytree.C102_static_partial",
    "GW.Pytree.C102_block_constraint",
    "GW.Pytree.C102_block_transform_violated",
    "GW.Pytree.C102_power_law_support_violated",
    "GW.Pytree.C102_lazy_support_violated"
   ],
   "note": "Proved for every class and nesting except: BlockTransform forgets its domain and codomain (C102_block_transform_violated), DoublyTruncatedPowerLaw keeps the support of the whole batch (C102_power_law_support_violated), and the support of a LazyJointDistribution raises in compiled code (C102_lazy_support_violated)."
  },
  {
   "property": "C103",
   "status": "proved",
   "theorems": [
    "GW.FlowMC.C103_chains_at_any_moment",
    "GW.FlowMC.C103_acceptances_at_any_moment",
    "GW.FlowMC.C103_chain_files",
    "GW.FlowMC.C103_samples_at_any_moment",
    "GW.FlowMC.C103_acceptance_files",
    "GW.FlowMC.C103_calls",
    "GW.FlowMC.C103_number_of_samples"
   ],
   "note": "Proved for every stopping point between strategies, from the schedule and the index arithmetic of the steppers; a stop while a file is being written is not modelled, nor are the loss file and the values of the acceptances."
  },
  {
   "property": "C104",
   "status": "proved",
   "theorems": [
    "GW.Ppd.C104_panels",
    "GW.Ppd.C104_between_samples"
   ],
   "note": "Exact arithmetic; reading and writing of HDF5 are taken to be faithful; one file per figure (several files: C69)."
  },
  {
   "property": "C105",
   "status": "partial",
   "theorems": [
    "GW.PlotFiles.C105_programs",
    "GW.PlotFiles.C105_other_files",
    "GW.PlotFiles.C105_saved",
    "GW.PlotFiles.C105_saved_from_the_data",
    "GW.PlotFiles.C105_correct_runs",
    "GW.PlotFiles.C105_failure_partial",
    "GW.PlotFiles.C105_plot_lost_violated",
    "GW.PlotFiles.C105_plot_lost_by_help_violated",
    "GW.PlotFiles.C105_data_lost_violated",
    "GW.PlotFiles.C105_joint_plot_violated",
    "GW.PlotFiles.C105_ignored_options_violated"
   ],
   "note": "Holds: no other file is touched, a normal end leaves the drawing of the data and of the options in the output, a correct command line works. Violated by the code: outputs (or data named as output) are emptied by failing runs, three options are ignored, joint_plot always ends with an error."
  },
  {
   "property": "C106",
   "status": "partial",
   "theorems": [
    "GW.Logging.C106_log_file",
    "GW.Logging.C106_file_name",
    "GW.Logging.C106_bad_level_refused",
    "GW.Logging.C106_nothing_lost",
    "GW.Logging.C106_default_level_violated"
   ],
   "note": "Everything holds except the documented default level: without GWKOKAB_LOG_LEVEL the code logs from TRACE up, not from WARNING."
  },
  {
   "property": "C107",
   "status": "partial",
   "theorems": [
    "GW.Rounding.C107_formats",
    "GW.Rounding.C107_exact",
    "GW.Rounding.C107_window",
    "GW.Rounding.C107_spins",
    "GW.Rounding.C107_chi_p",
    "GW.Rounding.C107_ratio",
    "GW.Rounding.C107_frames",
    "GW.Rounding.C107_sandwich",
    "GW.Rounding.C107_component_masses",
    "GW.Rounding.C107_logsubexp",
    "GW.Rounding.C107_eta_accuracy",
    "GW.Rounding.C107_eta_violated",
    "GW.Rounding.C107_sample_violated",
    "GW.Rounding.C107_truncnorm_violated"
   ],
   "note": "Proved for every format and rounding except three false parts: the symmetric mass ratio of equal masses can exceed 1/4 (C107_eta_violated; C107_eta_accuracy bounds by how much), power-law draws can leave the support (C107_sample_violated), and very wide truncated normals have log density +inf (C107_truncnorm_violated). Elementary functions are taken as correctly rounded."
  },
  {
   "property": "C108",
   "status": "partial",
   "theorems": [
    "GW.FlowInfo.C108_accepted_partial",
    "GW.FlowInfo.C108_missing",
    "GW.FlowInfo.C108_window_violated",
    "GW.FlowInfo.C108_loops",
    "GW.FlowInfo.C108_notes",
    "GW.FlowInfo.C108_dimensions",
    "GW.FlowInfo.C108_dimensions_of_run",
    "GW.FlowInfo.C108_suggestions"
   ],
   "note": "Proved for every accepted file that contains history_window; a file that leaves it to the sampler's default is accepted by the sampler and refused by the report (C108_window_violated)."
  },
  {
   "property": "C109",
   "status": "proved",
   "theorems": [
    "GW.RoundedAnalytic.C109_exact_monte_carlo",
    "GW.RoundedAnalytic.C109_monte_carlo",
    "GW.RoundedAnalytic.C109_exact_analytic",
    "GW.RoundedAnalytic.C109_analytic_posterior",
    "GW.RoundedLikelihood.C109_end_to_end",
    "GW.RoundedLikelihood.C109_end_to_end_numpyro",
    "GW.RoundedAnalytic.C109_error_overflow",
    "GW.RoundedLikelihood.C109_exact_joint",
    "GW.RoundedLikelihood.C109_joint",
    "GW.RoundedLikelihood.C109_components",
    "GW.RoundedLikelihood.C109_population",
    "GW.RoundedLikelihood.C109_exact",
    "GW.RoundedLikelihood.C109_exact_rate",
    "GW.RoundedLikelihood.C109_exact_mixture",
    "GW.RoundedLikelihood.C109_logsumexp",
    "GW.RoundedLikelihood.C109_logsumexp_accurate",
    "GW.RoundedLikelihood.C109_padding",
    "GW.RoundedLikelihood.C109_posterior",
    "GW.RoundedLikelihood.C109_numpyro",
    "GW.RoundedLikelihood.C109_impossible",
    "GW.RoundedLikelihood.C109_rate",
    "GW.RoundedLikelihood.C109_rate_accurate",
    "GW.RoundedLikelihood.C109_mixture",
    "GW.RoundedLikelihood.C109_mixture_accurate",
    "GW.RoundedLikelihood.C109_rate_end_to_end"
   ],
   "note": "For numbers of samples and events up to an eighth of 2^p (two million in single precision). As in C107 every operation, also exp and log, is taken to round to nearest. C109_posterior compares with the exact sum of the log weights that the floats hold, C109_end_to_end with the exact likelihood (Model/Likelihood) of an exact population model; C109_rate_end_to_end does the same for the expected number, C109_population for a mixture of joint distributions, C109_monte_carlo and C109_analytic_posterior for the analytic likelihood. Of the estimated Monte-Carlo error, which only decides how many batches are made, no accuracy is claimed in rounded arithmetic: C109_error_overflow shows that it is NaN for large weights."
  },
  {
   "property": "C110",
   "status": "partial",
   "theorems": [
    "GW.RoundedPowerLaw.C110_population",
    "GW.RoundedPowerLaw.C110_posterior",
    "GW.RoundedPowerLaw.C110_exact",
    "GW.RoundedPowerLaw.C110_normalisation",
    "GW.RoundedPowerLaw.C110_log_density",
    "GW.RoundedPowerLaw.C110_amplification",
    "GW.RoundedPowerLaw.C110_flat_violated",
    "GW.RoundedPowerLaw.C110_steep_violated",
    "GW.RoundedPowerLaw.C110_overflow_violated",
    "GW.RoundedPowerLaw.C110_expected_number",
    "GW.RoundedPowerLaw.C110_analysis",
    "GW.RoundedPowerLaw.C110_analysis_numpyro"
   ],
   "note": "False of the code next to a slope of -1 and for very steep slopes: C110_flat_violated (slope -1 + 2^-p, any bounds between 25 and 100: both powers round to the same number, log density +inf everywhere), C110_steep_violated (underflow, +inf), C110_overflow_violated (overflow, -inf). Proved: accuracy and finiteness for all slopes and bounds with in-range powers and 64 * amplification <= 2^p (C110_normalisation, C110_log_density), a bound of the amplification (C110_amplification), and agreement with the exact model when nothing is rounded (C110_exact). Whole populations: C110_population (log rate density of a mixture of power laws) and C110_posterior (log posterior, every operation rounded), C110_expected_number (expected number from injections) and C110_analysis (all of it together). Elementary functions are taken as correctly rounded."
  },
  {
   "property": "C111",
   "status": "proved",
   "theorems": [
    "GW.Robust.C111_mixture",
    "GW.Robust.C111_injections",
    "GW.Robust.C111_vt",
    "GW.Robust.C111_pdet",
    "GW.Robust.C111_flowMC",
    "GW.Robust.C111_numpyro",
    "GW.Robust.C111_posterior"
   ],
   "note": "Proved about the models of the analysis (Sage), of ScaledMixture and of the three expected-rate estimators over the extended reals; no bound is stated for the variances."
  }
 ]
}