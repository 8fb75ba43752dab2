import Verif.Model.Argparse
import Verif.Model.HybridAnalyses

/-!
# The programs of the package

Model of the option tables and of the constructor calls of the programs installed by `/repo/pyproject.toml`, lines 128–143: which option
ends up in which argument of the analysis.  Help texts are left out.
-/

namespace GW.Cli
open GW.Hybrids

/-- The option every argparse parser has, `ArgumentParser(formatter_class=…)`, gwkanal/n_pls_m_gs/sage.py:658. -/
def helpOpt : Opt := { name := "--help", action := .help }

/-- `guru_arg_parser` (also `flowMC_arg_parser` and `numpyro_arg_parser`), gwkanal/core/guru.py:417–475. -/
def guruOpts : List Opt :=
  [ { name := "--seed", action := .int, default := .int 37 },
    { name := "--pmean-json", action := .str, default := .str "pmean.json" },
    { name := "--sampler-config", action := .str, required := true },
    { name := "--variance-cut-threshold", action := .float },
    { name := "--prior-json", action := .str, default := .str "prior.json" },
    { name := "--debug-nans", action := .flag },
    { name := "--profile-memory", action := .flag },
    { name := "--check-leaks", action := .flag } ]

/-- `sage_arg_parser`, gwkanal/core/sage.py:293–313. -/
def sageOpts : List Opt :=
  [ { name := "--data-loader-cfg", action := .str, required := true },
    { name := "--n-buckets", action := .int },
    { name := "--threshold", action := .float, default := .float (.rat 3) } ]

/-- The options `monk_arg_parser` adds to those of `guru_arg_parser`, gwkanal/core/monk.py:217–249. -/
def monkOpts : List Opt :=
  [ { name := "--data-filename", action := .str, required := true },
    { name := "--n-samples", action := .int, default := .int 10000 },
    { name := "--minimum-mc-error", action := .float, default := .float (.rat (1 / 100)) },
    { name := "--n-checkpoints", action := .int, default := .int 5 },
    { name := "--n-max-steps", action := .int, default := .int 10 } ]

/-- `genie_parser.get_parser`, gwkanal/utils/genie_parser.py:30–68. -/
def genieOpts : List Opt :=
  [ { name := "--error-size", action := .int, default := .int 2000 },
    { name := "--num-realizations", action := .int, default := .int 5 },
    { name := "--seed", action := .int, default := .int 37 },
    { name := "--pmean-json", action := .str, default := .str "pmean.json" },
    { name := "--tile-covariance", action := .words } ]

/-- `model_arg_parser`, gwkanal/n_pls_m_gs/sage.py:551–651. -/
def nPlsOpts : List Opt :=
  [ { name := "--n-pl", action := .int },
    { name := "--n-g", action := .int },
    { name := "--add-beta-spin-magnitude", action := .flag, group := some 1 },
    { name := "--add-spin-magnitude-mixture", action := .flag, group := some 1 },
    { name := "--add-truncated-normal-spin-x", action := .flag },
    { name := "--add-truncated-normal-spin-y", action := .flag },
    { name := "--add-truncated-normal-spin-z", action := .flag },
    { name := "--add-chi-eff-mixture", action := .flag, group := some 2 },
    { name := "--add-skew-normal-chi-eff", action := .flag, group := some 2 },
    { name := "--add-truncated-normal-chi-p", action := .flag },
    { name := "--add-tilt", action := .flag },
    { name := "--add-redshift", action := .flag },
    { name := "--add-eccentricity-mixture", action := .flag },
    { name := "--add-cos-iota", action := .flag },
    { name := "--add-phi-12", action := .flag },
    { name := "--add-polarization-angle", action := .flag },
    { name := "--add-right-ascension", action := .flag },
    { name := "--add-sin-declination", action := .flag },
    { name := "--add-detection-time", action := .flag } ]

/-- The model options of `main`, gwkanal/n_pls_m_gs/monk.py:475–575. -/
def nPlsMonkOpts : List Opt :=
  [ { name := "--n-pl", action := .int },
    { name := "--n-g", action := .int },
    { name := "--add-beta-spin-magnitude", action := .flag, group := some 1 },
    { name := "--add-spin-magnitude-mixture", action := .flag, group := some 1 },
    { name := "--add-truncated-normal-spin-x", action := .flag },
    { name := "--add-truncated-normal-spin-y", action := .flag },
    { name := "--add-truncated-normal-spin-z", action := .flag },
    { name := "--add-chi-eff-mixture", action := .flag, group := some 2 },
    { name := "--add-skew-normal-chi-eff", action := .flag, group := some 2 },
    { name := "--add-truncated-normal-chi-p", action := .flag },
    { name := "--add-tilt", action := .flag },
    { name := "--add-redshift", action := .flag },
    { name := "--add-eccentricity-mixture", action := .flag },
    { name := "--add-cos-iota", action := .flag },
    { name := "--add-phi-12", action := .flag },
    { name := "--add-polarization-angle", action := .flag },
    { name := "--add-right-ascension", action := .flag },
    { name := "--add-sin-declination", action := .flag },
    { name := "--add-detection-time", action := .flag } ]

/-- The options `make_parser` adds to those of `genie_parser.get_parser`, gwkanal/n_pls_m_gs/genie.py:31–155. -/
def nPlsGenieOpts : List Opt :=
  [ { name := "--model-json", action := .str, required := true },
    { name := "--add-beta-spin-magnitude", action := .flag, group := some 1 },
    { name := "--add-spin-magnitude-mixture", action := .flag, group := some 1 },
    { name := "--add-truncated-normal-spin-x", action := .flag },
    { name := "--add-truncated-normal-spin-y", action := .flag },
    { name := "--add-truncated-normal-spin-z", action := .flag },
    { name := "--add-chi-eff-mixture", action := .flag, group := some 2 },
    { name := "--add-skew-normal-chi-eff", action := .flag, group := some 2 },
    { name := "--add-truncated-normal-chi-p", action := .flag },
    { name := "--add-tilt", action := .flag },
    { name := "--add-eccentricity-mixture", action := .flag },
    { name := "--add-mean-anomaly", action := .flag },
    { name := "--add-redshift", action := .flag },
    { name := "--add-cos-iota", action := .flag },
    { name := "--add-polarization-angle", action := .flag },
    { name := "--add-right-ascension", action := .flag },
    { name := "--add-sin-declination", action := .flag },
    { name := "--add-detection-time", action := .flag },
    { name := "--add-phi-1", action := .flag },
    { name := "--add-phi-2", action := .flag },
    { name := "--add-phi-12", action := .flag },
    { name := "--add-phi-orb", action := .flag },
    { name := "--err-json", action := .str, required := true } ]

/-- `model_arg_parser`, gwkanal/o3_n_pls_m_gs/sage.py:345–399. -/
def o3Opts : List Opt :=
  [ { name := "--n-pl", action := .int },
    { name := "--n-g", action := .int },
    { name := "--add-beta-spin-magnitude", action := .flag, group := some 1 },
    { name := "--add-spin-magnitude-mixture", action := .flag, group := some 1 },
    { name := "--add-chi-eff-mixture", action := .flag, group := some 2 },
    { name := "--add-skew-normal-chi-eff", action := .flag, group := some 2 },
    { name := "--add-truncated-normal-chi-p", action := .flag },
    { name := "--add-tilt", action := .flag },
    { name := "--add-eccentricity-mixture", action := .flag },
    { name := "--add-redshift", action := .flag } ]

/-- `model_arg_parser`, gwkanal/o4_n_bpls_m_gs/sage.py:349–403. -/
def o4Opts : List Opt :=
  [ { name := "--n-bpl", action := .int },
    { name := "--n-g", action := .int },
    { name := "--add-beta-spin-magnitude", action := .flag, group := some 1 },
    { name := "--add-spin-magnitude-mixture", action := .flag, group := some 1 },
    { name := "--add-chi-eff-mixture", action := .flag, group := some 2 },
    { name := "--add-skew-normal-chi-eff", action := .flag, group := some 2 },
    { name := "--add-truncated-normal-chi-p", action := .flag },
    { name := "--add-tilt", action := .flag },
    { name := "--add-eccentricity-mixture", action := .flag },
    { name := "--add-redshift", action := .flag } ]

/-- The options `make_parser` adds to those of `genie_parser.get_parser`, gwkanal/ecc_matters/genie.py:41–54. -/
def eccGenieOpts : List Opt :=
  [ { name := "--model-json", action := .str, required := true },
    { name := "--err-json", action := .str, required := true } ]

/-- The programs, pyproject.toml:128–143. -/
inductive Prog
  | fSage | nSage | fSageO3 | nSageO3 | fSageO4 | nSageO4 | fSageEcc | nSageEcc | monk | monkEcc | genie | genieEcc
  deriving DecidableEq

/-- The parser each program builds: n_pls_m_gs/sage.py:658–661 and 705–708, o3_n_pls_m_gs/sage.py:407–410 and 450–453,
o4_n_bpls_m_gs/sage.py:411–414 and 452–455, ecc_matters/sage.py:41–43 and 71–73, n_pls_m_gs/monk.py:471–575, ecc_matters/monk.py:25–26,
n_pls_m_gs/genie.py:25–157, ecc_matters/genie.py:24–56. -/
def opts : Prog → List Opt
  | .fSage => helpOpt :: (nPlsOpts ++ sageOpts ++ guruOpts)
  | .nSage => helpOpt :: (nPlsOpts ++ sageOpts ++ guruOpts)
  | .fSageO3 => helpOpt :: (o3Opts ++ sageOpts ++ guruOpts)
  | .nSageO3 => helpOpt :: (o3Opts ++ sageOpts ++ guruOpts)
  | .fSageO4 => helpOpt :: (o4Opts ++ sageOpts ++ guruOpts)
  | .nSageO4 => helpOpt :: (o4Opts ++ sageOpts ++ guruOpts)
  | .fSageEcc => helpOpt :: (sageOpts ++ guruOpts)
  | .nSageEcc => helpOpt :: (sageOpts ++ guruOpts)
  | .monk => helpOpt :: (guruOpts ++ monkOpts ++ nPlsMonkOpts)
  | .monkEcc => helpOpt :: (guruOpts ++ monkOpts)
  | .genie => helpOpt :: (genieOpts ++ nPlsGenieOpts)
  | .genieEcc => helpOpt :: (genieOpts ++ eccGenieOpts)

/-- The keyword arguments of the constructor and the attribute of `args` each one gets; the data loader is built from `args.data_loader_cfg` (line 667), gwkanal/n_pls_m_gs/sage.py:669–701. -/
def fSageCall : List (String × String) :=
  [
    ("data_loader", "data_loader_cfg"), ("N_pl", "n_pl"), ("N_g", "n_g"), ("has_beta_spin_magnitude", "add_beta_spin_magnitude"),
    ("use_spin_magnitude_mixture", "add_spin_magnitude_mixture"), ("has_truncated_normal_spin_x", "add_truncated_normal_spin_x"),
    ("has_truncated_normal_spin_y", "add_truncated_normal_spin_y"), ("has_truncated_normal_spin_z", "add_truncated_normal_spin_z"),
    ("use_chi_eff_mixture", "add_chi_eff_mixture"), ("use_skew_normal_chi_eff", "add_skew_normal_chi_eff"),
    ("use_truncated_normal_chi_p", "add_truncated_normal_chi_p"), ("has_tilt", "add_tilt"),
    ("use_eccentricity_mixture", "add_eccentricity_mixture"), ("has_redshift", "add_redshift"), ("has_cos_iota", "add_cos_iota"),
    ("has_phi_12", "add_phi_12"), ("has_polarization_angle", "add_polarization_angle"), ("has_right_ascension", "add_right_ascension"),
    ("has_sin_declination", "add_sin_declination"), ("has_detection_time", "add_detection_time"), ("seed", "seed"),
    ("prior_filename", "prior_json"), ("poisson_mean_filename", "pmean_json"), ("sampler_settings_filename", "sampler_config"),
    ("variance_cut_threshold", "variance_cut_threshold"), ("n_buckets", "n_buckets"), ("threshold", "threshold"),
    ("debug_nans", "debug_nans"), ("profile_memory", "profile_memory"), ("check_leaks", "check_leaks") ]

/-- The keyword arguments of the constructor and the attribute of `args` each one gets; the data loader is built from `args.data_loader_cfg` (line 714), gwkanal/n_pls_m_gs/sage.py:716–748. -/
def nSageCall : List (String × String) :=
  [
    ("data_loader", "data_loader_cfg"), ("N_pl", "n_pl"), ("N_g", "n_g"), ("has_beta_spin_magnitude", "add_beta_spin_magnitude"),
    ("use_spin_magnitude_mixture", "add_spin_magnitude_mixture"), ("has_truncated_normal_spin_x", "add_truncated_normal_spin_x"),
    ("has_truncated_normal_spin_y", "add_truncated_normal_spin_y"), ("has_truncated_normal_spin_z", "add_truncated_normal_spin_z"),
    ("use_chi_eff_mixture", "add_chi_eff_mixture"), ("use_skew_normal_chi_eff", "add_skew_normal_chi_eff"),
    ("use_truncated_normal_chi_p", "add_truncated_normal_chi_p"), ("has_tilt", "add_tilt"),
    ("use_eccentricity_mixture", "add_eccentricity_mixture"), ("has_redshift", "add_redshift"), ("has_cos_iota", "add_cos_iota"),
    ("has_phi_12", "add_phi_12"), ("has_polarization_angle", "add_polarization_angle"), ("has_right_ascension", "add_right_ascension"),
    ("has_sin_declination", "add_sin_declination"), ("has_detection_time", "add_detection_time"), ("seed", "seed"),
    ("prior_filename", "prior_json"), ("poisson_mean_filename", "pmean_json"), ("sampler_settings_filename", "sampler_config"),
    ("variance_cut_threshold", "variance_cut_threshold"), ("n_buckets", "n_buckets"), ("threshold", "threshold"),
    ("debug_nans", "debug_nans"), ("profile_memory", "profile_memory"), ("check_leaks", "check_leaks") ]

/-- The keyword arguments of the constructor and the attribute of `args` each one gets; the data loader is built from `args.data_loader_cfg` (line 416), gwkanal/o3_n_pls_m_gs/sage.py:423–446. -/
def fSageO3Call : List (String × String) :=
  [
    ("data_loader", "data_loader_cfg"), ("N_pl", "n_pl"), ("N_g", "n_g"), ("use_beta_spin_magnitude", "add_beta_spin_magnitude"),
    ("use_spin_magnitude_mixture", "add_spin_magnitude_mixture"), ("use_chi_eff_mixture", "add_chi_eff_mixture"),
    ("use_skew_normal_chi_eff", "add_skew_normal_chi_eff"), ("use_truncated_normal_chi_p", "add_truncated_normal_chi_p"),
    ("use_tilt", "add_tilt"), ("use_eccentricity_mixture", "add_eccentricity_mixture"), ("use_redshift", "add_redshift"), ("seed", "seed"),
    ("prior_filename", "prior_json"), ("poisson_mean_filename", "pmean_json"), ("sampler_settings_filename", "sampler_config"),
    ("variance_cut_threshold", "variance_cut_threshold"), ("n_buckets", "n_buckets"), ("threshold", "threshold"),
    ("debug_nans", "debug_nans"), ("profile_memory", "profile_memory"), ("check_leaks", "check_leaks") ]

/-- The keyword arguments of the constructor and the attribute of `args` each one gets; the data loader is built from `args.data_loader_cfg` (line 459), gwkanal/o3_n_pls_m_gs/sage.py:466–489. -/
def nSageO3Call : List (String × String) :=
  [
    ("data_loader", "data_loader_cfg"), ("N_pl", "n_pl"), ("N_g", "n_g"), ("use_beta_spin_magnitude", "add_beta_spin_magnitude"),
    ("use_spin_magnitude_mixture", "add_spin_magnitude_mixture"), ("use_chi_eff_mixture", "add_chi_eff_mixture"),
    ("use_skew_normal_chi_eff", "add_skew_normal_chi_eff"), ("use_truncated_normal_chi_p", "add_truncated_normal_chi_p"),
    ("use_tilt", "add_tilt"), ("use_eccentricity_mixture", "add_eccentricity_mixture"), ("use_redshift", "add_redshift"), ("seed", "seed"),
    ("prior_filename", "prior_json"), ("poisson_mean_filename", "pmean_json"), ("sampler_settings_filename", "sampler_config"),
    ("variance_cut_threshold", "variance_cut_threshold"), ("n_buckets", "n_buckets"), ("threshold", "threshold"),
    ("debug_nans", "debug_nans"), ("profile_memory", "profile_memory"), ("check_leaks", "check_leaks") ]

/-- The keyword arguments of the constructor and the attribute of `args` each one gets; the data loader is built from `args.data_loader_cfg` (line 420), gwkanal/o4_n_bpls_m_gs/sage.py:425–448. -/
def fSageO4Call : List (String × String) :=
  [
    ("data_loader", "data_loader_cfg"), ("N_bpl", "n_bpl"), ("N_g", "n_g"), ("use_beta_spin_magnitude", "add_beta_spin_magnitude"),
    ("use_spin_magnitude_mixture", "add_spin_magnitude_mixture"), ("use_chi_eff_mixture", "add_chi_eff_mixture"),
    ("use_skew_normal_chi_eff", "add_skew_normal_chi_eff"), ("use_truncated_normal_chi_p", "add_truncated_normal_chi_p"),
    ("use_tilt", "add_tilt"), ("use_eccentricity_mixture", "add_eccentricity_mixture"), ("use_redshift", "add_redshift"), ("seed", "seed"),
    ("prior_filename", "prior_json"), ("poisson_mean_filename", "pmean_json"), ("sampler_settings_filename", "sampler_config"),
    ("variance_cut_threshold", "variance_cut_threshold"), ("n_buckets", "n_buckets"), ("threshold", "threshold"),
    ("debug_nans", "debug_nans"), ("profile_memory", "profile_memory"), ("check_leaks", "check_leaks") ]

/-- The keyword arguments of the constructor and the attribute of `args` each one gets; the data loader is built from `args.data_loader_cfg` (line 461), gwkanal/o4_n_bpls_m_gs/sage.py:466–489. -/
def nSageO4Call : List (String × String) :=
  [
    ("data_loader", "data_loader_cfg"), ("N_bpl", "n_bpl"), ("N_g", "n_g"), ("use_beta_spin_magnitude", "add_beta_spin_magnitude"),
    ("use_spin_magnitude_mixture", "add_spin_magnitude_mixture"), ("use_chi_eff_mixture", "add_chi_eff_mixture"),
    ("use_skew_normal_chi_eff", "add_skew_normal_chi_eff"), ("use_truncated_normal_chi_p", "add_truncated_normal_chi_p"),
    ("use_tilt", "add_tilt"), ("use_eccentricity_mixture", "add_eccentricity_mixture"), ("use_redshift", "add_redshift"), ("seed", "seed"),
    ("prior_filename", "prior_json"), ("poisson_mean_filename", "pmean_json"), ("sampler_settings_filename", "sampler_config"),
    ("variance_cut_threshold", "variance_cut_threshold"), ("n_buckets", "n_buckets"), ("threshold", "threshold"),
    ("debug_nans", "debug_nans"), ("profile_memory", "profile_memory"), ("check_leaks", "check_leaks") ]

/-- The keyword arguments of the constructor and the attribute of `args` each one gets; the data loader is built from `args.data_loader_cfg` (line 49), gwkanal/ecc_matters/sage.py:51–67. -/
def fSageEccCall : List (String × String) :=
  [
    ("data_loader", "data_loader_cfg"), ("seed", "seed"), ("prior_filename", "prior_json"), ("poisson_mean_filename", "pmean_json"),
    ("sampler_settings_filename", "sampler_config"), ("variance_cut_threshold", "variance_cut_threshold"), ("n_buckets", "n_buckets"),
    ("threshold", "threshold"), ("debug_nans", "debug_nans"), ("profile_memory", "profile_memory"), ("check_leaks", "check_leaks") ]

/-- The keyword arguments of the constructor and the attribute of `args` each one gets; the data loader is built from `args.data_loader_cfg` (line 79), gwkanal/ecc_matters/sage.py:81–97. -/
def nSageEccCall : List (String × String) :=
  [
    ("data_loader", "data_loader_cfg"), ("seed", "seed"), ("prior_filename", "prior_json"), ("poisson_mean_filename", "pmean_json"),
    ("sampler_settings_filename", "sampler_config"), ("variance_cut_threshold", "variance_cut_threshold"), ("n_buckets", "n_buckets"),
    ("threshold", "threshold"), ("debug_nans", "debug_nans"), ("profile_memory", "profile_memory"), ("check_leaks", "check_leaks") ]

/-- The keyword arguments of the constructor and the attribute of `args` each one gets, gwkanal/n_pls_m_gs/monk.py:581–613. -/
def monkCall : List (String × String) :=
  [
    ("N_pl", "n_pl"), ("N_g", "n_g"), ("has_beta_spin_magnitude", "add_beta_spin_magnitude"),
    ("use_spin_magnitude_mixture", "add_spin_magnitude_mixture"), ("has_truncated_normal_spin_x", "add_truncated_normal_spin_x"),
    ("has_truncated_normal_spin_y", "add_truncated_normal_spin_y"), ("has_truncated_normal_spin_z", "add_truncated_normal_spin_z"),
    ("use_chi_eff_mixture", "add_chi_eff_mixture"), ("use_skew_normal_chi_eff", "add_skew_normal_chi_eff"),
    ("use_truncated_normal_chi_p", "add_truncated_normal_chi_p"), ("has_tilt", "add_tilt"),
    ("use_eccentricity_mixture", "add_eccentricity_mixture"), ("has_redshift", "add_redshift"), ("has_cos_iota", "add_cos_iota"),
    ("has_phi_12", "add_phi_12"), ("has_polarization_angle", "add_polarization_angle"), ("has_right_ascension", "add_right_ascension"),
    ("has_sin_declination", "add_sin_declination"), ("has_detection_time", "add_detection_time"), ("data_filename", "data_filename"),
    ("seed", "seed"), ("prior_filename", "prior_json"), ("poisson_mean_filename", "pmean_json"),
    ("sampler_settings_filename", "sampler_config"), ("n_samples", "n_samples"), ("minimum_mc_error", "minimum_mc_error"),
    ("n_checkpoints", "n_checkpoints"), ("n_max_steps", "n_max_steps"), ("debug_nans", "debug_nans"), ("profile_memory", "profile_memory"),
    ("check_leaks", "check_leaks") ]

/-- The keyword arguments of the constructor and the attribute of `args` each one gets, gwkanal/ecc_matters/monk.py:32–47. -/
def monkEccCall : List (String × String) :=
  [
    ("data_filename", "data_filename"), ("seed", "seed"), ("prior_filename", "prior_json"), ("poisson_mean_filename", "pmean_json"),
    ("sampler_settings_filename", "sampler_config"), ("debug_nans", "debug_nans"), ("profile_memory", "profile_memory"),
    ("check_leaks", "check_leaks"), ("n_samples", "n_samples"), ("minimum_mc_error", "minimum_mc_error"), ("n_checkpoints", "n_checkpoints"),
    ("n_max_steps", "n_max_steps") ]

/-- The local variables of `main` set from `args` (lines 167–196, 1087–1090) and the keyword arguments of the factory, gwkanal/n_pls_m_gs/genie.py:1097–1106. -/
def genieCall : List (String × String) :=
  [
    ("model_json", "model_json"), ("err_json", "err_json"), ("seed", "seed"), ("pmean_config", "pmean_json"),
    ("has_beta_spin_magnitude", "add_beta_spin_magnitude"), ("has_spin_magnitude_mixture", "add_spin_magnitude_mixture"),
    ("has_truncated_normal_spin_x", "add_truncated_normal_spin_x"), ("has_truncated_normal_spin_y", "add_truncated_normal_spin_y"),
    ("has_truncated_normal_spin_z", "add_truncated_normal_spin_z"), ("has_chi_eff_mixture", "add_chi_eff_mixture"),
    ("use_skew_normal_chi_eff", "add_skew_normal_chi_eff"), ("has_truncated_normal_chi_p", "add_truncated_normal_chi_p"),
    ("has_tilt", "add_tilt"), ("use_eccentricity_mixture", "add_eccentricity_mixture"), ("has_mean_anomaly", "add_mean_anomaly"),
    ("has_redshift", "add_redshift"), ("has_cos_iota", "add_cos_iota"), ("has_polarization_angle", "add_polarization_angle"),
    ("has_right_ascension", "add_right_ascension"), ("has_sin_declination", "add_sin_declination"),
    ("has_detection_time", "add_detection_time"), ("has_phi_1", "add_phi_1"), ("has_phi_2", "add_phi_2"), ("has_phi_12", "add_phi_12"),
    ("has_phi_orb", "add_phi_orb"), ("num_realizations", "num_realizations"), ("error_size", "error_size"),
    ("tile_covariance", "tile_covariance") ]

/-- The files and the seed `main` reads from `args` (lines 66–70, 117–121) and the keyword arguments of the factory, gwkanal/ecc_matters/genie.py:128–137. -/
def genieEccCall : List (String × String) :=
  [
    ("model_json", "model_json"), ("err_json", "err_json"), ("seed", "seed"), ("pmean_config", "pmean_json"),
    ("num_realizations", "num_realizations"), ("error_size", "error_size"), ("tile_covariance", "tile_covariance") ]

/-- The call each program makes. Source: the twelve `main` functions cited at the tables above (gwkanal/n_pls_m_gs/sage.py:669–748,
gwkanal/o3_n_pls_m_gs/sage.py:423–489, gwkanal/o4_n_bpls_m_gs/sage.py:425–489, gwkanal/ecc_matters/sage.py:51–97,
gwkanal/n_pls_m_gs/monk.py:581–613, gwkanal/ecc_matters/monk.py:32–47, gwkanal/n_pls_m_gs/genie.py:160–1106,
gwkanal/ecc_matters/genie.py:59–137). -/
def call : Prog → List (String × String)
  | .fSage => fSageCall | .nSage => nSageCall | .fSageO3 => fSageO3Call | .nSageO3 => nSageO3Call | .fSageO4 => fSageO4Call
  | .nSageO4 => nSageO4Call | .fSageEcc => fSageEccCall | .nSageEcc => nSageEccCall | .monk => monkCall | .monkEcc => monkEccCall
  | .genie => genieCall | .genieEcc => genieEccCall

/-- The argument (for the generator: the local variable) that switches an optional piece of the model on; `none` if the program has no such
piece.  n_pls_m_gs/sage.py:111–129 and 159–179, n_pls_m_gs/monk.py:46–64 and 88–108, n_pls_m_gs/genie.py:176–196,
o3_n_pls_m_gs/sage.py:99–106 and 128–137, o4_n_bpls_m_gs/sage.py:99–106 and 128–137. -/
def switch : Prog → Flag → Option String
  | .fSage, f | .nSage, f | .monk, f => match f with
    | .betaSpin => some "has_beta_spin_magnitude" | .spinMixture => some "use_spin_magnitude_mixture"
    | .spinX => some "has_truncated_normal_spin_x" | .spinY => some "has_truncated_normal_spin_y"
    | .spinZ => some "has_truncated_normal_spin_z" | .chiEffMixture => some "use_chi_eff_mixture"
    | .chiEffSkew => some "use_skew_normal_chi_eff" | .chiP => some "use_truncated_normal_chi_p" | .tilt => some "has_tilt"
    | .eccentricity => some "use_eccentricity_mixture" | .redshift => some "has_redshift" | .cosIota => some "has_cos_iota"
    | .phi12 => some "has_phi_12" | .polarization => some "has_polarization_angle" | .rightAscension => some "has_right_ascension"
    | .sinDeclination => some "has_sin_declination" | .detectionTime => some "has_detection_time" | _ => none
  | .fSageO3, f | .nSageO3, f | .fSageO4, f | .nSageO4, f => match f with
    | .betaSpin => some "use_beta_spin_magnitude" | .spinMixture => some "use_spin_magnitude_mixture"
    | .chiEffMixture => some "use_chi_eff_mixture" | .chiEffSkew => some "use_skew_normal_chi_eff"
    | .chiP => some "use_truncated_normal_chi_p" | .tilt => some "use_tilt" | .eccentricity => some "use_eccentricity_mixture"
    | .redshift => some "use_redshift" | _ => none
  | .genie, f => match f with
    | .betaSpin => some "has_beta_spin_magnitude" | .spinMixture => some "has_spin_magnitude_mixture"
    | .spinX => some "has_truncated_normal_spin_x" | .spinY => some "has_truncated_normal_spin_y"
    | .spinZ => some "has_truncated_normal_spin_z" | .chiEffMixture => some "has_chi_eff_mixture"
    | .chiEffSkew => some "use_skew_normal_chi_eff" | .chiP => some "has_truncated_normal_chi_p" | .tilt => some "has_tilt"
    | .eccentricity => some "use_eccentricity_mixture" | .meanAnomaly => some "has_mean_anomaly" | .redshift => some "has_redshift"
    | .cosIota => some "has_cos_iota" | .polarization => some "has_polarization_angle" | .rightAscension => some "has_right_ascension"
    | .sinDeclination => some "has_sin_declination" | .detectionTime => some "has_detection_time" | .phi1 => some "has_phi_1"
    | .phi2 => some "has_phi_2" | .phi12 => some "has_phi_12" | .phiOrb => some "has_phi_orb"
  | .fSageEcc, _ | .nSageEcc, _ | .monkEcc, _ | .genieEcc, _ => none

/-- The arguments the analysis object of a program is built with: `none` when the program stops at its command line.  The argument is
looked up by keyword; `none` inside is an argument the program does not set from the command line, or an attribute `args` does not have.
gwkanal/n_pls_m_gs/sage.py:655–701. -/
def start (p : Prog) (cv : Conv) (argv : List String) : Option (String → Option Val) :=
  (parse (opts p) cv argv).map fun its kw => ((call p).find? (fun e => e.1 = kw)).bind fun e => attr (opts p) cv its e.2

/-- Whether the analysis has an optional piece: its switch is `True`.  gwkanal/n_pls_m_gs/sage.py:182–219. -/
def pieces (p : Prog) (a : String → Option Val) (f : Flag) : Bool :=
  match switch p f with
  | some kw => a kw = some (.bool true)
  | none => false

/-- The columns a program reads from the events (for the generator: writes), gwkanal/n_pls_m_gs/sage.py:182–219,
gwkanal/n_pls_m_gs/monk.py:111–148, gwkanal/n_pls_m_gs/genie.py:383–1030, gwkanal/o3_n_pls_m_gs/sage.py:141–158,
gwkanal/o4_n_bpls_m_gs/sage.py:141–158, gwkanal/ecc_matters/sage.py:20–23, gwkanal/ecc_matters/monk.py:14–17,
gwkanal/ecc_matters/genie.py:108–112. -/
def columns (p : Prog) (a : String → Option Val) : List String :=
  match p with
  | .fSage | .nSage | .monk => sageColumns (pieces p a)
  | .fSageO3 | .nSageO3 | .fSageO4 | .nSageO4 => smoothedColumns (pieces p a)
  | .genie => genieColumns (pieces p a)
  | .fSageEcc | .nSageEcc | .monkEcc | .genieEcc => ["mass_1_source", "mass_2_source", "eccentricity"]

end GW.Cli
