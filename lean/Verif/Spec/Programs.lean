import Verif.Spec.CommandLine
import Verif.Model.Programs

/-! # What the options of each program are for -/

namespace GW.CliSpec
open GW.Cli

/-- The settings every analysis of discrete events takes. -/
def sageSettings : List String :=
  ["seed", "prior_filename", "poisson_mean_filename", "sampler_settings_filename", "variance_cut_threshold", "n_buckets", "threshold",
   "data_loader", "debug_nans", "profile_memory", "check_leaks"]

/-- The settings every analysis of Gaussian events takes (there is no variance cut for them). -/
def monkSettings : List String :=
  ["seed", "prior_filename", "poisson_mean_filename", "sampler_settings_filename", "data_filename", "n_samples", "minimum_mc_error",
   "n_checkpoints", "n_max_steps", "debug_nans", "profile_memory", "check_leaks"]

/-- The settings every generator takes. -/
def genieSettings : List String :=
  ["seed", "pmean_config", "model_json", "err_json", "num_realizations", "error_size", "tile_covariance"]

/-- The settings of each program besides the optional pieces of its model. -/
def settings : Prog → List String
  | .fSage | .nSage | .fSageO3 | .nSageO3 => "N_pl" :: "N_g" :: sageSettings
  | .fSageO4 | .nSageO4 => "N_bpl" :: "N_g" :: sageSettings
  | .fSageEcc | .nSageEcc => sageSettings
  | .monk => "N_pl" :: "N_g" :: monkSettings
  | .monkEcc => monkSettings
  | .genie | .genieEcc => genieSettings

/-- The options a program cannot do without. -/
def requiredOptions : Prog → List String
  | .monk | .monkEcc => ["--sampler-config", "--data-filename"]
  | .genie | .genieEcc => ["--model-json", "--err-json"]
  | _ => ["--data-loader-cfg", "--sampler-config"]

/-- What the programs print as the default of each of their other settings. -/
def documentedDefault : List (String × Val) :=
  [ ("--seed", .int 37), ("--pmean-json", .str "pmean.json"), ("--prior-json", .str "prior.json"), ("--variance-cut-threshold", .none),
    ("--n-buckets", .none), ("--threshold", .float (.rat 3)), ("--n-samples", .int 10000), ("--minimum-mc-error", .float (.rat (1 / 100))),
    ("--n-checkpoints", .int 5), ("--n-max-steps", .int 10), ("--error-size", .int 2000), ("--num-realizations", .int 5),
    ("--tile-covariance", .none), ("--debug-nans", .bool false), ("--profile-memory", .bool false), ("--check-leaks", .bool false) ]

/-- The settings that are whole numbers, numbers, names of files, switches and lists of names. -/
def wholeSettings : List String :=
  ["N_pl", "N_bpl", "N_g", "seed", "n_buckets", "n_samples", "n_checkpoints", "n_max_steps", "num_realizations", "error_size"]

@[inherit_doc wholeSettings]
def numberSettings : List String := ["variance_cut_threshold", "threshold", "minimum_mc_error"]

@[inherit_doc wholeSettings]
def fileSettings : List String :=
  ["prior_filename", "poisson_mean_filename", "pmean_config", "sampler_settings_filename", "data_loader", "data_filename", "model_json", "err_json"]

@[inherit_doc wholeSettings]
def switchSettings : List String := ["debug_nans", "profile_memory", "check_leaks"]

@[inherit_doc wholeSettings]
def listSettings : List String := ["tile_covariance"]

/-- The value is of the type of the setting; what may be left out may be `None`. -/
def HasType (kw : String) (v : Val) : Prop :=
  (kw ∈ wholeSettings ∧ (v = .none ∨ ∃ n, v = .int n)) ∨ (kw ∈ numberSettings ∧ (v = .none ∨ ∃ x, v = .float x)) ∨
  (kw ∈ fileSettings ∧ ∃ s, v = .str s) ∨ (kw ∈ switchSettings ∧ ∃ b, v = .bool b) ∨ (kw ∈ listSettings ∧ (v = .none ∨ ∃ l, v = .lists l))

end GW.CliSpec
