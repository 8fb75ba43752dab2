import Verif.Model.Argparse
import Verif.Model.Hybrids

/-!
# What a command line says

Independent of how argparse walks over the words: a command line is a sequence of options, each written as `--option`, `--option value`,
`--option=value` or `--option word word …`.
-/

namespace GW.CliSpec
open GW.Cli GW.Hybrids

/-- The option table makes sense: different names, each beginning with two dashes and without `=`, and more than one option. -/
def Sensible (opts : List Opt) : Prop :=
  (opts.map (·.name)).Nodup ∧ 2 ≤ opts.length ∧ ∀ o ∈ opts, "--".toList <+: o.name.toList ∧ '=' ∉ o.name.toList ∧ 2 < o.name.toList.length

instance (opts : List Opt) : Decidable (Sensible opts) := by unfold Sensible; infer_instance

/-- `s` names the option `o`: it is its name, or it is not the name of any option and is the beginning of the name of `o` and of no other. -/
def Names (opts : List Opt) (s : String) (o : Opt) : Prop :=
  o ∈ opts ∧ '=' ∉ s.toList ∧
    (s = o.name ∨
      "--".toList <+: s.toList ∧ (∀ o' ∈ opts, o'.name ≠ s) ∧ ∀ o' ∈ opts, s.toList <+: o'.name.toList ↔ o' = o)

/-- A negative number: a dash and digits, possibly with a decimal point followed by digits. -/
def NegativeNumber (w : String) : Prop :=
  ∃ a b : List Char, (∀ c ∈ a, c.isDigit) ∧ (∀ c ∈ b, c.isDigit) ∧ b ≠ [] ∧
    (w.toList = '-' :: b ∨ w.toList = '-' :: (a ++ '.' :: b))

/-- A word that can be the value of an option: it does not begin with a dash, or is a dash, a negative number, or contains a space and does
not look like an option. -/
def Plain (opts : List Opt) (w : String) : Prop :=
  w.toList.head? ≠ some '-' ∨ w = "-" ∨ NegativeNumber w ∨
    (' ' ∈ w.toList ∧ ¬ "-h".toList <+: w.toList ∧
      ∀ o ∈ opts, ¬ ("--".toList <+: w.toList ∧ w.toList.takeWhile (· ≠ '=') <+: o.name.toList))

/-- The option takes exactly one value. -/
def TakesOne (o : Opt) : Prop := o.action = .int ∨ o.action = .float ∨ o.action = .str

/-- The command line `argv` gives these options, in this order, with these words. -/
inductive Reads (opts : List Opt) : List String → List Item → Prop
  | nil : Reads opts [] []
  | flag {s o rest its} : Names opts s o → o.action = .flag → Reads opts rest its → Reads opts (s :: rest) ((o, []) :: its)
  | value {s o v rest its} : Names opts s o → TakesOne o → Plain opts v → Reads opts rest its →
      Reads opts (s :: v :: rest) ((o, [v]) :: its)
  | equals {s o v rest its} : Names opts s o → (TakesOne o ∨ o.action = .words) → Reads opts rest its →
      Reads opts ((s ++ "=" ++ v) :: rest) ((o, [v]) :: its)
  | list {s o vs rest its} : Names opts s o → o.action = .words → vs ≠ [] → (∀ v ∈ vs, Plain opts v) →
      (∀ w ∈ rest.head?, ¬ Plain opts w) → Reads opts rest its → Reads opts (s :: (vs ++ rest)) ((o, vs) :: its)

/-- Every value given converts to the type of its option. -/
def Convertible (cv : Conv) (its : List Item) : Prop :=
  ∀ i ∈ its, ∀ w, (i.1.action = .int → i.2 = [w] → ∃ n, cv.int w = some n) ∧ (i.1.action = .float → i.2 = [w] → ∃ x, cv.float w = some x)

/-- No two different options of one exclusive group are given. -/
def NoConflict (its : List Item) : Prop :=
  ∀ i ∈ its, ∀ j ∈ its, i.1.group ≠ none → i.1.group = j.1.group → i.1 = j.1

/-- Every required option is given. -/
def Complete (opts : List Opt) (its : List Item) : Prop := ∀ o ∈ opts, o.required = true → ∃ ws, (o, ws) ∈ its

/-- `v` is what option `o` amounts to: for a flag, whether it was given; for a list option, all the lists given, or the default; otherwise
the last value given, or the default. -/
def IsValue (cv : Conv) (its : List Item) (o : Opt) (v : Val) : Prop :=
  match o.action with
  | .help => False
  | .flag => ∃ b, v = .bool b ∧ (b = true ↔ ∃ ws, (o, ws) ∈ its)
  | .words => ((∀ ws, (o, ws) ∉ its) ∧ v = o.default) ∨
      ((∃ ws, (o, ws) ∈ its) ∧ v = .lists (its.filterMap fun i => if i.1 = o then some i.2 else none))
  | .int => ((∀ ws, (o, ws) ∉ its) ∧ v = o.default) ∨
      ∃ pre w post n, its = pre ++ (o, [w]) :: post ∧ (∀ ws, (o, ws) ∉ post) ∧ cv.int w = some n ∧ v = .int n
  | .float => ((∀ ws, (o, ws) ∉ its) ∧ v = o.default) ∨
      ∃ pre w post x, its = pre ++ (o, [w]) :: post ∧ (∀ ws, (o, ws) ∉ post) ∧ cv.float w = some x ∧ v = .float x
  | .str => ((∀ ws, (o, ws) ∉ its) ∧ v = o.default) ∨
      ∃ pre w post, its = pre ++ (o, [w]) :: post ∧ (∀ ws, (o, ws) ∉ post) ∧ v = .str w

/-- The option that asks for an optional piece of the population model. -/
def pieceOption : Flag → String
  | .betaSpin => "--add-beta-spin-magnitude" | .spinMixture => "--add-spin-magnitude-mixture"
  | .spinX => "--add-truncated-normal-spin-x" | .spinY => "--add-truncated-normal-spin-y" | .spinZ => "--add-truncated-normal-spin-z"
  | .chiEffMixture => "--add-chi-eff-mixture" | .chiEffSkew => "--add-skew-normal-chi-eff" | .chiP => "--add-truncated-normal-chi-p"
  | .tilt => "--add-tilt" | .eccentricity => "--add-eccentricity-mixture" | .redshift => "--add-redshift"
  | .cosIota => "--add-cos-iota" | .phi12 => "--add-phi-12" | .polarization => "--add-polarization-angle"
  | .rightAscension => "--add-right-ascension" | .sinDeclination => "--add-sin-declination"
  | .detectionTime => "--add-detection-time" | .phi1 => "--add-phi-1" | .phi2 => "--add-phi-2" | .phiOrb => "--add-phi-orb"
  | .meanAnomaly => "--add-mean-anomaly"

/-- The option for each other argument of an analysis or generator. -/
def settingOption : List (String × String) :=
  [ ("N_pl", "--n-pl"), ("N_bpl", "--n-bpl"), ("N_g", "--n-g"), ("seed", "--seed"), ("prior_filename", "--prior-json"),
    ("poisson_mean_filename", "--pmean-json"), ("pmean_config", "--pmean-json"), ("sampler_settings_filename", "--sampler-config"),
    ("variance_cut_threshold", "--variance-cut-threshold"), ("n_buckets", "--n-buckets"), ("threshold", "--threshold"),
    ("data_loader", "--data-loader-cfg"), ("data_filename", "--data-filename"), ("n_samples", "--n-samples"),
    ("minimum_mc_error", "--minimum-mc-error"), ("n_checkpoints", "--n-checkpoints"), ("n_max_steps", "--n-max-steps"),
    ("debug_nans", "--debug-nans"), ("profile_memory", "--profile-memory"), ("check_leaks", "--check-leaks"),
    ("model_json", "--model-json"), ("err_json", "--err-json"), ("num_realizations", "--num-realizations"),
    ("error_size", "--error-size"), ("tile_covariance", "--tile-covariance") ]


end GW.CliSpec
