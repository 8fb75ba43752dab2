import Verif.Model.SamplerConfig

/-!
# Specification for the flowMC settings file (C66)

What the documentation asks of the settings, written down without the validation code.
-/

namespace GW.Settings.Spec
open GW.PyDict GW.Settings

/-- The settings that are counts: they have to be at least one. -/
def counts : List String :=
  ["batch_size", "global_thinning", "local_thinning", "n_leapfrog", "n_chains", "n_epochs", "n_global_steps", "n_local_steps", "n_max_examples", "history_window",
    "n_NFproposal_batch_size", "n_production_loops", "n_training_loops", "rq_spline_n_bins", "rq_spline_n_layers"]

/-- The settings that may be left out, and what they are then. -/
def fallback : String → Option JV
  | "local_sampler_name" => some (.atom (.str "mala"))
  | "mass_matrix" => some (.atom (.float 1))
  | "n_leapfrog" => some (.atom (.int 10))
  | "history_window" => some (.atom (.int 100))
  | "rq_spline_range" => some (.list [.atom (.float (-10)), .atom (.float 10)])
  | _ => none

/-- The value of a setting: that of the file or the default. -/
def Given (cfg : Cfg) (name : String) (v : JV) : Prop := get? cfg name = some v ∨ get? cfg name = none ∧ fallback name = some v

/-- An integer; Python's `True` and `False` are the integers one and zero. -/
inductive IsInt : Atom → Int → Prop
  | int (n : Int) : IsInt (.int n) n
  | true : IsInt (.bool true) 1
  | false : IsInt (.bool false) 0

/-- A number. -/
inductive IsNum : Atom → ℝ → Prop
  | int {a : Atom} {n : Int} (h : IsInt a n) : IsNum a n
  | float (x : ℝ) : IsNum (.float x) x

/-- The mass matrix that a setting stands for, in `n` dimensions: a positive multiple of the identity, a diagonal of positive numbers, or a matrix with a positive
quadratic form.  A string stands for itself. -/
inductive MassOf (n : ℕ) : JV → Mass n → Prop
  | scalar {a : Atom} {m : ℝ} (ha : IsNum a m) (hm : 0 < m) : MassOf n (.atom a) (.matrix (fun i j => if i = j then m else 0))
  | diagonal {as : List Atom} {d : Fin n → ℝ} (hl : as.length = n) (hd : ∀ i : Fin n, ∃ a, as[i.1]? = some a ∧ IsNum a (d i)) (hp : ∀ i, 0 < d i) :
      MassOf n (.list (as.map .atom)) (.matrix (fun i j => if i = j then d i else 0))
  | full {rows : List (List Atom)} {M : Matrix (Fin n) (Fin n) ℝ} (hl : rows.length = n) (hn : 0 < n) (hr : ∀ r ∈ rows, r.length = n)
      (hM : ∀ i j : Fin n, ∃ r a, rows[i.1]? = some r ∧ r[j.1]? = some a ∧ IsNum a (M i j)) (hp : ∀ x : Fin n → ℝ, x ≠ 0 → 0 < ∑ i, ∑ j, x i * M i j * x j) :
      MassOf n (.list (rows.map .row)) (.matrix M)
  | string (s : String) : MassOf n (.atom (.str s)) (.other (.atom (.str s)))

/-- The string `s` is the name `t`, up to white space around it and the case of its letters. -/
def Spells (s t : String) : Prop :=
  ∃ before core after : List Char, s.toList = before ++ core ++ after ∧ (∀ c ∈ before ++ after, c.isWhitespace = true) ∧ core.map Char.toLower = t.toList

/-- The settings are fit for use in `n` dimensions. -/
structure Acceptable (n : ℕ) (cfg : Cfg) : Prop where
  counts : ∀ name ∈ counts, ∃ a k, Given cfg name (.atom a) ∧ IsInt a k ∧ 1 ≤ k
  chain_batch_size : ∃ a k, Given cfg "chain_batch_size" (.atom a) ∧ IsInt a k
  rates : ∀ name ∈ ["learning_rate", "step_size"], ∃ a x, Given cfg name (.atom a) ∧ IsNum a x
  sampler : ∃ s, Given cfg "local_sampler_name" (.atom (.str s)) ∧ (Spells s "mala" ∨ Spells s "hmc")
  mass : ∃ v M, Given cfg "mass_matrix" v ∧ MassOf n v M
  hidden_units : ∃ as : List Atom, Given cfg "rq_spline_hidden_units" (.list (as.map .atom)) ∧ ∀ a ∈ as, ∃ k, IsInt a k ∧ 1 ≤ k
  range : ∃ v, Given cfg "rq_spline_range" v ∧ ∀ a, v = .atom a → ∃ s, a = .str s
  verbose : ∃ b, Given cfg "verbose" (.atom (.bool b))

/-- The settings that have to be in the file, in the order in which they are asked for. -/
def required : List String :=
  ["batch_size", "chain_batch_size", "global_thinning", "learning_rate", "local_thinning", "step_size", "n_chains", "n_epochs", "n_global_steps",
    "n_local_steps", "n_max_examples", "n_NFproposal_batch_size", "n_production_loops", "n_training_loops", "rq_spline_hidden_units", "rq_spline_n_bins",
    "rq_spline_n_layers", "verbose"]

/-- A value of the type that the setting is documented to have. -/
def Typed (name : String) (v : JV) : Prop :=
  (name ∈ counts ∨ name = "chain_batch_size" → ∃ a k, v = .atom a ∧ IsInt a k) ∧
    (name = "learning_rate" ∨ name = "step_size" → ∃ a x, v = .atom a ∧ IsNum a x) ∧
    (name = "local_sampler_name" → ∃ s, v = .atom (.str s)) ∧
    (name = "mass_matrix" → (∃ a x, v = .atom a ∧ IsNum a x) ∨ (∃ s, v = .atom (.str s)) ∨ ∃ l, v = .list l) ∧
    (name = "rq_spline_hidden_units" → ∃ l, v = .list l) ∧
    (name = "rq_spline_range" → ∀ a, v = .atom a → ∃ s, a = .str s) ∧
    (name = "verbose" → ∃ b, v = .atom (.bool b))

/-- A value of the right type that cannot be used. -/
inductive OutOfRange (n : ℕ) : String → JV → Prop
  | count {name : String} {a : Atom} {k : Int} (hn : name ∈ counts) (ha : IsInt a k) (hk : k < 1) : OutOfRange n name (.atom a)
  | units {l : List Item} (h : ¬ ∃ as : List Atom, l = as.map .atom ∧ ∀ a ∈ as, ∃ k, IsInt a k ∧ 1 ≤ k) : OutOfRange n "rq_spline_hidden_units" (.list l)
  | sampler {s : String} (h : ¬ Spells s "mala" ∧ ¬ Spells s "hmc") : OutOfRange n "local_sampler_name" (.atom (.str s))
  | mass {v : JV} (h : ¬ ∃ M, MassOf n v M) : OutOfRange n "mass_matrix" v

end GW.Settings.Spec
