import Verif.Model.PpdModel

/-! # What a posterior predictive density is -/

namespace GW.Ppd
open PyDict (Dict get?)
open GW.Hybrids (Factor)
open GW.Mixture (Comp)

/-- The differential rate of a population: every component's density times its rate. -/
noncomputable def differentialRate (den : List Factor → Comp (List ℝ)) (m : Hybrids.Mixture) (x : List ℝ) : ℝ :=
  (List.zipWith (fun r c => Real.exp r * ((den c).logProb x).expR) m.logRates m.components).sum

/-- The density of one event of the population: the differential rate divided by the total rate. -/
noncomputable def eventDensity (den : List Factor → Comp (List ℝ)) (m : Hybrids.Mixture) (x : List ℝ) : ℝ :=
  differentialRate den m x / (m.logRates.map Real.exp).sum

/-- The sum of the components' densities, whatever their rates. -/
noncomputable def unweightedDensity (den : List Factor → Comp (List ℝ)) (m : Hybrids.Mixture) (x : List ℝ) : ℝ :=
  (m.components.map fun c => ((den c).logProb x).expR).sum

/-- The average of a function of the population over the posterior samples. -/
noncomputable def posteriorMean (f : Hybrids.Mixture → ℝ) (ms : List Hybrids.Mixture) : ℝ := (ms.map f).sum / ms.length

/-- The hyper-parameters of a posterior sample: the entry of its column for a sampled name, the fixed value otherwise. -/
def hyperparameters (constants : Dict String ℝ) (mapping : Dict String Nat) (row : List ℝ) (n : String) : Option ℝ :=
  match get? mapping n with
  | some x => row[x]?
  | none => get? constants n

/-- A population whose components' distributions check their arguments: a log density is never NaN or `+inf`, it is `-inf` outside the support,
and all components are about events of one shape. -/
structure Proper (den : List Factor → Comp (List ℝ)) (m : Hybrids.Mixture) : Prop where
  isLog : ∀ c ∈ m.components, ∀ x, ((den c).logProb x).IsLog
  outside : ∀ c ∈ m.components, ∀ x, (den c).support x = false → (den c).logProb x = .ninf
  validates : ∀ c ∈ m.components, (den c).validateArgs = true
  shape : ∀ c ∈ m.components, ∀ d ∈ m.components, (den c).eventShape = (den d).eventShape

/-- `m` is the population that `NPowerlawMGaussian` makes of the hyper-parameters `θ`. -/
def IsPopulation (use : Hybrids.Flag → Bool) (Npl Ng : Nat) (θ : String → Option ℝ) (m : Hybrids.Mixture) : Prop :=
  ∃ d : Dict String ℝ, (∀ n, get? d n = θ n) ∧ Hybrids.nPowerlawMGaussian use Npl Ng d = .ok m

/-- A table of posterior samples: `width` columns, names that point into it and are not fixed at the same time, and one population per row. -/
structure Posterior (use : Hybrids.Flag → Bool) (Npl Ng : Nat) (den : List Factor → Comp (List ℝ)) (width : Nat) (rows : List (List ℝ))
    (mapping : Dict String Nat) (constants : Dict String ℝ) (ms : List Hybrids.Mixture) : Prop where
  names : (PyDict.keys mapping).Nodup
  columns : ∀ n x, get? mapping n = some x → x < width
  rectangular : ∀ row ∈ rows, row.length = width
  free : ∀ n ∈ PyDict.keys mapping, n ∉ PyDict.keys constants
  populations : List.Forall₂ (fun row m => IsPopulation use Npl Ng (hyperparameters constants mapping row) m) rows ms
  proper : ∀ m ∈ ms, Proper den m

end GW.Ppd
