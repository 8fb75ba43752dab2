import Mathlib.Data.Real.Basic
import Verif.Model.PyDict

/-!
# Construction of the hybrid population models

Model of `/repo/src/gwkokab/models/hybrids/_ncombination.py`, `_npowerlawmgaussian.py`, `_o3_n_pls_m_gs.py`, `_o4_n_bpls_m_gs.py` and the
table of `_utils.py`: which hyper-parameters are looked up, which factor of the component they configure, and in which order the factors
(hence the coordinates of the event vector) are put together.  Hyper-parameter values are reals (shapes and batching are not modelled); a
factor is recorded as the class called, the quantities its coordinates are, and the keyword arguments it is called with.
-/

namespace GW.Hybrids
open GW.PyDict

/-- Exceptions: gwkokab/models/hybrids/_ncombination.py lines 75–88, _o3_n_pls_m_gs.py lines 124–130. -/
inductive Err
  | valueError (name : String)
  | keyError (name : String)
  | unboundLocal (name : String)
  | typeError
  deriving DecidableEq

/-- The optional pieces of a component: the `use_…` arguments of `NPowerlawMGaussian`, _npowerlawmgaussian.py:403–423. -/
inductive Flag
  | betaSpin | spinMixture | spinX | spinY | spinZ | chiEffMixture | chiEffSkew | chiP | tilt | eccentricity | redshift | cosIota | phi12
  | polarization | rightAscension | sinDeclination | detectionTime | phi1 | phi2 | phiOrb | meanAnomaly
  deriving DecidableEq

/-- `_fetch_first_matching_value(dictionary, *keys)`, _ncombination.py:51–72. -/
def fetchFirst (d : Dict String ℝ) : List String → Option ℝ
  | [] => none
  | k :: ks => match get? d k with
    | some v => some v
    | none => fetchFirst d ks

/-- The keyword arguments `is_necessary` and `default` of `_get_parameter`.  Source: gwkokab/models/hybrids/_ncombination.py lines 75–88. -/
inductive Mode
  | necessary
  | optional
  | default (v : Int)
  deriving DecidableEq

/-- `_get_parameter(params, *name, is_necessary=, default=)`, _ncombination.py:75–87.  `None` is never the value of a hyper-parameter. -/
def getParameter (params : Dict String ℝ) (names : List String) (mode : Mode) : Except Err (Option ℝ) :=
  match fetchFirst params names with
  | some v => .ok (some v)
  | none => match mode with
    | .default v => .ok (some v)
    | .necessary => .error (.valueError (names.headD ""))
    | .optional => .ok none

/-- One look-up in a `create_…` function: the keyword argument it feeds (and, when that argument is stacked from one value per coordinate or
numbered by coordinate, which coordinate), the shared hyper-parameter name, and whether it is necessary.  `negated` records `-alpha`.
Source: gwkokab/models/hybrids/_ncombination.py lines 99–850. -/
structure Read where
  coord : Option Nat
  kwarg : String
  base : String
  mode : Mode
  negated : Bool := false
  deriving DecidableEq

/-- What one `create_…` function builds for each component: class, quantities of its coordinates, look-ups in program order.
Source: gwkokab/models/hybrids/_ncombination.py lines 99–850. -/
structure Maker where
  cls : String
  quantities : List String
  reads : List Read
  deriving DecidableEq

/-- A keyword argument of a constructed factor.  Source: gwkokab/models/hybrids/_ncombination.py lines 99–850. -/
structure Arg where
  coord : Option Nat
  kwarg : String
  value : Option ℝ

/-- A constructed factor of a component.  Source: gwkokab/models/hybrids/_ncombination.py lines 99–850. -/
structure Factor where
  cls : String
  quantities : List String
  args : List Arg

/-- One look-up for component `i`: `_get_parameter(params, f"{name}_{i}", name, …)`.  Source: gwkokab/models/hybrids/_ncombination.py lines 75–88. -/
def readArg (params : Dict String ℝ) (i : Nat) (r : Read) : Except Err Arg :=
  match getParameter params [r.base ++ "_" ++ toString i, r.base] r.mode with
  | .error e => .error e
  | .ok v => .ok ⟨r.coord, r.kwarg, if r.negated then v.map (-·) else v⟩

/-- The body of the loop `for i in range(N)` shared by all `create_…` functions.  Source: e.g. gwkokab/models/hybrids/_ncombination.py lines 99–147. -/
def makeFactor (params : Dict String ℝ) (mk : Maker) (i : Nat) : Except Err Factor :=
  match mk.reads.mapM (readArg params i) with
  | .error e => .error e
  | .ok args => .ok ⟨mk.cls, mk.quantities, args⟩

/-- The loop `for i in range(N)` shared by all `create_…` functions.  Source: e.g. gwkokab/models/hybrids/_ncombination.py lines 99–147. -/
def create (N : Nat) (params : Dict String ℝ) (mk : Maker) : Except Err (List Factor) :=
  (List.range N).mapM (makeFactor params mk)

/-- `create_beta_distributions`, _ncombination.py:99–146. -/
def beta (p ct : String) : Maker :=
  ⟨"BetaFromMeanVar", [p],
    [⟨some 0, "mean", p ++ "_mean_" ++ ct, .necessary, false⟩, ⟨some 0, "variance", p ++ "_variance_" ++ ct, .necessary, false⟩]⟩

/-- `create_truncated_normal_distributions`, _ncombination.py:149–236, for the quantity `q` under the hyper-parameter prefix `p`. -/
def truncatedNormal (q p ct : String) : Maker :=
  ⟨"TruncatedNormal", [q],
    [⟨some 0, "loc", p ++ "_loc_" ++ ct, .necessary, false⟩, ⟨some 0, "scale", p ++ "_scale_" ++ ct, .necessary, false⟩,
     ⟨some 0, "low", p ++ "_low_" ++ ct, .optional, false⟩, ⟨some 0, "high", p ++ "_high_" ++ ct, .optional, false⟩]⟩

/-- `create_independent_spin_orientation_gaussian_isotropic`, _ncombination.py:239–290; `scale1`, `scale2` belong to the first and second
coordinate. -/
def spinOrientation (ct : String) : Maker :=
  ⟨"IndependentSpinOrientationGaussianIsotropic", ["cos_tilt_1", "cos_tilt_2"],
    [⟨none, "zeta", "cos_tilt_zeta_" ++ ct, .necessary, false⟩, ⟨some 0, "scale", "cos_tilt_1_scale_" ++ ct, .necessary, false⟩,
     ⟨some 1, "scale", "cos_tilt_2_scale_" ++ ct, .necessary, false⟩]⟩

/-- `create_powerlaw_primary_mass_ratios`, _ncombination.py:293–338: `PowerlawPrimaryMassRatio` pushed forward to the component masses. -/
def powerlawPrimaryMassRatio : Maker :=
  ⟨"PowerlawPrimaryMassRatio", ["mass_1_source", "mass_2_source"],
    [⟨none, "alpha", "alpha_pl", .necessary, false⟩, ⟨none, "beta", "beta_pl", .necessary, false⟩,
     ⟨none, "mmin", "mmin_pl", .necessary, false⟩, ⟨none, "mmax", "mmax_pl", .necessary, false⟩]⟩

/-- `create_powerlaw_redshift`, _ncombination.py:341–384. -/
def powerlawRedshift (p ct : String) : Maker :=
  ⟨"PowerlawRedshift", [p],
    [⟨some 0, "kappa", p ++ "_kappa_" ++ ct, .necessary, false⟩, ⟨some 0, "z_max", p ++ "_z_max_" ++ ct, .necessary, false⟩]⟩

/-- `create_uniform_distributions`, _ncombination.py:387–443. -/
def uniform (p ct : String) : Maker :=
  ⟨"Uniform", [p],
    [⟨some 0, "low", p ++ "_low_" ++ ct, .necessary, false⟩, ⟨some 0, "high", p ++ "_high_" ++ ct, .necessary, false⟩]⟩

/-- `create_broken_powerlaws`, _ncombination.py:446–494. -/
def brokenPowerlaw : Maker :=
  ⟨"BrokenPowerlaw", ["mass_1_source"],
    [⟨none, "alpha1", "alpha1_bpl", .necessary, false⟩, ⟨none, "alpha2", "alpha2_bpl", .necessary, false⟩,
     ⟨none, "mbreak", "m1break_bpl", .necessary, false⟩, ⟨none, "mmin", "m1min_bpl", .necessary, false⟩,
     ⟨none, "mmax", "m1max_bpl", .necessary, false⟩]⟩

/-- `create_minimum_tilt_model`, _ncombination.py:497–563; `loc1`, … belong to the first coordinate, `loc2`, … to the second. -/
def minimumTilt (ct : String) : Maker :=
  ⟨"MinimumTiltModelExtended", ["cos_tilt_1", "cos_tilt_2"],
    [⟨none, "zeta", "cos_tilt_zeta_" ++ ct, .necessary, false⟩,
     ⟨some 0, "loc", "cos_tilt_1_loc_" ++ ct, .necessary, false⟩, ⟨some 1, "loc", "cos_tilt_2_loc_" ++ ct, .necessary, false⟩,
     ⟨some 0, "scale", "cos_tilt_1_scale_" ++ ct, .necessary, false⟩, ⟨some 1, "scale", "cos_tilt_2_scale_" ++ ct, .necessary, false⟩,
     ⟨some 0, "minimum", "cos_tilt_1_minimum_" ++ ct, .default (-1), false⟩,
     ⟨some 1, "minimum", "cos_tilt_2_minimum_" ++ ct, .default (-1), false⟩]⟩

/-- `create_powerlaws`, _ncombination.py:566–609. -/
def powerlaw : Maker :=
  ⟨"DoublyTruncatedPowerLaw", ["mass_1_source"],
    [⟨none, "alpha", "alpha_pl", .necessary, true⟩, ⟨none, "low", "mmin_pl", .necessary, false⟩,
     ⟨none, "high", "mmax_pl", .necessary, false⟩]⟩

/-- `create_two_truncated_normal_mixture`, _ncombination.py:612–690. -/
def twoTruncatedNormalMixture (p ct : String) : Maker :=
  ⟨"TwoTruncatedNormalMixture", [p],
    [⟨some 0, "comp1_high", p ++ "_comp1_high_" ++ ct, .optional, false⟩, ⟨some 0, "comp2_high", p ++ "_comp2_high_" ++ ct, .optional, false⟩,
     ⟨some 0, "comp1_loc", p ++ "_comp1_loc_" ++ ct, .necessary, false⟩, ⟨some 0, "comp2_loc", p ++ "_comp2_loc_" ++ ct, .necessary, false⟩,
     ⟨some 0, "comp1_low", p ++ "_comp1_low_" ++ ct, .optional, false⟩, ⟨some 0, "comp2_low", p ++ "_comp2_low_" ++ ct, .optional, false⟩,
     ⟨some 0, "comp1_scale", p ++ "_comp1_scale_" ++ ct, .necessary, false⟩,
     ⟨some 0, "comp2_scale", p ++ "_comp2_scale_" ++ ct, .necessary, false⟩, ⟨some 0, "zeta", p ++ "_zeta_" ++ ct, .necessary, false⟩]⟩

/-- `create_spin_magnitude_mixture_models`, _ncombination.py:693–793; each argument is stacked from an `a_1` and an `a_2` value. -/
def spinMagnitudeMixture (ct : String) : Maker :=
  ⟨"NDTwoTruncatedNormalMixture", ["a_1", "a_2"],
    [⟨none, "zeta", "a_zeta_" ++ ct, .necessary, false⟩,
     ⟨some 0, "comp1_high", "a_1_comp1_high_" ++ ct, .default 1, false⟩, ⟨some 0, "comp1_loc", "a_1_comp1_loc_" ++ ct, .necessary, false⟩,
     ⟨some 0, "comp1_low", "a_1_comp1_low_" ++ ct, .default 0, false⟩, ⟨some 0, "comp1_scale", "a_1_comp1_scale_" ++ ct, .necessary, false⟩,
     ⟨some 0, "comp2_high", "a_1_comp2_high_" ++ ct, .default 1, false⟩, ⟨some 0, "comp2_loc", "a_1_comp2_loc_" ++ ct, .necessary, false⟩,
     ⟨some 0, "comp2_low", "a_1_comp2_low_" ++ ct, .default 0, false⟩, ⟨some 0, "comp2_scale", "a_1_comp2_scale_" ++ ct, .necessary, false⟩,
     ⟨some 1, "comp1_high", "a_2_comp1_high_" ++ ct, .default 1, false⟩, ⟨some 1, "comp1_loc", "a_2_comp1_loc_" ++ ct, .necessary, false⟩,
     ⟨some 1, "comp1_low", "a_2_comp1_low_" ++ ct, .default 0, false⟩, ⟨some 1, "comp1_scale", "a_2_comp1_scale_" ++ ct, .necessary, false⟩,
     ⟨some 1, "comp2_high", "a_2_comp2_high_" ++ ct, .default 1, false⟩, ⟨some 1, "comp2_loc", "a_2_comp2_loc_" ++ ct, .necessary, false⟩,
     ⟨some 1, "comp2_low", "a_2_comp2_low_" ++ ct, .default 0, false⟩, ⟨some 1, "comp2_scale", "a_2_comp2_scale_" ++ ct, .necessary, false⟩]⟩

/-- `create_gwtc4_effective_spin_skew_normal_models`, _ncombination.py:796–846. -/
def skewNormal (p ct : String) : Maker :=
  ⟨"GWTC4EffectiveSpinSkewNormalModel", [p],
    [⟨some 0, "loc", p ++ "_loc_" ++ ct, .necessary, false⟩, ⟨some 0, "scale", p ++ "_scale_" ++ ct, .necessary, false⟩,
     ⟨some 0, "epsilon", p ++ "_epsilon_" ++ ct, .necessary, false⟩]⟩

/-- `combine_distributions(base_dists, add_dists)`, _ncombination.py:90–96. -/
def combine (base : List (List Factor)) (add : List Factor) : List (List Factor) :=
  List.zipWith (fun dists d => dists ++ [d]) base add

/-- The loop over `_info_collection`, _npowerlawmgaussian.py:141–155 and _utils.py:64–78. -/
def buildLoop (use : Flag → Bool) (N : Nat) (params : Dict String ℝ) : List (Flag × Maker) → List (List Factor) → Except Err (List (List Factor))
  | [], acc => .ok acc
  | (fl, mk) :: rest, acc =>
    if use fl then
      match create N params mk with
      | .error e => .error e
      | .ok ds => buildLoop use N params rest (combine acc ds)
    else buildLoop use N params rest acc

/-- `_info_collection` of `_build_non_mass_distributions`, _npowerlawmgaussian.py:110–138. -/
def infoCollection (ct : String) : List (Flag × Maker) :=
  [ (.betaSpin, beta "a_1" ct),
    (.betaSpin, beta "a_2" ct),
    (.spinMixture, spinMagnitudeMixture ct),
    (.spinX, truncatedNormal "spin_1x" "spin_1x" ct),
    (.spinX, truncatedNormal "spin_2x" "spin_2x" ct),
    (.spinY, truncatedNormal "spin_1y" "spin_1y" ct),
    (.spinY, truncatedNormal "spin_2y" "spin_2y" ct),
    (.spinZ, truncatedNormal "spin_1z" "spin_1z" ct),
    (.spinZ, truncatedNormal "spin_2z" "spin_2z" ct),
    (.chiEffMixture, twoTruncatedNormalMixture "chi_eff" ct),
    (.chiEffSkew, skewNormal "chi_eff" ct),
    (.chiP, truncatedNormal "chi_p" "chi_p" ct),
    (.tilt, spinOrientation ct),
    (.phi1, uniform "phi_1" ct),
    (.phi2, uniform "phi_2" ct),
    (.phi12, uniform "phi_12" ct),
    (.eccentricity, twoTruncatedNormalMixture "eccentricity" ct),
    (.meanAnomaly, uniform "mean_anomaly" ct),
    (.redshift, powerlawRedshift "redshift" ct),
    (.rightAscension, uniform "ra" ct),
    (.sinDeclination, uniform "dec" ct),
    (.detectionTime, uniform "detection_time" ct),
    (.cosIota, uniform "cos_iota" ct),
    (.polarization, uniform "psi" ct),
    (.phiOrb, uniform "phi_orb" ct) ]

/-- `_build_pl_component_distributions`, _npowerlawmgaussian.py:158–270.  A joint distribution is the list of its factors. -/
def buildPl (use : Flag → Bool) (N : Nat) (params : Dict String ℝ) : Except Err (List (List Factor)) :=
  match create N params powerlawPrimaryMassRatio with
  | .error e => .error e
  | .ok masses => buildLoop use N params (infoCollection "pl") (masses.map fun m => [m])

/-- `_build_g_component_distributions`, _npowerlawmgaussian.py:273–397. -/
def buildG (use : Flag → Bool) (N : Nat) (params : Dict String ℝ) : Except Err (List (List Factor)) :=
  match create N params (truncatedNormal "mass_1_source" "m1" "g") with
  | .error e => .error e
  | .ok m1 => match create N params (truncatedNormal "mass_2_source" "m2" "g") with
    | .error e => .error e
    | .ok m2 => buildLoop use N params (infoCollection "g") (List.zipWith (fun a b => [a, b]) m1 m2)

/-- `params[name]`.  Source: gwkokab/models/hybrids/_npowerlawmgaussian.py line 611. -/
def item (params : Dict String ℝ) (name : String) : Except Err ℝ :=
  match get? params name with
  | some v => .ok v
  | none => .error (.keyError name)

/-- A scaled mixture: natural-log rates and components.  Source: gwkokab/models/hybrids/_npowerlawmgaussian.py lines 613–620. -/
structure Mixture where
  logRates : List ℝ
  components : List (List Factor)

/-- `NPowerlawMGaussian(N_pl, N_g, use_…, **params)`, _npowerlawmgaussian.py:400–620.  The variables `pl_component_dist` and
`g_component_dist` are unassigned (`none`) when their count is zero. -/
def nPowerlawMGaussian (use : Flag → Bool) (Npl Ng : Nat) (params : Dict String ℝ) : Except Err Mixture :=
  match (if 0 < Npl then (buildPl use Npl params).map some else .ok none : Except Err (Option (List (List Factor)))) with
  | .error e => .error e
  | .ok pl => match (if 0 < Ng then (buildG use Ng params).map some else .ok none : Except Err (Option (List (List Factor)))) with
    | .error e => .error e
    | .ok g =>
      match (if Npl = 0 ∧ Ng ≠ 0 then (g.elim (.error (.unboundLocal "g_component_dist")) .ok)
        else if Ng = 0 ∧ Npl ≠ 0 then (pl.elim (.error (.unboundLocal "pl_component_dist")) .ok)
        else pl.elim (.error (.unboundLocal "pl_component_dist")) fun a =>
          g.elim (.error (.unboundLocal "g_component_dist")) fun b => .ok (a ++ b) : Except Err (List (List Factor))) with
      | .error e => .error e
      | .ok comps =>
        match (List.range (Npl + Ng)).mapM fun i => item params ("log_rate_" ++ toString i) with
        | .error e => .error e
        | .ok rates => .ok ⟨rates, comps⟩

/-- `_info_collection` of `build_non_mass_distributions`, _utils.py:49–61. -/
def smoothedInfoCollection (ct : String) : List (Flag × Maker) :=
  [ (.betaSpin, beta "a_1" ct),
    (.betaSpin, beta "a_2" ct),
    (.spinMixture, spinMagnitudeMixture ct),
    (.chiEffMixture, twoTruncatedNormalMixture "chi_eff" ct),
    (.chiEffSkew, skewNormal "chi_eff" ct),
    (.chiP, truncatedNormal "chi_p" "chi_p" ct),
    (.tilt, minimumTilt ct),
    (.eccentricity, twoTruncatedNormalMixture "eccentricity" ct),
    (.redshift, powerlawRedshift "redshift" ct) ]

/-- `params.pop(name)`.  Source: gwkokab/models/hybrids/_o3_n_pls_m_gs.py lines 124–130. -/
def pop (params : Dict String ℝ) (name : String) : Except Err (ℝ × Dict String ℝ) :=
  match get? params name with
  | some v => .ok (v, params.filter (·.1 ≠ name))
  | none => .error (.keyError name)

/-- A run of `params.pop`s in order.  Source: gwkokab/models/hybrids/_o3_n_pls_m_gs.py lines 124–130. -/
def popAll : List String → Dict String ℝ → Except Err (List ℝ × Dict String ℝ)
  | [], d => .ok ([], d)
  | n :: ns, d => match pop d n with
    | .error e => .error e
    | .ok (v, d) => match popAll ns d with
      | .error e => .error e
      | .ok (vs, d) => .ok (v :: vs, d)

/-- A component builder of the smoothed models: the mass factor first, then the optional factors
(`_build_pl_component_distributions`, _o3_n_pls_m_gs.py:27–63 and 66–106; `_build_bpl_component_distributions` and
`_build_g_component_distributions`, _o4_n_bpls_m_gs.py:30–66 and 69–109). -/
def buildSmoothed (mass : Maker) (ct : String) (use : Flag → Bool) (N : Nat) (params : Dict String ℝ) :
    Except Err (List Factor × List (List Factor)) :=
  match create N params mass with
  | .error e => .error e
  | .ok masses => (buildLoop use N params (smoothedInfoCollection ct) (masses.map fun m => [m])).map fun c => (masses, c)

/-- A smoothed model: the popped hyper-parameters by name, the mixing weights, the mass mixture and the components of the mixture over the
primary mass and the rest; the mass ratio is a further coordinate after all others (_utils.py:138–149). -/
structure Smoothed where
  shared : List (String × ℝ)
  weights : List ℝ
  masses : List Factor
  components : List (List Factor)

/-- The coordinates of a smoothed model's event vector seen through one of its components: `_SmoothedPowerlawMassRatioAndRest` appends the
mass ratio to the coordinates of the wrapped mixture (_utils.py:138–149 and 190–194). -/
def Smoothed.coordinates (c : List Factor) : List String := c.flatMap (·.quantities) ++ ["mass_ratio"]

/-- `1.0 - sum(_lambdas)` appended to `_lambdas`.  Source: gwkokab/models/hybrids/_o3_n_pls_m_gs.py lines 130–132. -/
noncomputable def closeWeights (l : List ℝ) : List ℝ := l ++ [1 - l.sum]

/-- The common body of `NSmoothedPowerlawMSmoothedGaussian` (_o3_n_pls_m_gs.py:109–208) and `NBrokenPowerlawMGaussian`
(_o4_n_bpls_m_gs.py:112–213): `names` are popped first, then `lambda_0, …` one fewer than the number of components.  A mixture with a number
of components different from the number of weights is rejected by `MixtureGeneral` (a `ValueError`). -/
noncomputable def smoothedModel (names : List String) (body : Maker) (ct : String) (use : Flag → Bool) (Nb Ng : Nat) (params : Dict String ℝ) :
    Except Err Smoothed :=
  match popAll names params with
  | .error e => .error e
  | .ok (shared, params) =>
    match popAll ((List.range (Nb + Ng - 1)).map fun i => "lambda_" ++ toString i) params with
    | .error e => .error e
    | .ok (lambdas, params) =>
      match (if 0 < Nb then buildSmoothed body ct use Nb params else .ok ([], [])) with
      | .error e => .error e
      | .ok (bm, bc) =>
        match (if 0 < Ng then buildSmoothed (truncatedNormal "mass_1_source" "m1" "g") "g" use Ng params else .ok ([], [])) with
        | .error e => .error e
        | .ok (gm, gc) =>
          if (closeWeights lambdas).length = (bc ++ gc).length then
            .ok ⟨names.zip shared, closeWeights lambdas, bm ++ gm, bc ++ gc⟩
          else .error (.valueError "component_distributions")

/-- `NSmoothedPowerlawMSmoothedGaussian`, _o3_n_pls_m_gs.py:109–208. -/
noncomputable def nSmoothedPowerlawMSmoothedGaussian (use : Flag → Bool) (Npl Ng : Nat) (params : Dict String ℝ) : Except Err Smoothed :=
  smoothedModel ["beta", "delta_m", "log_rate", "mmax", "mmin"] powerlaw "pl" use Npl Ng params

/-- `NBrokenPowerlawMGaussian`, _o4_n_bpls_m_gs.py:112–213. -/
noncomputable def nBrokenPowerlawMGaussian (use : Flag → Bool) (Nbpl Ng : Nat) (params : Dict String ℝ) : Except Err Smoothed :=
  smoothedModel ["beta", "delta_m1", "delta_m2", "log_rate", "m1max", "m1min", "m2min"] brokenPowerlaw "bpl" use Nbpl Ng params

end GW.Hybrids
