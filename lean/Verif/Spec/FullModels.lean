import Verif.Spec.Spin
import Verif.Model.PyDict
import Mathlib.Probability.Distributions.Beta
import Mathlib.Probability.Moments.Variance

/-! Words used in the statements about the named population models.  Nothing here refers to the code. -/

namespace GW.Full
open MeasureTheory ProbabilityTheory GW.PyDict

noncomputable section
open Classical

/-- The dictionary has these values under these names. -/
def Given (params : Dict String ℝ) (values : List (String × ℝ)) : Prop := ∀ nv ∈ values, get? params nv.1 = some nv.2

/-- The first of the names that is not in the dictionary is `n`. -/
def FirstMissing (params : Dict String ℝ) (names : List String) (n : String) : Prop :=
  ∃ before after, names = before ++ n :: after ∧ (∀ k ∈ before, k ∈ keys params) ∧ n ∉ keys params

/-- `α` and `β` are the shape parameters of the beta distribution with this mean and this variance. -/
def BetaShape (mean variance α β : ℝ) : Prop :=
  0 < α ∧ 0 < β ∧ ∫ x, x ∂(betaMeasure α β) = mean ∧ Var[fun x => x; betaMeasure α β] = variance

/-- The beta density does not blow up, or is not ambiguous, at `a`: an end point of `[0, 1]` only if the density vanishes there. -/
def BetaRegular (α β a : ℝ) : Prop := (a = 0 → 1 < α) ∧ (a = 1 → 1 < β)

/-- The density of `|X|` for a normal `X` with mean `0`. -/
def halfNormalDensity (scale x : ℝ) : ℝ := if 0 < x then 2 * Spin.normalDensity 0 scale x else 0

/-- The Wysocki mass density: a power law in the primary mass on `[mmin, mmax]` and a secondary uniform between `mmin` and the primary. -/
def wysockiDensity (alphaM mmin mmax m1 m2 : ℝ) : ℝ :=
  if mmin ≤ m2 ∧ m2 ≤ m1 ∧ m1 ≤ mmax then m1 ^ (-alphaM) / (∫ t in mmin..mmax, t ^ (-alphaM)) * (1 / (m1 - mmin)) else 0

/-- A factor that is there only if the flag is set. -/
def factor (flag : Bool) (x : ℝ) : ℝ := if flag then x else 1

/-- Coordinates that are there only if the flag is set. -/
def coords (flag : Bool) (xs : List ℝ) : List ℝ := if flag then xs else []

/-! The names of the hyper-parameters, in the order in which they are looked up. -/

/-- Names that are looked up only if the flag is set. -/
def optNames (flag : Bool) (ns : List String) : List String := if flag then ns else []

/-- The names `PowerlawPeak` looks up before it joins the distributions. -/
def peakNames (spin redshift tilt ecc : Bool) : List String :=
  ["alpha", "beta", "delta", "lambda_peak", "loc", "mmax", "mmin", "scale"] ++ (optNames spin ["chi_mean", "chi_mean", "chi_variance", "chi_variance"] ++
    (optNames tilt ["cos_tilt_zeta", "cos_tilt_scale", "cos_tilt_scale"] ++ (optNames ecc ["eccentricity_scale"] ++ optNames redshift ["z_max", "kappa"])))

/-- The names `BrokenPowerlawTwoPeakFull` looks up before it joins the distributions. -/
def brokenNames (spin redshift tilt ecc : Bool) : List String :=
  ["alpha1", "alpha2", "beta", "loc1", "loc2", "scale1", "scale2", "delta_m1", "delta_m2", "lambda_0", "lambda_1", "m1min", "m2min", "mmax", "mbreak"] ++
    (optNames spin ["chi_loc", "chi_loc", "chi_scale", "chi_scale"] ++ (optNames tilt ["cos_tilt_zeta", "cos_tilt_loc", "cos_tilt_scale"] ++
      (optNames ecc ["eccentricity_loc", "eccentricity_scale"] ++ optNames redshift ["z_max", "kappa"])))

/-- The names of the spin parameters of the four mass components, parameter by parameter. -/
def componentNames : List String :=
  ["a_1_loc_bpl1", "a_1_loc_bpl2", "a_1_loc_n1", "a_1_loc_n2",
    "a_2_loc_bpl1", "a_2_loc_bpl2", "a_2_loc_n1", "a_2_loc_n2",
    "a_1_low_bpl1", "a_1_low_bpl2", "a_1_low_n1", "a_1_low_n2",
    "a_2_low_bpl1", "a_2_low_bpl2", "a_2_low_n1", "a_2_low_n2",
    "a_1_high_bpl1", "a_1_high_bpl2", "a_1_high_n1", "a_1_high_n2",
    "a_2_high_bpl1", "a_2_high_bpl2", "a_2_high_n1", "a_2_high_n2",
    "a_1_scale_bpl1", "a_1_scale_bpl2", "a_1_scale_n1", "a_1_scale_n2",
    "a_2_scale_bpl1", "a_2_scale_bpl2", "a_2_scale_n1", "a_2_scale_n2",
    "cos_tilt_1_loc_bpl1", "cos_tilt_1_loc_bpl2", "cos_tilt_1_loc_n1", "cos_tilt_1_loc_n2",
    "cos_tilt_1_scale_bpl1", "cos_tilt_1_scale_bpl2", "cos_tilt_1_scale_n1", "cos_tilt_1_scale_n2",
    "cos_tilt_2_loc_bpl1", "cos_tilt_2_loc_bpl2", "cos_tilt_2_loc_n1", "cos_tilt_2_loc_n2",
    "cos_tilt_2_scale_bpl1", "cos_tilt_2_scale_bpl2", "cos_tilt_2_scale_n1", "cos_tilt_2_scale_n2",
    "cos_tilt_zeta_bpl1", "cos_tilt_zeta_bpl2", "cos_tilt_zeta_n1", "cos_tilt_zeta_n2"]

/-- The names `BrokenPowerlawTwoPeakMultiSpinMultiTiltFull` looks up before it joins the distributions. -/
def multiAllNames (ecc : Bool) : List String :=
  ["alpha1", "alpha2", "beta", "loc1", "loc2", "scale1", "scale2", "delta_m1", "delta_m2", "lambda_0", "lambda_1", "m1min", "m2min", "mmax", "mbreak"] ++
    (componentNames ++ (optNames ecc ["eccentricity_scale"] ++ ["z_max", "kappa"]))

end

end GW.Full
