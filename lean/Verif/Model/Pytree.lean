import Verif.Model.PyDict

/-!
# Models as arguments of compiled functions

`jax.jit`, `jax.vmap`, `jax.tree.map` and `eqx.filter_jit` take an object apart into its leaves (numbers and arrays) and a static description, and build
a new object from the description and new leaves.  Every distribution, constraint and transform of the package says, by `pytree_data_fields` and
`pytree_aux_fields` or by its `tree_flatten`, which of its attributes are taken apart and which are kept as they are; an attribute that is in
neither is lost.  For example `_variance_of_estimator`, gwkokab/poisson_mean/_neural_vt.py lines 78–94, receives a mixture in this way.

Simplifications: an array is an element of an arbitrary type `α`; the order of the leaves is the order in which the attributes were set rather than that
of the declaration (nobody sees the order); the classes of NumPyro, Equinox and JAX that occur as attributes (`interval`, `Normal`, `Cosmology`,
`Partial`, …) are assumed to declare all of their attributes as data; NumPyro's flag `_validate_args` is left out.
-/

namespace GW.Pytree
open GW.PyDict

/-- A Python value: an array or float, an integer, `None`, a tuple or list, a dictionary, or an object with its `__dict__`.
Source: what is assigned to `self.…` in the classes of gwkokab/models, e.g. gwkokab/models/utils/_scaledmixture.py lines 44–99. -/
inductive Val (α : Type) where
  | arr (a : α)
  | int (n : Int)
  | null
  | seq (vs : List (Val α))
  | dict (kvs : List (String × Val α))
  | obj (cls : String) (attrs : List (String × Val α))

/-- A leaf: an array or a number.  Source: `jax.tree_util.tree_flatten`, as used by gwkokab/poisson_mean/_neural_vt.py line 78. -/
inductive Leaf (α : Type) where
  | arr (a : α)
  | int (n : Int)

/-- Which attributes are taken apart, and which are kept.  Source: `pytree_data_fields`, `pytree_aux_fields`, e.g.
gwkokab/models/utils/_joindistribution.py lines 19–20. -/
structure Fields where
  data : List String
  aux : List String
deriving DecidableEq

/-- The two attributes that every distribution of NumPyro keeps.  Source: `numpyro.distributions.Distribution`, the base class named e.g. in
gwkokab/models/utils/_joindistribution.py line 18. -/
def shapes : List String := ["_batch_shape", "_event_shape"]

/-- The fields of a distribution: NumPyro adds its own.  Source: `numpyro.distributions.Distribution`, the base class named e.g. in
gwkokab/models/utils/_joindistribution.py line 18. -/
def dist (data aux : List String) : Fields := ⟨data, aux ++ shapes⟩

/-- The declared fields of every class of the package; `none` for the classes of other packages.  Source: the lines given at each class.
Simplification: `ExtendedSupportTransformedDistribution` inherits its fields from NumPyro. -/
def fieldTable : List (String × Fields) := [
  -- gwkokab/models/constraints.py lines 68–69
  ("_MassSandwichConstraint", ⟨["mmin", "mmax"], []⟩),
  -- gwkokab/models/constraints.py lines 125–126
  ("_MassRatioMassSandwichConstraint", ⟨["mmin", "mmax"], []⟩),
  -- gwkokab/models/constraints.py lines 147–148
  ("_IncreasingVector", ⟨[], []⟩),
  -- gwkokab/models/constraints.py lines 165–166
  ("_DecreasingVector", ⟨[], []⟩),
  -- gwkokab/models/constraints.py lines 187–188
  ("_StrictlyIncreasingVector", ⟨[], []⟩),
  -- gwkokab/models/constraints.py lines 209–210
  ("_StrictlyDecreasingVector", ⟨[], []⟩),
  -- gwkokab/models/constraints.py lines 229–230
  ("_PositiveIncreasingVector", ⟨[], []⟩),
  -- gwkokab/models/constraints.py lines 249–250
  ("_PositiveDecreasingVector", ⟨[], []⟩),
  -- gwkokab/models/constraints.py lines 320–324
  ("_AllConstraint", ⟨["constraints"], ["event_slices"]⟩),
  -- gwkokab/models/constraints.py lines 350–351
  ("_AnyConstraint", ⟨["constraints"], []⟩),
  -- gwkokab/models/constraints.py lines 389–393
  ("_TransformedConstraint", ⟨["base_support", "transforms"], []⟩),
  -- gwkokab/models/hybrids/_bp2pmultispinfull.py lines 95–167
  ("BrokenPowerlawTwoPeakMultiSpinMultiTilt", dist ["_logZ", "_m1s", "_support", "_Z_q_given_m1", "a_1_high_bpl1", "a_1_high_bpl2",
    "a_1_high_n1", "a_1_high_n2", "a_1_loc_bpl1", "a_1_loc_bpl2", "a_1_loc_n1", "a_1_loc_n2", "a_1_low_bpl1", "a_1_low_bpl2", "a_1_low_n1", "a_1_low_n2",
    "a_1_scale_bpl1", "a_1_scale_bpl2", "a_1_scale_n1", "a_1_scale_n2", "a_2_high_bpl1", "a_2_high_bpl2", "a_2_high_n1", "a_2_high_n2", "a_2_loc_bpl1",
    "a_2_loc_bpl2", "a_2_loc_n1", "a_2_loc_n2", "a_2_low_bpl1", "a_2_low_bpl2", "a_2_low_n1", "a_2_low_n2", "a_2_scale_bpl1", "a_2_scale_bpl2",
    "a_2_scale_n1", "a_2_scale_n2", "alpha1", "alpha2", "beta", "cos_tilt_1_loc_bpl1", "cos_tilt_1_loc_bpl2", "cos_tilt_1_loc_n1", "cos_tilt_1_loc_n2",
    "cos_tilt_1_scale_bpl1", "cos_tilt_1_scale_bpl2", "cos_tilt_1_scale_n1", "cos_tilt_1_scale_n2", "cos_tilt_2_loc_bpl1", "cos_tilt_2_loc_bpl2",
    "cos_tilt_2_loc_n1", "cos_tilt_2_loc_n2", "cos_tilt_2_scale_bpl1", "cos_tilt_2_scale_bpl2", "cos_tilt_2_scale_n1", "cos_tilt_2_scale_n2",
    "cos_tilt_zeta_bpl1", "cos_tilt_zeta_bpl2", "cos_tilt_zeta_n1", "cos_tilt_zeta_n2", "delta_m1", "delta_m2", "lambda_0", "lambda_1", "loc1", "loc2",
    "m1min", "m2min", "mbreak", "mmax", "scale1", "scale2"] []),
  -- gwkokab/models/hybrids/_utils.py lines 92–105
  ("_SmoothedPowerlawMassRatioAndRest", dist ["_m1s", "_support", "_Z_q_given_m1", "beta", "delta_m1", "delta_m2", "log_rate", "logZ", "m1max",
    "m1min", "m2min", "rest_dist"] []),
  -- gwkokab/models/mass/_bpls.py line 63
  ("BrokenPowerlaw", dist ["_support", "alpha1", "alpha2", "mbreak", "mmax", "mmin"] []),
  -- gwkokab/models/mass/_bpls.py lines 171–191
  ("BrokenPowerlawTwoPeak", dist ["_logZ", "_m1s", "_support", "_Z_q_given_m1", "alpha1", "alpha2", "beta", "delta_m1", "delta_m2", "lambda_0",
    "lambda_1", "loc1", "loc2", "m1min", "m2min", "mbreak", "mmax", "scale1", "scale2"] []),
  -- gwkokab/models/mass/_models.py line 46
  ("PowerlawPrimaryMassRatio", dist ["_support", "alpha", "beta", "mmax", "mmin"] []),
  -- gwkokab/models/mass/_models.py line 129
  ("Wysocki2019MassModel", dist ["_support", "alpha_m", "mmax", "mmin"] []),
  -- gwkokab/models/mass/_models.py lines 198–211
  ("SmoothedTwoComponentPrimaryMassRatio", dist ["_logZ", "_m1s", "_support", "_Z_q_given_m1", "alpha", "beta", "delta", "lambda_peak", "loc",
    "mmax", "mmin", "scale"] []),
  -- gwkokab/models/redshift/_models.py line 127
  ("PowerlawRedshift", dist ["_support", "kappa", "z_max"] []),
  -- gwkokab/models/redshift/_models.py line 184
  ("MadauDickinsonRedshift", dist ["_support", "gamma", "kappa", "z_max", "z_peak"] []),
  -- gwkokab/models/spin/_models.py line 286
  ("GWTC4EffectiveSpinSkewNormalModel", dist ["loc", "scale", "epsilon"] []),
  -- gwkokab/models/transformations.py lines 228–232
  ("BlockTransform", ⟨["transforms"], ["event_slices"]⟩),
  -- gwkokab/models/transformations.py lines 283–284
  ("PrimaryMassAndMassRatioToComponentMassesTransform", ⟨[], []⟩),
  -- gwkokab/models/transformations.py lines 329–330
  ("ComponentMassesToChirpMassAndSymmetricMassRatio", ⟨[], []⟩),
  -- gwkokab/models/transformations.py lines 368–369
  ("DeltaToSymmetricMassRatio", ⟨[], []⟩),
  -- gwkokab/models/transformations.py lines 418–419
  ("ComponentMassesToChirpMassAndDelta", ⟨[], []⟩),
  -- gwkokab/models/transformations.py lines 455–456
  ("SourceMassAndRedshiftToDetectedMassAndRedshift", ⟨[], []⟩),
  -- gwkokab/models/transformations.py lines 494–495
  ("ComponentMassesAndRedshiftToDetectedMassAndRedshift", ⟨[], []⟩),
  -- gwkokab/models/transformations.py lines 535–536
  ("ComponentMassesToPrimaryMassAndMassRatio", ⟨[], []⟩),
  -- gwkokab/models/transformations.py lines 581–582
  ("ComponentMassesToMassRatioAndSecondaryMass", ⟨[], []⟩),
  -- gwkokab/models/transformations.py lines 621–622
  ("ComponentMassesToTotalMassAndMassRatio", ⟨[], []⟩),
  -- gwkokab/models/transformations.py lines 662–663
  ("RedshiftToLuminosityDistance", ⟨["cosmology"], []⟩),
  -- gwkokab/models/utils/_doubletruncpowerlaw.py lines 379–380
  ("DoublyTruncatedPowerLaw", dist ["alpha", "low", "high"] ["_support"]),
  -- gwkokab/models/utils/_extendedsupporttransformeddistribution.py lines 10–13
  ("ExtendedSupportTransformedDistribution", dist ["base_dist", "transforms"] []),
  -- gwkokab/models/utils/_joindistribution.py lines 19–20
  ("JointDistribution", dist ["_support", "marginal_distributions"] ["shaped_values"]),
  -- gwkokab/models/utils/_lazyjointdistribution.py lines 62–66
  ("_LazyConstraint", ⟨["marginal_distributions", "dependencies", "event_slices"], []⟩),
  -- gwkokab/models/utils/_lazyjointdistribution.py lines 86–87
  ("LazyJointDistribution", dist ["_support", "marginal_distributions"] ["shaped_values", "partial_order", "dependencies"]),
  -- gwkokab/models/utils/_scaledmixture.py lines 41–42
  ("ScaledMixture", dist ["_component_distributions", "_support", "log_scales"] ["_mixture_size"]),
  -- gwkanal/utils/priors.py line 26
  ("_DirichletElement", dist ["order", "n_dimensions", "sum_of_concentrations"] [])]

/-- The declared fields of a class, `none` for the classes of other packages.  Source: as `fieldTable`; gwkokab/models/constraints.py lines 68–393. -/
def fields (c : String) : Option Fields := get? fieldTable c

/-- Whether an attribute is taken apart.  Source: `tree_flatten` of the classes listed at `fieldTable`; gwkokab/models/utils/_scaledmixture.py line 41. -/
def isData (c k : String) : Bool := match fields c with
  | some f => f.data.contains k
  | none => true

/-- Whether an attribute is kept as it is.  Source: `tree_flatten` of the classes listed at `fieldTable`; gwkokab/models/utils/_scaledmixture.py line 42. -/
def isAux (c k : String) : Bool := match fields c with
  | some f => f.aux.contains k
  | none => false

variable {α : Type}

/-- The static description of a value.  Source: `jax.tree_util.tree_flatten`, as used by gwkokab/poisson_mean/_neural_vt.py line 78. -/
inductive Def (α : Type) where
  | leaf
  | null
  | seq (ds : List (Def α))
  | dict (kds : List (String × Def α))
  | obj (cls : String) (data : List (String × Def α)) (aux : List (String × Val α))

mutual
/-- The leaves of a value.  Source: `tree_flatten`, gwkokab/models/constraints.py lines 320–324 and the other lines listed at `fieldTable`. -/
def leaves : Val α → List (Leaf α)
  | .arr a => [.arr a]
  | .int n => [.int n]
  | .null => []
  | .seq vs => leavesSeq vs
  | .dict kvs => leavesDict kvs
  | .obj c attrs => leavesAttrs c attrs
/-- The leaves of the entries of a tuple or list.  Source: `tree_flatten`, gwkokab/models/constraints.py lines 320–324. -/
def leavesSeq : List (Val α) → List (Leaf α)
  | [] => []
  | v :: vs => leaves v ++ leavesSeq vs
/-- The leaves of the values of a dictionary.  Source: `tree_flatten`, gwkokab/models/utils/_lazyjointdistribution.py lines 62–66. -/
def leavesDict : List (String × Val α) → List (Leaf α)
  | [] => []
  | (_, v) :: r => leaves v ++ leavesDict r
/-- The leaves of the data attributes of an object.  Source: `tree_flatten`, gwkokab/models/constraints.py lines 320–324. -/
def leavesAttrs (c : String) : List (String × Val α) → List (Leaf α)
  | [] => []
  | (k, v) :: r => (if isData c k then leaves v else []) ++ leavesAttrs c r
end

mutual
/-- The static description of a value.  Source: `tree_flatten`, gwkokab/models/constraints.py lines 320–324 and the other lines listed at `fieldTable`. -/
def describe : Val α → Def α
  | .arr _ => .leaf
  | .int _ => .leaf
  | .null => .null
  | .seq vs => .seq (describeSeq vs)
  | .dict kvs => .dict (describeDict kvs)
  | .obj c attrs => .obj c (describeAttrs c attrs) (attrs.filter fun p => isAux c p.1)
/-- The descriptions of the entries of a tuple or list.  Source: `tree_flatten`, gwkokab/models/constraints.py lines 320–324. -/
def describeSeq : List (Val α) → List (Def α)
  | [] => []
  | v :: vs => describe v :: describeSeq vs
/-- The descriptions of the values of a dictionary.  Source: `tree_flatten`, gwkokab/models/utils/_lazyjointdistribution.py lines 62–66. -/
def describeDict : List (String × Val α) → List (String × Def α)
  | [] => []
  | (k, v) :: r => (k, describe v) :: describeDict r
/-- The descriptions of the data attributes.  Source: `tree_flatten`, gwkokab/models/constraints.py lines 320–324. -/
def describeAttrs (c : String) : List (String × Val α) → List (String × Def α)
  | [] => []
  | (k, v) :: r => if isData c k then (k, describe v) :: describeAttrs c r else describeAttrs c r
end

/-- A leaf as a value.  Source: `jax.tree_util.tree_unflatten`, as used by gwkokab/poisson_mean/_neural_vt.py line 78. -/
def Leaf.toVal : Leaf α → Val α
  | .arr a => .arr a
  | .int n => .int n

mutual
/-- A value from its description and leaves, and the leaves left over; a new object gets the data attributes and the kept ones and no others (its
constructor is not run).  Source: `tree_unflatten` of NumPyro's base classes, which the classes listed at `fieldTable` inherit,
e.g. gwkokab/models/transformations.py lines 67 and 228–232. -/
def rebuild : Def α → List (Leaf α) → Val α × List (Leaf α)
  | .leaf, l :: ls => (l.toVal, ls)
  | .leaf, [] => (.null, [])
  | .null, ls => (.null, ls)
  | .seq ds, ls => let r := rebuildSeq ds ls; (.seq r.1, r.2)
  | .dict kds, ls => let r := rebuildDict kds ls; (.dict r.1, r.2)
  | .obj c data aux, ls => let r := rebuildDict data ls; (.obj c (r.1 ++ aux), r.2)
/-- The entries of a tuple or list.  Source: as `rebuild`; gwkokab/models/transformations.py lines 228–232. -/
def rebuildSeq : List (Def α) → List (Leaf α) → List (Val α) × List (Leaf α)
  | [], ls => ([], ls)
  | d :: ds, ls =>
    let r := rebuild d ls
    let s := rebuildSeq ds r.2
    (r.1 :: s.1, s.2)
/-- Named values.  Source: as `rebuild`; gwkokab/models/transformations.py lines 228–232. -/
def rebuildDict : List (String × Def α) → List (Leaf α) → List (String × Val α) × List (Leaf α)
  | [], ls => ([], ls)
  | (k, d) :: r, ls =>
    let x := rebuild d ls
    let s := rebuildDict r x.2
    ((k, x.1) :: s.1, s.2)
end

/-- What a function receives in place of `v` when every leaf passes through `f`: unchanged for a plain round trip, traced by `jax.jit`, one element of the
batch under `jax.vmap`.  Source: gwkokab/poisson_mean/_neural_vt.py lines 78–79. -/
def cross (f : Leaf α → Leaf α) (v : Val α) : Val α := (rebuild (describe v) ((leaves v).map f)).1

/-- The class attributes an instance falls back on: NumPyro gives every transform the domain and codomain `real`.  Source: `Transform`, the base class named in
gwkokab/models/transformations.py line 67. -/
def classAttr (c k : String) : Option (Val α) :=
  if c = "BlockTransform" ∧ k ∈ ["domain", "codomain"] then some (.obj "real" []) else none

/-- `o.k`.  Source: Python's attribute access, as used e.g. in gwkokab/models/constraints.py line 385. -/
def getattr : Val α → String → Option (Val α)
  | .obj c attrs, k => (get? attrs k).orElse fun _ => classAttr c k
  | _, _ => none

/-- The attributes that the constructor of a class sets; each of them is read by some method of the class (or, for `domain` and `codomain`, by the
constraints and distributions that use the transform).  Source: the lines given at each class. -/
def constructedTable : List (String × List String) := [
  -- gwkokab/models/constraints.py lines 46–56
  ("_MassSandwichConstraint", ["mmin", "mmax"]),
  -- gwkokab/models/constraints.py lines 93–103
  ("_MassRatioMassSandwichConstraint", ["mmin", "mmax"]),
  -- gwkokab/models/constraints.py lines 136–151
  ("_IncreasingVector", []),
  -- gwkokab/models/constraints.py lines 154–169
  ("_DecreasingVector", []),
  -- gwkokab/models/constraints.py lines 172–191
  ("_StrictlyIncreasingVector", []),
  -- gwkokab/models/constraints.py lines 194–213
  ("_StrictlyDecreasingVector", []),
  -- gwkokab/models/constraints.py lines 216–233
  ("_PositiveIncreasingVector", []),
  -- gwkokab/models/constraints.py lines 236–253
  ("_PositiveDecreasingVector", []),
  -- gwkokab/models/constraints.py lines 261–271
  ("_AllConstraint", ["constraints", "event_slices"]),
  -- gwkokab/models/constraints.py lines 338–339
  ("_AnyConstraint", ["constraints"]),
  -- gwkokab/models/constraints.py lines 363–372
  ("_TransformedConstraint", ["base_support", "transforms"]),
  -- gwkokab/models/hybrids/_bp2pmultispinfull.py lines 169–525
  ("BrokenPowerlawTwoPeakMultiSpinMultiTilt", ["_support", "_logZ", "_m1s", "_Z_q_given_m1", "a_1_high_bpl1", "a_1_high_bpl2", "a_1_high_n1",
    "a_1_high_n2", "a_1_loc_bpl1", "a_1_loc_bpl2", "a_1_loc_n1", "a_1_loc_n2", "a_1_low_bpl1", "a_1_low_bpl2", "a_1_low_n1", "a_1_low_n2",
    "a_1_scale_bpl1", "a_1_scale_bpl2", "a_1_scale_n1", "a_1_scale_n2", "a_2_high_bpl1", "a_2_high_bpl2", "a_2_high_n1", "a_2_high_n2", "a_2_loc_bpl1",
    "a_2_loc_bpl2", "a_2_loc_n1", "a_2_loc_n2", "a_2_low_bpl1", "a_2_low_bpl2", "a_2_low_n1", "a_2_low_n2", "a_2_scale_bpl1", "a_2_scale_bpl2",
    "a_2_scale_n1", "a_2_scale_n2", "alpha1", "alpha2", "beta", "cos_tilt_1_loc_bpl1", "cos_tilt_1_loc_bpl2", "cos_tilt_1_loc_n1", "cos_tilt_1_loc_n2",
    "cos_tilt_1_scale_bpl1", "cos_tilt_1_scale_bpl2", "cos_tilt_1_scale_n1", "cos_tilt_1_scale_n2", "cos_tilt_2_loc_bpl1", "cos_tilt_2_loc_bpl2",
    "cos_tilt_2_loc_n1", "cos_tilt_2_loc_n2", "cos_tilt_2_scale_bpl1", "cos_tilt_2_scale_bpl2", "cos_tilt_2_scale_n1", "cos_tilt_2_scale_n2",
    "cos_tilt_zeta_bpl1", "cos_tilt_zeta_bpl2", "cos_tilt_zeta_n1", "cos_tilt_zeta_n2", "delta_m1", "delta_m2", "lambda_0", "lambda_1", "loc1", "loc2",
    "m1min", "m2min", "mbreak", "mmax", "scale1", "scale2"] ++ shapes),
  -- gwkokab/models/hybrids/_utils.py lines 107–168
  ("_SmoothedPowerlawMassRatioAndRest", ["rest_dist", "_support", "_m1s", "_Z_q_given_m1", "beta", "delta_m1", "delta_m2", "log_rate", "logZ",
    "m1max", "m1min", "m2min"] ++ shapes),
  -- gwkokab/models/mass/_bpls.py lines 65–88
  ("BrokenPowerlaw", ["_support", "alpha1", "alpha2", "mbreak", "mmax", "mmin"] ++ shapes),
  -- gwkokab/models/mass/_bpls.py lines 193–287
  ("BrokenPowerlawTwoPeak", ["_support", "_logZ", "_m1s", "_Z_q_given_m1", "alpha1", "alpha2", "beta", "loc1", "loc2", "scale1", "scale2",
    "delta_m1", "delta_m2", "lambda_0", "lambda_1", "m1min", "m2min", "mmax", "mbreak"] ++ shapes),
  -- gwkokab/models/mass/_models.py lines 48–78
  ("PowerlawPrimaryMassRatio", ["_support", "alpha", "beta", "mmin", "mmax"] ++ shapes),
  -- gwkokab/models/mass/_models.py lines 131–158
  ("Wysocki2019MassModel", ["_support", "alpha_m", "mmin", "mmax"] ++ shapes),
  -- gwkokab/models/mass/_models.py lines 213–297
  ("SmoothedTwoComponentPrimaryMassRatio", ["_support", "_logZ", "_m1s", "_Z_q_given_m1", "alpha", "beta", "delta", "lambda_peak", "loc", "mmax",
    "mmin", "scale"] ++ shapes),
  -- gwkokab/models/redshift/_models.py lines 129–136, and lines 17–31
  ("PowerlawRedshift", ["z_max", "_support", "kappa"] ++ shapes),
  -- gwkokab/models/redshift/_models.py lines 186–205, and lines 17–31
  ("MadauDickinsonRedshift", ["z_max", "_support", "kappa", "gamma", "z_peak"] ++ shapes),
  -- gwkokab/models/spin/_models.py lines 288–302
  ("GWTC4EffectiveSpinSkewNormalModel", ["loc", "scale", "epsilon"] ++ shapes),
  -- gwkokab/models/transformations.py lines 144–160
  ("BlockTransform", ["event_slices", "transforms", "domain", "codomain"]),
  -- gwkokab/models/transformations.py lines 243–289
  ("PrimaryMassAndMassRatioToComponentMassesTransform", []),
  -- gwkokab/models/transformations.py lines 292–335
  ("ComponentMassesToChirpMassAndSymmetricMassRatio", []),
  -- gwkokab/models/transformations.py lines 338–372
  ("DeltaToSymmetricMassRatio", []),
  -- gwkokab/models/transformations.py lines 375–422
  ("ComponentMassesToChirpMassAndDelta", []),
  -- gwkokab/models/transformations.py lines 425–459
  ("SourceMassAndRedshiftToDetectedMassAndRedshift", []),
  -- gwkokab/models/transformations.py lines 462–498
  ("ComponentMassesAndRedshiftToDetectedMassAndRedshift", []),
  -- gwkokab/models/transformations.py lines 501–539
  ("ComponentMassesToPrimaryMassAndMassRatio", []),
  -- gwkokab/models/transformations.py lines 542–585
  ("ComponentMassesToMassRatioAndSecondaryMass", []),
  -- gwkokab/models/transformations.py lines 588–625
  ("ComponentMassesToTotalMassAndMassRatio", []),
  -- gwkokab/models/transformations.py lines 646–647
  ("RedshiftToLuminosityDistance", ["cosmology"]),
  -- gwkokab/models/utils/_doubletruncpowerlaw.py lines 382–397
  ("DoublyTruncatedPowerLaw", ["_support", "alpha", "low", "high"] ++ shapes),
  -- gwkokab/models/utils/_extendedsupporttransformeddistribution.py lines 10–13
  ("ExtendedSupportTransformedDistribution", ["base_dist", "transforms"] ++ shapes),
  -- gwkokab/models/utils/_joindistribution.py lines 22–125
  ("JointDistribution", ["marginal_distributions", "shaped_values", "_support"] ++ shapes),
  -- gwkokab/models/utils/_lazyjointdistribution.py lines 23–31
  ("_LazyConstraint", ["marginal_distributions", "dependencies", "event_slices"]),
  -- gwkokab/models/utils/_lazyjointdistribution.py lines 89–212
  ("LazyJointDistribution", ["marginal_distributions", "shaped_values", "partial_order", "dependencies", "_support"] ++ shapes),
  -- gwkokab/models/utils/_scaledmixture.py lines 44–105
  ("ScaledMixture", ["log_scales", "_mixture_size", "_support", "_component_distributions"] ++ shapes),
  -- gwkanal/utils/priors.py lines 28–41
  ("_DirichletElement", ["order", "n_dimensions", "sum_of_concentrations"] ++ shapes)]

/-- The attributes that the constructor sets, `none` for the classes of other packages.  Source: as `constructedTable`;
gwkokab/models/constraints.py lines 46–386. -/
def constructed (c : String) : Option (List String) := get? constructedTable c

/-- What can go wrong when a slice of the event is taken.  Source: gwkokab/models/utils/_lazyjointdistribution.py lines 45–55. -/
inductive Err where
  /-- `event_slice[0]` of something that is neither an integer nor a pair -/
  | notIndexable
  /-- the length of a slice is not a Python integer -/
  | notStatic
deriving DecidableEq

/-- The branch taken for one entry of `event_slices`: an integer selects a coordinate, a pair of integers a slice.
Source: gwkokab/models/utils/_lazyjointdistribution.py lines 45–55. -/
def sliceOf : Val α → Except Err (Int × Option Int)
  | .int n => .ok (n, none)
  | .seq [.int a, .int b] => .ok (a, some (b - a))
  | .seq [_, _] => .error .notStatic
  | _ => .error .notIndexable

/-- The slices a support check takes, in order; the first bad one raises.  Source: gwkokab/models/utils/_lazyjointdistribution.py lines 43–59,
gwkokab/models/constraints.py lines 274–290. -/
def slicesOf (o : Val α) : Except Err (List (Int × Option Int)) :=
  match getattr o "event_slices" with
  | some (.seq vs) => vs.mapM sliceOf
  | _ => .error .notIndexable

end GW.Pytree
