/-!
# The parameter-name enumeration (gwkokab/parameters.py)

`class Parameters(str, enum.Enum)`.  Objects that are neither strings nor members are represented by an identity number.
-/

namespace GW.Parameters

/-- The members, parameters.py:22–58. -/
inductive Member
  | chi1
  | chi2
  | chirpMass
  | chirpMassDetector
  | chirpMassSource
  | cosIota
  | cosTilt1
  | cosTilt2
  | detectionTime
  | eccentricity
  | effectiveSpin
  | luminosityDistance
  | massRatio
  | meanAnomaly
  | phi1
  | phi12
  | phi2
  | phiOrb
  | polarizationAngle
  | precessingSpin
  | primaryMassDetected
  | primaryMassSource
  | primarySpinMagnitude
  | primarySpinX
  | primarySpinY
  | primarySpinZ
  | redshift
  | reducedMass
  | rightAscension
  | secondaryMassDetected
  | secondaryMassSource
  | secondarySpinMagnitude
  | secondarySpinX
  | secondarySpinY
  | secondarySpinZ
  | sinDeclination
  | symmetricMassRatio
  deriving DecidableEq, Repr

/-- `member.value`, parameters.py:22–58. -/
def Member.value : Member → String
  | .chi1 => "chi_1"
  | .chi2 => "chi_2"
  | .chirpMass => "chirp_mass"
  | .chirpMassDetector => "chirp_mass_detector"
  | .chirpMassSource => "chirp_mass_source"
  | .cosIota => "cos_iota"
  | .cosTilt1 => "cos_tilt_1"
  | .cosTilt2 => "cos_tilt_2"
  | .detectionTime => "detection_time"
  | .eccentricity => "eccentricity"
  | .effectiveSpin => "chi_eff"
  | .luminosityDistance => "luminosity_distance"
  | .massRatio => "mass_ratio"
  | .meanAnomaly => "mean_anomaly"
  | .phi1 => "phi_1"
  | .phi12 => "phi_12"
  | .phi2 => "phi_2"
  | .phiOrb => "phi_orb"
  | .polarizationAngle => "psi"
  | .precessingSpin => "chi_p"
  | .primaryMassDetected => "mass_1"
  | .primaryMassSource => "mass_1_source"
  | .primarySpinMagnitude => "a_1"
  | .primarySpinX => "spin_1x"
  | .primarySpinY => "spin_1y"
  | .primarySpinZ => "spin_1z"
  | .redshift => "redshift"
  | .reducedMass => "reduced_mass"
  | .rightAscension => "ra"
  | .secondaryMassDetected => "mass_2"
  | .secondaryMassSource => "mass_2_source"
  | .secondarySpinMagnitude => "a_2"
  | .secondarySpinX => "spin_2x"
  | .secondarySpinY => "spin_2y"
  | .secondarySpinZ => "spin_2z"
  | .sinDeclination => "dec"
  | .symmetricMassRatio => "symmetric_mass_ratio"

/-- `member.name`, the Python identifier, parameters.py:22–58. -/
def Member.name : Member → String
  | .chi1 => "CHI_1"
  | .chi2 => "CHI_2"
  | .chirpMass => "CHIRP_MASS"
  | .chirpMassDetector => "CHIRP_MASS_DETECTOR"
  | .chirpMassSource => "CHIRP_MASS_SOURCE"
  | .cosIota => "COS_IOTA"
  | .cosTilt1 => "COS_TILT_1"
  | .cosTilt2 => "COS_TILT_2"
  | .detectionTime => "DETECTION_TIME"
  | .eccentricity => "ECCENTRICITY"
  | .effectiveSpin => "EFFECTIVE_SPIN"
  | .luminosityDistance => "LUMINOSITY_DISTANCE"
  | .massRatio => "MASS_RATIO"
  | .meanAnomaly => "MEAN_ANOMALY"
  | .phi1 => "PHI_1"
  | .phi12 => "PHI_12"
  | .phi2 => "PHI_2"
  | .phiOrb => "PHI_ORB"
  | .polarizationAngle => "POLARIZATION_ANGLE"
  | .precessingSpin => "PRECESSING_SPIN"
  | .primaryMassDetected => "PRIMARY_MASS_DETECTED"
  | .primaryMassSource => "PRIMARY_MASS_SOURCE"
  | .primarySpinMagnitude => "PRIMARY_SPIN_MAGNITUDE"
  | .primarySpinX => "PRIMARY_SPIN_X"
  | .primarySpinY => "PRIMARY_SPIN_Y"
  | .primarySpinZ => "PRIMARY_SPIN_Z"
  | .redshift => "REDSHIFT"
  | .reducedMass => "REDUCED_MASS"
  | .rightAscension => "RIGHT_ASCENSION"
  | .secondaryMassDetected => "SECONDARY_MASS_DETECTED"
  | .secondaryMassSource => "SECONDARY_MASS_SOURCE"
  | .secondarySpinMagnitude => "SECONDARY_SPIN_MAGNITUDE"
  | .secondarySpinX => "SECONDARY_SPIN_X"
  | .secondarySpinY => "SECONDARY_SPIN_Y"
  | .secondarySpinZ => "SECONDARY_SPIN_Z"
  | .sinDeclination => "SIN_DECLINATION"
  | .symmetricMassRatio => "SYMMETRIC_MASS_RATIO"

/-- `list(Parameters)`: the members in order of definition.  Source: gwkokab/parameters.py lines 22–58. -/
def members : List Member := [
  .chi1, .chi2, .chirpMass, .chirpMassDetector, .chirpMassSource, .cosIota, .cosTilt1, .cosTilt2, .detectionTime, .eccentricity,
  .effectiveSpin, .luminosityDistance, .massRatio, .meanAnomaly, .phi1, .phi12, .phi2, .phiOrb, .polarizationAngle, .precessingSpin,
  .primaryMassDetected, .primaryMassSource, .primarySpinMagnitude, .primarySpinX, .primarySpinY, .primarySpinZ, .redshift, .reducedMass,
  .rightAscension, .secondaryMassDetected, .secondaryMassSource, .secondarySpinMagnitude, .secondarySpinX, .secondarySpinY, .secondarySpinZ,
  .sinDeclination, .symmetricMassRatio]

/-- A Python object as far as equality with members is concerned.  Source: gwkokab/parameters.py lines 17–20. -/
inductive Obj
  | member (m : Member)
  | str (s : String)
  | other (id : Nat)
  deriving DecidableEq

/-- `Parameters.__eq__(self, other)`, parameters.py:17–20, for a plain string (line 19 compares strings) or another kind of object (line 20: `str.__eq__`
declines and identity decides: different objects). -/
def Member.eqPlain (m : Member) : Obj → Bool
  | .str s => m.value == s
  | _ => false

/-- `a == b`.  The right operand is asked first if its class is a proper subclass of the left operand's class: so `str == member` calls the member's method,
and so does the inner comparison `self.value == other` of line 19 when `other` is a member. -/
def eq : Obj → Obj → Bool
  | .member m, .member m' => m'.eqPlain (.str m.value)
  | .member m, o => m.eqPlain o
  | .str s, .member m => m.eqPlain (.str s)
  | .str s, .str t => s == t
  | .str _, .other _ => false
  | .other i, .other j => i == j
  | .other _, _ => false

/-- `hash(x)`: a member's is that of its value (parameters.py:14–15); `hs` is Python's string hash, `ho` the hash of other objects. -/
def hash (hs : String → Int) (ho : Nat → Int) : Obj → Int
  | .member m => hs m.value
  | .str s => hs s
  | .other i => ho i

/-- `str(x)` of a member, parameters.py:11–12. -/
def Member.str (m : Member) : String := m.value

/-- A dictionary: entries in insertion order; a key is found if hashes and values agree.  Source: relies on gwkokab/parameters.py lines 14–20. -/
abbrev Table (V : Type) := List (Obj × V)

/-- `d[k]`, `none` for `KeyError`.  Source: relies on gwkokab/parameters.py lines 14–20. -/
def lookup (h : Obj → Int) (d : Table V) (k : Obj) : Option V := (d.find? fun p => h p.1 == h k && eq p.1 k).map (·.2)

/-- `d[k] = v`: the first matching entry keeps its key and gets the value, otherwise a new entry is appended.
Source: relies on gwkokab/parameters.py lines 14–20. -/
def insert (h : Obj → Int) (d : Table V) (k : Obj) (v : V) : Table V := match d with
  | [] => [(k, v)]
  | p :: d => if h p.1 == h k && eq p.1 k then (p.1, v) :: d else p :: insert h d k v

/-- `dict(pairs)`.  Source: relies on gwkokab/parameters.py lines 14–20. -/
def build (h : Obj → Int) (pairs : List (Obj × V)) : Table V := pairs.foldl (fun d p => insert h d p.1 p.2) []

/-- `Parameters(s)`: the member with that value, `none` for `ValueError`.  Source: gwkokab/parameters.py lines 8–58. -/
def byValue (s : String) : Option Member := members.find? fun m => m.value == s

end GW.Parameters
