import Verif.Model.Numeric
import Verif.Model.MassModels

/-!
# Cosmology tables and redshift models (gwkokab/cosmology/_cosmology.py, _planck.py, gwkokab/models/redshift/_models.py, transformations.py:628–663)

Scalar cosmological parameters; exact arithmetic on the grids (the float rounding of `jnp.arange` is not modelled).
-/

namespace GW.Cosmo
open GW XR GW.Num

noncomputable section
open Classical

/-- constants.py:10. -/
def speedOfLight : ℝ := 299792458

/-- The constructor arguments of `Cosmology`, _cosmology.py:28–36. -/
structure Cosmology where
  Ho : ℝ
  omegaMatter : ℝ
  omegaRadiation : ℝ
  omegaLambda : ℝ
  maxZ : ℝ
  dz : ℝ

namespace Cosmology

/-- `_OmegaKappa`, _cosmology.py:58–60. -/
def omegaKappa (c : Cosmology) : ℝ := 1 - (c.omegaMatter + c.omegaRadiation + c.omegaLambda)

/-- `z_to_E`, _cosmology.py:71–78; static integer powers are products. -/
def zToE (c : Cosmology) (z : XR) : XR :=
  let zp1 := fin 1 + z
  sqrt (fin c.omegaLambda + fin c.omegaKappa * (zp1 * zp1) + fin c.omegaMatter * (zp1 * (zp1 * zp1)) + fin c.omegaRadiation * ((zp1 * zp1) * (zp1 * zp1)))

/-- `dDcdz`, _cosmology.py:80–81. -/
def dDcdz (c : Cosmology) (z : XR) : XR := (fin speedOfLight / fin c.Ho) / c.zToE z

/-- The number of points of `jnp.arange(0.0, max_z + dz, dz)`: `ceil((max_z + dz) / dz)`.  Source: gwkokab/cosmology/_cosmology.py line 62. -/
def size (c : Cosmology) : ℕ := ⌈(c.maxZ + c.dz) / c.dz⌉₊

/-- `self._z`, _cosmology.py:62. -/
def zs (c : Cosmology) : List XR := (List.range c.size).map fun (i : ℕ) => fin (i * c.dz)

/-- `self._Dc`, _cosmology.py:63–65. -/
def Dc (c : Cosmology) : List XR := cumTrapezoid (c.zs.map c.dDcdz) c.zs

/-- `DL`, _cosmology.py:114–116. -/
def DL (c : Cosmology) : List XR := List.zipWith (fun d z => d * (fin 1 + z)) c.Dc c.zs

/-- `z_to_Dc`, _cosmology.py:101–103. -/
def zToDc (c : Cosmology) (z : XR) : XR := interpDefault z c.zs c.Dc

/-- `z_to_DL`, _cosmology.py:105–107. -/
def zToDL (c : Cosmology) (z : XR) : XR := interpDefault z c.zs c.DL

/-- `DL_to_z`, _cosmology.py:109–111. -/
def dLToZ (c : Cosmology) (d : XR) : XR := interpDefault d c.DL c.zs

/-- `dDLdz`, _cosmology.py:83–85. -/
def dDLdz (c : Cosmology) (z : XR) : XR := c.dDcdz z * (fin 1 + z) + c.zToDc z

/-- `logdVcdz` with `Dc` given, _cosmology.py:87–95. -/
def logdVcdzOf (c : Cosmology) (z Dc : XR) : XR := log (fin (4 * Real.pi)) - fin 9 * log (fin 10) + fin 2 * log Dc + log (c.dDcdz z)

/-- `logdVcdz(z)`, _cosmology.py:87–95. -/
def logdVcdz (c : Cosmology) (z : XR) : XR := c.logdVcdzOf z (c.zToDc z)

/-- `dVcdz(z)`, _cosmology.py:97–98. -/
def dVcdz (c : Cosmology) (z : XR) : XR := exp (c.logdVcdz z)

/-- `self.Vc`, _cosmology.py:66–68. -/
def Vc (c : Cosmology) : List XR := cumTrapezoid (List.zipWith (fun z d => exp (c.logdVcdzOf z d)) c.zs c.Dc) c.zs

end Cosmology

/-- `PLANCK_2015_Cosmology`, _planck.py:8–20, with the defaults `max_z = 4.0`, `dz = 1e-3`. -/
def planck2015 : Cosmology := ⟨67.74 * 1e3, 0.3089, 0, 1 - 0.3089, 4, 1e-3⟩

/-- `PLANCK_2018_Cosmology`, _planck.py:23–35. -/
def planck2018 : Cosmology := ⟨67.32 * 1e3, 0.3158, 0, 1 - 0.3158, 4, 1e-3⟩

/-! ## `RedshiftToLuminosityDistance` -/

/-- `log_abs_det_jacobian`, transformations.py:656–659; the map and its inverse are `z_to_DL` and `DL_to_z`. -/
def logDetDistance (c : Cosmology) (x : XR) : XR := log (c.zToDc x + (fin 1 + x) * c.dDcdz x)

/-! ## Redshift models -/

/-- `_RedshiftModel`, _models.py:16–103, for the cosmology `_default_Cosmology()` (any, here) and the `log_psi_of_z` of a subclass. -/
structure Redshift where
  cosmo : Cosmology
  logPsi : XR → XR
  zMax : ℝ
  validate : Bool

namespace Redshift

/-- `support`: `interval(0, z_max)`, _models.py:26. -/
def support (d : Redshift) (z : XR) : Bool := decide (le (fin 0) z) && decide (le z (fin d.zMax))

/-- `log_differential_spacetime_volume`, _models.py:37–44. -/
def logDiff (d : Redshift) (z : XR) : XR := -(log1p z) + d.cosmo.logdVcdz z + d.logPsi z

/-- `log_norm`, _models.py:46–54. -/
def logNorm (d : Redshift) : XR :=
  let zg := linspace 0 d.zMax 2500
  log (trapezoid (zg.map fun z => exp (d.logDiff z)) zg)

/-- The table `cdfgrid` of `sample`, _models.py:74–79, on a grid of `n` points. -/
def cdfGrid (d : Redshift) (n : ℕ) : List XR :=
  let zg := linspace 0 d.zMax n
  let pdf := zg.map fun z => exp (d.logDiff z)
  let norm := trapezoid pdf zg
  let cdf := cumTrapezoid (pdf.map fun p => p / norm) zg
  cdf.map fun x => x / cdf.getD (cdf.length - 1) nan

/-- `sample` as a function of the uniform draw, _models.py:73–80 (10 000 grid points). -/
def sample (d : Redshift) (u : ℝ) : XR := interpDefault (fin u) (d.cdfGrid 10000) (linspace 0 d.zMax 10000)

/-- `log_prob`, _models.py:85–98 (behind `@validate_sample`). -/
def logProb (d : Redshift) (z : XR) : XR := GW.Mass.validated d.validate (d.support z) (d.logDiff z)

end Redshift

/-- `PowerlawRedshift.log_psi_of_z`, _models.py:138–154. -/
def powerlawLogPsi (kappa : ℝ) (z : XR) : XR := fin kappa * log1p z

/-- `MadauDickinsonRedshift.log_psi_of_z`, _models.py:207–231. -/
def madauLogPsi (kappa gamma zPeak : ℝ) (z : XR) : XR :=
  let zp1 := fin 1 + z
  let zpk := fin 1 + fin zPeak
  fin kappa * log1p z + log1p (pow zpk gamma) - log (pow zpk gamma + pow zp1 gamma)

end

end GW.Cosmo
