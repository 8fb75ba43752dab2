import Verif.Model.XRMath

/-!
# Mass, redshift and spin conversions

Model of `/repo/src/gwkokab/utils/transformations.py`, one definition per function, per array element.
-/

namespace GW.Conv
open GW XR

noncomputable section

/-- Lines 10-15. -/
def m1TimesM2 (m1 m2 : XR) : XR := m1 * m2

/-- Lines 18-23. -/
def totalMass (m1 m2 : XR) : XR := m1 + m2

/-- Lines 26-36. -/
def massRatio (m1 m2 : XR) : XR :=
  let safeM1 := select (eqc m1 0) (fin 1) m1
  select (eqc m1 0) pinf (m2 / safeM1)

/-- Lines 39-50. -/
def chirpMass (m1 m2 : XR) : XR :=
  let M := totalMass m1 m2
  let m1m2 := m1TimesM2 m1 m2
  pow m1m2 (6 / 10) * pow M (-(2 / 10))

/-- Lines 53-63. -/
def logChirpMass (m1 m2 : XR) : XR :=
  let M := totalMass m1 m2
  fin (6 / 10) * (log m1 + log m2) - fin (2 / 10) * log M

/-- Lines 66-77. -/
def symmetricMassRatio (m1 m2 : XR) : XR :=
  let M := totalMass m1 m2
  m1TimesM2 m1 m2 * pow M (-2)

/-- Lines 80-91. -/
def reducedMass (m1 m2 : XR) : XR :=
  let M := totalMass m1 m2
  select (eqc M 0) pinf (m1TimesM2 m1 m2 / M)

/-- Lines 94-105. -/
def deltaM (m1 m2 : XR) : XR :=
  let diff := m1 - m2
  let M := totalMass m1 m2
  select (eqc M 0) pinf (diff / M)

/-- Lines 108-119. -/
def deltaMToEta (delta : XR) : XR := fin (1 / 4) * (fin 1 - square delta)

/-- Lines 122-133. -/
def etaToDeltaM (eta : XR) : XR := sqrt (fin 1 - eta * fin 4)

/-- Lines 136-147. -/
def mDetZToMSource (mDet z : XR) : XR :=
  let safe := select (eqc z (-1)) (fin 1) (fin 1 + z)
  select (eqc z (-1)) pinf (mDet / safe)

/-- Lines 150-159. -/
def mSourceZToMDet (mSource z : XR) : XR := mSource * (fin 1 + z)

/-- Lines 162-167. -/
def m1QToM2 (m1 q : XR) : XR := m1 * q

/-- Lines 170-181. -/
def m2QToM1 (m2 q : XR) : XR :=
  let safeQ := select (eqc q 0) (fin 1) q
  select (eqc q 0) pinf (m2 / safeQ)

/-- Lines 184-189. -/
def chiCostiltToChiz (chi costilt : XR) : XR := chi * costilt

/-- Lines 192-211. -/
def chiMinus (m1 m2 chi1z chi2z : XR) : XR :=
  let M := totalMass m1 m2
  let diff := m1 * chi1z - m2 * chi2z
  select (eqc M 0) pinf (diff / M)

/-- Lines 214-231. -/
def chiEff (m1 m2 chi1z chi2z : XR) : XR :=
  let M := totalMass m1 m2
  let dot := m1 * chi1z + m2 * chi2z
  select (eqc M 0) pinf (dot / M)

/-- Lines 234-250. -/
def chiEffFromTilts (m1 m2 chi1 chi2 costilt1 costilt2 : XR) : XR :=
  chiEff m1 m2 (chiCostiltToChiz chi1 costilt1) (chiCostiltToChiz chi2 costilt2)

/-- Lines 253-269. -/
def chiMinusFromTilts (m1 m2 chi1 chi2 costilt1 costilt2 : XR) : XR :=
  chiMinus m1 m2 (chiCostiltToChiz chi1 costilt1) (chiCostiltToChiz chi2 costilt2)

/-- Lines 272-291. -/
def chiEffChiMinusToChiz (m1 m2 chieff chiminus : XR) : XR × XR :=
  let halfM := fin (1 / 2) * totalMass m1 m2
  ((halfM * (chieff + chiminus)) / m1, (halfM * (chieff - chiminus)) / m2)

/-- Lines 294-318. -/
def mcEtaToM1M2 (Mc eta : XR) : XR × XR :=
  let deltaSq := fin 1 - fin 4 * eta
  let deltaSq := max deltaSq (fin 0)
  let delta := sqrt deltaSq
  let half := fin (1 / 2) * Mc * pow eta (-(6 / 10))
  let m2 := half * (fin 1 - delta)
  let m1 := half * (fin 1 + delta)
  (m1, m2)

open Classical in
/-- Lines 321-334. -/
def etaFromQ (q : XR) : XR :=
  let nonpos := decide (XR.le q (fin 0))
  let safe := select nonpos (fin 1) q
  exp (select nonpos ninf (log safe - fin 2 * log1p safe))

/-- Lines 337-346. -/
def polarToCart (r theta : XR) : XR × XR := (r * cos theta, r * sin theta)

/-- Lines 349-360. -/
def cartToPolar (x y : XR) : XR × XR := (sqrt (x * x + y * y), arctan2 y x)

/-- Lines 363-377. -/
def sphericalToCart (r theta phi : XR) : XR × XR × XR :=
  (r * sin theta * cos phi, r * sin theta * sin phi, r * cos theta)

/-- Lines 380-397. -/
def cartToSpherical (x y z : XR) : XR × XR × XR :=
  let r := sqrt (x * x + y * y + z * z)
  let safeR := select (eqc r 0) (fin 1) r
  let theta := arccos (select (eqc r 0) pinf (z / safeR))
  (r, theta, arctan2 y x)

/-- Lines 400-405. -/
def sinTilt (costilt : XR) : XR := sqrt (fin 1 - square costilt)

/-- Lines 408-432. -/
def chiP (a1 cosTilt1 a2 cosTilt2 q : XR) : XR :=
  max (a1 * sinTilt cosTilt1)
    ((fin 3 + fin 4 * q) / (fin 4 + fin 3 * q) * q * a2 * sinTilt cosTilt2)

end

end GW.Conv
