import Verif.Model.Smoothed

/-!
# Broken power law plus two peaks with spins per component (gwkokab/models/hybrids/_bp2pmultispinfull.py)

Per event and per set of (scalar, finite) parameters.  The numerical normalisations are part of the model.
-/

namespace GW.MultiSpin
open GW XR GW.PowerLaw GW.Constraints GW.Num GW.Mass

noncomputable section
open Classical

/-- Location, scale and bounds of a truncated normal: the `a_1_…` or `a_2_…` parameters of one component, _bp2pmultispinfull.py:170–201. -/
structure Trunc where
  loc : ℝ
  scale : ℝ
  low : ℝ
  high : ℝ

/-- The spin parameters of one component (suffix `bpl1`, `bpl2`, `n1` or `n2`), _bp2pmultispinfull.py:170–224. -/
structure Spins where
  a1 : Trunc
  a2 : Trunc
  zeta : ℝ
  tilt1Loc : ℝ
  tilt1Scale : ℝ
  tilt2Loc : ℝ
  tilt2Scale : ℝ

/-- `BrokenPowerlawTwoPeakMultiSpinMultiTilt`, _bp2pmultispinfull.py:24–742.  The mass parameters have the names of `BrokenPowerlawTwoPeak` and are kept in its record. -/
structure Model where
  mass : TwoPeak
  bpl1 : Spins
  bpl2 : Spins
  n1 : Spins
  n2 : Spins

namespace Model

/-- The components in the order of every `jnp.asarray([...])` of the class.
Source: gwkokab/models/hybrids/_bp2pmultispinfull.py lines 565, 625, 656. -/
def comps (d : Model) : List Spins := [d.bpl1, d.bpl2, d.n1, d.n2]

/-- `jnp.min(jnp.stack(...))` / `jnp.max(jnp.stack(...))` of four parameters, _bp2pmultispinfull.py:444–490. -/
def min4 (a b c d : ℝ) : ℝ := min (min a b) (min c d)
/-- `jnp.max` of four numbers, gwkokab/models/hybrids/_bp2pmultispinfull.py lines 469–490. -/
def max4 (a b c d : ℝ) : ℝ := max (max a b) (max c d)

/-- `constraints.interval(lo, hi)(x)`.  Source: gwkokab/models/hybrids/_bp2pmultispinfull.py lines 495–498. -/
def inside (lo hi : ℝ) (x : XR) : Bool := decide (le (fin lo) x) && decide (le x (fin hi))

/-- `self._support`: `all_constraint([...], [(0, 2), 2, 3, 4, 5])`, _bp2pmultispinfull.py:444–501. -/
def support (d : Model) (m1 q a1 a2 t1 t2 : XR) : Bool :=
  accepts (.massRatioSandwich d.mass.m2min d.mass.mmax) [m1, q] &&
  inside (min4 d.bpl1.a1.low d.bpl2.a1.low d.n1.a1.low d.n2.a1.low) (max4 d.bpl1.a1.high d.bpl2.a1.high d.n1.a1.high d.n2.a1.high) a1 &&
  inside (min4 d.bpl1.a2.low d.bpl2.a2.low d.n1.a2.low d.n2.a2.low) (max4 d.bpl1.a2.high d.bpl2.a2.high d.n1.a2.high d.n2.a2.high) a2 &&
  inside (-1) 1 t1 && inside (-1) 1 t2

/-- `_log_prob_m1_unnorm_component`, _bp2pmultispinfull.py:531–586. -/
def m1Components (d : Model) (m1 : XR) : List XR :=
  let p := d.mass
  let logSmoothing := logPlanck ((m1 - fin p.m1min) / fin (safeWidth p.delta1))
  let logMbreak := log (fin p.mbreak)
  let logM1 := log m1
  let logNormBpl := logaddexp (-(logProbX (fin p.mbreak) (-p.alpha1) (fin p.m1min) (fin p.mbreak))) (-(logProbX (fin p.mbreak) (-p.alpha2) (fin p.mbreak) (fin p.mmax)))
  let below := decide (lt m1 (fin p.mbreak))
  let bpl1 := select below (fin p.alpha1 * (logMbreak - logM1)) ninf
  let bpl2 := select below ninf (fin p.alpha2 * (logMbreak - logM1))
  let n0 := truncnormLogpdf m1 p.loc1 p.scale1 (fin p.m1min) (fin p.mmax)
  let n1 := truncnormLogpdf m1 p.loc2 p.scale2 (fin p.m1min) (fin p.mmax)
  [ log (fin p.lambda0) + bpl1 - logNormBpl + logSmoothing,
    log (fin p.lambda0) + bpl2 - logNormBpl + logSmoothing,
    log (fin p.lambda1) + n0 + logSmoothing,
    log1p (-(fin (p.lambda0 + p.lambda1))) + n1 + logSmoothing ].map fun c =>
      select (decide (p.delta1 ≤ 0) || decide (lt m1 (fin p.m1min))) ninf c

/-- `_log_prob_q_unnorm`, _bp2pmultispinfull.py:588–594 (not behind `@validate_sample`, unlike the same method of `BrokenPowerlawTwoPeak`). -/
def qUnnorm (d : Model) (m1 q : XR) : XR :=
  let logSmoothing := logPlanck ((m1 * q - fin d.mass.m2min) / fin (safeWidth d.mass.delta2))
  let lp := fin d.mass.beta * log q + logSmoothing
  select (decide (d.mass.delta2 ≤ 0) || decide (lt (m1 * q) (fin d.mass.m2min))) ninf lp

/-- `_log_prob_a1_components`, _bp2pmultispinfull.py:596–625. -/
def a1Components (d : Model) (a1 : XR) : List XR := d.comps.map fun s => truncnormLogpdf a1 s.a1.loc s.a1.scale (fin s.a1.low) (fin s.a1.high)

/-- `_log_prob_a2_components`, _bp2pmultispinfull.py:627–656. -/
def a2Components (d : Model) (a2 : XR) : List XR := d.comps.map fun s => truncnormLogpdf a2 s.a2.loc s.a2.scale (fin s.a2.low) (fin s.a2.high)

/-- `_log_prob_t1_t2_components`, _bp2pmultispinfull.py:658–714. -/
def tiltComponents (d : Model) (t1 t2 : XR) : List XR := d.comps.map fun s =>
  let gaussian := log (fin s.zeta) + truncnormLogpdf t1 s.tilt1Loc s.tilt1Scale (fin (-1)) (fin 1) + truncnormLogpdf t2 s.tilt2Loc s.tilt2Scale (fin (-1)) (fin 1)
  let uniform := log1p (-(fin s.zeta)) + log (fin 0.25)
  logaddexp gaussian uniform

/-- `self._logZ`, _bp2pmultispinfull.py:506–517. -/
def logZ (d : Model) : XR :=
  let ms := linspace d.mass.m1min d.mass.mmax 1000
  log (trapezoid (ms.map fun m => sum ((d.m1Components m).map exp)) ms)

/-- `self._m1s` and `self._Z_q_given_m1`, _bp2pmultispinfull.py:519–525. -/
def m1s (d : Model) : List XR := linspace d.mass.m2min d.mass.mmax 1000
/-- `self._Z_q_given_m1`, gwkokab/models/hybrids/_bp2pmultispinfull.py lines 519–525. -/
def zq (d : Model) : List XR := zqTable d.qUnnorm d.m1s (linspace 0.005 1 500)

/-- `log_prob`, _bp2pmultispinfull.py:716–742 (behind `@validate_sample`). -/
def logProb (d : Model) (m1 q a1 a2 t1 t2 : XR) : XR :=
  let both := List.zipWith (· + ·) (List.zipWith (· + ·) (List.zipWith (· + ·) (d.m1Components m1) (d.a1Components a1)) (d.a2Components a2)) (d.tiltComponents t1 t2)
  let lp := logsumexpWhere (both.map fun c => (c, !c.isNegInf))
  let lpQ := d.qUnnorm m1 q - logZq (interp m1 d.m1s d.zq (fin 1) (fin 1))
  validated d.mass.validate (d.support m1 q a1 a2 t1 t2) (lp + lpQ - d.logZ)

end Model
end
end GW.MultiSpin
