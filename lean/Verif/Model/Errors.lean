import Verif.Model.Conversions
import Verif.Model.Key

/-!
# Measurement-error generators (gwkokab/errors.py, gwkanal/n_pls_m_gs/genie.py, gwkanal/ecc_matters/genie.py)

Random draws are arbitrary functions of the key (and shape); facts about the library's samplers are hypotheses of the theorems.  An event's
value `x` is one float (two for the masses).
-/

namespace GW.Errors
open GW XR GW.Conv

noncomputable section
open Classical

/-- What `jax.random` returns: one standard normal number, an array of them, and one uniform number.  Source: gwkokab/errors.py lines 61–67. -/
structure Draws where
  normal : Key → ℝ
  normals : Key → Nat → List ℝ
  uniform : Key → ℝ

/-- The last lines of `banana_error_m1_m2` for one sample: masses from the perturbed chirp mass and symmetric mass ratio (errors.py:90–97). -/
def bananaMasses (Mc eta : XR) : XR × XR :=
  let etaV := fin 1 - fin 4 * eta
  let etaVSqrt := select (decide (le (fin 0) etaV)) (sqrt etaV) nan
  let factor := fin (1 / 2) * Mc * pow eta (-(6 / 10))
  (factor * (fin 1 + etaVSqrt), factor * (fin 1 - etaVSqrt))

/-- `banana_error_m1_m2(x, size, key, scale_Mc, scale_eta)`, errors.py:21–99; `msun` is the constant `lalsimutils.MsunInSec`. -/
def banana (msun : ℝ) (d : Draws) (m1 m2 : XR) (size : Nat) (key : Key) (scaleMc scaleEta : ℝ) : List (XR × XR) :=
  let r0 := fin (d.normal (key.sub 0))
  let r0p := fin (d.normal (key.sub 1))
  let r := (d.normals (key.sub 2) size).map fun t => fin t * fin scaleMc
  let rp := (d.normals (key.sub 3) size).map fun t => fin t * fin scaleEta
  let rho := fin 9 * pow (fin (d.uniform (key.sub 4))) (-(1 / 3))
  let McTrue := chirpMass m1 m2
  let etaTrue := symmetricMassRatio m1 m2
  let v := pow (fin Real.pi * McTrue * fin 20 * fin msun) (1 / 3)
  let vMax := fin (2 / 10)
  let v := XR.min v vMax
  let snrFac := rho / fin 12
  let lnMcError := fin (15 / 10) * fin (3 / 10) * pow (v / vMax) 7 / snrFac
  let beta := XR.min (fin (7 / 100) / snrFac) lnMcError
  List.zipWith (fun r rp =>
    bananaMasses (McTrue * (fin 1 + beta * (r0 + r))) (etaTrue * (fin 1 + fin (3 / 100) * (fin 12 / rho) * (r0p + rp)))) r rp

/-- The `ValueError` of gwkokab/errors.py line 153. -/
inductive Err
  | valueError

/-- `TruncatedNormal(loc=x, scale, low, high).sample(key, (n,))`.  Source: gwkokab/errors.py lines 155–158 and 179. -/
abbrev Sampler := Key → Nat → List XR

/-- The mask of `truncated_normal_error`, errors.py:165–169. -/
def outside (cutLow cutHigh : Option ℝ) (v : XR) : Bool :=
  cutLow.elim false (fun c => decide (lt v (fin c))) || cutHigh.elim false (fun c => decide (lt (fin c) v))

/-- `err_x.at[jnp.where(mask)[0]].set(new_samples)`.  Source: gwkokab/errors.py line 181. -/
def refill (bad : XR → Bool) : List XR → List XR → List XR
  | [], _ => []
  | v :: vs, new => if bad v then (match new with
      | [] => v :: refill bad vs []
      | n :: new => n :: refill bad vs new) else v :: refill bad vs new

/-- The `while True` loop, errors.py:163–183: `Loop s bad key xs ys` says that started with `key` and `xs` it ends and leaves `ys`. -/
inductive Loop (s : Sampler) (bad : XR → Bool) : Key → List XR → List XR → Prop
  | stop (key xs) : xs.any bad = false → Loop s bad key xs xs
  | again (key xs ys) : xs.any bad = true → Loop s bad (key.sub 0) (refill bad xs (s (key.sub 0) (xs.countP bad))) ys → Loop s bad key xs ys

/-- `truncated_normal_error(x, size, key, scale, low, high, cut_low, cut_high)`, errors.py:102–185: `Returns … r` says that the call ends with `r`;
`sampler scale` is the sampler of the truncated normal. -/
inductive Returns (sampler : ℝ → Sampler) (size : Nat) (key : Key) (scale cutLow cutHigh : Option ℝ) : Except Err (List XR) → Prop
  | noScale : scale = none → Returns sampler size key scale cutLow cutHigh (.error .valueError)
  | uncut (σ : ℝ) : scale = some σ → cutLow = none ∧ cutHigh = none → Returns sampler size key scale cutLow cutHigh (.ok (sampler σ key size))
  | cut (σ : ℝ) (ys : List XR) : scale = some σ → ¬ (cutLow = none ∧ cutHigh = none) →
      Loop (sampler σ) (outside cutLow cutHigh) key (sampler σ key size) ys → Returns sampler size key scale cutLow cutHigh (.ok ys)

/-- `jnp.mod(x, p)` for a positive period, idealised: NaN for non-finite `x`.  Source: gwkanal/n_pls_m_gs/genie.py lines 769, 880, 1024. -/
def mod (x : XR) (p : ℝ) : XR := match x with
  | fin a => fin (a - p * ⌊a / p⌋)
  | _ => nan

/-- `phi_1_error`, `phi_2_error`, `phi_12_error`, `mean_anomaly_error`, `right_ascension_error`, `phi_orb_error` (period `2π`) and
`polarization_angle_error` (period `π`), n_pls_m_gs/genie.py:761–770, 786–795, 811–820, 873–881, 921–929, 1041–1050 and 1017–1025. -/
def angleError (s : Sampler) (period : ℝ) (size : Nat) (key : Key) : List XR := (s key size).map fun v => mod v period

/-- `detection_time_error`, n_pls_m_gs/genie.py:969–977: a log-normal sample is the exponential of a normal one. -/
def detectionTimeError (d : Draws) (x : XR) (size : Nat) (key : Key) (scale : ℝ) : List XR :=
  let safe := XR.max x (fin (1 / 1000000))
  (d.normals key size).map fun t => exp (log safe + fin scale * fin t)

/-- `jnp.full_like(mask, nan)` for a Boolean array: the fill value is converted to `bool`, `nan != 0`.
Source: gwkanal/ecc_matters/genie.py line 109. -/
def fillBool (v : XR) : Bool := decide (v ≠ fin 0)

/-- `ecc_error_fn`, ecc_matters/genie.py:99–110; `jnp.where` of a Boolean and a float array promotes `True` to one. -/
def eccError (s : Sampler) (size : Nat) (key : Key) : List XR :=
  (s key size).map fun v =>
    let bad := decide (lt v (fin 0)) || decide (lt (fin 1) v)
    select bad (if fillBool nan then fin 1 else fin 0) v

end

end GW.Errors
