import Verif.Model.XR

/-!
# Training targets in log space

Model of `/repo/src/gwkokab/utils/train.py` lines 238-245.
-/

namespace GW.TrainTargets
open GW

/-- `jnp.where(isneginf(log y), -finfo.tiny, log y)`; `tiny > 0` is the smallest normal float.  Source: gwkokab/utils/train.py lines 240–245. -/
noncomputable def logTarget (tiny : ℝ) (y : XR) : XR :=
  let l := XR.log y
  if l.isNegInf then .fin (-tiny) else l

end GW.TrainTargets
