import Verif.Model.PyDict

/-!
# Saving and loading neural networks

Model of `save_model` / `load_model` in `/repo/src/gwkokab/utils/train.py` (lines 93-154).  An HDF5 file is a record with
attributes, scalar data sets and groups of named arrays.  Simplifications: byte encoding of the names is the identity, and a
data set has the type it is saved with.
-/

namespace GW.ModelFile
open PyDict (Dict)

/-- The exceptions of gwkokab/utils/train.py lines 103–153: the refused path, the missing attribute `_fun` of line 108, a data
set that is not in the file, a layer that the network does not have. -/
inductive Err where
  | valueError
  | attribute
  | key
  | index
deriving DecidableEq, Repr

/-- `eqx.nn.MLP`: sizes and the weight/bias of every layer.  Source: gwkokab/utils/train.py lines 83–90. -/
structure MLP (W : Type) where
  inSize : Nat
  outSize : Nat
  widthSize : Nat
  depth : Nat
  layers : List (W × W)

/-- What a caller can pass to `save_model`: a network as `make_model` and `load_model` return it, or one wrapped by
`eqx.filter_checkpoint`, which keeps the network in its field `_fun`.  Source: gwkokab/utils/train.py lines 108 and 282. -/
inductive Network (W : Type) where
  | plain (m : MLP W)
  | checkpointed (m : MLP W)

/-- `model._fun`.  Source: gwkokab/utils/train.py line 108. -/
def Network.inner {W} : Network W → Except Err (MLP W)
  | .plain _ => .error .attribute
  | .checkpointed m => .ok m

/-- The parts of an HDF5 file used here: attributes, the data set `names`, the scalar data sets and the groups.
Source: gwkokab/utils/train.py lines 110–154. -/
structure H5 (A W : Type) where
  attrs : Dict String A
  names : Option (List String)
  scalars : Dict String Nat
  groups : Dict String (Dict String W)

/-- `f"layer_{i}"`.  Source: gwkokab/utils/train.py lines 122 and 146. -/
def layerName (i : Nat) : String := "layer_" ++ toString i

/-- Lines 121-124 for layer `i` and the following ones. -/
def saveLayers {W} : Nat → List (W × W) → Dict String (Dict String W) → Dict String (Dict String W)
  | _, [], g => g
  | i, (w, b) :: rest, g =>
    let layer := PyDict.set (PyDict.set [] ("weight_" ++ toString i) w) ("bias_" ++ toString i) b
    saveLayers (i + 1) rest (PyDict.set g (layerName i) layer)

/-- `save_model` (lines 93-124); `attr` are the attributes read from the data file, `isLogVal` the attribute value for
`is_log`. -/
def save {A W} (filepath : String) (attr : Dict String A) (model : Network W) (names : Option (List String)) (isLogVal : A) :
    Except Err (H5 A W) :=
  if ¬ filepath.endsWith ".hdf5" then .error .valueError
  else
    match model.inner with
    | .error e => .error e
    | .ok m => .ok
      { attrs := PyDict.set (attr.foldl (fun d p => PyDict.set d p.1 p.2) []) "is_log" isLogVal
        names := names
        scalars := [("in_size", m.inSize), ("out_size", m.outSize), ("width_size", m.widthSize), ("depth", m.depth)]
        groups := saveLayers 0 m.layers [] }

/-- The `while` loop of lines 145-152; one unit of fuel per iteration (the number of groups always suffices). -/
def loadLayers {W} (groups : Dict String (Dict String W)) : Nat → Nat → List (W × W) → Except Err (List (W × W))
  | 0, _, layers => .ok layers
  | fuel + 1, i, layers =>
    match PyDict.get? groups (layerName i) with
    | none => .ok layers
    | some g =>
      match PyDict.get? g ("weight_" ++ toString i), PyDict.get? g ("bias_" ++ toString i) with
      | some w, some b => if i < layers.length then loadLayers groups fuel (i + 1) (layers.set i (w, b)) else .error .index
      | _, _ => .error .key

/-- `f[k][()]`.  Source: gwkokab/utils/train.py lines 131–134. -/
def scalar {A W} (f : H5 A W) (k : String) : Except Err Nat :=
  match PyDict.get? f.scalars k with
  | none => .error .key
  | some n => .ok n

/-- `load_model` (lines 127-154); `fresh` are the initial weights of a new network with `depth + 1` layers. -/
def load {A W} (fresh : Nat → W × W) (f : H5 A W) : Except Err (List String × MLP W) :=
  match f.names with
  | none => .error .key
  | some names => do
    let inSize ← scalar f "in_size"
    let outSize ← scalar f "out_size"
    let widthSize ← scalar f "width_size"
    let depth ← scalar f "depth"
    let layers ← loadLayers f.groups (f.groups.length + 1) 0 ((List.range (depth + 1)).map fresh)
    pure (names, ⟨inSize, outSize, widthSize, depth, layers⟩)

end GW.ModelFile
