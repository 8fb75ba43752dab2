import Verif.Model.Events
import Verif.Spec.Injections

/-!
# What a reference prior of an event is
-/

namespace GW.Events
open GW XR GW.Injections

/-- The supported pairs of mass coordinates. -/
inductive Masses where
  | source          -- mass_1_source, mass_2_source
  | ratio           -- mass_1_source, mass_ratio
  | detectedSource  -- mass_1, mass_2_source
  | detectedRatio   -- mass_1, mass_ratio
  | detectedPair    -- mass_1, mass_2
  | chirp           -- chirp_mass, mass_ratio
  | chirpDetected   -- chirp_mass_detector, mass_ratio
deriving DecidableEq

/-- Their names. -/
def Masses.names : Masses → String × String
  | .source => ("mass_1_source", "mass_2_source")
  | .ratio => ("mass_1_source", "mass_ratio")
  | .detectedSource => ("mass_1", "mass_2_source")
  | .detectedRatio => ("mass_1", "mass_ratio")
  | .detectedPair => ("mass_1", "mass_2")
  | .chirp => ("chirp_mass", "mass_ratio")
  | .chirpDetected => ("chirp_mass_detector", "mass_ratio")

/-- The quantity each parameter name stands for, for a binary with source masses `m1`, `m2` at redshift `z`. -/
noncomputable def quantity (m1 m2 z : ℝ) (p : String) : Option ℝ :=
  if p = "mass_1_source" then some m1
  else if p = "mass_2_source" then some m2
  else if p = "mass_1" then some (m1 * (1 + z))
  else if p = "mass_2" then some (m2 * (1 + z))
  else if p = "mass_ratio" then some (m2 / m1)
  else if p = "chirp_mass" then some ((m1 * m2) ^ (3 / 5 : ℝ) / (m1 + m2) ^ (1 / 5 : ℝ))
  else if p = "chirp_mass_detector" then some ((m1 * m2) ^ (3 / 5 : ℝ) / (m1 + m2) ^ (1 / 5 : ℝ) * (1 + z))
  else if p = "redshift" then some z
  else none

/-- The coordinate change from `(m1, m2, z)` to a pair of masses and a third coordinate `D z`. -/
noncomputable def Masses.map (c : Masses) (D : ℝ → ℝ) (x : Fin 3 → ℝ) : Fin 3 → ℝ :=
  ![(quantity (x 0) (x 1) (x 2) c.names.1).getD 0, (quantity (x 0) (x 1) (x 2) c.names.2).getD 0, D (x 2)]

/-- The requested parameters are the redshift, exactly these masses, and anything else. -/
def Masses.Asked (c : Masses) (ps : List String) : Prop :=
  "redshift" ∈ ps ∧ ∀ n ∈ ["mass_1_source", "mass_2_source", "mass_1", "mass_2", "mass_ratio", "chirp_mass", "chirp_mass_detector"], n ∈ ps ↔ n = c.names.1 ∨ n = c.names.2

/-- The row describes this binary: whichever of the quantities are in the file have the right values. -/
def Describes (L : Loader) (df : Frame) (r : Rec) (m1 m2 z : ℝ) : Prop :=
  ∀ p v, quantity m1 m2 z p = some v → L.name p ∈ df.columns → r (L.name p) = fin v

/-- The mass ratio can be had from the file: it is a column, or the two source masses are, or the source mass is not and the two detected ones are. -/
def HasRatio (L : Loader) (df : Frame) : Prop :=
  L.name "mass_ratio" ∈ df.columns ∨ (L.name "mass_1_source" ∈ df.columns ∧ L.name "mass_2_source" ∈ df.columns) ∨
    (L.name "mass_1_source" ∉ df.columns ∧ L.name "mass_1" ∈ df.columns ∧ L.name "mass_2" ∈ df.columns)

/-- The masses in which each mass prior is flat; no mass prior means flat in the requested ones. -/
def flatIn (mp : Option MassPrior) (c : Masses) : Masses := match mp with
  | none => c
  | some .detectorComponents => .detectedPair
  | some .detectorChirpRatio => .chirpDetected
  | some .sourceComponents => .source

/-- The third coordinate in which the distance prior is stated: the luminosity distance for the Euclidean prior, else the redshift. -/
def distanceCoord (dp : Option DistancePrior) (D : ℝ → ℝ) : ℝ → ℝ := match dp with
  | some .euclidean => D
  | _ => id

/-- The density of the distance prior in that coordinate, up to a constant: flat in redshift; comoving volume (`V` its log derivative) with a factor
`1 / (1 + z)` for the source-frame time; the square of the luminosity distance. -/
noncomputable def distanceDensity (dp : Option DistancePrior) (V D : ℝ → ℝ) (z : ℝ) : ℝ := match dp with
  | none => 1
  | some .comoving => Real.exp (V z) / (1 + z)
  | some .euclidean => D z ^ 2

/-- `p0` is the density, in source masses and redshift, of the stated prior. -/
def IsStatedPrior (L : Loader) (c : Masses) (V D : ℝ → ℝ) (x : Fin 3 → ℝ) (p0 : ℝ) : Prop :=
  DensityAfter ((flatIn L.massPrior c).map (distanceCoord L.distancePrior D)) x p0 (distanceDensity L.distancePrior V D (x 2))

/-- What the distance prior takes from the cosmology at redshift `z`: `V` is the log of the comoving volume element, `D` the luminosity distance, with
derivative `D'`. -/
def CosmologyAt (dp : Option DistancePrior) (e : Env) (V D : ℝ → ℝ) (D' z : ℝ) : Prop := match dp with
  | none => True
  | some .comoving => e.logdVcdz (fin z) = fin (V z)
  | some .euclidean => e.zToDL (fin z) = fin (D z) ∧ e.dDLdz (fin z) = fin D' ∧ HasDerivAt D D' z ∧ 0 < D z ∧ 0 < D'

/-- `v` is the density of the requested effective spins at the row, given the mass ratio. -/
def EffectiveAt (L : Loader) (e : Env) (ps : List String) (r : Rec) (q v : ℝ) : Prop := by
  classical
  exact "chi_eff" ∈ ps → 0 < v ∧
    (if "chi_p" ∈ ps then e.chiEffChiP (r (L.name "chi_eff")) (r (L.name "chi_p")) (fin q) else e.chiEffOnly (r (L.name "chi_eff")) (fin q)) = fin v

/-- The row has the aligned spin `x` under `key`, if requested. -/
def AlignedAt (L : Loader) (ps : List String) (r : Rec) (key : String) (x : ℝ) : Prop := key ∈ ps → r (L.name key) = fin x ∧ 0 < |x| ∧ |x| < 1

/-- The combinations of a mass prior and requested masses for which the conversion is right. -/
def Covered (mp : Option MassPrior) (c : Masses) : Prop :=
  mp = none ∨ c = .source ∨ c = .ratio ∨ (c = .detectedPair ∨ c = .detectedRatio) ∧ mp ≠ some .sourceComponents

/-- `pick` is a choice of rows without replacement: as many as asked, all in range, none twice. -/
def IsChoice (pick : ℕ → ℕ → ℕ → List ℕ) : Prop :=
  ∀ seed total n, n ≤ total → (pick seed total n).length = n ∧ (pick seed total n).Nodup ∧ ∀ i ∈ pick seed total n, i < total

/-- What the reader makes of one event: the rows at distinct positions `idx`, as many as allowed, with the requested columns, and their log priors in the same order. -/
def EventResult (L : Loader) (e : Env) (ps : List String) (df : Frame) (data : List (List XR)) (lp : List XR) : Prop :=
  ∃ (idx : List ℕ) (f : Rec → XR), idx.Nodup ∧ (∀ i ∈ idx, i < df.rows.length) ∧
    (match L.maxSamples with | none => idx.length = df.rows.length | some n => idx.length = min n df.rows.length) ∧
    (∀ p ∈ ps, L.name p ∈ df.columns) ∧ logPrior L e ps df = .ok f ∧
    data.map some = idx.map (fun i => df.rows[i]?.map fun r => ps.map fun p => r (L.name p)) ∧ lp.map some = idx.map (fun i => df.rows[i]?.map f)

end GW.Events
