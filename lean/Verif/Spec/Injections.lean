import Verif.Model.Injections
import Mathlib.Analysis.Calculus.FDeriv.Basic
import Mathlib.LinearAlgebra.Determinant

/-!
# What a found injection is, and what a converted density is
-/

namespace GW.Injections
open GW XR GW.PyDict

/-- The key contains "ifar", whatever the case. -/
def MentionsIfar (key : String) : Prop := "ifar".toList <:+: key.toList.map Char.toLower

/-- The key has "far" as a word at its beginning or end or between underscores, whatever the case. -/
def MentionsFar (key : String) : Prop :=
  "far_".toList <+: key.toList.map Char.toLower ∨ "_far".toList <:+ key.toList.map Char.toLower ∨ "_far_".toList <:+: key.toList.map Char.toLower

/-- Row `i` of the column `key` exists and exceeds `t`. -/
def Exceeds {n : ℕ} (d : Data n) (key : String) (t : ℝ) (i : Fin n) : Prop := ∃ c, (key, c) ∈ d.cols ∧ lt (fin t) (c i)

/-- Row `i` belongs to the first or second observing run and exceeds the SNR threshold. -/
def EarlyRun {n : ℕ} (d : Data n) (s : ℝ) (i : Fin n) : Prop :=
  ∃ nm, d.name = some nm ∧ (nm i = "o1" ∨ nm i = "o2") ∧ Exceeds d "optimal_snr_net" s i

/-- The columns that selection, loading and the density conversion look at by name: masses, spins, redshift, densities, weights and SNRs. -/
def readByName : List String :=
  ["mass1_source", "mass2_source", "mass_1_source", "mass_2_source", "redshift", "z", "spin1x", "spin1y", "spin1z", "spin2x", "spin2y", "spin2z", "weights", "weights_1ifo",
    "v1_1ifo", "optimal_snr_net", "observed_snr_net", "observed_phase_maximized_snr_net", "semianalytic_observed_phase_maximized_snr_net", "sampling_pdf",
    "lnpdraw_mass1_source_mass2_source_redshift_spin1x_spin1y_spin1z_spin2x_spin2y_spin2z", "lnpdraw_mass1_source", "lnpdraw_mass2_source_GIVEN_mass1_source", "lnpdraw_z",
    "lnpdraw_spin1_magnitude", "lnpdraw_spin2_magnitude", "lnpdraw_spin1_polar_angle", "lnpdraw_spin2_polar_angle"]

/-- The key has `word` at its beginning or end or between underscores, in this case. -/
def HasWord (word : String) (key : String) : Prop :=
  (word ++ "_").toList <+: key.toList ∨ ("_" ++ word).toList <:+ key.toList ∨ ("_" ++ word ++ "_").toList <:+: key.toList

/-- `v` is the value of the first of these attributes that the file has. -/
inductive FirstOf (attrs : Dict String ℝ) : List String → ℝ → Prop
  | here (k ks v) : (k, v) ∈ attrs → FirstOf attrs (k :: ks) v
  | later (k ks v) : k ∉ keys attrs → FirstOf attrs ks v → FirstOf attrs (k :: ks) v

/-- `p'` is the density, at the image of `x` under the coordinate change `T`, of a quantity with density `p` at `x`. -/
def DensityAfter {k : ℕ} (T : (Fin k → ℝ) → Fin k → ℝ) (x : Fin k → ℝ) (p p' : ℝ) : Prop :=
  ∃ T' : (Fin k → ℝ) →L[ℝ] (Fin k → ℝ), HasFDerivAt T T' x ∧ LinearMap.det (T' : (Fin k → ℝ) →ₗ[ℝ] (Fin k → ℝ)) ≠ 0 ∧
    p' = p / |LinearMap.det (T' : (Fin k → ℝ) →ₗ[ℝ] (Fin k → ℝ))|

end GW.Injections
