import Verif.Spec.FullModels
import Verif.Spec.Hybrids
import Verif.Spec.Planck
import Verif.Model.Cosmology
import Mathlib.MeasureTheory.Integral.Lebesgue.Basic
import Mathlib.MeasureTheory.Integral.IntervalIntegral.Basic

/-!
# The laws of the factors of the hybrid models

The textbook densities the documentation names, and which of them a factor of a component is (its class and its keyword arguments).  Nothing here refers
to how the code computes a density.
-/

namespace GW.Hybrids
open MeasureTheory ProbabilityTheory

noncomputable section
open Classical

/-- A normal bump on a closed interval. -/
structure Bump where
  loc : ℝ
  scale : ℝ
  low : ℝ
  high : ℝ

/-- Its density. -/
def Bump.density (b : Bump) (x : ℝ) : ℝ := Spin.restrictedNormal b.loc b.scale (Set.Icc b.low b.high) x

/-- A positive scale and a non-empty interval. -/
def Bump.Proper (b : Bump) : Prop := 0 < b.scale ∧ b.low < b.high

/-- A law of one or two quantities. -/
inductive Law where
  /-- Component masses: a power law in the primary mass, a power law in the mass ratio given the primary. -/
  | masses (alpha beta mmin mmax : ℝ)
  /-- A beta law given by its mean and variance. -/
  | beta (mean variance : ℝ)
  /-- A normal law restricted by optional bounds. -/
  | normal (loc scale : ℝ) (low high : Option ℝ)
  /-- With probability `1 - zeta` the first, with probability `zeta` the second restricted normal law. -/
  | twoNormals (zeta loc1 scale1 : ℝ) (low1 high1 : Option ℝ) (loc2 scale2 : ℝ) (low2 high2 : Option ℝ)
  /-- With probability `1 - zeta` two quantities from the first two bumps, with probability `zeta` from the last two. -/
  | twoPairs (zeta : ℝ) (a1 a2 b1 b2 : Bump)
  /-- Cosines of the tilts: isotropic with probability `1 - zeta`, otherwise normal bumps at one. -/
  | tilts (zeta scale1 scale2 : ℝ)
  /-- The skew normal law of the effective spin on `[-1, 1]`. -/
  | skew (loc scale epsilon : ℝ)
  /-- The uniform law. -/
  | uniform (low high : ℝ)
  /-- Mergers per unit comoving volume and source time, evolving as `(1 + z) ^ kappa`, out to a largest redshift. -/
  | redshift (kappa zMax : ℝ)
  /-- A power law in one mass on a closed interval. -/
  | powerlaw (alpha low high : ℝ)
  /-- A continuous power law in one mass whose slope changes at a break. -/
  | broken (alpha1 alpha2 mbreak mmin mmax : ℝ)
  /-- Cosines of the tilts above given minima: isotropic with probability `1 - zeta`, otherwise normal bumps. -/
  | tiltsAbove (zeta loc1 loc2 scale1 scale2 minimum1 minimum2 : ℝ)

namespace Law

/-- The number of quantities. -/
def dim : Law → ℕ
  | masses .. | twoPairs .. | tilts .. | tiltsAbove .. => 2
  | _ => 1

/-- The power-law density of the component masses. -/
def massDensity (alpha beta mmin mmax m1 m2 : ℝ) : ℝ :=
  if mmin ≤ m2 ∧ m2 ≤ m1 ∧ m1 ≤ mmax then
    m1 ^ (-alpha) / (∫ m in mmin..mmax, m ^ (-alpha)) * ((m2 / m1) ^ beta / ∫ q in (mmin / m1)..1, q ^ beta) / m1
  else 0

/-- The two bell curves of different widths, joined at `loc`; not normalised. -/
def skewCurve (loc scale epsilon x : ℝ) : ℝ :=
  if x ≤ loc then (1 + epsilon) * Spin.restrictedNormal loc (scale * (1 + epsilon)) (Set.Icc (-1) 1) x
  else (1 - epsilon) * Spin.restrictedNormal loc (scale * (1 - epsilon)) (Set.Icc (-1) 1) x

/-- The density; `dV` is the comoving volume per unit redshift.  That of the redshift is per unit volume and source time, not normalised. -/
def density (dV : ℝ → ℝ) : Law → List ℝ → ℝ
  | masses alpha slope mmin mmax, [m1, m2] => massDensity alpha slope mmin mmax m1 m2
  | beta mean variance, [x] => betaPDFReal (mean * (mean * (1 - mean) / variance - 1)) ((1 - mean) * (mean * (1 - mean) / variance - 1)) x
  | normal loc scale low high, [x] => Spin.restrictedNormal loc scale (Spin.bounds low high) x
  | twoNormals zeta loc1 scale1 low1 high1 loc2 scale2 low2 high2, [x] =>
    (1 - zeta) * Spin.restrictedNormal loc1 scale1 (Spin.bounds low1 high1) x + zeta * Spin.restrictedNormal loc2 scale2 (Spin.bounds low2 high2) x
  | twoPairs zeta a1 a2 b1 b2, [x, y] => (1 - zeta) * (a1.density x * a2.density y) + zeta * (b1.density x * b2.density y)
  | tilts zeta scale1 scale2, [x, y] =>
    if (-1 ≤ x ∧ x ≤ 1) ∧ (-1 ≤ y ∧ y ≤ 1) then (1 - zeta) / 4 +
      zeta * (Spin.restrictedNormal 1 scale1 (Set.Icc (-1) 1) x * Spin.restrictedNormal 1 scale2 (Set.Icc (-1) 1) y) else 0
  | skew loc scale epsilon, [x] => skewCurve loc scale epsilon x / ∫ y, skewCurve loc scale epsilon y
  | uniform low high, [x] => Spin.uniformDensity low high x
  | redshift kappa zMax, [z] => if 0 ≤ z ∧ z ≤ zMax then dV z * (1 + z) ^ kappa / (1 + z) else 0
  | powerlaw alpha low high, [m] => if low ≤ m ∧ m ≤ high then m ^ alpha / ∫ t in low..high, t ^ alpha else 0
  | broken alpha1 alpha2 mbreak mmin mmax, [m] =>
    if mmin ≤ m ∧ m ≤ mmax then brokenShape alpha1 alpha2 mbreak m / ∫ t in mmin..mmax, brokenShape alpha1 alpha2 mbreak t else 0
  | tiltsAbove zeta loc1 loc2 scale1 scale2 minimum1 minimum2, [x, y] =>
    (1 - zeta) * (Spin.uniformDensity minimum1 1 x * Spin.uniformDensity minimum2 1 y) +
      zeta * (Spin.restrictedNormal loc1 scale1 (Set.Icc minimum1 1) x * Spin.restrictedNormal loc2 scale2 (Set.Icc minimum2 1) y)
  | _, _ => 0

/-- The parameters are meaningful. -/
def Proper : Law → Prop
  | masses _ _ mmin mmax => 0 < mmin ∧ mmin < mmax
  | beta mean variance => 0 < mean ∧ mean < 1 ∧ 0 < variance ∧ variance < mean * (1 - mean)
  | normal _ scale low high => 0 < scale ∧ ∀ a b, low = some a → high = some b → a < b
  | twoNormals zeta _ scale1 low1 high1 _ scale2 low2 high2 => 0 ≤ zeta ∧ zeta ≤ 1 ∧ 0 < scale1 ∧ 0 < scale2 ∧
      (∀ a b, low1 = some a → high1 = some b → a < b) ∧ ∀ a b, low2 = some a → high2 = some b → a < b
  | twoPairs zeta a1 a2 b1 b2 => 0 ≤ zeta ∧ zeta ≤ 1 ∧ a1.Proper ∧ a2.Proper ∧ b1.Proper ∧ b2.Proper
  | tilts zeta scale1 scale2 => 0 ≤ zeta ∧ zeta ≤ 1 ∧ 0 < scale1 ∧ 0 < scale2
  | skew _ scale epsilon => 0 < scale ∧ -1 < epsilon ∧ epsilon < 1
  | uniform low high => low < high
  | redshift _ zMax => 0 < zMax
  | powerlaw _ low high => 0 < low ∧ low < high
  | broken _ _ mbreak mmin mmax => 0 < mmin ∧ mmin < mbreak ∧ mbreak < mmax
  | tiltsAbove zeta _ _ scale1 scale2 minimum1 minimum2 => 0 ≤ zeta ∧ zeta ≤ 1 ∧ 0 < scale1 ∧ 0 < scale2 ∧ minimum1 < 1 ∧ minimum2 < 1

/-- The point is not an end point of `[0, 1]` at which a beta density blows up or is ambiguous. -/
def Regular : Law → List ℝ → Prop
  | beta mean variance, [x] => Full.BetaRegular (mean * (mean * (1 - mean) / variance - 1)) ((1 - mean) * (mean * (1 - mean) / variance - 1)) x
  | _, _ => True

/-- The total of the density: one, except that of the redshift law, the mergers per unit observer time for a local rate of one. -/
def total (dV : ℝ → ℝ) : Law → ENNReal
  | redshift kappa zMax => ∫⁻ z in Set.Icc 0 zMax, ENNReal.ofReal (dV z * (1 + z) ^ kappa / (1 + z))
  | _ => 1

end Law

/-- The number of quantities of a list of laws. -/
def lawsDim (ls : List Law) : ℕ := (ls.map Law.dim).sum

/-- The density of independent laws: each takes its share of the coordinates, in order. -/
def productDensity (dV : ℝ → ℝ) : List Law → List ℝ → ℝ
  | [], _ => 1
  | L :: ls, x => L.density dV (x.take L.dim) * productDensity dV ls (x.drop L.dim)

/-- Every law is regular at its share of the coordinates. -/
def AllRegular : List Law → List ℝ → Prop
  | [], _ => True
  | L :: ls, x => L.Regular (x.take L.dim) ∧ AllRegular ls (x.drop L.dim)

/-- The integral over `n` real coordinates. -/
def integrate : ℕ → (List ℝ → ENNReal) → ENNReal
  | 0, f => f []
  | n + 1, f => ∫⁻ x : ℝ, integrate n fun l => f (x :: l)

/-- The keyword argument of a factor. -/
def argOf (f : Factor) (coord : Option Nat) (kwarg : String) : Option ℝ := (f.args.find? fun a => a.coord = coord && a.kwarg = kwarg).bind (·.value)

/-- The law a class stands for. -/
def lawOf (f : Factor) : Option Law :=
  let opt (k : Nat) (w : String) : Option ℝ := argOf f (some k) w
  let num (k : Nat) (w : String) : ℝ := (opt k w).getD 0
  let shared (w : String) : ℝ := (argOf f none w).getD 0
  let bump (k : Nat) (w : String) : Bump := ⟨num k (w ++ "_loc"), num k (w ++ "_scale"), num k (w ++ "_low"), num k (w ++ "_high")⟩
  match f.cls, f.quantities with
  | "PowerlawPrimaryMassRatio", [_, _] => some (.masses (shared "alpha") (shared "beta") (shared "mmin") (shared "mmax"))
  | "BetaFromMeanVar", [_] => some (.beta (num 0 "mean") (num 0 "variance"))
  | "TruncatedNormal", [_] => some (.normal (num 0 "loc") (num 0 "scale") (opt 0 "low") (opt 0 "high"))
  | "TwoTruncatedNormalMixture", [_] => some (.twoNormals (num 0 "zeta") (num 0 "comp1_loc") (num 0 "comp1_scale") (opt 0 "comp1_low")
      (opt 0 "comp1_high") (num 0 "comp2_loc") (num 0 "comp2_scale") (opt 0 "comp2_low") (opt 0 "comp2_high"))
  | "NDTwoTruncatedNormalMixture", [_, _] => some (.twoPairs (shared "zeta") (bump 0 "comp1") (bump 1 "comp1") (bump 0 "comp2") (bump 1 "comp2"))
  | "IndependentSpinOrientationGaussianIsotropic", [_, _] => some (.tilts (shared "zeta") (num 0 "scale") (num 1 "scale"))
  | "GWTC4EffectiveSpinSkewNormalModel", [_] => some (.skew (num 0 "loc") (num 0 "scale") (num 0 "epsilon"))
  | "Uniform", [_] => some (.uniform (num 0 "low") (num 0 "high"))
  | "PowerlawRedshift", [_] => some (.redshift (num 0 "kappa") (num 0 "z_max"))
  | "DoublyTruncatedPowerLaw", [_] => some (.powerlaw (shared "alpha") (shared "low") (shared "high"))
  | "BrokenPowerlaw", [_] => some (.broken (shared "alpha1") (shared "alpha2") (shared "mbreak") (shared "mmin") (shared "mmax"))
  | "MinimumTiltModelExtended", [_, _] => some (.tiltsAbove (shared "zeta") (num 0 "loc") (num 1 "loc") (num 0 "scale") (num 1 "scale")
      (num 0 "minimum") (num 1 "minimum"))
  | _, _ => none

/-- `dV` is the differential comoving volume of the cosmology (property C28 says how it follows from the comoving distance). -/
def IsVolume (c : Cosmo.Cosmology) (dV : ℝ → ℝ) : Prop := ∀ z, 0 ≤ z → c.dVcdz (.fin z) = .fin (dV z)

/-- The density of a component at a named event: each factor at its own quantities. -/
def namedDensity (dV : ℝ → ℝ) (event : String → ℝ) (component : List Factor) (laws : List Law) : ℝ :=
  (List.zipWith (fun f L => L.density dV (f.quantities.map event)) component laws).prod

/-- The laws of the components. -/
def HaveLaws (components : List (List Factor)) (laws : List (List Law)) : Prop :=
  List.Forall₂ (List.Forall₂ fun f L => lawOf f = some L) components laws

end

end GW.Hybrids
