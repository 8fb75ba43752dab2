import Verif.Model.Cosmology
import Verif.Spec.Cosmology
import Verif.Lemmas.Interp
import Verif.Props.Numeric
import Verif.Props.Smoothed

/-!
# C28: cosmological distances and redshift models
-/

namespace GW.Cosmo
open GW XR GW.Num
open scoped Classical

/-! ## Helpers -/

namespace Cosmology

/-- Positive Hubble constant, grid step and grid range, and a positive expansion rate at every redshift. -/
structure Proper (c : Cosmology) : Prop where
  Ho : 0 < c.Ho
  dz : 0 < c.dz
  maxZ : 0 < c.maxZ
  expansion : ∀ z, 0 ≤ z → 0 < friedmann c.omegaLambda c.omegaKappa c.omegaMatter c.omegaRadiation z

/-- `dDc/dz` of the textbook. -/
noncomputable def rate (c : Cosmology) (z : ℝ) : ℝ := comovingRate speedOfLight c.Ho c.omegaLambda c.omegaKappa c.omegaMatter c.omegaRadiation z

/-- The last grid point. -/
noncomputable def zLast (c : Cosmology) : ℝ := (c.size - 1 : ℕ) * c.dz

/-- The trapezoid estimate of the comoving distance at grid point `i`. -/
noncomputable def dcAt (c : Cosmology) (i : ℕ) : ℝ := trapSum (fun j => c.rate (j * c.dz)) (fun j => j * c.dz) i

theorem rate_pos {c : Cosmology} (h : c.Proper) {z : ℝ} (hz : 0 ≤ z) : 0 < c.rate z := by
  have := h.expansion z hz
  have hH := h.Ho
  unfold rate comovingRate speedOfLight
  positivity

theorem dDcdz_fin {c : Cosmology} (h : c.Proper) {z : ℝ} (hz : 0 ≤ z) : c.dDcdz (fin z) = fin (c.rate z) := by
  have hp := h.expansion z hz
  have e : c.zToE (fin z) = fin (Real.sqrt (friedmann c.omegaLambda c.omegaKappa c.omegaMatter c.omegaRadiation z)) := by
    simp only [zToE, add_fin_fin, mul_fin_fin]
    rw [sqrt_fin]
    · congr 2
      unfold friedmann
      ring
    · have : friedmann c.omegaLambda c.omegaKappa c.omegaMatter c.omegaRadiation z = c.omegaLambda + c.omegaKappa * ((1 + z) * (1 + z)) + c.omegaMatter * ((1 + z) * ((1 + z) * (1 + z)))
          + c.omegaRadiation * ((1 + z) * (1 + z) * ((1 + z) * (1 + z))) := by
        unfold friedmann
        ring
      rw [← this]
      exact hp.le
  rw [dDcdz, e, div_fin_of_ne _ h.Ho.ne', div_fin_of_ne _ (Real.sqrt_pos.2 hp).ne']
  rfl

theorem two_le_size {c : Cosmology} (h : c.Proper) : 2 ≤ c.size := by
  have : (1 : ℝ) < (c.maxZ + c.dz) / c.dz := by
    rw [lt_div_iff₀ h.dz]
    linarith [h.maxZ]
  have h1 : 1 < c.size := Nat.lt_ceil.2 (by exact_mod_cast this)
  omega

theorem maxZ_le {c : Cosmology} (h : c.Proper) : c.maxZ ≤ c.zLast := by
  have h1 : (c.maxZ + c.dz) / c.dz ≤ c.size := Nat.le_ceil _
  rw [div_le_iff₀ h.dz] at h1
  have h2 := two_le_size h
  have : ((c.size - 1 : ℕ) : ℝ) = c.size - 1 := by
    rw [Nat.cast_sub (by omega)]
    simp
  rw [zLast, this]
  linarith

theorem map_rate {c : Cosmology} (h : c.Proper) : c.zs.map c.dDcdz = (List.range c.size).map fun (i : ℕ) => fin (c.rate (i * c.dz)) := by
  rw [zs, List.map_map]
  apply List.map_congr_left
  intro i _
  exact dDcdz_fin h (mul_nonneg (Nat.cast_nonneg i) h.dz.le)

theorem Dc_eq {c : Cosmology} (h : c.Proper) : c.Dc = (List.range c.size).map fun (i : ℕ) => fin (c.dcAt i) := by
  have hn := two_le_size h
  obtain ⟨h1, h2, -⟩ := C27_cumtrapz c.size (by omega) (fun i => c.rate (i * c.dz)) (fun i => i * c.dz)
  rw [Dc, map_rate h]
  apply List.ext_getElem
  · rw [zs, h1]
    simp
  · intro i a b
    have := h2 i a
    simp only [List.getElem_map, List.getElem_range]
    exact this

theorem DL_eq {c : Cosmology} (h : c.Proper) : c.DL = (List.range c.size).map fun (i : ℕ) => fin (c.dcAt i * (1 + i * c.dz)) := by
  rw [DL, Dc_eq h, zs, List.zipWith_map, List.zipWith_self]
  apply List.map_congr_left
  intro i _
  simp

theorem z_strict {c : Cosmology} (h : c.Proper) (i : ℕ) (_ : i + 1 < c.size) : (i : ℝ) * c.dz < ((i + 1 : ℕ) : ℝ) * c.dz := by
  push_cast
  nlinarith [h.dz]

theorem dc_strict {c : Cosmology} (h : c.Proper) (i : ℕ) : c.dcAt i < c.dcAt (i + 1) := by
  have := (C27_trapezoid_sum (fun j => c.rate (j * c.dz)) (fun j => j * c.dz)).2.2.2.2.2
  refine this ?_ ?_ (Nat.lt_succ_self i)
  · intro a b hab
    have : (a : ℝ) < b := by exact_mod_cast hab
    exact mul_lt_mul_of_pos_right this h.dz
  · intro j
    exact rate_pos h (mul_nonneg (Nat.cast_nonneg j) h.dz.le)

theorem dc_zero (c : Cosmology) : c.dcAt 0 = 0 := (C27_trapezoid_sum _ _).1

theorem dc_nonneg {c : Cosmology} (h : c.Proper) : ∀ i, 0 ≤ c.dcAt i
  | 0 => (dc_zero c).ge
  | i + 1 => (dc_nonneg h i).trans (dc_strict h i).le

theorem dl_strict {c : Cosmology} (h : c.Proper) (i : ℕ) : c.dcAt i * (1 + i * c.dz) < c.dcAt (i + 1) * (1 + ((i + 1 : ℕ) : ℝ) * c.dz) := by
  have a := dc_nonneg h i
  have b := dc_strict h i
  have d := h.dz
  have e : 0 ≤ (i : ℝ) * c.dz := by positivity
  push_cast
  nlinarith

theorem Dc_last {c : Cosmology} (h : c.Proper) : c.Dc.getD (c.Dc.length - 1) nan = fin (c.dcAt (c.size - 1)) := by
  have hn := two_le_size h
  rw [Dc_eq h]
  simp only [List.length_map, List.length_range]
  rw [getD_range_map (by omega)]

theorem Dc_first {c : Cosmology} (h : c.Proper) : c.Dc.getD 0 nan = fin 0 := by
  have hn := two_le_size h
  rw [Dc_eq h, getD_range_map (by omega), dc_zero]

theorem DL_last {c : Cosmology} (h : c.Proper) : c.DL.getD (c.DL.length - 1) nan = fin (c.dcAt (c.size - 1) * (1 + c.zLast)) := by
  have hn := two_le_size h
  rw [DL_eq h]
  simp only [List.length_map, List.length_range]
  rw [getD_range_map (by omega)]
  rfl

theorem polygon_dc {c : Cosmology} (h : c.Proper) {z : ℝ} (h0 : 0 ≤ z) (h1 : z ≤ c.zLast) :
    ∃ y, OnPolygon c.size (fun i => i * c.dz) c.dcAt z y ∧ c.zToDc (fin z) = fin y := by
  have := interp_onPolygon (xs := fun i => i * c.dz) (ys := c.dcAt) (two_le_size h) (z_strict h) (x := z) (by simpa using h0) h1 (c.Dc.getD 0 nan) (c.Dc.getD (c.Dc.length - 1) nan)
  rw [← Dc_eq h] at this
  exact this

theorem polygon_dl {c : Cosmology} (h : c.Proper) {z : ℝ} (h0 : 0 ≤ z) (h1 : z ≤ c.zLast) :
    ∃ y, OnPolygon c.size (fun i => i * c.dz) (fun i => c.dcAt i * (1 + i * c.dz)) z y ∧ c.zToDL (fin z) = fin y := by
  have := interp_onPolygon (xs := fun i => i * c.dz) (ys := fun i => c.dcAt i * (1 + i * c.dz)) (two_le_size h) (z_strict h) (x := z) (by simpa using h0) h1 (c.DL.getD 0 nan) (c.DL.getD (c.DL.length - 1) nan)
  rw [← DL_eq h] at this
  exact this

theorem polygon_inv {c : Cosmology} (h : c.Proper) {d : ℝ} (h0 : 0 ≤ d) (h1 : d ≤ c.dcAt (c.size - 1) * (1 + c.zLast)) :
    ∃ y, OnPolygon c.size (fun i => c.dcAt i * (1 + i * c.dz)) (fun i => i * c.dz) d y ∧ c.dLToZ (fin d) = fin y := by
  have := interp_onPolygon (xs := fun i => c.dcAt i * (1 + i * c.dz)) (ys := fun i => i * c.dz) (two_le_size h) (fun i _ => dl_strict h i) (x := d) (by simpa [dc_zero] using h0) h1
    (c.zs.getD 0 nan) (c.zs.getD (c.zs.length - 1) nan)
  rw [← DL_eq h] at this
  exact this

theorem onPolygon_node {n : ℕ} {xs ys : ℕ → ℝ} (hx : ∀ i, i + 1 < n → xs i < xs (i + 1)) (hn : 2 ≤ n) {i : ℕ} (hi : i < n) : OnPolygon n xs ys (xs i) (ys i) := by
  rcases Nat.lt_or_ge (i + 1) n with h | h
  · exact ⟨i, h, le_rfl, (hx i h).le, by simp⟩
  · obtain ⟨j, rfl⟩ : ∃ j, i = j + 1 := ⟨i - 1, by omega⟩
    have hj := hx j (by omega)
    refine ⟨j, by omega, hj.le, le_rfl, ?_⟩
    rw [div_self (by linarith)]
    ring

theorem onPolygon_range {n : ℕ} {xs ys : ℕ → ℝ} (hx : ∀ i, i + 1 < n → xs i < xs (i + 1)) (hy : ∀ i, i + 1 < n → ys i < ys (i + 1)) {x y : ℝ} (h : OnPolygon n xs ys x y) :
    ys 0 ≤ y ∧ y ≤ ys (n - 1) := by
  obtain ⟨i, hi, h0, h1, e⟩ := h
  obtain ⟨a, b, -, -, -⟩ := OnPolygon.ends (hx i hi) (hy i hi) h0 h1 e
  refine ⟨le_trans ?_ a, b.trans ?_⟩
  · rcases Nat.eq_zero_or_pos i with k | k
    · rw [k]
    · exact (mono_of_succ hy k (by omega)).le
  · rcases Nat.lt_or_ge (i + 1) (n - 1) with k | k
    · exact (mono_of_succ hy k (by omega)).le
    · have : i + 1 = n - 1 := by omega
      rw [this]

end Cosmology
open Cosmology

/-! ## Distances -/

/-- **C28.**  For every cosmology with positive expansion rate the grid covers `[0, max_z]` and both distance interpolants are finite and strictly increasing on the grid range, start at `0`, and at each grid
point are the trapezoid estimate of the comoving-distance integral, respectively `(1 + z)` times it. -/
theorem C28_distances (c : Cosmology) (h : c.Proper) :
    c.maxZ ≤ c.zLast ∧ ∃ Dc DL : ℝ → ℝ, (∀ z, 0 ≤ z → z ≤ c.zLast → c.zToDc (fin z) = fin (Dc z) ∧ c.zToDL (fin z) = fin (DL z)) ∧
      StrictMonoOn Dc (Set.Icc 0 c.zLast) ∧ StrictMonoOn DL (Set.Icc 0 c.zLast) ∧ Dc 0 = 0 ∧ DL 0 = 0 ∧
      (∀ i : ℕ, i < c.size → Dc (i * c.dz) = trapSum (fun j => c.rate (j * c.dz)) (fun j => j * c.dz) i ∧ DL (i * c.dz) = (1 + i * c.dz) * Dc (i * c.dz)) := by
  have hn := two_le_size h
  choose! Dc hDc hDc' using fun z => fun h0 h1 => polygon_dc h (z := z) h0 h1
  choose! DL hDL hDL' using fun z => fun h0 h1 => polygon_dl h (z := z) h0 h1
  have node : ∀ i : ℕ, i < c.size → 0 ≤ (i : ℝ) * c.dz ∧ (i : ℝ) * c.dz ≤ c.zLast := by
    intro i hi
    refine ⟨mul_nonneg (Nat.cast_nonneg i) h.dz.le, ?_⟩
    have : (i : ℝ) ≤ (c.size - 1 : ℕ) := by exact_mod_cast (by omega : i ≤ c.size - 1)
    exact mul_le_mul_of_nonneg_right this h.dz.le
  have nodes : ∀ i : ℕ, i < c.size → Dc (i * c.dz) = c.dcAt i ∧ DL (i * c.dz) = c.dcAt i * (1 + i * c.dz) := by
    intro i hi
    obtain ⟨a, b⟩ := node i hi
    exact ⟨(hDc _ a b).unique (z_strict h) (onPolygon_node (z_strict h) hn hi),
      (hDL _ a b).unique (z_strict h) (onPolygon_node (xs := fun i => (i : ℝ) * c.dz) (ys := fun i => c.dcAt i * (1 + i * c.dz)) (z_strict h) hn hi)⟩
  have n0 := nodes 0 (by omega)
  simp only [Nat.cast_zero, zero_mul, dc_zero] at n0
  refine ⟨maxZ_le h, Dc, DL, fun z a b => ⟨hDc' z a b, hDL' z a b⟩, ?_, ?_, n0.1, n0.2, ?_⟩
  · intro x hx y hy hxy
    exact (hDc x hx.1 hx.2).strictMono (z_strict h) (fun i _ => dc_strict h i) (hDc y hy.1 hy.2) hxy
  · intro x hx y hy hxy
    exact (hDL x hx.1 hx.2).strictMono (z_strict h) (fun i _ => dl_strict h i) (hDL y hy.1 hy.2) hxy
  · intro i hi
    obtain ⟨a, b⟩ := nodes i hi
    refine ⟨a, ?_⟩
    rw [a, b, mul_comm]

/-- **C28.**  `DL_to_z` inverts `z_to_DL` on the grid range, and conversely. -/
theorem C28_inverse (c : Cosmology) (h : c.Proper) :
    (∀ z : ℝ, 0 ≤ z → z ≤ c.zLast → c.dLToZ (c.zToDL (fin z)) = fin z) ∧
    (∀ d dmax : ℝ, c.zToDL (fin c.zLast) = fin dmax → 0 ≤ d → d ≤ dmax → ∃ z, 0 ≤ z ∧ z ≤ c.zLast ∧ c.dLToZ (fin d) = fin z ∧ c.zToDL (fin z) = fin d) := by
  have hn := two_le_size h
  have hzl : 0 ≤ c.zLast := h.maxZ.le.trans (maxZ_le h)
  have hlast : c.zToDL (fin c.zLast) = fin (c.dcAt (c.size - 1) * (1 + c.zLast)) := by
    obtain ⟨y, hy, e⟩ := polygon_dl h hzl le_rfl
    rw [e]
    congr 1
    exact hy.unique (z_strict h) (onPolygon_node (xs := fun i => (i : ℝ) * c.dz) (ys := fun i => c.dcAt i * (1 + i * c.dz)) (z_strict h) hn (i := c.size - 1) (by omega))
  constructor
  · intro z h0 h1
    obtain ⟨y, hy, e⟩ := polygon_dl h h0 h1
    have hr := onPolygon_range (z_strict h) (fun i _ => dl_strict h i) hy
    simp only [Nat.cast_zero, zero_mul, dc_zero] at hr
    obtain ⟨w, hw, e'⟩ := polygon_inv h hr.1 hr.2
    rw [e, e']
    congr 1
    exact hw.unique (fun i _ => dl_strict h i) (hy.swap (z_strict h) (fun i _ => dl_strict h i))
  · intro d dmax hd h0 h1
    rw [hlast] at hd
    cases hd
    obtain ⟨z, hz, e⟩ := polygon_inv h h0 h1
    have hr := onPolygon_range (fun i _ => dl_strict h i) (z_strict h) hz
    simp only [Nat.cast_zero, zero_mul] at hr
    obtain ⟨y, hy, e'⟩ := polygon_dl h hr.1 hr.2
    refine ⟨z, hr.1, hr.2, e, ?_⟩
    rw [e']
    congr 1
    exact hy.unique (z_strict h) (hz.swap (fun i _ => dl_strict h i) (z_strict h))

/-- **C28, violated outside the grid.**  Redshifts beyond the grid (4 for both provided cosmologies) are clamped: `z_to_DL` is constant there and `DL_to_z` returns the last grid point, so `RedshiftToLuminosityDistance`,
declared on all positive redshifts, is not invertible there. -/
theorem C28_clamped_violated (c : Cosmology) (h : c.Proper) (z : ℝ) (hz : c.zLast < z) :
    c.zToDL (fin z) = c.zToDL (fin c.zLast) ∧ c.zToDc (fin z) = c.zToDc (fin c.zLast) ∧ c.dLToZ (c.zToDL (fin z)) = fin c.zLast := by
  have hn := two_le_size h
  have hzl : 0 ≤ c.zLast := h.maxZ.le.trans (maxZ_le h)
  obtain ⟨y, hy, e⟩ := polygon_dl h hzl le_rfl
  have ey := hy.unique (z_strict h) (onPolygon_node (xs := fun i => (i : ℝ) * c.dz) (ys := fun i => c.dcAt i * (1 + i * c.dz)) (z_strict h) hn (i := c.size - 1) (by omega))
  obtain ⟨y', hy', e'⟩ := polygon_dc h hzl le_rfl
  have ey' := hy'.unique (z_strict h) (onPolygon_node (z_strict h) hn (i := c.size - 1) (by omega))
  have a1 : c.zToDL (fin z) = fin (c.dcAt (c.size - 1) * (1 + c.zLast)) := by
    rw [← DL_last h]
    exact interp_above (xs := fun i => (i : ℝ) * c.dz) (by omega) hz _ _
  have a2 : c.zToDc (fin z) = fin (c.dcAt (c.size - 1)) := by
    rw [← Dc_last h]
    exact interp_above (xs := fun i => (i : ℝ) * c.dz) (by omega) hz _ _
  have a3 : c.zToDL (fin z) = c.zToDL (fin c.zLast) := by
    rw [a1, e, ey]
    rfl
  refine ⟨a3, by rw [a2, e', ey'], ?_⟩
  rw [a3]
  exact (C28_inverse c h).1 _ hzl le_rfl

/-- Both provided cosmologies are proper. -/
theorem planck2015_proper : planck2015.Proper := by
  refine ⟨by norm_num [planck2015], by norm_num [planck2015], by norm_num [planck2015], ?_⟩
  intro z hz
  have h1 : (0 : ℝ) ≤ (1 + z) ^ 3 := by positivity
  simp only [friedmann, planck2015, omegaKappa]
  norm_num
  linarith

theorem planck2018_proper : planck2018.Proper := by
  refine ⟨by norm_num [planck2018], by norm_num [planck2018], by norm_num [planck2018], ?_⟩
  intro z hz
  have h1 : (0 : ℝ) ≤ (1 + z) ^ 3 := by positivity
  simp only [friedmann, planck2018, omegaKappa]
  norm_num
  linarith

example : planck2015.dLToZ (planck2015.zToDL (fin 0.5)) = fin 0.5 :=
  (C28_inverse _ planck2015_proper).1 0.5 (by norm_num) (le_trans (by norm_num [planck2015]) (maxZ_le planck2015_proper))

/-- **C28.**  Accuracy: where the expansion rate does not decrease with redshift, the tabulated comoving distance at grid point `z_i` differs from the exact integral by at most half a grid step times the drop of the
integrand from `0` to `z_i`; with the closure relation `E(0) = 1` this is below `dz · c / (2 H0)`. -/
theorem C28_accuracy (c : Cosmology) (h : c.Proper) (hmono : MonotoneOn (friedmann c.omegaLambda c.omegaKappa c.omegaMatter c.omegaRadiation) (Set.Ici 0)) (i : ℕ) :
    |trapSum (fun j => c.rate (j * c.dz)) (fun j => j * c.dz) i - ∫ z in (0 : ℝ)..i * c.dz, c.rate z| ≤ c.dz * (c.rate 0 - c.rate (i * c.dz)) / 2 ∧
    c.dz * (c.rate 0 - c.rate (i * c.dz)) / 2 ≤ c.dz * speedOfLight / (2 * c.Ho) := by
  have hanti : AntitoneOn c.rate (Set.Ici 0) := by
    intro a ha b hb hab
    have h1 := h.expansion a ha
    have hH := h.Ho
    unfold rate comovingRate
    apply div_le_div_of_nonneg_left
    · unfold speedOfLight
      positivity
    · exact Real.sqrt_pos.2 h1
    · exact Real.sqrt_le_sqrt (hmono ha hb hab)
  have hint : ∀ a b : ℝ, 0 ≤ a → 0 ≤ b → IntervalIntegrable c.rate MeasureTheory.volume a b := by
    intro a b ha hb
    apply AntitoneOn.intervalIntegrable
    apply hanti.mono
    intro x hx
    exact (le_inf ha hb).trans hx.1
  have hdz := h.dz
  constructor
  · induction i with
    | zero => simp [trapSum]
    | succ i ih =>
      have hi : 0 ≤ (i : ℝ) * c.dz := by positivity
      have hi' : (0 : ℝ) ≤ ((i + 1 : ℕ) : ℝ) * c.dz := by positivity
      have hle : (i : ℝ) * c.dz ≤ ((i + 1 : ℕ) : ℝ) * c.dz := by
        push_cast
        nlinarith
      have hw : ((i + 1 : ℕ) : ℝ) * c.dz - i * c.dz = c.dz := by
        push_cast
        ring
      have split : ∫ z in (0 : ℝ)..((i + 1 : ℕ) : ℝ) * c.dz, c.rate z = (∫ z in (0 : ℝ)..i * c.dz, c.rate z) + ∫ z in (i * c.dz)..((i + 1 : ℕ) : ℝ) * c.dz, c.rate z :=
        (intervalIntegral.integral_add_adjacent_intervals (hint _ _ le_rfl hi) (hint _ _ hi hi')).symm
      have up : ∫ z in (i * c.dz)..((i + 1 : ℕ) : ℝ) * c.dz, c.rate z ≤ c.dz * c.rate (i * c.dz) := by
        have : ∫ z in (i * c.dz)..((i + 1 : ℕ) : ℝ) * c.dz, c.rate z ≤ ∫ _z in (i * c.dz)..((i + 1 : ℕ) : ℝ) * c.dz, c.rate (i * c.dz) :=
          intervalIntegral.integral_mono_on hle (hint _ _ hi hi') intervalIntegrable_const fun x hx => hanti hi (hi.trans hx.1) hx.1
        rwa [intervalIntegral.integral_const, hw, smul_eq_mul] at this
      have lo : c.dz * c.rate (((i + 1 : ℕ) : ℝ) * c.dz) ≤ ∫ z in (i * c.dz)..((i + 1 : ℕ) : ℝ) * c.dz, c.rate z := by
        have : ∫ _z in (i * c.dz)..((i + 1 : ℕ) : ℝ) * c.dz, c.rate (((i + 1 : ℕ) : ℝ) * c.dz) ≤ ∫ z in (i * c.dz)..((i + 1 : ℕ) : ℝ) * c.dz, c.rate z :=
          intervalIntegral.integral_mono_on hle intervalIntegrable_const (hint _ _ hi hi') fun x hx => hanti (hi.trans hx.1) hi' hx.2
        rwa [intervalIntegral.integral_const, hw, smul_eq_mul] at this
      have step : trapSum (fun j => c.rate (j * c.dz)) (fun j => j * c.dz) (i + 1) = trapSum (fun j => c.rate (j * c.dz)) (fun j => j * c.dz) i
          + c.dz * (c.rate (((i + 1 : ℕ) : ℝ) * c.dz) + c.rate (i * c.dz)) / 2 := by
        rw [trapSum, Finset.sum_range_succ, hw]
        rfl
      rw [split, step]
      rw [abs_le] at ih ⊢
      constructor <;> linarith [ih.1, ih.2]
  · have h0 : c.rate 0 = speedOfLight / c.Ho := by
      have : friedmann c.omegaLambda c.omegaKappa c.omegaMatter c.omegaRadiation 0 = 1 := by
        simp only [friedmann, omegaKappa]
        ring
      rw [rate, comovingRate, this]
      simp
    have hp := rate_pos h (z := i * c.dz) (by positivity)
    have hH := h.Ho
    rw [h0, show c.dz * speedOfLight / (2 * c.Ho) = c.dz * (speedOfLight / c.Ho) / 2 by field_simp]
    nlinarith

/-- The Planck cosmologies satisfy the monotonicity, so their comoving distances are within 2.3 Mpc of the integral at every grid point. -/
example (i : ℕ) : |planck2015.dcAt i - ∫ z in (0 : ℝ)..i * planck2015.dz, planck2015.rate z| ≤ 2.3 := by
  have := C28_accuracy planck2015 planck2015_proper (by
    intro a ha b hb hab
    have ha : (0 : ℝ) ≤ a := ha
    have h3 : (1 + a) ^ 3 ≤ (1 + b) ^ 3 := pow_le_pow_left₀ (by linarith) (by linarith) 3
    simp only [friedmann, planck2015, omegaKappa]
    norm_num
    linarith) i
  refine this.1.trans (this.2.trans ?_)
  norm_num [planck2015, speedOfLight]

/-! ## Comoving volume -/

/-- The comoving distance at every non-negative redshift, inside or beyond the grid: finite, non-negative, and positive except at `0`. -/
theorem zToDc_nonneg {c : Cosmology} (h : c.Proper) {z : ℝ} (hz : 0 ≤ z) : ∃ y, 0 ≤ y ∧ (0 < z → 0 < y) ∧ (z = 0 → y = 0) ∧ c.zToDc (fin z) = fin y := by
  have hn := two_le_size h
  by_cases h1 : z ≤ c.zLast
  · obtain ⟨y, hy, e⟩ := polygon_dc h hz h1
    have hr := onPolygon_range (z_strict h) (fun i _ => dc_strict h i) hy
    rw [dc_zero] at hr
    have h0 := onPolygon_node (xs := fun i => (i : ℝ) * c.dz) (ys := c.dcAt) (z_strict h) hn (i := 0) (by omega)
    simp only [Nat.cast_zero, zero_mul, dc_zero] at h0
    refine ⟨y, hr.1, ?_, ?_, e⟩
    · intro hz
      exact h0.strictMono (z_strict h) (fun i _ => dc_strict h i) hy hz
    · intro hz
      subst hz
      exact hy.unique (z_strict h) h0
  · push Not at h1
    have hpos : 0 < c.dcAt (c.size - 1) := by
      have := mono_of_succ (f := c.dcAt) (n := c.size) (fun i _ => dc_strict h i) (i := 0) (j := c.size - 1) (by omega) (by omega)
      rwa [dc_zero] at this
    refine ⟨c.dcAt (c.size - 1), hpos.le, fun _ => hpos, ?_, ?_⟩
    · intro hz
      have := h.maxZ.le.trans (maxZ_le h)
      linarith
    · rw [← Dc_last h]
      exact interp_above (xs := fun i => (i : ℝ) * c.dz) (by omega) h1 _ _

/-- **C28.**  The reported `dDL/dz` is finite and positive at every `z ≥ 0`; against the exact derivative of `(1 + z) · D(z)`, for any comoving distance `D` with the textbook slope at `z`, it is off by exactly the
difference between the tabulated and the exact comoving distance. -/
theorem C28_distance_slope (c : Cosmology) (h : c.Proper) (z : ℝ) (hz : 0 ≤ z) (D : ℝ → ℝ) (hD : HasDerivAt D (c.rate z) z) :
    ∃ s Dc slope : ℝ, c.dDLdz (fin z) = fin s ∧ c.zToDc (fin z) = fin Dc ∧ 0 < s ∧ HasDerivAt (fun x => (1 + x) * D x) slope z ∧ s - slope = Dc - D z := by
  obtain ⟨y, hy0, -, -, e⟩ := zToDc_nonneg h hz
  have hr := rate_pos h hz
  refine ⟨c.rate z * (1 + z) + y, y, 1 * D z + (1 + z) * c.rate z, ?_, e, ?_, ((hasDerivAt_id z).const_add 1).mul hD, by ring⟩
  · simp only [dDLdz, dDcdz_fin h hz, e, add_fin_fin, mul_fin_fin]
  · have := mul_pos hr (show 0 < 1 + z by linarith)
    linarith

/-- The exact comoving distance of the textbook has that slope. -/
example : HasDerivAt (fun x => ∫ t in (0 : ℝ)..x, planck2015.rate t) (planck2015.rate 1) 1 := by
  have hc : ∀ x : ℝ, 0 ≤ x → ContinuousAt planck2015.rate x := by
    intro x hx
    have hp := planck2015_proper.expansion x hx
    unfold rate comovingRate
    refine ContinuousAt.div continuousAt_const ?_ (Real.sqrt_pos.2 hp).ne'
    unfold friedmann
    fun_prop
  refine intervalIntegral.integral_hasDerivAt_right ?_ ?_ (hc 1 zero_le_one)
  · refine ContinuousOn.intervalIntegrable fun x hx => (hc x ?_).continuousWithinAt
    rw [Set.uIcc_of_le zero_le_one] at hx
    exact hx.1
  · refine ⟨Set.univ, Filter.univ_mem, (Measurable.stronglyMeasurable ?_).aestronglyMeasurable⟩
    unfold rate comovingRate friedmann
    fun_prop

/-- **C28.**  At every real `z ≥ 0` the differential comoving volume is the non-negative number `4π / 10^9 · Dc(z)^2 · dDc/dz` (Gpc³), its log is a number or `-inf` (exactly at `z = 0`), never NaN. -/
theorem C28_volume (c : Cosmology) (h : c.Proper) (z : ℝ) (hz : 0 ≤ z) :
    IsLog (c.logdVcdz (fin z)) ∧ (c.logdVcdz (fin z) = ninf ↔ z = 0) ∧
    ∃ Dc v : ℝ, c.zToDc (fin z) = fin Dc ∧ c.dVcdz (fin z) = fin v ∧ 0 ≤ v ∧ v = 4 * Real.pi / 10 ^ 9 * Dc ^ 2 * c.rate z := by
  obtain ⟨y, hy0, hyp, hy0', e⟩ := zToDc_nonneg h hz
  have hr := rate_pos h hz
  have h4 : (0 : ℝ) < 4 * Real.pi := by positivity
  have e1 : c.dDcdz (fin z) = fin (c.rate z) := dDcdz_fin h hz
  rcases hz.eq_or_lt with k | k
  · have hy : y = 0 := hy0' k.symm
    have el : c.logdVcdz (fin z) = ninf := by
      rw [logdVcdz, logdVcdzOf, e, e1, hy, log_fin_pos h4, log_fin_pos (by norm_num), log_fin_pos hr, log_fin_zero, mul_fin_fin, sub_fin_fin]
      have : fin 2 * (ninf : XR) = ninf := by
        have : fin 2 * (ninf : XR) = neg (mulInf 2) := rfl
        rw [this, mulInf, if_pos (by norm_num)]
        rfl
      rw [this]
      rfl
    rw [dVcdz, el]
    refine ⟨isLog_ninf, ⟨fun _ => k.symm, fun _ => rfl⟩, y, 0, e, by simp, le_rfl, ?_⟩
    rw [hy]
    ring
  · have hy := hyp k
    have el : c.logdVcdz (fin z) = fin (Real.log (4 * Real.pi) - 9 * Real.log 10 + 2 * Real.log y + Real.log (c.rate z)) := by
      rw [logdVcdz, logdVcdzOf, e, e1, log_fin_pos h4, log_fin_pos (by norm_num), log_fin_pos hr, log_fin_pos hy, mul_fin_fin, mul_fin_fin, sub_fin_fin, add_fin_fin, add_fin_fin]
    have ev : Real.exp (Real.log (4 * Real.pi) - 9 * Real.log 10 + 2 * Real.log y + Real.log (c.rate z)) = 4 * Real.pi / 10 ^ 9 * y ^ 2 * c.rate z := by
      rw [Real.exp_add, Real.exp_add, Real.exp_sub, Real.exp_log h4, Real.exp_log hr, show (9 : ℝ) * Real.log 10 = Real.log (10 ^ 9) by rw [Real.log_pow]; norm_num,
        show (2 : ℝ) * Real.log y = Real.log (y ^ 2) by rw [Real.log_pow]; norm_num, Real.exp_log (by norm_num), Real.exp_log (by positivity)]
    rw [dVcdz, el]
    refine ⟨isLog_fin _, ⟨fun h => by simp at h, fun h => by linarith⟩, y, _, e, rfl, (Real.exp_pos _).le, ev⟩

/-- **C28.**  The volume table has one entry per grid point: the trapezoid sum, up to that point, of the differential comoving volume `4π / 10^9 · Dc^2 · dDc/dz` with the
tabulated distance.  It starts at zero and strictly increases. -/
theorem C28_volume_table (c : Cosmology) (h : c.Proper) :
    ∃ V : ℕ → ℝ, c.Vc = (List.range c.size).map (fun i => fin (V i)) ∧ V 0 = 0 ∧ (∀ i, V i < V (i + 1)) ∧
      ∃ Dc : ℕ → ℝ, (∀ i < c.size, c.Dc[i]? = some (fin (Dc i))) ∧
        ∀ i, V i = trapSum (fun j => 4 * Real.pi / 10 ^ 9 * Dc j ^ 2 * c.rate (j * c.dz)) (fun j => j * c.dz) i := by
  have hn := two_le_size h
  have h4 : (0 : ℝ) < 4 * Real.pi := by positivity
  have hz : ∀ j : ℕ, 0 ≤ (j : ℝ) * c.dz := fun j => mul_nonneg (Nat.cast_nonneg j) h.dz.le
  have key : ∀ j : ℕ, exp (c.logdVcdzOf (fin (j * c.dz)) (fin (c.dcAt j))) = fin (4 * Real.pi / 10 ^ 9 * c.dcAt j ^ 2 * c.rate (j * c.dz)) := by
    intro j
    have hr := rate_pos h (hz j)
    have e1 := dDcdz_fin h (hz j)
    rcases (dc_nonneg h j).eq_or_lt with k | hy
    · have el : c.logdVcdzOf (fin (j * c.dz)) (fin (c.dcAt j)) = ninf := by
        rw [logdVcdzOf, e1, ← k, log_fin_pos h4, log_fin_pos (by norm_num), log_fin_pos hr, log_fin_zero, mul_fin_fin, sub_fin_fin]
        have : fin 2 * (ninf : XR) = ninf := by
          have : fin 2 * (ninf : XR) = neg (mulInf 2) := rfl
          rw [this, mulInf, if_pos (by norm_num)]
          rfl
        rw [this]
        rfl
      rw [el, ← k]
      simp
    · have ev : Real.exp (Real.log (4 * Real.pi) - 9 * Real.log 10 + 2 * Real.log (c.dcAt j) + Real.log (c.rate (j * c.dz))) =
          4 * Real.pi / 10 ^ 9 * c.dcAt j ^ 2 * c.rate (j * c.dz) := by
        rw [Real.exp_add, Real.exp_add, Real.exp_sub, Real.exp_log h4, Real.exp_log hr, show (9 : ℝ) * Real.log 10 = Real.log (10 ^ 9) by rw [Real.log_pow]; norm_num,
          show (2 : ℝ) * Real.log (c.dcAt j) = Real.log (c.dcAt j ^ 2) by rw [Real.log_pow]; norm_num, Real.exp_log (by norm_num), Real.exp_log (by positivity)]
      rw [logdVcdzOf, e1, log_fin_pos h4, log_fin_pos (by norm_num), log_fin_pos hr, log_fin_pos hy, mul_fin_fin, mul_fin_fin, sub_fin_fin, add_fin_fin, add_fin_fin, ← ev]
      rfl
  obtain ⟨h1, h2, -⟩ := C27_cumtrapz c.size (by omega) (fun j => 4 * Real.pi / 10 ^ 9 * c.dcAt j ^ 2 * c.rate (j * c.dz)) (fun i => i * c.dz)
  refine ⟨trapSum (fun j => 4 * Real.pi / 10 ^ 9 * c.dcAt j ^ 2 * c.rate (j * c.dz)) fun j => j * c.dz, ?_, (C27_trapezoid_sum _ _).1, fun i => ?_, c.dcAt, fun i hi => ?_,
    fun i => rfl⟩
  · have e : List.zipWith (fun z d => exp (c.logdVcdzOf z d)) c.zs c.Dc =
        (List.range c.size).map fun (j : ℕ) => fin (4 * Real.pi / 10 ^ 9 * c.dcAt j ^ 2 * c.rate (j * c.dz)) := by
      rw [Dc_eq h, zs, List.zipWith_map, List.zipWith_self]
      exact List.map_congr_left fun j _ => key j
    rw [Vc, e]
    apply List.ext_getElem
    · rw [zs, h1]
      simp
    · intro i a b
      have := h2 i a
      simp only [List.getElem_map, List.getElem_range]
      exact this
  · simp only [trapSum, Finset.sum_range_succ]
    have d1 : 0 < c.dcAt (i + 1) := lt_of_le_of_lt (dc_nonneg h i) (dc_strict h i)
    have r1 := rate_pos h (hz (i + 1))
    have r0 := rate_pos h (hz i)
    have p1 : 0 < 4 * Real.pi / 10 ^ 9 * c.dcAt (i + 1) ^ 2 * c.rate ((i + 1 : ℕ) * c.dz) := by positivity
    have p0 : 0 ≤ 4 * Real.pi / 10 ^ 9 * c.dcAt i ^ 2 * c.rate (i * c.dz) := by positivity
    have hd : (((i + 1 : ℕ) : ℝ) * c.dz - i * c.dz) = c.dz := by push_cast; ring
    rw [hd]
    have := h.dz
    have : 0 < c.dz * (4 * Real.pi / 10 ^ 9 * c.dcAt (i + 1) ^ 2 * c.rate ((i + 1 : ℕ) * c.dz) + 4 * Real.pi / 10 ^ 9 * c.dcAt i ^ 2 * c.rate (i * c.dz)) := by positivity
    linarith
  · rw [Dc_eq h]
    simp [hi]

/-! ## Redshift models -/

/-- The density (not normalised) that the documentation of the redshift models writes down. -/
noncomputable def Redshift.shape (d : Redshift) (z : ℝ) : ℝ := expR (d.cosmo.logdVcdz (fin z)) * expR (d.logPsi (fin z)) / (1 + z)

/-- A proper redshift model: proper cosmology, positive `z_max`, finite evolution factor. -/
structure Redshift.Proper (d : Redshift) : Prop where
  cosmo : d.cosmo.Proper
  zMax : 0 < d.zMax
  psi : ∀ z : ℝ, 0 ≤ z → ∃ w, d.logPsi (fin z) = fin w

theorem Redshift.logDiff_spec {d : Redshift} (h : d.Proper) {z : ℝ} (hz : 0 ≤ z) : IsLog (d.logDiff (fin z)) ∧ expR (d.logDiff (fin z)) = d.shape z := by
  obtain ⟨w, hw⟩ := h.psi z hz
  have hv := (C28_volume d.cosmo h.cosmo z hz).1
  have h1 : 0 < 1 + z := by linarith
  rw [Redshift.logDiff, Redshift.shape, hw, log1p_fin h1, neg_fin]
  have a := (isLog_fin (-Real.log (1 + z))).add hv
  refine ⟨a.add (isLog_fin w), ?_⟩
  rw [expR_add a (isLog_fin w), expR_add (isLog_fin _) hv, expR_fin, Real.exp_neg, Real.exp_log h1]
  field_simp

/-- **C28.**  The redshift density: with validation a number or `-inf` at *every* float, `-inf` exactly outside `(0, z_max]`, and on `[0, z_max]` it is `dVc/dz · ψ(z) / (1 + z)`. -/
theorem C28_density (d : Redshift) (h : d.Proper) (hv : d.validate = true) :
    (∀ z : XR, IsLog (d.logProb z)) ∧ (∀ z : XR, d.logProb z = ninf ↔ ¬ (lt (fin 0) z ∧ le z (fin d.zMax))) ∧
    (∀ z : ℝ, 0 ≤ z → z ≤ d.zMax → ∃ v, d.cosmo.dVcdz (fin z) = fin v ∧ expR (d.logProb (fin z)) = v * expR (d.logPsi (fin z)) / (1 + z)) := by
  have hin : ∀ z : ℝ, 0 ≤ z → z ≤ d.zMax → d.logProb (fin z) = d.logDiff (fin z) := by
    intro z a b
    have : d.support (fin z) = true := by simp [Redshift.support, a, b]
    simp only [Redshift.logProb, GW.Mass.validated, this, select_true, ite_self]
  have hcase : ∀ z : XR, (∃ x : ℝ, z = fin x ∧ 0 ≤ x ∧ x ≤ d.zMax) ∨ (d.logProb z = ninf ∧ ¬ (lt (fin 0) z ∧ le z (fin d.zMax))) := by
    intro z
    by_cases hs : d.support z = true
    · left
      simp only [Redshift.support, Bool.and_eq_true, decide_eq_true_eq] at hs
      cases z with
      | fin x => exact ⟨x, rfl, by simpa using hs.1, by simpa using hs.2⟩
      | pinf => exact absurd hs.2 id
      | ninf => exact absurd hs.1 id
      | nan => exact absurd hs.1 id
    · right
      have hs' : d.support z = false := by simpa using hs
      refine ⟨by simp only [Redshift.logProb, GW.Mass.validated, hv, hs', select_false, if_true], ?_⟩
      intro hc
      apply hs
      simp only [Redshift.support, Bool.and_eq_true, decide_eq_true_eq]
      refine ⟨?_, hc.2⟩
      cases z with
      | fin x =>
        have := hc.1
        simp only [lt_fin_fin, le_fin_fin] at this ⊢
        exact this.le
      | pinf => exact absurd hc.2 id
      | ninf => exact absurd hc.1 id
      | nan => exact absurd hc.1 id
  refine ⟨?_, ?_, ?_⟩
  · intro z
    rcases hcase z with ⟨x, rfl, a, b⟩ | ⟨e, -⟩
    · rw [hin x a b]
      exact (Redshift.logDiff_spec h a).1
    · rw [e]
      exact isLog_ninf
  · intro z
    rcases hcase z with ⟨x, rfl, a, b⟩ | ⟨e, k⟩
    · rw [hin x a b]
      obtain ⟨w, hw⟩ := h.psi x a
      obtain ⟨v1, v2, -⟩ := C28_volume d.cosmo h.cosmo x a
      have h1 : 0 < 1 + x := by linarith
      have key : d.logDiff (fin x) = ninf ↔ d.cosmo.logdVcdz (fin x) = ninf := by
        rw [Redshift.logDiff, hw, log1p_fin h1, neg_fin]
        rcases v1.cases with k | ⟨y, k⟩ <;> rw [k]
        · exact ⟨fun _ => rfl, fun _ => rfl⟩
        · simp
      rw [key, v2]
      simp only [lt_fin_fin, le_fin_fin, not_and]
      constructor
      · intro e k
        linarith
      · intro e
        by_contra hne
        exact e (lt_of_le_of_ne a (Ne.symm hne)) b
    · exact ⟨fun _ => k, fun _ => e⟩
  · intro z a b
    obtain ⟨v1, -, -, v, -, e, -, -⟩ := C28_volume d.cosmo h.cosmo z a
    refine ⟨v, e, ?_⟩
    rw [hin z a b, (Redshift.logDiff_spec h a).2, Redshift.shape]
    congr 2
    rw [Cosmology.dVcdz] at e
    rcases v1.cases with k | ⟨y, k⟩
    · rw [k] at e ⊢
      simp at e
      simpa using e
    · rw [k] at e ⊢
      simp only [exp_fin, fin.injEq] at e
      simpa using e

/-- **C28.**  The two evolution factors: `(1 + z)^kappa`, and `(1 + z)^kappa (1 + (1 + zp)^gamma) / ((1 + zp)^gamma + (1 + z)^gamma)`, both finite and positive for `z ≥ 0`, equal to `1` at `z = 0`. -/
theorem C28_psi (kappa gamma zPeak z : ℝ) (hz : 0 ≤ z) (hp : 0 < zPeak) :
    (∃ w, powerlawLogPsi kappa (fin z) = fin w ∧ Real.exp w = (1 + z) ^ kappa) ∧
    (∃ w, madauLogPsi kappa gamma zPeak (fin z) = fin w ∧ Real.exp w = (1 + z) ^ kappa * (1 + (1 + zPeak) ^ gamma) / ((1 + zPeak) ^ gamma + (1 + z) ^ gamma)) := by
  have h1 : 0 < 1 + z := by linarith
  have h2 : 0 < 1 + zPeak := by linarith
  have p1 := Real.rpow_pos_of_pos h1 gamma
  have p2 := Real.rpow_pos_of_pos h2 gamma
  constructor
  · refine ⟨kappa * Real.log (1 + z), ?_, ?_⟩
    · rw [powerlawLogPsi, log1p_fin h1, mul_fin_fin]
    · rw [Real.rpow_def_of_pos h1, mul_comm]
  · refine ⟨kappa * Real.log (1 + z) + Real.log (1 + (1 + zPeak) ^ gamma) - Real.log ((1 + zPeak) ^ gamma + (1 + z) ^ gamma), ?_, ?_⟩
    · simp only [madauLogPsi, log1p_fin h1, mul_fin_fin, add_fin_fin, pow_fin_pos h1, pow_fin_pos h2, log1p_fin (show 0 < 1 + (1 + zPeak) ^ gamma by linarith),
        log_fin_pos (show 0 < (1 + zPeak) ^ gamma + (1 + z) ^ gamma by linarith), sub_fin_fin]
    · rw [Real.exp_sub, Real.exp_add, Real.exp_log (by linarith), Real.exp_log (by linarith), Real.rpow_def_of_pos h1 kappa, mul_comm kappa]

/-- **C28.**  Redshift sampling: for a uniform draw `u ∈ [0, 1]` the sample is a number in `[0, z_max]`, strictly increasing in `u`, from `0` at `u = 0` to `z_max` at `u = 1`; at the `i`-th of the 10 000 grid points it inverts the
tabulated cdf, i.e. the cumulative trapezoid sum of the (unnormalised) density divided by the total. -/
theorem C28_sample (d : Redshift) (h : d.Proper) :
    ∃ g : ℝ → ℝ, (∀ u, 0 ≤ u → u ≤ 1 → d.sample u = fin (g u) ∧ 0 ≤ g u ∧ g u ≤ d.zMax) ∧ StrictMonoOn g (Set.Icc 0 1) ∧ g 0 = 0 ∧ g 1 = d.zMax ∧
      (∀ i < 10000, g (trapSum (fun j => d.shape (node 0 d.zMax 10000 j)) (node 0 d.zMax 10000) i / trapSum (fun j => d.shape (node 0 d.zMax 10000 j)) (node 0 d.zMax 10000) 9999)
        = node 0 d.zMax 10000 i) := by
  have hz := h.zMax
  set N := node 0 d.zMax 10000 with hN
  set P : ℕ → ℝ := fun j => d.shape (N j) with hP
  have hNs : StrictMono N := by
    intro a b hab
    have : (a : ℝ) < b := by exact_mod_cast hab
    simp only [hN, node]
    norm_num
    nlinarith
  have N0 : N 0 = 0 := by simp [hN, node]
  have N1 : N 9999 = d.zMax := by norm_num [hN, node]
  have Nn : ∀ j, 0 ≤ N j := by
    intro j
    rw [← N0]
    exact hNs.monotone (Nat.zero_le j)
  have Ppos : ∀ j, 0 < P (j + 1) := by
    intro j
    have hj : 0 < N (j + 1) := by
      rw [← N0]
      exact hNs (Nat.succ_pos j)
    obtain ⟨w, hw⟩ := h.psi (N (j + 1)) hj.le
    obtain ⟨v1, v2, -⟩ := C28_volume d.cosmo h.cosmo (N (j + 1)) hj.le
    have : 0 < expR (d.cosmo.logdVcdz (fin (N (j + 1)))) := by
      rcases v1.cases with k | ⟨y, k⟩
      · exact absurd (v2.1 k) hj.ne'
      · rw [k, expR_fin]
        exact Real.exp_pos _
    simp only [hP, Redshift.shape, hw, expR_fin]
    have := Real.exp_pos w
    positivity
  have Pn : ∀ j, 0 ≤ P j := by
    intro j
    have := Nn j
    simp only [hP, Redshift.shape]
    have := expR_nonneg (d.cosmo.logdVcdz (fin (N j)))
    have := expR_nonneg (d.logPsi (fin (N j)))
    positivity
  set S : ℕ → ℝ := trapSum P N with hS
  have hstep : ∀ i, S i < S (i + 1) := by
    intro i
    have h1 := hNs (Nat.lt_succ_self i)
    have h2 := Pn i
    have h3 := Ppos i
    simp only [hS, trapSum, Finset.sum_range_succ]
    have : 0 < (N (i + 1) - N i) * (P (i + 1) + P i) := mul_pos (by simpa using h1) (by linarith)
    linarith
  have S0 : S 0 = 0 := by simp [hS, trapSum]
  have hSl : 0 < S 9999 := by
    have := mono_of_succ (f := S) (n := 10000) (fun i _ => hstep i) (i := 0) (j := 9999) (by norm_num) (by norm_num)
    rwa [S0] at this
  -- the grids of the code
  have eg : linspace 0 d.zMax 10000 = (List.range 10000).map fun i => fin (N i) := by
    rw [linspace_eq, GW.Mass.linR_eq_nodes 0 d.zMax (n := 10000) (by norm_num), List.map_map]
    rfl
  have ep : ((List.range 10000).map fun i => fin (N i)).map (fun z => exp (d.logDiff z)) = (List.range 10000).map fun i => fin (P i) := by
    rw [List.map_map]
    apply List.map_congr_left
    intro i _
    have := Redshift.logDiff_spec h (Nn i)
    simp only [Function.comp]
    rw [GW.Mass.exp_isLog this.1, this.2]
  have en : trapezoid ((List.range 10000).map fun i => fin (P i)) ((List.range 10000).map fun i => fin (N i)) = fin (S 9999) := (C27_cumtrapz 10000 (by norm_num) P N).2.2
  have eq : ((List.range 10000).map fun i => fin (P i)).map (fun p => p / fin (S 9999)) = (List.range 10000).map fun i => fin (P i / S 9999) := by
    rw [List.map_map]
    apply List.map_congr_left
    intro i _
    simp only [Function.comp]
    rw [div_fin_of_ne _ hSl.ne']
  have eS : ∀ i, trapSum (fun j => P j / S 9999) N i = S i / S 9999 := by
    intro i
    simp only [hS, trapSum]
    rw [Finset.sum_div]
    apply Finset.sum_congr rfl
    intro j _
    ring
  have ec : cumTrapezoid ((List.range 10000).map fun i => fin (P i / S 9999)) ((List.range 10000).map fun i => fin (N i)) = (List.range 10000).map fun i => fin (S i / S 9999) := by
    obtain ⟨h1, h2, -⟩ := C27_cumtrapz 10000 (by norm_num) (fun i => P i / S 9999) N
    apply List.ext_getElem
    · rw [h1]
      simp
    · intro i a b
      have := h2 i a
      rw [eS] at this
      rw [List.getElem_map, List.getElem_range]
      exact this
  have ecdf : d.cdfGrid 10000 = (List.range 10000).map fun i => fin (S i / S 9999) := by
    simp only [Redshift.cdfGrid, eg, ep, en, eq, ec]
    rw [List.length_map, List.length_range, getD_range_map (f := fun i => fin (S i / S 9999)) (by norm_num), List.map_map]
    apply List.map_congr_left
    intro i _
    simp only [Function.comp, Nat.reduceSub]
    rw [div_self hSl.ne', div_fin_of_ne _ one_ne_zero, div_one]
  have hcs : ∀ i, i + 1 < 10000 → S i / S 9999 < S (i + 1) / S 9999 := fun i _ => div_lt_div_of_pos_right (hstep i) hSl
  have hNs' : ∀ i, i + 1 < 10000 → N i < N (i + 1) := fun i _ => hNs (Nat.lt_succ_self i)
  have hex : ∀ u, 0 ≤ u → u ≤ 1 → ∃ y, OnPolygon 10000 (fun i => S i / S 9999) N u y ∧ d.sample u = fin y := by
    intro u a b
    have := interp_onPolygon (n := 10000) (xs := fun i => S i / S 9999) (ys := N) (by norm_num) hcs (x := u) (by simpa [S0] using a) (by simp only [Nat.reduceSub]; rwa [div_self hSl.ne'])
      ((linspace 0 d.zMax 10000).getD 0 nan) ((linspace 0 d.zMax 10000).getD ((linspace 0 d.zMax 10000).length - 1) nan)
    rw [← ecdf, ← eg] at this
    exact this
  choose! g hg hg' using hex
  have hnode : ∀ i < 10000, g (S i / S 9999) = N i := by
    intro i hi
    have hle : S i ≤ S 9999 := by
      rcases Nat.lt_or_ge i 9999 with k | k
      · exact (mono_of_succ (f := S) (n := 10000) (fun i _ => hstep i) k (by norm_num)).le
      · have : i = 9999 := by omega
        rw [this]
    have hge : 0 ≤ S i := by
      rcases Nat.eq_zero_or_pos i with k | k
      · rw [k, S0]
      · have := mono_of_succ (f := S) (n := 10000) (fun i _ => hstep i) k hi
        rw [S0] at this
        exact this.le
    exact (hg _ (div_nonneg hge hSl.le) ((div_le_one hSl).2 hle)).unique hcs (onPolygon_node (xs := fun i => S i / S 9999) (ys := N) hcs (by norm_num) hi)
  refine ⟨g, ?_, ?_, ?_, ?_, hnode⟩
  · intro u a b
    have := onPolygon_range hcs hNs' (hg u a b)
    simp only [Nat.reduceSub, N0, N1] at this
    exact ⟨hg' u a b, this.1, this.2⟩
  · intro x hx y hy hxy
    exact (hg x hx.1 hx.2).strictMono hcs hNs' (hg y hy.1 hy.2) hxy
  · have := hnode 0 (by norm_num)
    rwa [S0, zero_div, N0] at this
  · have := hnode 9999 (by norm_num)
    rwa [div_self hSl.ne', N1] at this

/-- **C28.**  The total `log_norm` that the neural detection-probability estimator multiplies a redshift component by: for every proper model a finite number, the logarithm of the positive trapezoidal total of
`dVc/dz · ψ(z) / (1 + z)` on the 2500 equally spaced redshifts from `0` to `z_max`. -/
theorem C28_total (d : Redshift) (h : d.Proper) :
    ∃ total : ℝ, 0 < total ∧ d.logNorm = fin (Real.log total) ∧
      total = ∑ i ∈ Finset.range 2499, d.zMax / 2499 * ((d.shape (d.zMax * (i + 1) / 2499) + d.shape (d.zMax * i / 2499)) / 2) := by
  have hz := h.zMax
  set N := node 0 d.zMax 2500 with hN
  have eN : ∀ j : ℕ, N j = d.zMax * j / 2499 := by
    intro j
    simp only [hN, node]
    norm_num
    ring
  have Nn : ∀ j, 0 ≤ N j := by
    intro j
    rw [eN]
    positivity
  have Ppos : ∀ j, 0 < d.shape (N (j + 1)) := by
    intro j
    have hj : 0 < N (j + 1) := by
      rw [eN]
      positivity
    obtain ⟨w, hw⟩ := h.psi (N (j + 1)) hj.le
    obtain ⟨v1, v2, -⟩ := C28_volume d.cosmo h.cosmo (N (j + 1)) hj.le
    have : 0 < expR (d.cosmo.logdVcdz (fin (N (j + 1)))) := by
      rcases v1.cases with k | ⟨y, k⟩
      · exact absurd (v2.1 k) hj.ne'
      · rw [k, expR_fin]
        exact Real.exp_pos _
    simp only [Redshift.shape, hw, expR_fin]
    have := Real.exp_pos w
    positivity
  have Pn : ∀ j, 0 ≤ d.shape (N j) := by
    intro j
    have := Nn j
    simp only [Redshift.shape]
    have := expR_nonneg (d.cosmo.logdVcdz (fin (N j)))
    have := expR_nonneg (d.logPsi (fin (N j)))
    positivity
  have eg : linspace 0 d.zMax 2500 = (List.range 2500).map fun i => fin (N i) := by
    rw [linspace_eq, GW.Mass.linR_eq_nodes 0 d.zMax (n := 2500) (by norm_num), List.map_map]
    rfl
  have ep : ((List.range 2500).map fun i => fin (N i)).map (fun z => exp (d.logDiff z)) = (List.range 2500).map fun i => fin (d.shape (N i)) := by
    rw [List.map_map]
    apply List.map_congr_left
    intro i _
    have := Redshift.logDiff_spec h (Nn i)
    simp only [Function.comp]
    rw [GW.Mass.exp_isLog this.1, this.2]
  have en : trapezoid ((List.range 2500).map fun i => fin (d.shape (N i))) ((List.range 2500).map fun i => fin (N i)) = fin (trapSum (fun i => d.shape (N i)) N 2499) :=
    (C27_cumtrapz 2500 (by norm_num) (fun i => d.shape (N i)) N).2.2
  have step : ∀ i : ℕ, N (i + 1) - N i = d.zMax / 2499 := by
    intro i
    rw [eN, eN]
    push_cast
    ring
  have hpos : 0 < trapSum (fun i => d.shape (N i)) N 2499 := by
    simp only [trapSum]
    apply Finset.sum_pos
    · intro i _
      rw [step]
      have := Ppos i
      have := Pn i
      positivity
    · exact ⟨0, by simp⟩
  refine ⟨_, hpos, ?_, ?_⟩
  · simp only [Redshift.logNorm, eg, ep, en]
    exact log_fin_pos hpos
  · simp only [trapSum]
    apply Finset.sum_congr rfl
    intro i _
    rw [step, eN, eN]
    push_cast
    ring

/-- The Madau–Dickinson model of the Planck 2015 cosmology up to redshift 2.3. -/
noncomputable def madauExample : Redshift := ⟨planck2015, madauLogPsi 2.7 5.6 1.9, 2.3, true⟩

example : madauExample.Proper :=
  ⟨planck2015_proper, by norm_num [madauExample], fun z hz => by
    obtain ⟨-, w, e, -⟩ := C28_psi 2.7 5.6 1.9 z hz (by norm_num)
    exact ⟨w, e⟩⟩

/-! ## `RedshiftToLuminosityDistance`: the log Jacobian -/

/-- The interpolants on one cell. -/
theorem cell {c : Cosmology} (h : c.Proper) {i : ℕ} (hi : i + 1 < c.size) {z : ℝ} (h0 : i * c.dz ≤ z) (h1 : z ≤ (i + 1 : ℕ) * c.dz) :
    c.zToDc (fin z) = fin (c.dcAt i + (z - i * c.dz) / c.dz * (c.dcAt (i + 1) - c.dcAt i)) ∧
    c.zToDL (fin z) = fin (c.dcAt i * (1 + i * c.dz) + (z - i * c.dz) / c.dz * (c.dcAt (i + 1) * (1 + (i + 1 : ℕ) * c.dz) - c.dcAt i * (1 + i * c.dz))) := by
  have hd := h.dz
  have hz : 0 ≤ z := le_trans (by positivity) h0
  have hl : z ≤ c.zLast := by
    apply h1.trans
    have : ((i + 1 : ℕ) : ℝ) ≤ (c.size - 1 : ℕ) := by exact_mod_cast (by omega : i + 1 ≤ c.size - 1)
    exact mul_le_mul_of_nonneg_right this hd.le
  have hw : ((i + 1 : ℕ) : ℝ) * c.dz - i * c.dz = c.dz := by
    push_cast
    ring
  obtain ⟨y, hy, e⟩ := polygon_dc h hz hl
  obtain ⟨y', hy', e'⟩ := polygon_dl h hz hl
  rw [e, e']
  constructor
  · congr 1
    refine hy.unique (z_strict h) ⟨i, hi, h0, h1, ?_⟩
    simp only [hw]
  · congr 1
    refine hy'.unique (z_strict h) ⟨i, hi, h0, h1, ?_⟩
    simp only [hw]

theorem dc_step (c : Cosmology) (i : ℕ) : c.dcAt (i + 1) = c.dcAt i + c.dz * (c.rate ((i + 1 : ℕ) * c.dz) + c.rate (i * c.dz)) / 2 := by
  simp only [dcAt, trapSum, Finset.sum_range_succ]
  push_cast
  ring

/-- **C17.**  Inside a grid cell the luminosity-distance map has a derivative (the slope of the cell); the reported Jacobian `Dc(z) + (1 + z) dDc/dz` is not that number but lies with it between
`Dc_i + (1 + z_i) r_{i+1}` and `Dc_{i+1} + (1 + z_{i+1}) r_i`, where `r` is the (non-increasing) comoving-distance integrand. Missing from the full property: equality. -/
theorem C17_luminosity_distance_partial (c : Cosmology) (h : c.Proper) (hmono : MonotoneOn (friedmann c.omegaLambda c.omegaKappa c.omegaMatter c.omegaRadiation) (Set.Ici 0)) (i : ℕ) (hi : i + 1 < c.size)
    (z : ℝ) (h0 : i * c.dz < z) (h1 : z < (i + 1 : ℕ) * c.dz) :
    ∃ (DL : ℝ → ℝ) (slope jac : ℝ), (∀ x, i * c.dz < x → x < (i + 1 : ℕ) * c.dz → c.zToDL (fin x) = fin (DL x)) ∧ HasDerivAt DL slope z ∧ logDetDistance c (fin z) = fin (Real.log jac) ∧
      c.dcAt i + (1 + i * c.dz) * c.rate ((i + 1 : ℕ) * c.dz) ≤ slope ∧ slope ≤ c.dcAt (i + 1) + (1 + (i + 1 : ℕ) * c.dz) * c.rate (i * c.dz) ∧
      c.dcAt i + (1 + i * c.dz) * c.rate ((i + 1 : ℕ) * c.dz) ≤ jac ∧ jac ≤ c.dcAt (i + 1) + (1 + (i + 1 : ℕ) * c.dz) * c.rate (i * c.dz) := by
  have hd := h.dz
  have hi0 : 0 ≤ (i : ℝ) * c.dz := by positivity
  have hi1 : (0 : ℝ) ≤ ((i + 1 : ℕ) : ℝ) * c.dz := by positivity
  have hz : 0 ≤ z := hi0.trans h0.le
  have hanti : AntitoneOn c.rate (Set.Ici 0) := by
    intro a ha b hb hab
    have h1 := h.expansion a ha
    have hH := h.Ho
    unfold rate comovingRate
    apply div_le_div_of_nonneg_left
    · unfold speedOfLight
      positivity
    · exact Real.sqrt_pos.2 h1
    · exact Real.sqrt_le_sqrt (hmono ha hb hab)
  have a1 : c.rate z ≤ c.rate (i * c.dz) := hanti hi0 hz h0.le
  have a2 : c.rate ((i + 1 : ℕ) * c.dz) ≤ c.rate z := hanti hz hi1 h1.le
  have p0 := rate_pos h hz
  have p1 := rate_pos h hi1
  have hs := dc_step c i
  have n0 := dc_nonneg h i
  obtain ⟨e1, -⟩ := cell h hi h0.le h1.le
  have hw : ((i + 1 : ℕ) : ℝ) * c.dz = i * c.dz + c.dz := by
    push_cast
    ring
  have b0 : c.dcAt i ≤ c.dcAt i + (z - i * c.dz) / c.dz * (c.dcAt (i + 1) - c.dcAt i) := by
    have := dc_strict h i
    have : 0 ≤ (z - i * c.dz) / c.dz := div_nonneg (by linarith) hd.le
    nlinarith
  have b1 : c.dcAt i + (z - i * c.dz) / c.dz * (c.dcAt (i + 1) - c.dcAt i) ≤ c.dcAt (i + 1) := by
    have := dc_strict h i
    have : (z - i * c.dz) / c.dz ≤ 1 := by
      rw [div_le_one hd]
      linarith
    nlinarith
  refine ⟨fun x => c.dcAt i * (1 + i * c.dz) + (x - i * c.dz) / c.dz * (c.dcAt (i + 1) * (1 + (i + 1 : ℕ) * c.dz) - c.dcAt i * (1 + i * c.dz)),
    c.dcAt i + (1 + (i + 1 : ℕ) * c.dz) * (c.rate ((i + 1 : ℕ) * c.dz) + c.rate (i * c.dz)) / 2,
    c.dcAt i + (z - i * c.dz) / c.dz * (c.dcAt (i + 1) - c.dcAt i) + (1 + z) * c.rate z, ?_, ?_, ?_, ?_, ?_, ?_, ?_⟩
  · intro x k0 k1
    exact (cell h hi k0.le k1.le).2
  · have hb : HasDerivAt (fun x : ℝ => (x - i * c.dz) / c.dz) (1 / c.dz) z := ((hasDerivAt_id z).sub_const _).div_const _
    have := (hb.mul_const (c.dcAt (i + 1) * (1 + (i + 1 : ℕ) * c.dz) - c.dcAt i * (1 + i * c.dz))).const_add (c.dcAt i * (1 + i * c.dz))
    refine this.congr_deriv ?_
    rw [hs]
    generalize c.dcAt i = D at *
    generalize c.rate (i * c.dz) = r at *
    generalize c.rate ((i + 1 : ℕ) * c.dz) = r' at *
    push_cast
    field_simp
    ring
  · rw [logDetDistance, e1, dDcdz_fin h hz, add_fin_fin, mul_fin_fin, add_fin_fin, log_fin_pos]
    have : 0 < (1 + z) * c.rate z := mul_pos (by linarith) p0
    linarith
  · have : (1 + i * c.dz) * c.rate ((i + 1 : ℕ) * c.dz) ≤ (1 + (i + 1 : ℕ) * c.dz) * ((c.rate ((i + 1 : ℕ) * c.dz) + c.rate (i * c.dz)) / 2) :=
      mul_le_mul (by linarith) (by linarith) p1.le (by linarith)
    linarith
  · have : (1 + (i + 1 : ℕ) * c.dz) * ((c.rate ((i + 1 : ℕ) * c.dz) + c.rate (i * c.dz)) / 2) ≤ (1 + (i + 1 : ℕ) * c.dz) * c.rate (i * c.dz) :=
      mul_le_mul_of_nonneg_left (by linarith) (by linarith)
    have := dc_strict h i
    linarith
  · have : (1 + i * c.dz) * c.rate ((i + 1 : ℕ) * c.dz) ≤ (1 + z) * c.rate z := mul_le_mul (by linarith) a2 p1.le (by linarith)
    linarith
  · have : (1 + z) * c.rate z ≤ (1 + (i + 1 : ℕ) * c.dz) * c.rate (i * c.dz) := mul_le_mul (by linarith) a1 p0.le (by linarith)
    linarith

/-- A de Sitter universe in units `c / H0 = 1` with grid step 1. -/
noncomputable def deSitter : Cosmology := ⟨speedOfLight, 0, 0, 1, 4, 1⟩

theorem deSitter_proper : deSitter.Proper := by
  refine ⟨by norm_num [deSitter, speedOfLight], by norm_num [deSitter], by norm_num [deSitter], ?_⟩
  intro z _
  norm_num [friedmann, deSitter, omegaKappa]

example : MonotoneOn (friedmann deSitter.omegaLambda deSitter.omegaKappa deSitter.omegaMatter deSitter.omegaRadiation) (Set.Ici 0) := by
  intro a _ b _ _
  norm_num [friedmann, deSitter, omegaKappa]

/-- The hypotheses of the theorem above hold for Planck 2015. -/
example : MonotoneOn (friedmann planck2015.omegaLambda planck2015.omegaKappa planck2015.omegaMatter planck2015.omegaRadiation) (Set.Ici 0) := by
  intro a ha b _ hab
  have ha : 0 ≤ a := ha
  have : (1 + a) ^ 3 ≤ (1 + b) ^ 3 := pow_le_pow_left₀ (by linarith) (by linarith) 3
  norm_num [friedmann, planck2015, omegaKappa]
  linarith

/-- **C17, exactness violated.**  In a flat universe with a cosmological constant only and grid step 1, the map `z ↦ DL` used by `RedshiftToLuminosityDistance` has derivative `2` at `z = 1/4` while the reported log
Jacobian is `log 1.5`: the reported value is the derivative of the ideal map, not of the interpolated one. -/
theorem C17_luminosity_distance_violated :
    (∃ DL : ℝ → ℝ, (∀ x, 0 < x → x < 1 → deSitter.zToDL (fin x) = fin (DL x)) ∧ HasDerivAt DL 2 (1 / 4)) ∧ logDetDistance deSitter (fin (1 / 4)) = fin (Real.log (3 / 2)) := by
  have h := deSitter_proper
  have hr : ∀ z, deSitter.rate z = 1 := by
    intro z
    have : friedmann deSitter.omegaLambda deSitter.omegaKappa deSitter.omegaMatter deSitter.omegaRadiation z = 1 := by norm_num [friedmann, deSitter, omegaKappa]
    rw [rate, comovingRate, this]
    norm_num [deSitter, speedOfLight]
  have hd : deSitter.dz = 1 := rfl
  have hs : (0 : ℕ) + 1 < deSitter.size := by
    have := two_le_size h
    omega
  have d1 : deSitter.dcAt (0 + 1) = 1 := by
    rw [dc_step, dc_zero, hr, hr, hd]
    norm_num
  constructor
  · refine ⟨fun x => 2 * x, ?_, ?_⟩
    · intro x a b
      rw [(cell h hs (z := x) (by simpa using a.le) (by simpa [hd] using b.le)).2, d1, dc_zero, hd]
      congr 1
      push_cast
      ring
    · simpa using (hasDerivAt_id (1 / 4 : ℝ)).const_mul 2
  · rw [logDetDistance, (cell h hs (z := 1 / 4) (by simp) (by norm_num [hd])).1, d1, dc_zero, hd, dDcdz_fin h (by norm_num), hr, add_fin_fin, mul_fin_fin, add_fin_fin, log_fin_pos (by norm_num)]
    congr 2
    norm_num

end GW.Cosmo
