import Verif.Lemmas.HybridMass
import Verif.Props.HybridDensity
import Mathlib.MeasureTheory.Constructions.Pi
import Mathlib.MeasureTheory.Integral.Prod
import Mathlib.MeasureTheory.Function.SpecialFunctions.Basic
import Mathlib.MeasureTheory.Measure.Lebesgue.Basic

/-! # The densities of the laws are measurable, and integrable over the space of the events -/

namespace GW.Hybrids
open GW XR MeasureTheory ProbabilityTheory ENNReal

theorem measurable_volume {c : Cosmo.Cosmology} (hc : c.Proper) {dV : ℝ → ℝ} (hV : IsVolume c dV) : Measurable fun z : ℝ => if 0 ≤ z then dV z else 0 := by
  obtain ⟨hm, Dc, DL, hD, hmono, -, hD0, -⟩ := Cosmo.C28_distances c hc
  have hl : 0 ≤ c.zLast := hc.maxZ.le.trans hm
  set D : ℝ → ℝ := fun z => if z < 0 then 0 else if z ≤ c.zLast then Dc z else Dc c.zLast with hDdef
  have hpos : ∀ z, 0 ≤ z → z ≤ c.zLast → 0 ≤ Dc z := fun z h0 h1 => hD0 ▸ hmono.monotoneOn ⟨le_rfl, hl⟩ ⟨h0, h1⟩ h0
  have hDm : Monotone D := by
    intro a b hab
    simp only [hDdef]
    by_cases ha : a < 0
    · rw [if_pos ha]
      by_cases hb : b < 0
      · rw [if_pos hb]
      · rw [if_neg hb]
        split_ifs with k
        · exact hpos b (not_lt.1 hb) k
        · exact hpos _ hl le_rfl
    · have hb : ¬ b < 0 := fun h => ha (hab.trans_lt h)
      rw [if_neg ha, if_neg hb]
      push Not at ha hb
      by_cases k : b ≤ c.zLast
      · rw [if_pos k, if_pos (hab.trans k)]
        exact hmono.monotoneOn ⟨ha, hab.trans k⟩ ⟨hb, k⟩ hab
      · rw [if_neg k]
        split_ifs with k2
        · exact hmono.monotoneOn ⟨ha, k2⟩ ⟨hl, le_rfl⟩ k2
        · exact le_rfl
  have hrate : Measurable c.rate := by
    unfold Cosmo.Cosmology.rate comovingRate friedmann
    fun_prop
  have heq : (fun z : ℝ => if 0 ≤ z then dV z else 0) = fun z => if 0 ≤ z then 4 * Real.pi / 10 ^ 9 * D z ^ 2 * c.rate z else 0 := by
    funext z
    split_ifs with h0
    · obtain ⟨-, -, y, w, e1, e2, -, e3⟩ := Cosmo.C28_volume c hc z h0
      rw [hV z h0] at e2
      injection e2 with e2
      have : y = D z := by
        simp only [hDdef]
        rw [if_neg (not_lt.2 h0)]
        split_ifs with k
        · rw [(hD z h0 k).1] at e1
          injection e1 with e1
          exact e1.symm
        · rw [(Cosmo.C28_clamped_violated c hc z (not_le.1 k)).2.1, (hD _ hl le_rfl).1] at e1
          injection e1 with e1
          exact e1.symm
      rw [e2, e3, this]
    · rfl
  rw [heq]
  exact Measurable.ite measurableSet_Ici ((hDm.measurable.pow_const 2).const_mul _ |>.mul hrate) measurable_const

variable {β : Type} [MeasurableSpace β]

theorem measurable_restrictedNormal {loc scale : ℝ} {S : Set ℝ} (hS : MeasurableSet S) {g : β → ℝ} (hg : Measurable g) :
    Measurable fun b => Spin.restrictedNormal loc scale S (g b) := by
  have : Measurable (Spin.restrictedNormal loc scale S) := by
    unfold Spin.restrictedNormal Spin.normalDensity
    exact Measurable.ite hS ((measurable_gaussianPDFReal _ _).div_const _) measurable_const
  exact this.comp hg

theorem measurableSet_bounds (low high : Option ℝ) : MeasurableSet (Spin.bounds low high) := by
  unfold Spin.bounds
  split <;> measurability

theorem measurable_uniformDensity {low high : ℝ} {g : β → ℝ} (hg : Measurable g) : Measurable fun b => Spin.uniformDensity low high (g b) := by
  unfold Spin.uniformDensity
  exact Measurable.ite ((measurableSet_le measurable_const hg).inter (measurableSet_le hg measurable_const)) measurable_const measurable_const

theorem measurable_between {low high : ℝ} {g h : β → ℝ} (hg : Measurable g) (hh : Measurable h) :
    Measurable fun b => if low ≤ g b ∧ g b ≤ high then h b else 0 :=
  Measurable.ite ((measurableSet_le measurable_const hg).inter (measurableSet_le hg measurable_const)) hh measurable_const

theorem measurable_ratioNorm (slope mmin : ℝ) {g : β → ℝ} (hg : Measurable g) :
    Measurable fun b => ∫ q, if mmin / g b < q ∧ q ≤ 1 then q ^ slope else 0 := by
  have : StronglyMeasurable fun p : β × ℝ => if mmin / g p.1 < p.2 ∧ p.2 ≤ 1 then p.2 ^ slope else 0 := by
    refine Measurable.stronglyMeasurable (Measurable.ite ?_ (by fun_prop) measurable_const)
    exact (measurableSet_lt (by fun_prop) measurable_snd).inter (measurableSet_le measurable_snd measurable_const)
  exact this.integral_prod_right.measurable

theorem measurable_massDensity {alpha slope mmin mmax : ℝ} (h0 : 0 < mmin) {g h : β → ℝ} (hg : Measurable g) (hh : Measurable h) :
    Measurable fun b => Law.massDensity alpha slope mmin mmax (g b) (h b) := by
  have e : (fun b => Law.massDensity alpha slope mmin mmax (g b) (h b)) = fun b => if mmin ≤ h b ∧ h b ≤ g b ∧ g b ≤ mmax then
      g b ^ (-alpha) / (∫ m in mmin..mmax, m ^ (-alpha)) * ((h b / g b) ^ slope / ∫ q, if mmin / g b < q ∧ q ≤ 1 then q ^ slope else 0) / g b else 0 := by
    funext b
    unfold Law.massDensity
    split_ifs with k
    · have hle : mmin / g b ≤ 1 := (div_le_one (h0.trans_le (k.1.trans k.2.1))).2 (k.1.trans k.2.1)
      rw [intervalIntegral.integral_of_le hle, ← integral_indicator measurableSet_Ioc]
      simp only [Set.indicator_apply, Set.mem_Ioc]
    · rfl
  rw [e]
  refine Measurable.ite ?_ ?_ measurable_const
  · exact (measurableSet_le measurable_const hh).inter ((measurableSet_le hh hg).inter (measurableSet_le hg measurable_const))
  · have := measurable_ratioNorm slope mmin hg
    fun_prop

theorem measurable_brokenShape {alpha1 alpha2 mbreak : ℝ} : Measurable (brokenShape alpha1 alpha2 mbreak) := by
  unfold brokenShape
  have : Measurable fun m : ℝ => if m < mbreak then alpha1 else alpha2 := Measurable.ite measurableSet_Iio measurable_const measurable_const
  fun_prop

theorem measurable_skewCurve {loc scale epsilon : ℝ} : Measurable (Law.skewCurve loc scale epsilon) := by
  unfold Law.skewCurve
  exact Measurable.ite (measurableSet_le measurable_id measurable_const) ((measurable_restrictedNormal measurableSet_Icc measurable_id).const_mul _)
    ((measurable_restrictedNormal measurableSet_Icc measurable_id).const_mul _)

theorem measurable_density {c : Cosmo.Cosmology} (hc : c.Proper) {dV : ℝ → ℝ} (hV : IsVolume c dV) {L : Law} (hp : L.Proper) {gs : List (β → ℝ)}
    (hg : ∀ g ∈ gs, Measurable g) : Measurable fun b => L.density dV (gs.map (· b)) := by
  match gs, hg with
  | [], _ => cases L <;> exact measurable_const
  | [g], hg =>
    have h1 : Measurable g := hg g (by simp)
    cases L with
    | masses | twoPairs | tilts | tiltsAbove => exact measurable_const
    | beta mean variance => exact (measurable_betaPDFReal _ _).comp h1
    | normal loc scale low high => exact measurable_restrictedNormal (measurableSet_bounds _ _) h1
    | twoNormals zeta loc1 scale1 low1 high1 loc2 scale2 low2 high2 =>
      exact ((measurable_restrictedNormal (measurableSet_bounds _ _) h1).const_mul _).add ((measurable_restrictedNormal (measurableSet_bounds _ _) h1).const_mul _)
    | skew loc scale epsilon => exact (measurable_skewCurve.comp h1).div_const _
    | uniform low high => exact measurable_uniformDensity h1
    | redshift kappa zMax =>
      have e : (fun b => (Law.redshift kappa zMax).density dV [g b]) = fun b => if 0 ≤ g b ∧ g b ≤ zMax then
          (if 0 ≤ g b then dV (g b) else 0) * (1 + g b) ^ kappa / (1 + g b) else 0 := by
        funext b
        simp only [Law.density]
        split_ifs with k k2
        · rfl
        · exact absurd k.1 k2
        · rfl
      have hv : Measurable fun b => if 0 ≤ g b then dV (g b) else 0 := (measurable_volume hc hV).comp h1
      show Measurable fun b => (Law.redshift kappa zMax).density dV [g b]
      rw [e]
      exact measurable_between h1 (by fun_prop)
    | powerlaw alpha low high => exact measurable_between h1 (by fun_prop)
    | broken alpha1 alpha2 mbreak mmin mmax => exact measurable_between h1 ((measurable_brokenShape.comp h1).div_const _)
  | [g, h], hg =>
    have h1 : Measurable g := hg g (by simp)
    have h2 : Measurable h := hg h (by simp)
    cases L with
    | masses alpha slope mmin mmax => exact measurable_massDensity hp.1 h1 h2
    | twoPairs zeta a1 a2 b1 b2 =>
      have m : ∀ (a : Bump) {k : β → ℝ}, Measurable k → Measurable fun b => a.density (k b) := fun a k hk => measurable_restrictedNormal measurableSet_Icc hk
      exact (((m a1 h1).mul (m a2 h2)).const_mul _).add (((m b1 h1).mul (m b2 h2)).const_mul _)
    | tilts zeta scale1 scale2 =>
      refine Measurable.ite ?_ ?_ measurable_const
      · exact ((measurableSet_le measurable_const h1).inter (measurableSet_le h1 measurable_const)).inter
          ((measurableSet_le measurable_const h2).inter (measurableSet_le h2 measurable_const))
      · exact (((measurable_restrictedNormal measurableSet_Icc h1).mul (measurable_restrictedNormal measurableSet_Icc h2)).const_mul _).const_add _
    | tiltsAbove zeta loc1 loc2 scale1 scale2 minimum1 minimum2 =>
      exact (((measurable_uniformDensity h1).mul (measurable_uniformDensity h2)).const_mul _).add
        (((measurable_restrictedNormal measurableSet_Icc h1).mul (measurable_restrictedNormal measurableSet_Icc h2)).const_mul _)
    | _ => exact measurable_const
  | _ :: _ :: _ :: _, _ => cases L <;> exact measurable_const

theorem measurable_productDensity {c : Cosmo.Cosmology} (hc : c.Proper) {dV : ℝ → ℝ} (hV : IsVolume c dV) {ls : List Law} (hp : ∀ L ∈ ls, L.Proper)
    {gs : List (β → ℝ)} (hg : ∀ g ∈ gs, Measurable g) : Measurable fun b => productDensity dV ls (gs.map (· b)) := by
  induction ls generalizing gs with
  | nil => exact measurable_const
  | cons L ls ih =>
    have e : (fun b => productDensity dV (L :: ls) (gs.map (· b))) =
        fun b => L.density dV ((gs.take L.dim).map (· b)) * productDensity dV ls ((gs.drop L.dim).map (· b)) := by
      funext b
      rw [productDensity, List.map_take, List.map_drop]
    rw [e]
    exact (measurable_density hc hV (hp L (by simp)) fun g h => hg g (List.mem_of_mem_take h)).mul
      (ih (fun L h => hp L (by simp [h])) fun g h => hg g (List.mem_of_mem_drop h))

theorem measurable_productDensity_ofFn {c : Cosmo.Cosmology} (hc : c.Proper) {dV : ℝ → ℝ} (hV : IsVolume c dV) {ls : List Law} (hp : ∀ L ∈ ls, L.Proper)
    (n : ℕ) : Measurable fun x : Fin n → ℝ => productDensity dV ls (List.ofFn x) := by
  have := measurable_productDensity (β := Fin n → ℝ) hc hV hp (gs := List.ofFn fun i (x : Fin n → ℝ) => x i) (by
    intro g hg
    obtain ⟨i, rfl⟩ := (List.mem_ofFn' _ _).1 hg
    exact measurable_pi_apply i)
  simpa [List.map_ofFn, Function.comp_def] using this

/-- The iterated integral is the integral over the space. -/
theorem lintegral_ofFn {n : ℕ} {f : List ℝ → ℝ≥0∞} (hf : Measurable fun x : Fin n → ℝ => f (List.ofFn x)) :
    ∫⁻ x : Fin n → ℝ, f (List.ofFn x) = integrate n f := by
  induction n generalizing f with
  | zero =>
    rw [integrate, lintegral_unique]
    simp [volume_pi]
  | succ n ih =>
    have hmp := (volume_preserving_piFinSuccAbove (fun _ : Fin (n + 1) => ℝ) 0).symm
    rw [← hmp.lintegral_comp_emb (MeasurableEquiv.measurableEmbedding _)]
    have hm : Measurable fun p : ℝ × (Fin n → ℝ) => f (List.ofFn ((MeasurableEquiv.piFinSuccAbove (fun _ : Fin (n + 1) => ℝ) 0).symm p)) :=
      hf.comp (MeasurableEquiv.measurable _)
    rw [Measure.volume_eq_prod, lintegral_prod _ hm.aemeasurable, integrate]
    refine lintegral_congr fun x => ?_
    have e : ∀ y : Fin n → ℝ, List.ofFn ((MeasurableEquiv.piFinSuccAbove (fun _ : Fin (n + 1) => ℝ) 0).symm (x, y)) = x :: List.ofFn y := by
      intro y
      rw [List.ofFn_succ]
      simp [MeasurableEquiv.piFinSuccAbove]
    simp only [e]
    refine ih (f := fun l => f (x :: l)) ?_
    have := hm.comp (measurable_const.prodMk measurable_id : Measurable fun y : Fin n → ℝ => (x, y))
    simpa [Function.comp_def, e] using this

theorem productDensity_nonneg {c : Cosmo.Cosmology} (hc : c.Proper) {dV : ℝ → ℝ} (hV : IsVolume c dV) {ls : List Law} (hp : ∀ L ∈ ls, L.Proper) (x : List ℝ) :
    0 ≤ productDensity dV ls x := by
  induction ls generalizing x with
  | nil => exact zero_le_one
  | cons L ls ih => exact mul_nonneg (density_nonneg hc hV (hp L (by simp)) _) (ih (fun L h => hp L (by simp [h])) _)

/-- The density of independent laws is integrable over the space of the events. -/
theorem integrable_productDensity {c : Cosmo.Cosmology} (hc : c.Proper) {dV : ℝ → ℝ} (hV : IsVolume c dV) {ls : List Law} (hp : ∀ L ∈ ls, L.Proper)
    {n : ℕ} (hn : lawsDim ls = n) : Integrable fun x : Fin n → ℝ => productDensity dV ls (List.ofFn x) := by
  subst hn
  have hm := measurable_productDensity_ofFn hc hV hp (lawsDim ls)
  refine ⟨hm.aestronglyMeasurable, ?_⟩
  rw [hasFiniteIntegral_iff_ofReal (Filter.Eventually.of_forall fun x => ?_), lintegral_ofFn (f := fun l => ENNReal.ofReal (productDensity dV ls l)) hm.ennreal_ofReal]
  · exact lt_top_iff_ne_top.2 (by rw [(component_total hc hV hp).1]; exact (component_total hc hV hp).2)
  · exact productDensity_nonneg hc hV hp _

end GW.Hybrids
