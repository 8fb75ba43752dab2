import Verif.Lemmas.GridLaws

/-!
# C97: how accurate the tabulated normalisations are

The smoothed mass models divide by totals computed on grids (1000 primary masses, 500 mass ratios, linear interpolation).  The distance to the exact totals, for all parameters, and
where the mass-ratio density is not normalised at all.
-/

namespace GW.Hybrids
open Set MeasureTheory GW XR GW.PyDict
open scoped Classical

/-- **C97** (trapezoid).  On `n` points the trapezoid rule is off by at most half a spacing times the variation of the function, for every function of bounded variation. -/
theorem C97_trapezoid {f : ℝ → ℝ} {a b V : ℝ} (hab : a ≤ b) {n : ℕ} (hn : 2 ≤ n) (hV : 0 ≤ V) (h : eVariationOn f (Icc a b) ≤ ENNReal.ofReal V) :
    |trapz f a b n - ∫ x in a..b, f x| ≤ (b - a) / (n - 1 : ℕ) / 2 * V := trapz_error hab hn ((varLe_iff hV).2 h)

/-- The identity on `[0, 3]` with four points. -/
example : |trapz (fun x => x) 0 3 4 - ∫ x in (0 : ℝ)..3, x| ≤ 3 / 2 := by
  have := C97_trapezoid (f := fun x => x) (a := 0) (b := 3) (V := 3) (n := 4) (by norm_num) (by norm_num) (by norm_num) (by
    have := eVariationOn_id_Icc 0 3
    rw [sub_zero] at this
    exact this.le)
  norm_num at this ⊢
  exact this

/-- **C97** (primary mass).  In every smoothed model that can be built, with non-negative weights and meaningful laws, the total on 1000 masses differs from the exact integral by at
most two and a half grid spacings times the weighted peak densities of the primary-mass laws. -/
theorem C97_mass_total {dV : ℝ → ℝ} {use : Flag → Bool} {Nb Ng : Nat} {params : Dict String ℝ} {s : Smoothed}
    (h : nSmoothedPowerlawMSmoothedGaussian use Nb Ng params = .ok s ∨ nBrokenPowerlawMGaussian use Nb Ng params = .ok s) (hw : ∀ w ∈ s.weights, 0 ≤ w)
    {laws : List (List Law)} (hl : HaveLaws s.components laws) (hp : ∀ ls ∈ laws, ∀ L ∈ ls, L.Proper) {S : Smoothing} (hSp : S.Proper) :
    |S.massTotal (massMixture dV s.weights laws) - S.exactMassTotal (massMixture dV s.weights laws)| ≤
      5 / 2 * ((S.m1max - S.m1min) / 999) * peakMixture s.weights laws := by
  obtain ⟨-, p2, -, p4, -⟩ := hSp
  have hH : Heads laws := by
    rcases h with h | h
    · exact heads_of_begins (begins_o3 h) hl hp
    · exact heads_of_begins (begins_o4 h) hl hp
  obtain ⟨q0, q1, q2⟩ := mixture_varLe (dV := dV) S.m1min S.m1max hw hH
  have := q1.windowed q0 (fun x _ _ => by rw [abs_of_nonneg (q2 x).1]; exact (q2 x).2) S.m1min p4
  refine (trapz_error (n := 1000) p2.le (by norm_num) this).trans (le_of_eq ?_)
  norm_num
  ring

theorem ratioTotal_eq {S : Smoothing} (hSp : S.Proper) {Z : ℝ → ℝ} (hZ : S.IsRatioTotal Z) {m : ℝ} (h1 : S.m1min ≤ m) (h2 : m ≤ S.m1max) (h3 : S.m2min < m) :
    Interpolates (table S.beta S.m2min S.width2) S.m1min S.m1max 1000 m (Z m) := by
  obtain ⟨v, -, v2, v3⟩ := hZ.2 m h1 h2
  have hv : 0 < v := interp_pos hSp.2.2.2.2 hSp.2.1 h3 v2
  rw [v3, if_neg (not_le.2 hv)]
  exact v2

/-- **C97** (mass ratio).  For every primary mass above the smallest secondary, as long as the grid reaches below the smallest possible mass ratio: the tabulated total differs from
the exact one by at most `S.ratioError`, and the tabulated density integrates to one up to that error over the total. -/
theorem C97_ratio_total {S : Smoothing} (hSp : S.Proper) (hgrid : 0.005 * S.m1max ≤ S.m2min) {Z : ℝ → ℝ} (hZ : S.IsRatioTotal Z) {m : ℝ} (h1 : S.m1min ≤ m) (h2 : m ≤ S.m1max)
    (h3 : S.m2min < m) :
    |Z m - S.exactRatioTotal m| ≤ S.ratioError ∧ |(∫ q in (0 : ℝ)..1, S.ratioCurve m q / Z m) - 1| ≤ S.ratioError / Z m := by
  have hI := ratioTotal_eq hSp hZ h1 h2 h3
  have key : |Z m - S.exactRatioTotal m| ≤ S.ratioError := interp_error hSp.2.2.2.2 hSp.2.2.1 hSp.1.le hSp.2.1 hgrid h1 h2 hI
  have hpos := hZ.1 m
  refine ⟨key, ?_⟩
  rw [intervalIntegral.integral_div]
  have e : (∫ q in (0 : ℝ)..1, S.ratioCurve m q) / Z m - 1 = -((Z m - S.exactRatioTotal m) / Z m) := by
    unfold Smoothing.exactRatioTotal
    field_simp
    ring
  rw [e, abs_neg, abs_div, abs_of_pos hpos]
  exact div_le_div_of_nonneg_right key hpos.le

/-- **C97** (mass ratio, violated).  When both masses start at the same minimum the mass-ratio density is *not* normalised for primaries just above it: its integral is below
any `ε > 0` for some of them.  The exact total falls off much faster than the line the table draws to zero. -/
theorem C97_ratio_total_violated {S : Smoothing} (hSp : S.Proper) (hmin : S.m2min = S.m1min) {Z : ℝ → ℝ} (hZ : S.IsRatioTotal Z) {ε : ℝ} (hε : 0 < ε) :
    ∃ b > S.m1min, b < S.m1max ∧ ∀ m, S.m1min < m → m ≤ b → ∫ q in (0 : ℝ)..1, S.ratioCurve m q / Z m < ε := by
  obtain ⟨p1, p2, p3, p4, p5⟩ := hSp
  set x0 := node S.m1min S.m1max 1000 0 with hx0
  set x1 := node S.m1min S.m1max 1000 1 with hx1
  have e0 : x0 = S.m1min := node_first _ _ _
  have hstep : x1 - x0 = (S.m1max - S.m1min) / 999 := by
    have := node_succ_sub S.m1min S.m1max 1000 0
    rw [hx1, hx0, this]
    norm_num
  have hd : 0 < x1 - x0 := by rw [hstep]; exact div_pos (by linarith) (by norm_num)
  set T := table S.beta S.m2min S.width2 with hT
  have hT1 : 0 < T x1 := table_pos p5 (by rw [hmin]; linarith)
  have hhi : 0 < S.m1max := by linarith
  set G := max 1 ((S.m2min / S.m1max) ^ S.beta) with hG
  have hG0 : 0 < G := zero_lt_one.trans_le (le_max_left _ _)
  set K := 4 * G / S.width2 ^ 2 * ((x1 - x0) / T x1) with hK
  have hK0 : 0 < K := mul_pos (div_pos (by linarith) (by positivity)) (div_pos hd hT1)
  set r : ℝ := Min.min (Min.min ((x1 - x0) / 2) (S.width2 / 2)) (ε / (2 * K)) with hr
  have hr0 : 0 < r := lt_min (lt_min (by linarith) (by linarith)) (div_pos hε (by linarith))
  have hr1 : r ≤ (x1 - x0) / 2 := (min_le_left _ _).trans (min_le_left _ _)
  have hr2 : r ≤ S.width2 / 2 := (min_le_left _ _).trans (min_le_right _ _)
  have hr3 : r ≤ ε / (2 * K) := min_le_right _ _
  have hx1max : x1 ≤ S.m1max := (node_mem p2.le (n := 1000) (by norm_num) (i := 1) (by norm_num)).2
  refine ⟨S.m1min + r, by linarith, by linarith, fun m hm hmb => ?_⟩
  have hm2 : m ≤ S.m1max := by linarith
  have hm0 : 0 ≤ m := by linarith
  set t := m - S.m1min with ht
  have ht0 : 0 < t := by linarith
  have htr : t ≤ r := by linarith
  -- the tabulated total is on the line through the first two entries
  have hI := ratioTotal_eq ⟨p1, p2, p3, p4, p5⟩ hZ hm.le hm2 (by rw [hmin]; exact hm)
  have hZlow : t / (x1 - x0) * T x1 ≤ Z m := by
    obtain ⟨i, hi, n1, n2, e⟩ := hI
    have hi0 : i = 0 := by
      by_contra hne
      have : x1 ≤ node S.m1min S.m1max 1000 i := node_mono p2.le 1000 (Nat.one_le_iff_ne_zero.2 hne)
      linarith
    subst hi0
    rw [e]
    have hT0 : 0 ≤ T x0 := Mass.trapz_nonneg (by norm_num) (by norm_num) fun q hq _ => curve_nonneg (by linarith)
    change t / (x1 - x0) * T x1 ≤ T x0 + (m - x0) / (x1 - x0) * (T x1 - T x0)
    rw [e0, ← ht, ← e0]
    have : t / (x1 - x0) ≤ 1 := (div_le_one hd).2 (by linarith)
    nlinarith
  have hZlow0 : 0 < t / (x1 - x0) * T x1 := mul_pos (div_pos ht0 hd) hT1
  -- the exact total is at most quadratic
  have hexact : ∫ q in (0 : ℝ)..1, S.ratioCurve m q ≤ G * (4 * (t / S.width2) ^ 2) := by
    have hint := (varLe_curve (β := S.beta) p5 p3 hhi hm0 hm2).intervalIntegrable zero_le_one
    have hb : ∀ q ∈ Icc (0 : ℝ) 1, curve S.beta S.m2min S.width2 m q ≤ G * (4 * (t / S.width2) ^ 2) := by
      intro q hq
      refine (curve_le (β := S.beta) p5 p3 hhi hm0 hm2 hq.1 hq.2).trans (mul_le_mul_of_nonneg_left ?_ hG0.le)
      have a1 : planckTaper ((m * q - S.m2min) / S.width2) ≤ planckTaper (t / S.width2) :=
        planck_mono (div_le_div_of_nonneg_right (by rw [ht, hmin]; nlinarith [hq.2]) p5.le)
      refine a1.trans (planck_le_sq (div_pos ht0 p5).le ?_)
      rw [div_le_iff₀ p5]
      linarith
    have := intervalIntegral.integral_mono_on zero_le_one hint intervalIntegrable_const hb
    rw [intervalIntegral.integral_const, smul_eq_mul, sub_zero, one_mul] at this
    exact this
  rw [intervalIntegral.integral_div, div_lt_iff₀ (hZ.1 m)]
  refine lt_of_le_of_lt hexact (lt_of_lt_of_le ?_ (mul_le_mul_of_nonneg_left hZlow hε.le))
  have hKt : K * t < ε := by
    have h1 : K * t ≤ K * (ε / (2 * K)) := mul_le_mul_of_nonneg_left (htr.trans hr3) hK0.le
    have h2 : K * (ε / (2 * K)) = ε / 2 := by field_simp
    linarith
  have e : G * (4 * (t / S.width2) ^ 2) = K * t * (t / (x1 - x0) * T x1) := by
    rw [hK]
    have := hT1.ne'
    have := hd.ne'
    have := p5.ne'
    field_simp
  rw [e]
  exact mul_lt_mul_of_pos_right hKt hZlow0

theorem integral_density {S : Smoothing} {total : ℝ} {Z : ℝ → ℝ} {rest m : ℝ} (h1 : S.m1min ≤ m) (h2 : m ≤ S.m1max) :
    ∫ q, S.density total Z rest m q = Real.exp S.logRate * (rest * S.window m / total) * ∫ q in (0 : ℝ)..1, S.ratioCurve m q / Z m := by
  have e : (fun q => S.density total Z rest m q) = indicator (Icc 0 1) fun q => Real.exp S.logRate * (rest * S.window m / total) * (S.ratioCurve m q / Z m) := by
    funext q
    unfold Smoothing.density
    by_cases hq : q ∈ Icc (0 : ℝ) 1
    · rw [indicator_of_mem hq, if_pos ⟨⟨h1, h2⟩, hq⟩]
    · rw [indicator_of_notMem hq, if_neg fun k => hq k.2]
  rw [e, integral_indicator measurableSet_Icc, integral_Icc_eq_integral_Ioc, ← intervalIntegral.integral_of_le zero_le_one, intervalIntegral.integral_const_mul]

/-- What is left of the density of an event when the mass ratio is integrated out and the tables are exact: the rate times the smoothed, normalised mixture. -/
noncomputable def Smoothing.withoutRatio (S : Smoothing) (total rest m : ℝ) : ℝ := Real.exp S.logRate * (rest * S.window m / total)

/-- **C97** (the built models).  `NSmoothedPowerlawMSmoothedGaussian` and `NBrokenPowerlawMGaussian`: integrating the merger-rate density over the mass ratio leaves the rate times the
smoothed mixture, up to a relative error of `S.ratioError` over the tabulated total `Z m`, which itself is within `S.ratioError` of the exact total.  When both masses start at the
same minimum (always for the first model) what is left is less than any fraction of that for primaries close enough to the minimum. -/
theorem C97_models {c : Cosmo.Cosmology} (hc : c.Proper) {dV : ℝ → ℝ} (hV : IsVolume c dV) (big : ℝ) (v : Bool) {o : Flag → Bool} {Nb Ng : Nat}
    {params : Dict String ℝ} {s : Smoothed} (hw : ∀ w ∈ s.weights, 0 ≤ w) {laws : List (List Law)} (hl : HaveLaws s.components laws)
    (hp : ∀ ls ∈ laws, ∀ L ∈ ls, L.Proper) {S : Smoothing} (hSp : S.Proper) (hpos : 0 < S.massTotal (massMixture dV s.weights laws)) {built : Except BuildErr Mass.AndRest}
    (hb : (nSmoothedPowerlawMSmoothedGaussian o Nb Ng params = .ok s ∧ S.OfO3 params ∧ built = o3Population c big v o Nb Ng params) ∨
        (nBrokenPowerlawMGaussian o Nb Ng params = .ok s ∧ S.OfO4 params ∧ built = o4Population c big v o Nb Ng params)) :
    ∃ (d : Mass.AndRest) (Z : ℝ → ℝ), built = .ok d ∧
      (0.005 * S.m1max ≤ S.m2min → ∀ m, S.m1min ≤ m → m ≤ S.m1max → S.m2min < m → |Z m - S.exactRatioTotal m| ≤ S.ratioError ∧
        ∀ rest : List ℝ, (∀ ls ∈ laws, (m :: rest).length = lawsDim ls) → (∀ ls ∈ laws, AllRegular ls (m :: rest)) →
          |(∫ q, expR (d.logProb ((m :: rest).map fin) (fin q))) - S.withoutRatio (S.massTotal (massMixture dV s.weights laws)) (restMixture dV s.weights laws (m :: rest)) m| ≤
            S.withoutRatio (S.massTotal (massMixture dV s.weights laws)) (restMixture dV s.weights laws (m :: rest)) m * (S.ratioError / Z m)) ∧
      (S.m2min = S.m1min → ∀ ε > 0, ∃ b > S.m1min, b < S.m1max ∧ ∀ m, S.m1min < m → m ≤ b →
        ∀ rest : List ℝ, (∀ ls ∈ laws, (m :: rest).length = lawsDim ls) → (∀ ls ∈ laws, AllRegular ls (m :: rest)) →
          ∫ q, expR (d.logProb ((m :: rest).map fin) (fin q)) ≤
            ε * S.withoutRatio (S.massTotal (massMixture dV s.weights laws)) (restMixture dV s.weights laws (m :: rest)) m) := by
  have hgen : ∃ d Z, built = .ok d ∧ S.IsRatioTotal Z ∧
      ∀ (m q : ℝ) (rest : List ℝ), (∀ ls ∈ laws, (m :: rest).length = lawsDim ls) → (∀ ls ∈ laws, AllRegular ls (m :: rest)) →
        IsLog (d.logProb ((m :: rest).map fin) (fin q)) ∧
        expR (d.logProb ((m :: rest).map fin) (fin q)) = S.density (S.massTotal (massMixture dV s.weights laws)) Z (restMixture dV s.weights laws (m :: rest)) m q := by
    rcases hb with ⟨h, hS, rfl⟩ | ⟨h, hS, rfl⟩
    · exact C96_o3_density hc hV big v h hw hl hp hS hSp hpos
    · exact C96_o4_density hc hV big v h hw hl hp hS hSp hpos
  obtain ⟨d, Z, hd, hZ, hlog⟩ := hgen
  have hrest : ∀ x, 0 ≤ restMixture dV s.weights laws x := by
    have : ∀ ls : List Law, (∀ L ∈ ls, L.Proper) → ∀ x, 0 ≤ productDensity dV ls x := by
      intro ls
      induction ls with
      | nil => exact fun _ _ => zero_le_one
      | cons L ls ih => exact fun hlaws x => mul_nonneg (density_nonneg hc hV (hlaws L (by simp)) _) (ih (fun K hK => hlaws K (by simp [hK])) _)
    intro x
    refine List.sum_nonneg fun t ht => ?_
    obtain ⟨k, hk, rfl⟩ := List.getElem_of_mem ht
    rw [List.getElem_zipWith]
    refine mul_nonneg (hw _ (List.getElem_mem _)) ?_
    rw [List.getElem_map]
    exact this _ (hp (laws[k]'(by simp at hk; omega)) (List.getElem_mem _)) x
  have hwr : ∀ m rest, 0 ≤ S.withoutRatio (S.massTotal (massMixture dV s.weights laws)) (restMixture dV s.weights laws rest) m := fun m rest =>
    mul_nonneg (Real.exp_pos _).le (div_nonneg (mul_nonneg (hrest _) (planck_ge_zero _)) hpos.le)
  have hint : ∀ (m : ℝ) (rest : List ℝ), S.m1min ≤ m → m ≤ S.m1max → (∀ ls ∈ laws, (m :: rest).length = lawsDim ls) → (∀ ls ∈ laws, AllRegular ls (m :: rest)) →
      ∫ q, expR (d.logProb ((m :: rest).map fin) (fin q)) =
        S.withoutRatio (S.massTotal (massMixture dV s.weights laws)) (restMixture dV s.weights laws (m :: rest)) m * ∫ q in (0 : ℝ)..1, S.ratioCurve m q / Z m := by
    intro m rest h1 h2 k1 k2
    have : (fun q => expR (d.logProb ((m :: rest).map fin) (fin q))) =
        fun q => S.density (S.massTotal (massMixture dV s.weights laws)) Z (restMixture dV s.weights laws (m :: rest)) m q := by
      funext q
      exact (hlog m q rest k1 k2).2
    rw [this, integral_density h1 h2]
    rfl
  refine ⟨d, Z, hd, fun hgrid m h1 h2 h3 => ?_, fun hmin ε hε => ?_⟩
  · obtain ⟨r1, r2⟩ := C97_ratio_total hSp hgrid hZ h1 h2 h3
    refine ⟨r1, fun rest k1 k2 => ?_⟩
    rw [hint m rest h1 h2 k1 k2]
    set A := S.withoutRatio (S.massTotal (massMixture dV s.weights laws)) (restMixture dV s.weights laws (m :: rest)) m
    have hA : 0 ≤ A := hwr m _
    rw [show ∀ x : ℝ, A * x - A = A * (x - 1) by intro x; ring, abs_mul, abs_of_nonneg hA]
    exact mul_le_mul_of_nonneg_left r2 hA
  · obtain ⟨b, b1, b2, b3⟩ := C97_ratio_total_violated hSp hmin hZ hε
    refine ⟨b, b1, b2, fun m h1 h2 rest k1 k2 => ?_⟩
    rw [hint m rest h1.le (by linarith) k1 k2, mul_comm ε]
    exact mul_le_mul_of_nonneg_left (b3 m h1 h2).le (hwr m _)

/-! ## Examples -/

/-- The model of C96: masses from 5 to 90, both widths 4, `beta = 1`.  The tabulated mass-ratio totals are within five per cent of one. -/
theorem o3_ratioError : o3Smoothing.ratioError ≤ 0.0456 := by
  have : Max.max 1 ((o3Smoothing.m2min / o3Smoothing.m1max) ^ o3Smoothing.beta) = 1 := by
    refine max_eq_left ?_
    norm_num [o3Smoothing]
  rw [Smoothing.ratioError, this]
  norm_num [o3Smoothing]

/-- Its mass-ratio density at every primary from 6 to 90. -/
example {Z : ℝ → ℝ} (hZ : o3Smoothing.IsRatioTotal Z) {m : ℝ} (h1 : 6 ≤ m) (h2 : m ≤ 90) : |Z m - o3Smoothing.exactRatioTotal m| ≤ 0.0456 :=
  (C97_ratio_total o3Smoothing_proper (by norm_num [o3Smoothing]) hZ (by norm_num [o3Smoothing]; linarith) (by simpa [o3Smoothing] using h2)
    (by norm_num [o3Smoothing]; linarith)).1.trans o3_ratioError

/-- Primaries just above 5 whose mass-ratio density integrates to less than a thousandth. -/
example {Z : ℝ → ℝ} (hZ : o3Smoothing.IsRatioTotal Z) : ∃ m, 5 < m ∧ m < 90 ∧ ∫ q in (0 : ℝ)..1, o3Smoothing.ratioCurve m q / Z m < 0.001 := by
  obtain ⟨b, b1, b2, b3⟩ := C97_ratio_total_violated o3Smoothing_proper rfl hZ (ε := 0.001) (by norm_num)
  exact ⟨b, b1, b2, b3 b b1 le_rfl⟩

/-- The total of its primary masses. -/
example (dV : ℝ → ℝ) : |o3Smoothing.massTotal (massMixture dV o3Smoothed.weights o3Laws) - o3Smoothing.exactMassTotal (massMixture dV o3Smoothed.weights o3Laws)| ≤
    5 / 2 * ((90 - 5) / 999) * peakMixture o3Smoothed.weights o3Laws :=
  C97_mass_total (.inl o3Smoothed_eq) o3Weights o3Smoothed_laws o3Laws_proper o3Smoothing_proper

/-- The built model. -/
example (dV : ℝ → ℝ) (hV : IsVolume Cosmo.planck2015 dV) (big : ℝ) : ∃ d, o3Population Cosmo.planck2015 big true chiAndRedshift 1 1 o3Parameters = .ok d ∧
    ∀ ε > 0, ∃ m : ℝ, 5 < m ∧ m < 90 ∧ ∀ chi z : ℝ, ∫ q, expR (d.logProb ([m, chi, z].map fin) (fin q)) ≤
      ε * o3Smoothing.withoutRatio (o3Smoothing.massTotal (massMixture dV o3Smoothed.weights o3Laws)) (restMixture dV o3Smoothed.weights o3Laws [m, chi, z]) m := by
  obtain ⟨d, Z, h1, -, h2⟩ := C97_models Cosmo.planck2015_proper hV big true o3Weights o3Smoothed_laws o3Laws_proper o3Smoothing_proper (o3_total_pos hV)
    (.inl ⟨o3Smoothed_eq, o3Smoothing_of, rfl⟩)
  refine ⟨d, h1, fun ε hε => ?_⟩
  obtain ⟨b, b1, b2, b3⟩ := h2 rfl ε hε
  refine ⟨b, b1, b2, fun chi z => b3 b b1 le_rfl [chi, z] ?_ ?_⟩
  · simp [o3Laws, lawsDim, Law.dim]
  · simp [o3Laws, AllRegular, Law.Regular]

end GW.Hybrids

namespace GW.Mass
open Set MeasureTheory ProbabilityTheory GW XR GW.Constraints GW.Hybrids
open scoped Classical

/-! ## The two-component and the two-peak model -/

/-- A total defined on a range, extended by one. -/
theorem isRatioTotal_extend {S : Smoothing} {Zq : ℝ → ℝ} (h : ∀ m, S.m1min ≤ m → m ≤ S.m1max →
    ∃ v, 0 ≤ v ∧ Interpolates (fun m => trapz (S.ratioCurve m) 0.005 1 500) S.m1min S.m1max 1000 m v ∧ Zq m = if v ≤ 0 then 1 else v) :
    S.IsRatioTotal (fun m => if S.m1min ≤ m ∧ m ≤ S.m1max then Zq m else 1) := by
  refine ⟨fun m => ?_, fun m h1 h2 => ?_⟩
  · simp only
    split_ifs with k
    · obtain ⟨v, -, -, e⟩ := h m k.1 k.2
      rw [e]
      split_ifs with j
      · exact one_pos
      · exact not_le.1 j
    · exact one_pos
  · simp only [h1, h2, and_self, if_true]
    exact h m h1 h2

/-- The two masses of the sandwich. -/
theorem integral_sandwich {lo hi : ℝ} (h0 : 0 < lo) {F : XR → XR → XR} {R : ℝ → ℝ → ℝ} {A Z : ℝ → ℝ} (hout : ∀ m q : XR, ¬ (Leaf.massRatioSandwich lo hi).check [m, q] = .ok true → F m q = ninf)
    (hin : ∀ m q : ℝ, (Leaf.massRatioSandwich lo hi).check [fin m, fin q] = .ok true → expR (F (fin m) (fin q)) = A m * (R m q / Z m))
    (hR : ∀ m q, m * q ≤ lo → R m q = 0) {m : ℝ} (h1 : lo ≤ m) (h2 : m ≤ hi) :
    ∫ q, expR (F (fin m) (fin q)) = A m * ∫ q in (0 : ℝ)..1, R m q / Z m := by
  have e : (fun q => expR (F (fin m) (fin q))) = indicator (Icc 0 1) fun q => A m * (R m q / Z m) := by
    funext q
    by_cases k : (Leaf.massRatioSandwich lo hi).check [fin m, fin q] = .ok true
    · rw [hin m q k]
      have := (C19_ratio_iff _ _ _ _).1 k
      have hq : q ∈ Icc (0 : ℝ) 1 := ⟨le_trans (div_pos h0 (h0.trans_le h1)).le this.2.2.2.1, this.2.2.2.2⟩
      rw [indicator_of_mem hq]
    · rw [hout _ _ k, expR_ninf]
      by_cases hq : q ∈ Icc (0 : ℝ) 1
      · rw [indicator_of_mem hq, hR m q (light_of_not h0 h1 h2 hq.2 (by
          rw [← Bool.not_eq_true, accepts_iff]
          exact k)), zero_div, mul_zero]
      · rw [indicator_of_notMem hq]
  rw [e, integral_indicator measurableSet_Icc, integral_Icc_eq_integral_Ioc, ← intervalIntegral.integral_of_le zero_le_one, intervalIntegral.integral_const_mul]

/-- What C97 says of a mass-ratio density `F` with primary density `A`: integrated over the mass ratio it leaves `A`, up to a relative error `E` over a total that is within `E` of the exact one. -/
theorem ratio_marginal {S : Smoothing} (hSp : S.Proper) (hgrid : 0.005 * S.m1max ≤ S.m2min) {Z : ℝ → ℝ} (hZ : S.IsRatioTotal Z) {m I A : ℝ} (hA : 0 ≤ A) (h1 : S.m1min ≤ m)
    (h2 : m ≤ S.m1max) (h3 : S.m2min < m) (hI : I = A * ∫ q in (0 : ℝ)..1, S.ratioCurve m q / Z m) : |I - A| ≤ A * (S.ratioError / Z m) := by
  obtain ⟨-, r2⟩ := C97_ratio_total hSp hgrid hZ h1 h2 h3
  rw [hI, show ∀ x : ℝ, A * x - A = A * (x - 1) by intro x; ring, abs_mul, abs_of_nonneg hA]
  exact mul_le_mul_of_nonneg_left r2 hA

/-- The normalisation of the primary mass of `SmoothedTwoComponentPrimaryMassRatio` (C25). -/
noncomputable def TwoComponent.total (d : TwoComponent) : ℝ := trapz d.smooth d.mmin (d.mmin + d.delta) 100 + ∫ m in (d.mmin + d.delta)..d.mmax, d.mixture m

/-- Its shared smoothing. -/
noncomputable def TwoComponent.smoothing (d : TwoComponent) : Smoothing := ⟨d.beta, d.delta, d.delta, 0, d.mmax, d.mmin, d.mmin⟩

/-- The peak of its primary-mass density before smoothing. -/
noncomputable def TwoComponent.peak (d : TwoComponent) : ℝ :=
  (1 - d.lambdaPeak) * Law.peak (.powerlaw (-d.alpha) d.mmin d.mmax) + d.lambdaPeak * gaussianPDFReal d.loc (d.scale ^ 2).toNNReal d.loc

theorem gauss_varLe (loc : ℝ) (v : NNReal) (a b : ℝ) : (∀ x, 0 ≤ gaussianPDFReal loc v x ∧ gaussianPDFReal loc v x ≤ gaussianPDFReal loc v loc) ∧
    VarLe (gaussianPDFReal loc v) a b (2 * gaussianPDFReal loc v loc) := by
  have h : ∀ x, 0 ≤ gaussianPDFReal loc v x ∧ gaussianPDFReal loc v x ≤ gaussianPDFReal loc v loc := by
    intro x
    refine ⟨gaussianPDFReal_nonneg _ _ _, ?_⟩
    unfold gaussianPDFReal
    refine mul_le_mul_of_nonneg_left (Real.exp_le_exp.2 (div_le_div_of_nonneg_right ?_ (by positivity))) (by positivity)
    rw [sub_self]
    have := sq_nonneg (x - loc)
    linarith
  refine ⟨h, Peaked.varLe (g := fun x => 1 * gaussianPDFReal loc v x) (s := univ) ordConnected_univ (peaked_gauss loc v 1 zero_le_one univ) (fun x _ => (one_mul _).symm)
    (fun x hx => absurd (mem_univ x) hx) (h loc).1 (fun x => (h x).1) fun x _ _ => (h x).2⟩

/-- **C97** (`SmoothedTwoComponentPrimaryMassRatio`).  The primary total is within `3/2` grid spacings times the peak density of the exact integral.  Integrated over the mass ratio the
density leaves the smoothed primary density over its total, up to a relative error of `ratioError` over the tabulated total, which is itself that close to the exact total; but close
enough to the minimum mass less than any fraction of it is left. -/
theorem C97_two_component (d : TwoComponent) (h0 : 0 < d.mmin) (hd : 0 < d.delta) (hdm : d.mmin + d.delta < d.mmax) (hl : 0 ≤ d.lambdaPeak) (hl1 : d.lambdaPeak ≤ 1) (hs : 0 < d.scale)
    (hv : d.validate = true) :
    0 < d.total ∧ |d.total - ∫ m in d.mmin..d.mmax, d.smooth m| ≤ 3 / 2 * (d.delta / 99) * d.peak ∧
    (0.005 * d.mmax ≤ d.mmin → ∃ Z : ℝ → ℝ, ∀ m, d.mmin < m → m ≤ d.mmax → 0 < Z m ∧ |Z m - ∫ q in (0 : ℝ)..1, d.ratio m q| ≤ d.smoothing.ratioError ∧
      |(∫ q, expR (d.logProb (fin m) (fin q))) - d.smooth m / d.total| ≤ d.smooth m / d.total * (d.smoothing.ratioError / Z m)) ∧
    ∀ ε > 0, ∃ b > d.mmin, b < d.mmax ∧ ∀ m, d.mmin < m → m ≤ b → ∫ q, expR (d.logProb (fin m) (fin q)) ≤ ε * (d.smooth m / d.total) := by
  have hmax : d.mmin < d.mmax := by linarith
  obtain ⟨-, c2, c3, Zq, c4, c5⟩ := C25_two_component d h0 hd hdm hl hl1 hs hv
  have hT : 0 < d.total := c3
  have hSp : d.smoothing.Proper := ⟨h0, hmax, h0, hd, hd⟩
  have hZ := isRatioTotal_extend (S := d.smoothing) (Zq := Zq) c4
  set Z : ℝ → ℝ := fun m => if d.smoothing.m1min ≤ m ∧ m ≤ d.smoothing.m1max then Zq m else 1 with hZd
  have hpl : OneMass (.powerlaw (-d.alpha) d.mmin d.mmax) := .powerlaw _ _ _
  have hplp : Law.Proper (.powerlaw (-d.alpha) d.mmin d.mmax) := ⟨h0, hmax⟩
  have hsm : ∀ m, 0 < m → 0 ≤ d.smooth m := fun m hm => mul_nonneg (d.mixture_pos h0 hmax hl hl1 hs hm).le (planck_ge_zero _)
  have hint : ∀ m, d.mmin ≤ m → m ≤ d.mmax → ∫ q, expR (d.logProb (fin m) (fin q)) = d.smooth m / d.total * ∫ q in (0 : ℝ)..1, d.smoothing.ratioCurve m q / Z m := by
    intro m k1 k2
    have := integral_sandwich h0 (F := d.logProb) (R := d.ratio) (A := fun m => d.smooth m / d.total) (Z := Zq) c2 c5 (fun m q h => by
      rw [TwoComponent.ratio, planck_zero hd h, mul_zero]) k1 k2
    rw [this]
    have : Z m = Zq m := by
      rw [hZd]
      simp only [TwoComponent.smoothing, k1, k2, and_self, if_true]
    rw [this]
    rfl
  refine ⟨hT, ?_, fun hgrid => ⟨Z, fun m k1 k2 => ?_⟩, fun ε hε => ?_⟩
  · -- the primary total
    have e1 : ∀ m, d.mmin ≤ m → m ≤ d.mmin + d.delta → d.mixture m = (1 - d.lambdaPeak) * Law.density (fun _ => 0) (.powerlaw (-d.alpha) d.mmin d.mmax) [m] +
        d.lambdaPeak * gaussianPDFReal d.loc (d.scale ^ 2).toNNReal m := by
      intro m k1 k2
      simp only [Law.density]
      rw [if_pos ⟨k1, by linarith⟩]
      rfl
    have hpk := oneMass_peak (dV := fun _ => 0) hpl hplp
    have hg := gauss_varLe d.loc (d.scale ^ 2).toNNReal d.mmin (d.mmin + d.delta)
    have hl' : 0 ≤ 1 - d.lambdaPeak := by linarith
    have hplv : VarLe (fun m => Law.density (fun _ => 0) (.powerlaw (-d.alpha) d.mmin d.mmax) [m]) d.mmin (d.mmin + d.delta) (2 * Law.peak (.powerlaw (-d.alpha) d.mmin d.mmax)) := by
      have hJ : 0 ≤ ∫ t in d.mmin..d.mmax, t ^ (-d.alpha) := intervalIntegral.integral_nonneg hmax.le fun u hu => Real.rpow_nonneg (h0.le.trans hu.1) _
      refine Peaked.varLe (g := fun x => (∫ t in d.mmin..d.mmax, t ^ (-d.alpha))⁻¹ * x ^ (-d.alpha)) (s := Icc d.mmin d.mmax) ordConnected_Icc
        (peaked_rpow (-d.alpha) _ (inv_nonneg.2 hJ) fun x hx => h0.trans_le hx.1) (fun x hx => ?_) (fun x hx => ?_) hpk.1 (fun x => (hpk.2 x).1) fun x _ _ => (hpk.2 x).2
      · simp only [Law.density]
        rw [if_pos (show d.mmin ≤ x ∧ x ≤ d.mmax from hx)]
        ring
      · simp only [Law.density]
        rw [if_neg (show ¬ (d.mmin ≤ x ∧ x ≤ d.mmax) from hx)]
    have hP0 : 0 ≤ d.peak := add_nonneg (mul_nonneg hl' hpk.1) (mul_nonneg hl (hg.1 d.loc).1)
    have hmix : VarLe d.mixture d.mmin (d.mmin + d.delta) (2 * d.peak) :=
      (((hplv.const_mul hl').add (hg.2.const_mul hl)).le (by unfold TwoComponent.peak; linarith)).congr fun m k1 k2 => (e1 m k1 k2).symm
    have hsmv : VarLe d.smooth d.mmin (d.mmin + d.delta) (2 * d.peak + d.peak) := hmix.windowed hP0 (fun m k1 k2 => by
      rw [abs_of_nonneg (d.mixture_pos h0 hmax hl hl1 hs (by linarith)).le, e1 m k1 k2]
      exact add_le_add (mul_le_mul_of_nonneg_left (hpk.2 m).2 hl') (mul_le_mul_of_nonneg_left (hg.1 m).2 hl)) d.mmin hd
    have herr := trapz_error (n := 100) (by linarith) (by norm_num) hsmv
    have habove : ∫ m in (d.mmin + d.delta)..d.mmax, d.smooth m = ∫ m in (d.mmin + d.delta)..d.mmax, d.mixture m := by
      refine intervalIntegral.integral_congr fun m hm => ?_
      rw [uIcc_of_le hdm.le] at hm
      simp only [TwoComponent.smooth, planck_one hd hm.1, mul_one]
    have hi2 : IntervalIntegrable d.smooth volume (d.mmin + d.delta) d.mmax := by
      have : ContinuousOn d.mixture (uIcc (d.mmin + d.delta) d.mmax) := by
        rw [uIcc_of_le hdm.le]
        unfold TwoComponent.mixture
        refine ContinuousOn.add (continuousOn_const.mul (ContinuousOn.div_const (ContinuousOn.rpow_const continuousOn_id fun x hx => .inl ?_) _)) (continuousOn_const.mul ?_)
        · have : 0 < x := by linarith [hx.1]
          exact this.ne'
        · unfold gaussianPDFReal
          fun_prop
      refine (this.intervalIntegrable).congr fun m hm => ?_
      rw [uIoc_of_le hdm.le] at hm
      simp only [TwoComponent.smooth, planck_one hd hm.1.le, mul_one]
    have hsplit : ∫ m in d.mmin..d.mmax, d.smooth m = (∫ m in d.mmin..(d.mmin + d.delta), d.smooth m) + ∫ m in (d.mmin + d.delta)..d.mmax, d.mixture m := by
      rw [← habove, intervalIntegral.integral_add_adjacent_intervals (hsmv.intervalIntegrable (by linarith)) hi2]
    rw [hsplit, TwoComponent.total, add_sub_add_right_eq_sub]
    refine herr.trans (le_of_eq ?_)
    norm_num
    ring
  · have hZm := hZ.1 m
    refine ⟨hZm, (C97_ratio_total hSp hgrid hZ k1.le k2 k1).1, ratio_marginal hSp hgrid hZ (div_nonneg (hsm m (h0.trans k1)) hT.le) k1.le k2 k1 (hint m k1.le k2)⟩
  · obtain ⟨b, b1, b2, b3⟩ := C97_ratio_total_violated hSp rfl hZ hε
    refine ⟨b, b1, b2, fun m k1 k2 => ?_⟩
    have b2' : b < d.mmax := b2
    rw [hint m k1.le (by linarith), mul_comm ε]
    exact mul_le_mul_of_nonneg_left (b3 m k1 k2).le (div_nonneg (hsm m (h0.trans k1)) hT.le)

/-- The smoothing of `BrokenPowerlawTwoPeak` as the mass ratio sees it: its table starts at the smallest secondary mass. -/
noncomputable def TwoPeak.smoothing (d : TwoPeak) : Smoothing := ⟨d.beta, d.delta1, d.delta2, 0, d.mmax, d.m2min, d.m2min⟩

/-- The peak of its primary-mass density before smoothing. -/
noncomputable def TwoPeak.peak (d : TwoPeak) : ℝ :=
  d.lambda0 * Law.peak (.broken d.alpha1 d.alpha2 d.mbreak d.m1min d.mmax) + d.lambda1 * Law.peak (.normal d.loc1 d.scale1 (some d.m1min) (some d.mmax)) +
    (1 - (d.lambda0 + d.lambda1)) * Law.peak (.normal d.loc2 d.scale2 (some d.m1min) (some d.mmax))

/-- **C97** (`BrokenPowerlawTwoPeak`).  As for the other models: `5/2` grid spacings times the peak for the primary total, `ratioError` for the mass-ratio totals; and where both masses
start together less than any fraction of the primary density is left near the minimum. -/
theorem C97_two_peak (d : TwoPeak) (h : d.Proper) (hv : d.validate = true) :
    |trapz d.smooth d.m1min d.mmax 1000 - ∫ m in d.m1min..d.mmax, d.smooth m| ≤ 5 / 2 * ((d.mmax - d.m1min) / 999) * d.peak ∧
    (0.005 * d.mmax ≤ d.m2min → ∃ Z : ℝ → ℝ, ∀ m, d.m1min ≤ m → d.m2min < m → m ≤ d.mmax → 0 < Z m ∧ |Z m - ∫ q in (0 : ℝ)..1, d.ratio m q| ≤ d.smoothing.ratioError ∧
      |(∫ q, expR (d.logProb (fin m) (fin q))) - d.smooth m / trapz d.smooth d.m1min d.mmax 1000| ≤
        d.smooth m / trapz d.smooth d.m1min d.mmax 1000 * (d.smoothing.ratioError / Z m)) ∧
    (d.m1min ≤ d.m2min → ∀ ε > 0, ∃ b > d.m2min, b < d.mmax ∧ ∀ m, d.m2min < m → m ≤ b →
      ∫ q, expR (d.logProb (fin m) (fin q)) ≤ ε * (d.smooth m / trapz d.smooth d.m1min d.mmax 1000)) := by
  have hmm : d.m1min < d.mmax := h.brk.trans h.max
  obtain ⟨-, c2, -, c3, Zq, c4, c5⟩ := C25_two_peak d h hv
  have hSp : d.smoothing.Proper := ⟨h.m2, h.m2max, h.m2, h.d1, h.d2⟩
  have hZ := isRatioTotal_extend (S := d.smoothing) (Zq := Zq) c4
  set Z : ℝ → ℝ := fun m => if d.smoothing.m1min ≤ m ∧ m ≤ d.smoothing.m1max then Zq m else 1 with hZd
  have hsm : ∀ m, d.m1min ≤ m → m ≤ d.mmax → 0 ≤ d.smooth m := fun m k1 k2 => mul_nonneg (TwoPeak.mixture_pos h k1 k2).le (planck_ge_zero _)
  have hint : ∀ m, d.m2min ≤ m → m ≤ d.mmax →
      ∫ q, expR (d.logProb (fin m) (fin q)) = d.smooth m / trapz d.smooth d.m1min d.mmax 1000 * ∫ q in (0 : ℝ)..1, d.smoothing.ratioCurve m q / Z m := by
    intro m k1 k2
    have := integral_sandwich h.m2 (F := d.logProb) (R := d.ratio) (A := fun m => d.smooth m / trapz d.smooth d.m1min d.mmax 1000) (Z := Zq) c2 c5 (fun m q k => by
      rw [TwoPeak.ratio, planck_zero h.d2 k, mul_zero]) k1 k2
    rw [this]
    have : Z m = Zq m := by
      rw [hZd]
      simp only [TwoPeak.smoothing, k1, k2, and_self, if_true]
    rw [this]
    rfl
  refine ⟨?_, fun hgrid => ⟨Z, fun m k1 k2 k3 => ?_⟩, fun hle ε hε => ?_⟩
  · have hbp : Law.Proper (.broken d.alpha1 d.alpha2 d.mbreak d.m1min d.mmax) := ⟨h.m1, h.brk, h.max⟩
    have hn1 : Law.Proper (.normal d.loc1 d.scale1 (some d.m1min) (some d.mmax)) := ⟨h.s1, by rintro a b ⟨⟩ ⟨⟩; exact hmm⟩
    have hn2 : Law.Proper (.normal d.loc2 d.scale2 (some d.m1min) (some d.mmax)) := ⟨h.s2, by rintro a b ⟨⟩ ⟨⟩; exact hmm⟩
    have hnorm : ∀ (loc scale m : ℝ), d.m1min ≤ m → m ≤ d.mmax → truncGauss loc scale d.m1min d.mmax m =
        Law.density (fun _ => 0) (.normal loc scale (some d.m1min) (some d.mmax)) [m] := by
      intro loc scale m k1 k2
      have hin : m ∈ Spin.bounds (some d.m1min) (some d.mmax) := ⟨k1, k2⟩
      simp only [Law.density, Spin.restrictedNormal]
      rw [if_pos hin, truncGauss, intervalIntegral.integral_of_le hmm.le, ← integral_Icc_eq_integral_Ioc]
      rfl
    have e1 : ∀ m, d.m1min ≤ m → m ≤ d.mmax → d.mixture m = d.lambda0 * Law.density (fun _ => 0) (.broken d.alpha1 d.alpha2 d.mbreak d.m1min d.mmax) [m] +
        d.lambda1 * Law.density (fun _ => 0) (.normal d.loc1 d.scale1 (some d.m1min) (some d.mmax)) [m] +
        (1 - (d.lambda0 + d.lambda1)) * Law.density (fun _ => 0) (.normal d.loc2 d.scale2 (some d.m1min) (some d.mmax)) [m] := by
      intro m k1 k2
      rw [← hnorm _ _ m k1 k2, ← hnorm _ _ m k1 k2, TwoPeak.mixture]
      simp only [Law.density]
      rw [if_pos ⟨k1, k2⟩]
    have p0 := oneMass_peak (dV := fun _ => 0) (.broken _ _ _ _ _) hbp
    have p1 := oneMass_peak (dV := fun _ => 0) (.normal _ _ _ _) hn1
    have p2 := oneMass_peak (dV := fun _ => 0) (.normal _ _ _ _) hn2
    have v0 := oneMass_varLe (dV := fun _ => 0) (.broken _ _ _ _ _) hbp d.m1min d.mmax
    have v1 := oneMass_varLe (dV := fun _ => 0) (.normal _ _ _ _) hn1 d.m1min d.mmax
    have v2 := oneMass_varLe (dV := fun _ => 0) (.normal _ _ _ _) hn2 d.m1min d.mmax
    have hl := h.l
    have hl2 : 0 ≤ 1 - (d.lambda0 + d.lambda1) := by linarith
    have hP0 : 0 ≤ d.peak := add_nonneg (add_nonneg (mul_nonneg h.l0 p0.1) (mul_nonneg h.l1 p1.1)) (mul_nonneg hl2 p2.1)
    have hmix : VarLe d.mixture d.m1min d.mmax (4 * d.peak) :=
      ((((v0.const_mul h.l0).add (v1.const_mul h.l1)).add (v2.const_mul hl2)).le (by unfold TwoPeak.peak; linarith)).congr fun m k1 k2 => (e1 m k1 k2).symm
    have hsmv := hmix.windowed hP0 (fun m k1 k2 => by
      rw [abs_of_nonneg (TwoPeak.mixture_pos h k1 k2).le, e1 m k1 k2]
      exact add_le_add (add_le_add (mul_le_mul_of_nonneg_left (p0.2 m).2 h.l0) (mul_le_mul_of_nonneg_left (p1.2 m).2 h.l1)) (mul_le_mul_of_nonneg_left (p2.2 m).2 hl2)) d.m1min h.d1
    refine (trapz_error (n := 1000) hmm.le (by norm_num) hsmv).trans (le_of_eq ?_)
    norm_num
    ring
  · exact ⟨hZ.1 m, (C97_ratio_total hSp hgrid hZ k2.le k3 k2).1, ratio_marginal hSp hgrid hZ (div_nonneg (hsm m k1 k3) c3.le) k2.le k3 k2 (hint m k2.le k3)⟩
  · obtain ⟨b, b1, b2, b3⟩ := C97_ratio_total_violated hSp rfl hZ hε
    refine ⟨b, b1, b2, fun m k1 k2 => ?_⟩
    have b2' : b < d.mmax := b2
    rw [hint m k1.le (by linarith), mul_comm ε]
    exact mul_le_mul_of_nonneg_left (b3 m k1 k2).le (div_nonneg (hsm m (hle.trans k1.le) (by linarith)) c3.le)

/-! ## Examples -/

/-- A power law plus peak between 5 and 80 solar masses: the tabulated mass-ratio totals of all its primaries are within `0.034` of the exact ones. -/
example : ∃ d : TwoComponent, d.smoothing.ratioError ≤ 0.034 ∧ ∃ Z : ℝ → ℝ, ∀ m, 5 < m → m ≤ 80 → |Z m - ∫ q in (0 : ℝ)..1, d.ratio m q| ≤ 0.034 := by
  set d : TwoComponent := ⟨3, 1, 5, 1 / 10, 35, 80, 5, 4, true⟩ with hd
  have hE : d.smoothing.ratioError ≤ 0.034 := by
    have : Max.max 1 ((d.smoothing.m2min / d.smoothing.m1max) ^ d.smoothing.beta) = 1 := by
      refine max_eq_left ?_
      norm_num [hd, TwoComponent.smoothing]
    rw [Smoothing.ratioError, this]
    norm_num [hd, TwoComponent.smoothing]
  obtain ⟨-, -, h, -⟩ := C97_two_component d (by norm_num [hd]) (by norm_num [hd]) (by norm_num [hd]) (by norm_num [hd]) (by norm_num [hd]) (by norm_num [hd]) rfl
  obtain ⟨Z, hZ⟩ := h (by norm_num [hd])
  exact ⟨d, hE, Z, fun m k1 k2 => (hZ m k1 k2).2.1.trans hE⟩

/-- The parameters of the broken power law plus two peaks of C25. -/
example : ∃ Z : ℝ → ℝ, ∀ m, gwtc4.m1min ≤ m → gwtc4.m2min < m → m ≤ gwtc4.mmax → |Z m - ∫ q in (0 : ℝ)..1, gwtc4.ratio m q| ≤ gwtc4.smoothing.ratioError := by
  obtain ⟨-, h, -⟩ := C97_two_peak gwtc4 (by constructor <;> norm_num [gwtc4]) rfl
  obtain ⟨Z, hZ⟩ := h (by norm_num [gwtc4])
  exact ⟨Z, fun m k1 k2 k3 => (hZ m k1 k2 k3).2.1⟩

end GW.Mass
