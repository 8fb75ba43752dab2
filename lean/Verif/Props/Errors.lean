import Verif.Model.Errors
import Verif.Lemmas.XR
import Verif.Lemmas.XRMath
import Verif.Props.Conversions

/-!
# C52: measurement-error generators
-/

namespace GW.Errors
open GW XR GW.Conv
open scoped Classical

/-! ### The banana error -/

theorem min_fin_fin (a b : ℝ) : XR.min (fin a) (fin b) = fin (Min.min a b) := by
  simp only [XR.min, neg_fin, max_fin_fin, fin.injEq]
  rw [max_neg_neg, neg_neg]

theorem bananaMasses_fin {Mc eta : ℝ} (h3 : eta ≤ 1 / 4) :
    bananaMasses (fin Mc) (fin eta) = mcEtaToM1M2 (fin Mc) (fin eta) := by
  have h : (0 : ℝ) ≤ 1 - 4 * eta := by linarith
  simp only [bananaMasses, mcEtaToM1M2, mul_fin_fin, sub_fin_fin, max_fin_fin, max_eq_left h]
  rw [show decide (le (fin 0) (fin (1 - 4 * eta))) = true by simp [h], select_true]

theorem bananaMasses_unphysical {Mc eta : ℝ} (h : 1 / 4 < eta ∨ eta < 0) : bananaMasses (fin Mc) (fin eta) = (nan, nan) := by
  rcases h with h | h
  · simp only [bananaMasses, mul_fin_fin, sub_fin_fin]
    rw [show decide (le (fin 0) (fin (1 - 4 * eta))) = false by simp; linarith, select_false]
    rw [pow_fin_pos (by linarith)]
    rfl
  · have hp : pow (fin eta) (-(6 / 10)) = nan := by
      have : ¬ ∃ k : ℤ, (-(6 / 10) : ℝ) = k := by
        rintro ⟨k, hk⟩
        have h10 : (-6 : ℝ) = ((10 * k : ℤ) : ℝ) := by push_cast; linarith
        have : (-6 : ℤ) = 10 * k := by exact_mod_cast h10
        omega
      simp [pow, not_lt.2 h.le, h.ne, this]
    simp only [bananaMasses, mul_fin_fin, sub_fin_fin, hp]
    rw [show decide (le (fin 0) (fin (1 - 4 * eta))) = true by simp; linarith, select_true, sqrt_fin (by linarith)]
    rfl

theorem mulInf_mul_zero (a : ℝ) : mulInf a * fin 0 = nan := by
  unfold mulInf
  have h0 : pinf * fin 0 = nan := by show XR.mul _ _ = _; simp [XR.mul, mulInf]
  have h1 : ninf * fin 0 = nan := by show XR.mul _ _ = _; simp [XR.mul, mulInf, XR.neg]
  split_ifs
  · exact h0
  · exact h1
  · rfl

theorem bananaMasses_zero (Mc : ℝ) : (bananaMasses (fin Mc) (fin 0)).2 = nan := by
  simp only [bananaMasses, mul_fin_fin, sub_fin_fin]
  rw [pow_fin_zero_neg (by norm_num), show decide (le (fin 0) (fin (1 - 4 * 0))) = true by simp, select_true, sqrt_fin (by norm_num)]
  simp only [mul_zero, sub_zero, Real.sqrt_one, sub_fin_fin, sub_self]
  exact mulInf_mul_zero _

/-- With a negative chirp mass the masses come out negative and in the wrong order. -/
theorem bananaMasses_neg {Mc eta : ℝ} (h1 : Mc < 0) (h2 : 0 < eta) (h3 : eta ≤ 1 / 4) :
    ∃ a b : ℝ, bananaMasses (fin Mc) (fin eta) = (fin a, fin b) ∧ a ≤ b ∧ b < 0 := by
  have hd0 : (0 : ℝ) ≤ 1 - 4 * eta := by linarith
  have hdsq := Real.mul_self_sqrt hd0
  have hdnn := Real.sqrt_nonneg (1 - 4 * eta)
  have hd1 : Real.sqrt (1 - 4 * eta) < 1 := by nlinarith
  have hp : 0 < eta ^ (-(6 / 10) : ℝ) := Real.rpow_pos_of_pos h2 _
  have hneg : 1 / 2 * Mc * eta ^ (-(6 / 10) : ℝ) < 0 := by nlinarith
  refine ⟨_, _, by rw [bananaMasses_fin h3, mcEtaToM1M2_fin h2 h3], ?_, ?_⟩
  · nlinarith
  · nlinarith

/-- The relative size of the chirp-mass and mass-ratio errors. -/
theorem banana_coefficients {msun u : ℝ} (hmsun : 0 < msun) (hu : 0 ≤ u) (hu1 : u < 1) {Mc : ℝ} (hMc : 0 < Mc) :
    let rho := fin 9 * pow (fin u) (-(1 / 3))
    let v := XR.min (pow (fin Real.pi * fin Mc * fin 20 * fin msun) (1 / 3)) (fin (2 / 10))
    let snrFac := rho / fin 12
    ∃ b g : ℝ, XR.min (fin (7 / 100) / snrFac) (fin (15 / 10) * fin (3 / 10) * pow (v / fin (2 / 10)) 7 / snrFac) = fin b ∧
      fin (3 / 100) * (fin 12 / rho) = fin g ∧ 0 ≤ b ∧ b ≤ 7 / 75 ∧ 0 ≤ g ∧ g ≤ 1 / 25 ∧ (0 < u → 0 < b) := by
  intro rho v snrFac
  have hpi := Real.pi_pos
  obtain ⟨w, hw, hvw⟩ : ∃ w : ℝ, 0 < w ∧ v = fin w := by
    refine ⟨Min.min ((Real.pi * Mc * 20 * msun) ^ (1 / 3 : ℝ)) (2 / 10), lt_min (Real.rpow_pos_of_pos (by positivity) _) (by norm_num), ?_⟩
    simp only [v, mul_fin_fin]
    rw [pow_fin_pos (by positivity), min_fin_fin]
  rcases hu.eq_or_lt with rfl | hu
  · have hrho : rho = pinf := by
      simp only [rho]
      rw [pow_fin_zero_neg (by norm_num)]
      show XR.mul _ _ = _
      simp [XR.mul, mulInf]
    have hs : snrFac = pinf := by
      simp only [snrFac, hrho]
      show XR.div _ _ = _
      simp [XR.div]
    refine ⟨0, 0, ?_, ?_, le_refl _, by norm_num, le_refl _, by norm_num, fun h => absurd h (lt_irrefl _)⟩
    · rw [hs, hvw, div_fin_of_ne w (by norm_num : (2 / 10 : ℝ) ≠ 0), pow_fin_pos (by positivity), mul_fin_fin, mul_fin_fin]
      rw [show ∀ a : ℝ, fin a / pinf = fin 0 from fun _ => rfl, show ∀ a : ℝ, fin a / pinf = fin 0 from fun _ => rfl, min_fin_fin, min_self]
    · rw [hrho, show fin 12 / pinf = fin 0 from rfl, mul_fin_fin, mul_zero]
  · set t := u ^ (-(1 / 3) : ℝ) with ht
    have ht1 : 1 ≤ t := Real.one_le_rpow_of_pos_of_le_one_of_nonpos hu hu1.le (by norm_num)
    have hrho : rho = fin (9 * t) := by
      simp only [rho]
      rw [pow_fin_pos hu, mul_fin_fin]
    have hs : snrFac = fin (9 * t / 12) := by
      simp only [snrFac, hrho]
      rw [div_fin_of_ne _ (by norm_num : (12:ℝ) ≠ 0)]
    refine ⟨Min.min (7 / 100 / (9 * t / 12)) (15 / 10 * (3 / 10) * (w / (2 / 10)) ^ (7 : ℝ) / (9 * t / 12)), 3 / 100 * (12 / (9 * t)), ?_, ?_, ?_, ?_,
      by positivity, ?_, ?_⟩
    · have h9 : 9 * t / 12 ≠ 0 := by positivity
      rw [hs, hvw, div_fin_of_ne w (by norm_num : (2 / 10 : ℝ) ≠ 0), pow_fin_pos (by positivity), mul_fin_fin, mul_fin_fin, div_fin_of_ne _ h9,
        div_fin_of_ne _ h9, min_fin_fin]
    · rw [hrho, div_fin_of_ne _ (by positivity : 9 * t ≠ 0), mul_fin_fin]
    · have := Real.rpow_pos_of_pos (show 0 < w / (2 / 10) by positivity) 7
      exact le_min (by positivity) (by positivity)
    · refine (min_le_left _ _).trans ?_
      rw [div_le_iff₀ (by positivity)]
      nlinarith
    · rw [← mul_div_assoc, div_le_iff₀ (by positivity)]
      nlinarith
    · intro _
      have := Real.rpow_pos_of_pos (show 0 < w / (2 / 10) by positivity) 7
      exact lt_min (by positivity) (by positivity)

/-- The samples of the banana error in terms of a relative chirp-mass error `b (r0 + r)` and mass-ratio error `g (r0' + r')`; `b` and `g` depend on the
masses and on the uniform deviate only. -/
theorem banana_eq {msun u : ℝ} (hmsun : 0 < msun) (hu : 0 ≤ u) (hu1 : u < 1) {m1 m2 : ℝ} (h1 : 0 < m1) (h2 : 0 < m2) :
    ∃ Mc0 eta0 b g : ℝ, chirpMass (fin m1) (fin m2) = fin Mc0 ∧ symmetricMassRatio (fin m1) (fin m2) = fin eta0 ∧ 0 < Mc0 ∧ 0 < eta0 ∧
      0 ≤ b ∧ b ≤ 7 / 75 ∧ 0 ≤ g ∧ g ≤ 1 / 25 ∧ (0 < u → 0 < b) ∧
      ∀ (d : Draws) (key : Key) (size : Nat) (scaleMc scaleEta : ℝ), d.uniform (key.sub 4) = u →
      banana msun d (fin m1) (fin m2) size key scaleMc scaleEta =
        List.zipWith (fun r rp => bananaMasses (fin (Mc0 * (1 + b * (d.normal (key.sub 0) + r * scaleMc))))
          (fin (eta0 * (1 + g * (d.normal (key.sub 1) + rp * scaleEta))))) (d.normals (key.sub 2) size) (d.normals (key.sub 3) size) := by
  have hMc0 : 0 < (m1 * m2) ^ (6 / 10 : ℝ) * (m1 + m2) ^ (-(2 / 10) : ℝ) := by positivity
  obtain ⟨b, g, hb, hg, b0, b1, g0, g1, bp⟩ := banana_coefficients hmsun hu hu1 hMc0
  refine ⟨_, _, b, g, chirpMass_fin h1 h2, symmetricMassRatio_fin h1 h2, hMc0, by positivity, b0, b1, g0, g1, bp, ?_⟩
  intro d key size scaleMc scaleEta hdu
  unfold banana
  rw [chirpMass_fin h1 h2, symmetricMassRatio_fin h1 h2, hdu]
  simp only at hb hg ⊢
  rw [hb, hg, List.zipWith_map]
  simp only [mul_fin_fin, add_fin_fin]

/-- **C52** (the banana error).  For positive masses and every draw: `size` samples come out, whose chirp mass and symmetric mass ratio are the true ones
times `1 + b (r0 + r)` and `1 + g (r0' + r')`, with `b ≤ 7/75` and `g ≤ 1/25`.  A sample whose perturbed mass ratio is not in `[0, 1/4]` has both masses
NaN; one with a perturbed chirp mass `> 0` and mass ratio in `(0, 1/4]` has finite masses `m1 ≥ m2 > 0` with exactly those chirp mass and mass ratio. -/
theorem C52_banana_partial {msun : ℝ} (hmsun : 0 < msun) (d : Draws) (hd : ∀ k n, (d.normals k n).length = n) (key : Key)
    (hu : 0 ≤ d.uniform (key.sub 4)) (hu1 : d.uniform (key.sub 4) < 1) {m1 m2 : ℝ} (h1 : 0 < m1) (h2 : 0 < m2) (size : Nat)
    (scaleMc scaleEta : ℝ) :
    (banana msun d (fin m1) (fin m2) size key scaleMc scaleEta).length = size ∧
    ∃ Mc0 eta0 b g : ℝ, chirpMass (fin m1) (fin m2) = fin Mc0 ∧ symmetricMassRatio (fin m1) (fin m2) = fin eta0 ∧ 0 < Mc0 ∧ 0 < eta0 ∧
      0 ≤ b ∧ b ≤ 7 / 75 ∧ 0 ≤ g ∧ g ≤ 1 / 25 ∧
      ∀ i, i < size → ∃ r rp : ℝ, (d.normals (key.sub 2) size)[i]? = some r ∧ (d.normals (key.sub 3) size)[i]? = some rp ∧
        ∃ p, (banana msun d (fin m1) (fin m2) size key scaleMc scaleEta)[i]? = some p ∧
          let Mc := Mc0 * (1 + b * (d.normal (key.sub 0) + r * scaleMc))
          let eta := eta0 * (1 + g * (d.normal (key.sub 1) + rp * scaleEta))
          (1 / 4 < eta ∨ eta < 0 → p = (nan, nan)) ∧ (eta = 0 → p.2 = nan) ∧
          (0 < Mc → 0 < eta → eta ≤ 1 / 4 → ∃ a b : ℝ, p = (fin a, fin b) ∧ 0 < b ∧ b ≤ a ∧ chirpMass (fin a) (fin b) = fin Mc ∧
            symmetricMassRatio (fin a) (fin b) = fin eta) := by
  obtain ⟨Mc0, eta0, b, g, e1, e2, p1, p2, b0, b1, g0, g1, _, he⟩ := banana_eq hmsun hu hu1 h1 h2
  replace he := he d key size scaleMc scaleEta rfl
  refine ⟨by rw [he]; simp [hd], Mc0, eta0, b, g, e1, e2, p1, p2, b0, b1, g0, g1, fun i hi => ?_⟩
  have l2 : i < (d.normals (key.sub 2) size).length := by rw [hd]; exact hi
  have l3 : i < (d.normals (key.sub 3) size).length := by rw [hd]; exact hi
  refine ⟨_, _, List.getElem?_eq_getElem l2, List.getElem?_eq_getElem l3,
    bananaMasses (fin (Mc0 * (1 + b * (d.normal (key.sub 0) + (d.normals (key.sub 2) size)[i] * scaleMc))))
      (fin (eta0 * (1 + g * (d.normal (key.sub 1) + (d.normals (key.sub 3) size)[i] * scaleEta)))), ?_, ?_⟩
  · rw [he, List.getElem?_zipWith, List.getElem?_eq_getElem l2, List.getElem?_eq_getElem l3]
  · refine ⟨fun h => bananaMasses_unphysical h, fun h => ?_, fun h3 h4 h5 => ?_⟩
    · rw [h]
      exact bananaMasses_zero _
    · obtain ⟨a, b, c1, c2, c3, c4, c5⟩ := C14_chirp_roundtrip_inv _ _ h3 h4 h5
      exact ⟨a, b, by rw [bananaMasses_fin h5, c1], c2, c3, c4, c5⟩

/-- **C52** (masses that come out finite are physical, unless the noise is extreme).  If the chirp-mass deviate of a sample is above `-10` standard
deviations (in units of the error), then whenever both masses are finite they satisfy `m1 ≥ m2 > 0`. -/
theorem C52_banana_physical_partial {msun : ℝ} (hmsun : 0 < msun) (d : Draws) (hd : ∀ k n, (d.normals k n).length = n) (key : Key)
    (hu : 0 ≤ d.uniform (key.sub 4)) (hu1 : d.uniform (key.sub 4) < 1) {m1 m2 : ℝ} (h1 : 0 < m1) (h2 : 0 < m2) (size : Nat)
    (scaleMc scaleEta : ℝ) {i : Nat} {r : ℝ} (hr : (d.normals (key.sub 2) size)[i]? = some r)
    (hten : -10 < d.normal (key.sub 0) + r * scaleMc) {x y : ℝ}
    (hp : (banana msun d (fin m1) (fin m2) size key scaleMc scaleEta)[i]? = some (fin x, fin y)) : 0 < y ∧ y ≤ x := by
  obtain ⟨hl, Mc0, eta0, b, g, e1, e2, p1, p2, b0, b1, g0, g1, hall⟩ := C52_banana_partial hmsun d hd key hu hu1 h1 h2 size scaleMc scaleEta
  have hi : i < size := by
    rw [← hl]
    exact (List.getElem?_eq_some_iff.1 hp).1
  obtain ⟨r', rp, hr', hrp, p, hp', c1, c2, c3⟩ := hall i hi
  rw [hr, Option.some.injEq] at hr'
  subst hr'
  rw [hp, Option.some.injEq] at hp'
  subst hp'
  have hMc : 0 < Mc0 * (1 + b * (d.normal (key.sub 0) + r * scaleMc)) := by
    refine mul_pos p1 ?_
    nlinarith
  rcases lt_trichotomy (eta0 * (1 + g * (d.normal (key.sub 1) + rp * scaleEta))) 0 with h | h | h
  · have := c1 (.inr h); simp at this
  · have := c2 h; simp at this
  · by_cases h4 : eta0 * (1 + g * (d.normal (key.sub 1) + rp * scaleEta)) ≤ 1 / 4
    · obtain ⟨a, b, hab, h5, h6, _⟩ := c3 hMc h h4
      simp only [Prod.mk.injEq, fin.injEq] at hab
      rw [hab.1, hab.2]; exact ⟨h5, h6⟩
    · have := c1 (.inl (not_le.1 h4)); simp at this

/-- **C52** (violated: extreme noise).  For all positive masses and any signal strength there are deviates for which the sample is kept although both
masses are negative and in the wrong order. -/
theorem C52_banana_negative_masses_violated {msun : ℝ} (hmsun : 0 < msun) {u : ℝ} (hu : 0 < u) (hu1 : u < 1) {m1 m2 : ℝ} (h1 : 0 < m1) (h2 : 0 < m2)
    (key : Key) (size : Nat) (scaleMc scaleEta : ℝ) :
    ∃ d : Draws, (∀ k n, (d.normals k n).length = n) ∧ (∀ k, d.uniform k = u) ∧
      ∀ p ∈ banana msun d (fin m1) (fin m2) size key scaleMc scaleEta, ∃ x y : ℝ, p = (fin x, fin y) ∧ x ≤ y ∧ y < 0 := by
  obtain ⟨Mc0, eta0, b, g, e1, e2, p1, p2, b0, b1, g0, g1, bp, he⟩ := banana_eq hmsun hu.le hu1 h1 h2
  have hb := bp hu
  have heta : eta0 ≤ 1 / 4 := by
    rw [symmetricMassRatio_fin h1 h2, fin.injEq] at e2
    rw [← e2, div_le_iff₀ (by positivity)]
    nlinarith [sq_nonneg (m1 - m2)]
  set d : Draws := ⟨fun k => if k = key.sub 0 then -(2 / b) else 0, fun _ n => List.replicate n 0, fun _ => u⟩ with hd
  refine ⟨d, by simp [hd], fun _ => rfl, ?_⟩
  rw [he d key size scaleMc scaleEta rfl]
  have hk : key.sub 1 ≠ key.sub 0 := by simp
  have hd0 : d.normal (key.sub 0) = -(2 / b) := by simp [hd]
  have hd1 : d.normal (key.sub 1) = 0 := by simp only [hd, if_neg hk]
  intro p hp
  simp only [hd, List.zipWith_replicate, List.mem_replicate] at hp
  obtain ⟨_, rfl⟩ := hp
  rw [if_pos trivial, if_neg hk]
  have hneg : Mc0 * (1 + b * (-(2 / b) + 0 * scaleMc)) < 0 := by
    have : b * (-(2 / b) + 0 * scaleMc) = -2 := by field_simp; ring
    rw [this]; linarith
  have e : eta0 * (1 + g * (0 + 0 * scaleEta)) = eta0 := by ring
  rw [e]
  exact bananaMasses_neg hneg p2 heta

/-- **C52** (no noise).  With all normal deviates zero the banana error returns the true masses. -/
theorem C52_banana_exact {msun : ℝ} (hmsun : 0 < msun) (d : Draws) (key : Key) (hu : 0 ≤ d.uniform (key.sub 4)) (hu1 : d.uniform (key.sub 4) < 1)
    (h0 : ∀ k, d.normal k = 0) (hs : ∀ k n, d.normals k n = List.replicate n 0) {m1 m2 : ℝ} (h1 : m2 ≤ m1) (h2 : 0 < m2) (size : Nat)
    (scaleMc scaleEta : ℝ) : banana msun d (fin m1) (fin m2) size key scaleMc scaleEta = List.replicate size (fin m1, fin m2) := by
  obtain ⟨Mc0, eta0, b, g, e1, e2, p1, p2, _, _, _, _, _, he⟩ := banana_eq hmsun hu hu1 (h2.trans_le h1) h2
  obtain ⟨Mc, eta, c1, c2, _, _, _, c3⟩ := C14_chirp_roundtrip m1 m2 h2 h1
  obtain ⟨eta', c4, _, c5, _⟩ := C14_eta_range m1 m2 (h2.trans_le h1) h2
  rw [e1, fin.injEq] at c1
  rw [e2, fin.injEq] at c2 c4
  rw [he d key size scaleMc scaleEta rfl, hs, hs, h0, h0, List.zipWith_replicate, Nat.min_self]
  congr 1
  simp only [zero_mul, add_zero, mul_zero, mul_one]
  rw [bananaMasses_fin (by rw [c4]; exact c5), c1, c2]
  exact c3

theorem refill_length (bad : XR → Bool) (xs new : List XR) : (refill bad xs new).length = xs.length := by
  induction xs generalizing new with
  | nil => rfl
  | cons v vs ih =>
    unfold refill
    split
    · cases new <;> simp [ih]
    · simp [ih]

theorem refill_mem (bad : XR → Bool) (xs new : List XR) : ∀ y ∈ refill bad xs new, y ∈ xs ∨ y ∈ new := by
  induction xs generalizing new with
  | nil => simp [refill]
  | cons v vs ih =>
    intro y hy
    unfold refill at hy
    split at hy
    · cases new with
      | nil =>
        rcases List.mem_cons.1 hy with rfl | h
        · simp
        · rcases ih _ _ h with h | h <;> simp_all
      | cons n new =>
        rcases List.mem_cons.1 hy with rfl | h
        · simp
        · rcases ih _ _ h with h | h <;> simp [h]
    · rcases List.mem_cons.1 hy with rfl | h
      · simp
      · rcases ih _ _ h with h | h <;> simp [h]

/-- Values that were inside the cuts keep their value and their place. -/
theorem refill_keeps (bad : XR → Bool) (xs new : List XR) (i : Nat) (v : XR) (h : xs[i]? = some v) (hv : bad v = false) :
    (refill bad xs new)[i]? = some v := by
  induction xs generalizing new i with
  | nil => simp at h
  | cons w ws ih =>
    cases i with
    | zero =>
      simp only [List.getElem?_cons_zero, Option.some.injEq] at h
      subst h
      simp [refill, hv]
    | succ i =>
      simp only [List.getElem?_cons_succ] at h
      unfold refill
      split
      · cases new <;> simp [ih _ _ h]
      · simp [ih _ _ h]

/-- Redrawing enough values that are all inside the cuts leaves none outside. -/
theorem refill_good (bad : XR → Bool) (xs new : List XR) (hl : xs.countP bad ≤ new.length) (hn : ∀ y ∈ new, bad y = false) :
    ∀ y ∈ refill bad xs new, bad y = false := by
  induction xs generalizing new with
  | nil => simp [refill]
  | cons v vs ih =>
    intro y hy
    unfold refill at hy
    by_cases hv : bad v
    · rw [if_pos hv] at hy
      simp only [List.countP_cons, hv, if_true] at hl
      cases new with
      | nil => simp at hl
      | cons n new =>
        rcases List.mem_cons.1 hy with rfl | h
        · exact hn _ (by simp)
        · exact ih new (by simpa using hl) (fun y hy => hn y (by simp [hy])) y h
    · rw [if_neg hv] at hy
      simp only [List.countP_cons, hv] at hl
      rcases List.mem_cons.1 hy with rfl | h
      · simpa using hv
      · exact ih new (by simpa using hl) hn y h

theorem loop_spec {s : Sampler} {bad : XR → Bool} {key : Key} {xs ys : List XR} (h : Loop s bad key xs ys) :
    ys.length = xs.length ∧ (∀ y ∈ ys, bad y = false) ∧ (∀ y ∈ ys, y ∈ xs ∨ ∃ k n, y ∈ s k n) ∧
      ∀ (i : Nat) (v : XR), xs[i]? = some v → bad v = false → ys[i]? = some v := by
  induction h with
  | stop key xs h =>
    refine ⟨rfl, fun y hy => ?_, fun y hy => .inl hy, fun i v h _ => h⟩
    simpa using (List.any_eq_false.1 h) y hy
  | again key xs ys _ _ ih =>
    obtain ⟨i1, i2, i3, i4⟩ := ih
    refine ⟨by rw [i1, refill_length], i2, fun y hy => ?_, fun i v hi hv => i4 i v (refill_keeps _ _ _ _ _ hi hv) hv⟩
    rcases i3 y hy with h | h
    · rcases refill_mem _ _ _ y h with h | h
      · exact .inl h
      · exact .inr ⟨_, _, h⟩
    · exact .inr h

theorem loop_det {s : Sampler} {bad : XR → Bool} {key : Key} {xs ys zs : List XR} (h : Loop s bad key xs ys) (h' : Loop s bad key xs zs) : ys = zs := by
  induction h with
  | stop key xs h =>
    cases h' with
    | stop => rfl
    | again _ _ _ h2 => simp [h] at h2
  | again key xs ys h _ ih =>
    cases h' with
    | stop _ _ h2 => simp [h] at h2
    | again _ _ _ _ h3 => exact ih h3

/-- A value the caller accepts: not below the lower and not above the upper cut (NaN compares false with both). -/
def InCuts (cutLow cutHigh : Option ℝ) (v : XR) : Prop := (∀ c, cutLow = some c → ¬ lt v (fin c)) ∧ ∀ c, cutHigh = some c → ¬ lt (fin c) v

theorem outside_false {cutLow cutHigh : Option ℝ} {v : XR} : outside cutLow cutHigh v = false ↔ InCuts cutLow cutHigh v := by
  cases cutLow <;> cases cutHigh <;> simp [outside, InCuts]

theorem inCuts_fin {cutLow cutHigh : Option ℝ} {a : ℝ} : InCuts cutLow cutHigh (fin a) ↔ (∀ c, cutLow = some c → c ≤ a) ∧ ∀ c, cutHigh = some c → a ≤ c := by
  simp [InCuts, not_lt]

/-- **C52** (`truncated_normal_error` when it returns).  For every sampler, key, size and pair of cuts: a call that returns gives one definite result.
Without a scale it is `ValueError`; otherwise it is a list of `size` values, none outside the cuts, each of them a draw of the distribution, and the values
of the first draw that satisfied the cuts are returned unchanged in their place. -/
theorem C52_truncated_normal {sampler : ℝ → Sampler} {size : Nat} {key : Key} {scale cutLow cutHigh : Option ℝ}
    (hlen : ∀ σ k n, (sampler σ k n).length = n) {r : Except Err (List XR)} (h : Returns sampler size key scale cutLow cutHigh r) :
    (∀ r', Returns sampler size key scale cutLow cutHigh r' → r' = r) ∧
    match (generalizing := false) scale with
    | none => r = .error .valueError
    | some σ => ∃ ys, r = .ok ys ∧ ys.length = size ∧ (∀ y ∈ ys, InCuts cutLow cutHigh y) ∧ (∀ y ∈ ys, ∃ k n, y ∈ sampler σ k n) ∧
        ∀ (i : Nat) (v : XR), (sampler σ key size)[i]? = some v → InCuts cutLow cutHigh v → ys[i]? = some v := by
  cases h with
  | noScale h =>
    subst h
    refine ⟨fun r' h' => ?_, rfl⟩
    cases h' with
    | noScale => rfl
    | uncut _ h => simp at h
    | cut _ _ h => simp at h
  | uncut σ h hc =>
    subst h
    refine ⟨fun r' h' => ?_, _, rfl, hlen _ _ _, fun y _ => ?_, fun y hy => ⟨_, _, hy⟩, fun i v h _ => h⟩
    · cases h' with
      | noScale h => simp at h
      | uncut σ' h => simp only [Option.some.injEq] at h; rw [h]
      | cut _ _ _ h => exact absurd hc h
    · rw [hc.1, hc.2]; simp [InCuts]
  | cut σ ys h hc hl =>
    subst h
    obtain ⟨l1, l2, l3, l4⟩ := loop_spec hl
    refine ⟨fun r' h' => ?_, _, rfl, by rw [l1, hlen], fun y hy => outside_false.1 (l2 y hy), fun y hy => ?_, fun i v h hv => l4 i v h (outside_false.2 hv)⟩
    · cases h' with
      | noScale h => simp at h
      | uncut _ _ h => exact absurd h hc
      | cut σ' ys' h _ hl' =>
        simp only [Option.some.injEq] at h
        subst h
        rw [loop_det hl' hl]
    · rcases l3 y hy with h | h
      · exact ⟨_, _, h⟩
      · exact h

/-- The key of the `n`-th redraw. -/
def redrawKey (key : Key) : Nat → Key
  | 0 => key.sub 0
  | n + 1 => (redrawKey key n).sub 0

theorem redrawKey_sub (key : Key) (n : Nat) : redrawKey (key.sub 0) n = redrawKey key (n + 1) := by
  induction n with
  | zero => rfl
  | succ n ih => rw [redrawKey, ih]; rfl

theorem loop_ends {s : Sampler} {bad : XR → Bool} (hlen : ∀ k n, (s k n).length = n) (n : Nat) : ∀ (key : Key),
    (∀ m, ∀ y ∈ s (redrawKey key n) m, bad y = false) → ∀ xs, ∃ ys, Loop s bad key xs ys := by
  induction n with
  | zero =>
    intro key hg xs
    by_cases h : xs.any bad = true
    · refine ⟨_, .again _ _ _ h (.stop _ _ ?_)⟩
      rw [List.any_eq_false]
      intro y hy
      simp [refill_good bad xs _ (by rw [hlen]) (hg _) y hy]
    · exact ⟨xs, .stop _ _ (by simpa using h)⟩
  | succ n ih =>
    intro key hg xs
    by_cases h : xs.any bad = true
    · obtain ⟨ys, hy⟩ := ih (key.sub 0) (by rw [redrawKey_sub]; exact hg) (refill bad xs (s (key.sub 0) (xs.countP bad)))
      exact ⟨ys, .again _ _ _ h hy⟩
    · exact ⟨xs, .stop _ _ (by simpa using h)⟩

/-- **C52** (termination).  `truncated_normal_error` returns as soon as one redraw gives values inside the cuts only. -/
theorem C52_truncated_normal_returns_partial {sampler : ℝ → Sampler} {size : Nat} {key : Key} {σ : ℝ} {cutLow cutHigh : Option ℝ}
    (hlen : ∀ k n, (sampler σ k n).length = n) (n : Nat) (hgood : ∀ m, ∀ y ∈ sampler σ (redrawKey key n) m, InCuts cutLow cutHigh y) :
    ∃ ys, Returns sampler size key (some σ) cutLow cutHigh (.ok ys) := by
  by_cases hc : cutLow = none ∧ cutHigh = none
  · exact ⟨_, .uncut σ rfl hc⟩
  · obtain ⟨ys, hy⟩ := loop_ends (bad := outside cutLow cutHigh) hlen n key (fun m y hy => outside_false.2 (hgood m y hy)) (sampler σ key size)
    exact ⟨ys, .cut σ ys rfl hc hy⟩

theorem loop_bad {s : Sampler} {bad : XR → Bool} (hall : ∀ k n, ∀ y ∈ s k n, bad y = true) {key : Key} {xs ys : List XR} (h : Loop s bad key xs ys) :
    xs ≠ [] → (∀ y ∈ xs, bad y = true) → False := by
  induction h with
  | stop key xs h =>
    intro hne hx
    obtain ⟨x, hx'⟩ := List.exists_mem_of_ne_nil xs hne
    have := List.any_eq_false.1 h x hx'
    simp [hx x hx'] at this
  | again key xs ys _ _ ih =>
    intro hne hx
    refine ih (fun h => hne ?_) (fun y hy => ?_)
    · have := congrArg List.length h
      rw [refill_length] at this
      simpa using this
    · rcases refill_mem _ _ _ y hy with h | h
      · exact hx y h
      · exact hall _ _ y h

/-- **C52** (violated: the redraw loop need not end).  If every draw is outside the cuts (say, the cuts do not meet the interval `[low, high]` of the
distribution) a call with `size > 0` never returns: there is no result, neither values nor an exception. -/
theorem C52_truncated_normal_never_returns_violated {sampler : ℝ → Sampler} {size : Nat} {key : Key} {σ : ℝ} {cutLow cutHigh : Option ℝ}
    (hsize : 0 < size) (hlen : ∀ k n, (sampler σ k n).length = n) (hbad : ∀ k n, ∀ y ∈ sampler σ k n, ¬ InCuts cutLow cutHigh y)
    (r : Except Err (List XR)) : ¬ Returns sampler size key (some σ) cutLow cutHigh r := by
  intro h
  have hb : ∀ k n, ∀ y ∈ sampler σ k n, outside cutLow cutHigh y = true := fun k n y hy => by
    have := hbad k n y hy
    rw [← outside_false] at this
    simpa using this
  have hne : ∀ k, sampler σ k size ≠ [] := fun k h => by
    have := congrArg List.length h
    rw [hlen] at this
    simp at this; omega
  cases h with
  | noScale h => simp at h
  | uncut σ' h hc =>
    obtain ⟨x, hx⟩ := List.exists_mem_of_ne_nil _ (hne key)
    exact hbad _ _ x hx (by rw [hc.1, hc.2]; simp [InCuts])
  | cut σ' ys h hc hl =>
    simp only [Option.some.injEq] at h
    subst h
    exact loop_bad hb hl (hne key) (hb _ _)

theorem mod_range (a : ℝ) {p : ℝ} (hp : 0 < p) : 0 ≤ a - p * ⌊a / p⌋ ∧ a - p * ⌊a / p⌋ < p ∧ ∃ k : ℤ, a = a - p * ⌊a / p⌋ + k * p := by
  have h1 := Int.floor_le (a / p)
  have h2 := Int.lt_floor_add_one (a / p)
  rw [le_div_iff₀ hp] at h1
  rw [div_lt_iff₀ hp] at h2
  refine ⟨by linarith, by linarith, ⌊a / p⌋, by ring⟩

/-- **C52** (angles).  The angle errors give `size` values, each in `[0, period)` and congruent to the draw modulo the period. -/
theorem C52_angles (s : Sampler) {period : ℝ} (hp : 0 < period) (size : Nat) (key : Key) (hlen : (s key size).length = size) :
    (angleError s period size key).length = size ∧
    ∀ (i : Nat) (a : ℝ), (s key size)[i]? = some (fin a) →
      ∃ b : ℝ, (angleError s period size key)[i]? = some (fin b) ∧ 0 ≤ b ∧ b < period ∧ ∃ k : ℤ, a = b + k * period := by
  refine ⟨by simp [angleError, hlen], fun i a h => ⟨a - period * ⌊a / period⌋, by simp [angleError, h, mod], mod_range a hp⟩⟩

/-- **C52** (detection times).  For every finite true time (also zero or negative) and all deviates the detection-time errors are finite and positive. -/
theorem C52_detection_time (d : Draws) (x : ℝ) (size : Nat) (key : Key) (scale : ℝ) (hlen : (d.normals key size).length = size) :
    (detectionTimeError d (fin x) size key scale).length = size ∧
    ∀ v ∈ detectionTimeError d (fin x) size key scale, ∃ a : ℝ, v = fin a ∧ 0 < a := by
  refine ⟨by simp [detectionTimeError, hlen], fun v hv => ?_⟩
  simp only [detectionTimeError, List.mem_map] at hv
  obtain ⟨t, _, rfl⟩ := hv
  rw [max_fin_fin, log_fin_pos (lt_of_lt_of_le (by norm_num) (le_max_right x (1 / 1000000))), mul_fin_fin, add_fin_fin, exp_fin]
  exact ⟨_, rfl, Real.exp_pos _⟩

/-- **C52** (eccentricities).  The eccentricity errors give `size` values, all in `[0, 1]` when the draws are finite; draws in `[0, 1]` are kept. -/
theorem C52_eccentricity (s : Sampler) (size : Nat) (key : Key) (hlen : (s key size).length = size) (hfin : ∀ y ∈ s key size, ∃ a : ℝ, y = fin a) :
    (eccError s size key).length = size ∧ (∀ v ∈ eccError s size key, ∃ a : ℝ, v = fin a ∧ 0 ≤ a ∧ a ≤ 1) ∧
    ∀ (i : Nat) (a : ℝ), (s key size)[i]? = some (fin a) → 0 ≤ a → a ≤ 1 → (eccError s size key)[i]? = some (fin a) := by
  refine ⟨by simp [eccError, hlen], fun v hv => ?_, fun i a h h0 h1 => ?_⟩
  · simp only [eccError, List.mem_map] at hv
    obtain ⟨y, hy, rfl⟩ := hv
    obtain ⟨a, rfl⟩ := hfin y hy
    by_cases h : a < 0 ∨ 1 < a
    · exact ⟨1, by rcases h with h | h <;> simp [fillBool, h], by norm_num, le_refl _⟩
    · have h' := h
      push Not at h'
      exact ⟨a, by simp [not_lt.2 h'.1, not_lt.2 h'.2], h'.1, h'.2⟩
  · simp [eccError, h, not_lt.2 h0, not_lt.2 h1]

/-- **C52** (violated: eccentricities to be discarded).  The code means to mark draws outside `[0, 1]` as NaN, but the NaN passes through a Boolean
array: such a draw always becomes the eccentricity `1`, so it is not filtered later. -/
theorem C52_eccentricity_mask_violated (s : Sampler) (size : Nat) (key : Key) (i : Nat) (a : ℝ) (h : (s key size)[i]? = some (fin a)) (ha : a < 0 ∨ 1 < a) :
    (eccError s size key)[i]? = some (fin 1) := by
  rcases ha with ha | ha <;> simp [eccError, h, fillBool, ha]

/-! ## The hypotheses are met -/

example : ∃ d : Draws, (∀ k n, (d.normals k n).length = n) ∧ (∀ k, 0 ≤ d.uniform k ∧ d.uniform k < 1) ∧
    (∀ (k : Key) (n i : Nat) (r : ℝ), (d.normals k n)[i]? = some r → -10 < d.normal k + r * 1) ∧
    ∀ key, banana (1 / 200000) d (fin 30) (fin 20) 3 key 1 1 = List.replicate 3 (fin 30, fin 20) := by
  refine ⟨⟨fun _ => 0, fun _ n => List.replicate n 0, fun _ => 1 / 2⟩, by simp, by norm_num, ?_, fun key => ?_⟩
  · intro k n i r h
    have := List.getElem?_eq_some_iff.1 h
    obtain ⟨_, h⟩ := this
    simp at h
    subst h
    norm_num
  · exact C52_banana_exact (by norm_num) _ key (by norm_num) (by norm_num) (fun _ => rfl) (fun _ _ => rfl) (by norm_num) (by norm_num) 3 1 1

/-- A sampler whose first draw has a value outside `[0, 4]`, later ones have not. -/
def exampleSampler : Sampler
  | .seed _, _ => [fin 1, fin 9]
  | .sub _ _, n => List.replicate n (fin 2)

/-- The value inside is kept, the other one redrawn. -/
example : Returns (fun _ => exampleSampler) 2 (Key.seed 0) (some 1) (some 0) (some 4) (.ok [fin 1, fin 2]) := by
  have c1 : outside (some 0) (some 4) (fin 1) = false := outside_false.2 (inCuts_fin.2 ⟨by simp, by simp⟩)
  have c2 : outside (some 0) (some 4) (fin 9) = true := by simp [outside]; norm_num
  have c3 : outside (some 0) (some 4) (fin 2) = false := outside_false.2 (inCuts_fin.2 ⟨by simp, by simp; norm_num⟩)
  refine .cut 1 _ rfl (by simp) (.again _ _ _ ?_ ?_)
  · simp [exampleSampler, c2]
  · have : refill (outside (some 0) (some 4)) (exampleSampler (Key.seed 0) 2)
        (exampleSampler ((Key.seed 0).sub 0) ((exampleSampler (Key.seed 0) 2).countP (outside (some 0) (some 4)))) = [fin 1, fin 2] := by
      simp [refill, exampleSampler, c1, c2]
    rw [this]
    exact .stop _ _ (by simp [c1, c3])

example (key : Key) (r : Except Err (List XR)) : ¬ Returns (fun _ _ n => List.replicate n (fin 3)) 5 key (some 1) (some 0) (some 1) r :=
  C52_truncated_normal_never_returns_violated (by norm_num) (by simp) (fun _ _ y hy => by
    rw [(List.mem_replicate.1 hy).2, inCuts_fin]; simp) r

example : (angleError (fun _ n => List.replicate n (fin 7)) 2 1 (Key.seed 0)) = [fin 1] := by
  have : ⌊(7 : ℝ) / 2⌋ = 3 := by rw [Int.floor_eq_iff]; norm_num
  simp [angleError, mod, this]; norm_num

example : (eccError (fun _ _ => [fin (-1), fin (1 / 2)]) 2 (Key.seed 0)) = [fin 1, fin (1 / 2)] := by
  simp [eccError, fillBool]; norm_num

end GW.Errors
