import Verif.Lemmas.Training
import Mathlib.Analysis.SpecialFunctions.Trigonometric.Bounds

/-!
# C78: the learning rate of a training run
-/

namespace GW.Training
open GW XR Tools TrainingSpec

noncomputable section
open Classical

/-- The number of warm-up epochs asked for. -/
def warm (st : Settings) : ℕ := (Max.max 0 st.warmupEpochs).toNat

theorem steps_pos (len b : ℕ) : 0 < stepsPerEpoch len b := Nat.lt_of_lt_of_le one_pos (Nat.le_max_left _ _)
theorem total_pos (len b e : ℕ) : 0 < totalSteps len b e := Nat.lt_of_lt_of_le one_pos (Nat.le_max_left _ _)
theorem warm_le (len b e : ℕ) (w : ℤ) : warmupSteps len b e w ≤ totalSteps len b e := Nat.min_le_left _ _

/-- The number of steps of the cosine part is positive exactly when warm-up is off or shorter than half of the epochs. -/
theorem cosine_pos_iff (st : Settings) (len : ℕ) :
    warmupSteps len st.batchSize st.epochs st.warmupEpochs
        < Max.max 1 (totalSteps len st.batchSize st.epochs - warmupSteps len st.batchSize st.epochs st.warmupEpochs)
      ↔ warm st = 0 ∨ 2 * warm st < st.epochs := by
  have hs := steps_pos len st.batchSize
  show Min.min (Max.max 1 (stepsPerEpoch len st.batchSize * st.epochs)) (warm st * stepsPerEpoch len st.batchSize)
    < Max.max 1 (Max.max 1 (stepsPerEpoch len st.batchSize * st.epochs)
      - Min.min (Max.max 1 (stepsPerEpoch len st.batchSize * st.epochs)) (warm st * stepsPerEpoch len st.batchSize)) ↔ _
  generalize stepsPerEpoch len st.batchSize = s at *
  generalize warm st = w
  generalize st.epochs = e
  rcases Nat.eq_zero_or_pos w with rfl | hw
  · simp
  rcases Nat.eq_zero_or_pos e with rfl | he
  · have : 0 < w * s := Nat.mul_pos hw hs
    have h1 : Min.min (Max.max 1 0) (w * s) = 1 := by
      rw [Nat.max_eq_left (Nat.zero_le 1)]
      exact Nat.min_eq_left this
    simp only [Nat.mul_zero, h1]
    constructor
    · intro h
      exact absurd h (by decide)
    · rintro (h | h) <;> omega
  have hse : 1 ≤ s * e := Nat.mul_pos hs he
  have e1 : Max.max 1 (s * e) = s * e := Nat.max_eq_right hse
  rw [e1]
  rcases Nat.le_total e w with h | h
  · have : s * e ≤ w * s := by rw [Nat.mul_comm]; exact Nat.mul_le_mul_right s h
    have e2 : Min.min (s * e) (w * s) = s * e := Nat.min_eq_left this
    rw [e2, Nat.sub_self]
    have e3 : Max.max 1 0 = 1 := rfl
    rw [e3]
    omega
  · have : w * s ≤ s * e := by rw [Nat.mul_comm s e]; exact Nat.mul_le_mul_right s h
    have e2 : Min.min (s * e) (w * s) = w * s := Nat.min_eq_right this
    have hws : 1 ≤ w * s := Nat.mul_pos hw hs
    rw [e2]
    have key : w * s < s * e - w * s ↔ 2 * w < e := by
      constructor
      · intro h1
        have : s * (2 * w) < s * e := by nlinarith [Nat.sub_add_cancel this]
        exact Nat.lt_of_mul_lt_mul_left this
      · intro h1
        have : s * (2 * w) < s * e := Nat.mul_lt_mul_of_pos_left h1 hs
        have h3 : s * (2 * w) = w * s + w * s := by ring
        omega
    constructor
    · intro h1
      right
      rw [← key]
      rcases Nat.le_total 1 (s * e - w * s) with h2 | h2
      · rwa [Nat.max_eq_right h2] at h1
      · rw [Nat.max_eq_left h2] at h1
        omega
    · rintro (h1 | h1)
      · omega
      · exact lt_of_lt_of_le (key.2 h1) (Nat.le_max_right _ _)

/-- The number of steps of the cosine part. -/
def cosineSteps (st : Settings) (len : ℕ) : ℕ :=
  Max.max 1 (totalSteps len st.batchSize st.epochs - warmupSteps len st.batchSize st.epochs st.warmupEpochs)
    - warmupSteps len st.batchSize st.epochs st.warmupEpochs

/-- **C78** (partial: see `C78_short_violated`) With warm-up off, or shorter than half of the epochs, a schedule exists for every data set. -/
theorem C78_exists_partial (st : Settings) (len : ℕ) (hc : st.useCosine = true) :
    (∃ lr, schedule st len = .ok lr) ↔ warm st = 0 ∨ 2 * warm st < st.epochs := by
  rw [← cosine_pos_iff st len]
  simp only [schedule, hc, if_true, warmupCosine, cosineDecay]
  by_cases h : (0 : ℤ) < ((Max.max 1 (totalSteps len st.batchSize st.epochs - warmupSteps len st.batchSize st.epochs st.warmupEpochs) : ℕ) : ℤ)
      - (warmupSteps len st.batchSize st.epochs st.warmupEpochs : ℕ)
  · rw [if_neg (not_not.2 h)]
    exact ⟨fun _ => by omega, fun _ => ⟨_, rfl⟩⟩
  · rw [if_pos h]
    refine ⟨fun ⟨_, h'⟩ => by simp at h', fun h' => ?_⟩
    omega

/-- The value of the schedule. -/
theorem rate_eq {st : Settings} {len : ℕ} {lr : ℕ → ℝ} (hc : st.useCosine = true) (h : schedule st len = .ok lr) (hp : 0 < st.learningRate) (t : ℕ) :
    0 < cosineSteps st len ∧ lr t = if t < warmupSteps len st.batchSize st.epochs st.warmupEpochs then
      st.learningRate * t / warmupSteps len st.batchSize st.epochs st.warmupEpochs
    else st.minLr + (st.learningRate - st.minLr) * (1 + Real.cos (Real.pi *
      (Min.min ((t : ℝ) - warmupSteps len st.batchSize st.epochs st.warmupEpochs) (cosineSteps st len) / cosineSteps st len))) / 2 := by
  have hpos := (cosine_pos_iff st len).2 ((C78_exists_partial st len hc).1 ⟨lr, h⟩)
  simp only [schedule, hc, if_true, warmupCosine, cosineDecay] at h
  have hcs : ((Max.max 1 (totalSteps len st.batchSize st.epochs - warmupSteps len st.batchSize st.epochs st.warmupEpochs) : ℕ) : ℤ)
      - (warmupSteps len st.batchSize st.epochs st.warmupEpochs : ℤ) = (cosineSteps st len : ℤ) := by
    unfold cosineSteps
    omega
  have hcs0 : 0 < cosineSteps st len := by unfold cosineSteps; omega
  rw [hcs] at h
  generalize warmupSteps len st.batchSize st.epochs st.warmupEpochs = w at *
  generalize cosineSteps st len = d at *
  rw [if_neg (by omega)] at h
  simp only [Except.ok.injEq] at h
  refine ⟨hcs0, ?_⟩
  rw [← h, if_neg hp.ne']
  split_ifs with ht
  · have hw : w ≠ 0 := by omega
    have hwR : (w : ℝ) ≠ 0 := by exact_mod_cast hw
    simp only [if_pos ht]
    rw [linearSchedule, if_neg hw]
    have : Min.min t w = t := Nat.min_eq_left ht.le
    rw [this]
    field_simp
    ring
  · have hsub : ((t - w : ℕ) : ℝ) = (t : ℝ) - w := by
      rw [Nat.cast_sub (not_lt.1 ht)]
    simp only [if_neg ht]
    rw [hsub, Int.cast_natCast, ← mul_div_assoc]
    field_simp
    ring

/-- **C78** During warm-up the rate rises linearly from zero to the peak, as documented. -/
theorem C78_warmup {st : Settings} {len : ℕ} {lr : ℕ → ℝ} (hc : st.useCosine = true) (h : schedule st len = .ok lr) (hp : 0 < st.learningRate) {t : ℕ}
    (ht : t < warmupSteps len st.batchSize st.epochs st.warmupEpochs) :
    lr t = documentedRate st.learningRate st.minLr (warmupSteps len st.batchSize st.epochs st.warmupEpochs) (totalSteps len st.batchSize st.epochs) t := by
  rw [(rate_eq hc h hp t).2, if_pos ht, documentedRate, if_pos ht]

/-- **C78** The rate stays between zero and the peak, is at the peak when warm-up ends, never rises afterwards and never falls below the lowest rate. -/
theorem C78_range {st : Settings} {len : ℕ} {lr : ℕ → ℝ} (hc : st.useCosine = true) (h : schedule st len = .ok lr) (hp : 0 < st.learningRate)
    (h0 : 0 ≤ st.minLr) (hm : st.minLr ≤ st.learningRate) :
    (∀ t, 0 ≤ lr t ∧ lr t ≤ st.learningRate) ∧ lr (warmupSteps len st.batchSize st.epochs st.warmupEpochs) = st.learningRate ∧
      ∀ s t, warmupSteps len st.batchSize st.epochs st.warmupEpochs ≤ s → s ≤ t → st.minLr ≤ lr t ∧ lr t ≤ lr s := by
  have hv := fun t => (rate_eq hc h hp t).2
  have hd := (rate_eq hc h hp 0).1
  generalize warmupSteps len st.batchSize st.epochs st.warmupEpochs = w at *
  have hdR : (0 : ℝ) < cosineSteps st len := by exact_mod_cast hd
  have hmono : ∀ s t, w ≤ s → s ≤ t → st.minLr ≤ lr t ∧ lr t ≤ lr s := by
    intro s t hs hst
    have hsR : (w : ℝ) ≤ s := by exact_mod_cast hs
    have hstR : (s : ℝ) ≤ t := by exact_mod_cast hst
    rw [hv, if_neg (by omega), hv, if_neg (by omega)]
    have ha : 0 ≤ Min.min ((s : ℝ) - w) (cosineSteps st len) / cosineSteps st len := by
      refine div_nonneg (le_min (by linarith) hdR.le) hdR.le
    have hb : Min.min ((t : ℝ) - w) (cosineSteps st len) / cosineSteps st len ≤ 1 := by
      rw [div_le_one hdR]
      exact min_le_right _ _
    have hab : Min.min ((s : ℝ) - w) (cosineSteps st len) / cosineSteps st len ≤ Min.min ((t : ℝ) - w) (cosineSteps st len) / cosineSteps st len := by
      refine div_le_div_of_nonneg_right (min_le_min_right _ (by linarith)) hdR.le
    have hcos := Real.cos_le_cos_of_nonneg_of_le_pi (mul_nonneg Real.pi_pos.le ha) (by nlinarith [Real.pi_pos]) (mul_le_mul_of_nonneg_left hab Real.pi_pos.le)
    have h1 := Real.neg_one_le_cos (Real.pi * (Min.min ((t : ℝ) - w) (cosineSteps st len) / cosineSteps st len))
    constructor
    · nlinarith
    · nlinarith
  have hpeak : lr w = st.learningRate := by
    rw [hv, if_neg (lt_irrefl _), sub_self, min_eq_left hdR.le, zero_div, mul_zero, Real.cos_zero]
    ring
  refine ⟨fun t => ?_, hpeak, hmono⟩
  rcases Nat.lt_or_ge t w with ht | ht
  · rw [hv, if_pos ht]
    have hwR : (0 : ℝ) < w := by exact_mod_cast (by omega : 0 < w)
    have htR : (t : ℝ) ≤ w := by exact_mod_cast ht.le
    refine ⟨by positivity, ?_⟩
    rw [div_le_iff₀ hwR]
    exact mul_le_mul_of_nonneg_left htR hp.le
  · have := hmono w t le_rfl ht
    exact ⟨h0.trans this.1, this.2.trans hpeak.le⟩

/-- **C78** (partial: warm-up off) Without warm-up the rate is the documented one at every step of the run. -/
theorem C78_documented_partial {st : Settings} {len : ℕ} {lr : ℕ → ℝ} (hc : st.useCosine = true) (h : schedule st len = .ok lr) (hp : 0 < st.learningRate)
    (hw : warm st = 0) {t : ℕ} (ht : t ≤ totalSteps len st.batchSize st.epochs) :
    lr t = documentedRate st.learningRate st.minLr 0 (totalSteps len st.batchSize st.epochs) t := by
  have hw0 : warmupSteps len st.batchSize st.epochs st.warmupEpochs = 0 := by
    show Min.min _ (warm st * _) = 0
    rw [hw, Nat.zero_mul]
    exact Nat.min_eq_right (Nat.zero_le _)
  have hd : cosineSteps st len = totalSteps len st.batchSize st.epochs := by
    rw [cosineSteps, hw0, Nat.sub_zero, Nat.sub_zero]
    exact Nat.max_eq_right (total_pos _ _ _)
  rw [(rate_eq hc h hp t).2, hw0, hd, if_neg (Nat.not_lt_zero _), documentedRate, if_neg (Nat.not_lt_zero _), min_eq_left (by simpa using ht)]
  simp only [Nat.cast_zero, sub_zero, mul_div_assoc]

/-- **C78** The lowest rate is reached as many steps before the end as the warm-up has, and kept from there on. -/
theorem C78_finished {st : Settings} {len : ℕ} {lr : ℕ → ℝ} (hc : st.useCosine = true) (h : schedule st len = .ok lr) (hp : 0 < st.learningRate) {t : ℕ}
    (ht : totalSteps len st.batchSize st.epochs - warmupSteps len st.batchSize st.epochs st.warmupEpochs ≤ t) (h1 : 1 ≤ t) : lr t = st.minLr := by
  obtain ⟨hd, hv⟩ := rate_eq hc h hp t
  have hlt := (cosine_pos_iff st len).2 ((C78_exists_partial st len hc).1 ⟨lr, h⟩)
  have hd2 : warmupSteps len st.batchSize st.epochs st.warmupEpochs + cosineSteps st len ≤ t := by
    have : Max.max 1 (totalSteps len st.batchSize st.epochs - warmupSteps len st.batchSize st.epochs st.warmupEpochs) ≤ t := Nat.max_le.2 ⟨h1, ht⟩
    unfold cosineSteps
    omega
  have hR : ((warmupSteps len st.batchSize st.epochs st.warmupEpochs : ℕ) : ℝ) + cosineSteps st len ≤ t := by exact_mod_cast hd2
  have hdR : (0 : ℝ) < cosineSteps st len := by exact_mod_cast hd
  rw [hv, if_neg (by omega), min_eq_right (by linarith), div_self hdR.ne', mul_one, Real.cos_pi]
  ring

/-- **C78** With any warm-up the documented decay is not followed: the lowest rate is reached at a step where the documented rate is still above it. -/
theorem C78_documented_violated {st : Settings} {len : ℕ} (hc : st.useCosine = true) (hp : 0 < st.learningRate) (hm : st.minLr < st.learningRate)
    (hw : 0 < warm st) (he : 2 * warm st < st.epochs) :
    ∃ lr t, schedule st len = .ok lr ∧ t < totalSteps len st.batchSize st.epochs ∧ lr t = st.minLr ∧
      st.minLr < documentedRate st.learningRate st.minLr (warmupSteps len st.batchSize st.epochs st.warmupEpochs) (totalSteps len st.batchSize st.epochs) t := by
  obtain ⟨lr, h⟩ := (C78_exists_partial st len hc).2 (Or.inr he)
  have hs := steps_pos len st.batchSize
  have htot : totalSteps len st.batchSize st.epochs = stepsPerEpoch len st.batchSize * st.epochs :=
    Nat.max_eq_right (Nat.mul_pos hs (by omega))
  have hwarm : warmupSteps len st.batchSize st.epochs st.warmupEpochs = warm st * stepsPerEpoch len st.batchSize := by
    show Min.min (totalSteps len st.batchSize st.epochs) (warm st * _) = _
    refine Nat.min_eq_right ?_
    rw [htot, Nat.mul_comm]
    exact Nat.mul_le_mul_left _ (by omega)
  have hwp : 0 < warm st * stepsPerEpoch len st.batchSize := Nat.mul_pos hw hs
  have h2 : 2 * (warm st * stepsPerEpoch len st.batchSize) < stepsPerEpoch len st.batchSize * st.epochs := by
    have := Nat.mul_lt_mul_of_pos_left he hs
    nlinarith
  refine ⟨lr, totalSteps len st.batchSize st.epochs - warmupSteps len st.batchSize st.epochs st.warmupEpochs, h, ?_, C78_finished hc h hp le_rfl ?_, ?_⟩
  · rw [hwarm, htot]; omega
  · rw [hwarm, htot]; omega
  · rw [hwarm, htot, documentedRate, if_neg (by omega)]
    generalize warm st * stepsPerEpoch len st.batchSize = w at *
    generalize stepsPerEpoch len st.batchSize * st.epochs = T at *
    have hTw : w ≤ T := by omega
    rw [Nat.cast_sub hTw]
    have hwR : (0 : ℝ) < w := by exact_mod_cast hwp
    have h2R : 2 * (w : ℝ) < T := by exact_mod_cast h2
    have hd : (0 : ℝ) < T - w := by linarith
    have hlt : Real.pi * ((T : ℝ) - w - w) / (T - w) < Real.pi := by
      rw [div_lt_iff₀ hd]
      nlinarith [Real.pi_pos]
    have hge : 0 ≤ Real.pi * ((T : ℝ) - w - w) / (T - w) := by
      refine div_nonneg (mul_nonneg Real.pi_pos.le (by linarith)) hd.le
    have := Real.cos_lt_cos_of_nonneg_of_le_pi hge le_rfl hlt
    rw [Real.cos_pi] at this
    nlinarith

/-- **C78** A run with at most twice as many epochs as warm-up epochs raises, whatever the data. -/
theorem C78_short_violated {st : Settings} (hc : st.useCosine = true) (hw : 0 < warm st) (he : st.epochs ≤ 2 * warm st) (len : ℕ) :
    schedule st len = .error .valueError := by
  have h := mt (cosine_pos_iff st len).1 (by omega)
  simp only [schedule, hc, if_true, warmupCosine, cosineDecay]
  rw [if_pos (by omega)]

/-- **C78** Without the cosine option the rate is constant. -/
theorem C78_constant {st : Settings} (hc : st.useCosine = false) (len : ℕ) : ∃ lr, schedule st len = .ok lr ∧ ∀ t, lr t = st.learningRate :=
  ⟨_, by simp only [schedule, hc, Bool.false_eq_true, if_false], fun _ => rfl⟩

/-- The default settings. -/
def defaults : Settings where
  inputKeys := ["x"]
  outputKeys := ["p"]
  batchSize := 10
  checkpoint := some "m.hdf5"
  epochs := 50
  validationSplit := 1 / 5
  learningRate := 1 / 1000
  trainInLog := false
  lossType := "mse"
  useCosine := true
  minLr := 1 / 1000000
  warmupEpochs := 3

example : warm defaults = 3 := rfl
example (len : ℕ) : ∃ lr, schedule defaults len = .ok lr := (C78_exists_partial _ _ rfl).2 (Or.inr (by decide))
example (len : ℕ) : ∃ lr t, schedule defaults len = .ok lr ∧ t < totalSteps len 10 50 ∧ lr t = 1 / 1000000 ∧
    1 / 1000000 < documentedRate (1 / 1000) (1 / 1000000) (warmupSteps len 10 50 3) (totalSteps len 10 50) t :=
  C78_documented_violated (st := defaults) rfl (by norm_num [defaults]) (by norm_num [defaults]) (by decide) (by decide)
example (len : ℕ) : schedule { defaults with epochs := 6 } len = .error .valueError := C78_short_violated rfl (by decide) (by decide) len
example : ∃ lr, schedule { defaults with warmupEpochs := 0 } 100 = .ok lr ∧
    lr 500 = documentedRate (1 / 1000) (1 / 1000000) 0 (totalSteps 100 10 50) 500 := by
  obtain ⟨lr, h⟩ := (C78_exists_partial { defaults with warmupEpochs := 0 } 100 rfl).2 (Or.inl rfl)
  exact ⟨lr, h, C78_documented_partial rfl h (by norm_num [defaults]) rfl (by decide)⟩
example : ∃ lr, schedule defaults 100 = .ok lr ∧ lr 15 = documentedRate (1 / 1000) (1 / 1000000) 30 500 15 ∧ lr 470 = 1 / 1000000 := by
  obtain ⟨lr, h⟩ := (C78_exists_partial defaults 100 rfl).2 (Or.inr (by decide))
  exact ⟨lr, h, C78_warmup rfl h (by norm_num [defaults]) (by decide), C78_finished rfl h (by norm_num [defaults]) (by decide) (by decide)⟩

end

end GW.Training
