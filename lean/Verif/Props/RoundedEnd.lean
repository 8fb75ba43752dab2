import Verif.Lemmas.RoundedEnd
import Verif.Props.RoundedLikelihood
import Verif.Props.Likelihood

/-!
# C109, end to end: from the exact population model to the number the sampler gets

`M₀` is the population model in exact arithmetic; the computer's version of it is off by at most `ε` at the posterior samples and is followed by rounded arithmetic, with
the additions in any order.
-/

namespace GW.RoundedLikelihood
open GW XR Rounding
open GW.Robust (Within)
open GW.Likelihood (allEvents)

variable {f : Format} {fl : ℝ → XR}

/-- The analysis with the population model `M₀` and the expected number of events `μ₀`, whatever the parameters. -/
def withModel {θ} (S : Likelihood.Setup θ) (M₀ : Likelihood.Model θ) (μ₀ : ℝ) : Likelihood.Setup θ := { S with distFn := fun _ => M₀, poissonMean := fun _ => fin μ₀ }

open Classical in
/-- What both samplers need of the rows. -/
theorem rows_facts {θ} (hw : Wide f) (h : Nearest f fl) {M M₀ : Likelihood.Model θ} (bs : List (Likelihood.Bucket θ)) {B ε : ℝ} (hB0 : 0 ≤ B) (hB : B ≤ (2 : ℝ) ^ f.emax)
    (hs : ∀ ev ∈ allEvents bs, ∀ p ∈ ev, Sample f B (M.logProb p.1) p.2)
    (hnear : ∀ ev ∈ allEvents bs, ∀ p ∈ ev, Within ε (M₀.logProb p.1) (M.logProb p.1))
    (hpos : ∀ ev ∈ allEvents bs, 0 < (ev.map fun p => (M₀.logProb p.1 - p.2).expR).sum)
    (hn : ∀ ev ∈ allEvents bs, (8 : ℝ) * ev.length ≤ 2 ^ f.p) :
    ∃ (rows : List (List XR)) (top : List XR → ℝ), rows = (bs.map (weights fl M)).flatten ∧ rows.length = (allEvents bs).length ∧
      (∀ w ∈ rows, (∀ y ∈ w, Weight f y) ∧ Largest w (top w) ∧ (8 : ℝ) * finites w ≤ 2 ^ f.p) ∧
      (∀ ev ∈ allEvents bs, ∀ p ∈ ev, (M₀.logProb p.1 - p.2).IsLog) ∧
      (rows.map fun w => |top w| + (finites w : ℝ)).sum ≤ ((allEvents bs).map fun ev => 2 * B + (ev.length : ℝ)).sum ∧
      (rows.map fun w => 5 * ((finites w : ℝ) - 1) + |top w|).sum ≤ ((allEvents bs).map fun ev => 5 * (ev.length : ℝ) + 2 * B).sum ∧
      |(rows.map exactLog).sum - ((allEvents bs).map fun ev => Real.log (ev.map fun p => (M₀.logProb p.1 - p.2).expR).sum).sum| ≤
        (allEvents bs).length * (ε + B / 2 ^ f.p) := by
  have hrel := forall₂_and_mem (rowsOf (fl := fl) M bs) (q := fun ev => ev ∈ allEvents bs) fun y hy => hy
  have facts : List.Forall₂ (fun w ev => (∀ y ∈ w, Weight f y) ∧ (∃ T, Largest w T) ∧ (∀ T, Largest w T → |T| ≤ 2 * B) ∧
      (∀ p ∈ ev, (M₀.logProb p.1 - p.2).IsLog) ∧ finites w ≤ ev.length ∧ (8 : ℝ) * ev.length ≤ 2 ^ f.p ∧
      |exactLog w - Real.log (ev.map fun p => (M₀.logProb p.1 - p.2).expR).sum| ≤ ε + B / 2 ^ f.p) (bs.map (weights fl M)).flatten (allEvents bs) := by
    refine List.Forall₂.imp ?_ hrel
    rintro w ev ⟨hr, hev⟩
    obtain ⟨a, b, c, d, e⟩ := row_facts hw h hr hB (hs ev hev) (hnear ev hev) (hpos ev hev)
    exact ⟨a, b, c, d, hr.finites, hn ev hev, e⟩
  obtain ⟨top, htop⟩ : ∃ top : List XR → ℝ, ∀ w, (∃ T, Largest w T) → Largest w (top w) :=
    ⟨fun w => if hT : ∃ T, Largest w T then hT.choose else 0, fun w hT => by simp only [dif_pos hT]; exact hT.choose_spec⟩
  refine ⟨_, top, rfl, facts.length_eq, ?_, ?_, ?_, ?_, ?_⟩
  · refine forall_of_forall₂ facts ?_
    rintro w ev ⟨h1, h2, -, -, h5, h6, -⟩
    refine ⟨h1, htop w h2, ?_⟩
    have : (finites w : ℝ) ≤ ev.length := by exact_mod_cast h5
    linarith
  · have := forall_of_forall₂ (r := fun b a => _) (q := fun ev => ∀ p ∈ ev, (M₀.logProb p.1 - p.2).IsLog) facts.flip fun ev w hh => hh.2.2.2.1
    exact this
  · refine sum_le_of_forall₂ (List.Forall₂.imp ?_ facts)
    rintro w ev ⟨-, h2, h3, -, h5, -, -⟩
    have : (finites w : ℝ) ≤ ev.length := by exact_mod_cast h5
    have := h3 _ (htop w h2)
    linarith
  · refine sum_le_of_forall₂ (List.Forall₂.imp ?_ facts)
    rintro w ev ⟨-, h2, h3, -, h5, -, -⟩
    have : (finites w : ℝ) ≤ ev.length := by exact_mod_cast h5
    have := h3 _ (htop w h2)
    linarith
  · exact abs_sum_le_of_forall₂ (List.Forall₂.imp (fun w ev hh => hh.2.2.2.2.2.2) facts)

/-- **C109 (end to end, flowMC).**  For every analysis, data set and point at which no event is impossible: let the computed population model be off by at most `ε` at the
posterior samples, the computed expected number by at most `η`, and let `B` bound the log weights.  Then the rounded log posterior is finite, and so is the exact one with
the exact model, and they differ by at most `J ε + η` and `2^-p` times a number given by the sizes alone: `J` is the number of events, `A` bounds the magnitudes. -/
theorem C109_end_to_end {θ} (hw : Wide f) (h : Nearest f fl) (R : Reduction) (S : Likelihood.Setup θ) (x : List XR) (bs : List (Likelihood.Bucket θ))
    (M₀ : Likelihood.Model θ) (pri μ μ₀ con B ε η : ℝ) (hp : S.priorLogProb x = fin pri ∧ f.Mem pri)
    (hr : S.poissonMean (S.distFn (S.constants ++ S.mapParams x)) = fin μ ∧ f.Mem μ) (hc : S.logConstants = fin con ∧ f.Mem con) (hη : |μ - μ₀| ≤ η) (hB0 : 0 ≤ B)
    (hB : B ≤ (2 : ℝ) ^ f.emax)
    (hs : ∀ ev ∈ allEvents bs, ∀ p ∈ ev, Sample f B ((S.distFn (S.constants ++ S.mapParams x)).logProb p.1) p.2)
    (hnear : ∀ ev ∈ allEvents bs, ∀ p ∈ ev, Within ε (M₀.logProb p.1) ((S.distFn (S.constants ++ S.mapParams x)).logProb p.1))
    (hpos : ∀ ev ∈ allEvents bs, 0 < (ev.map fun p => (M₀.logProb p.1 - p.2).expR).sum)
    (hn : ∀ ev ∈ allEvents bs, (8 : ℝ) * ev.length ≤ 2 ^ f.p) (hJ : (8 : ℝ) * ((allEvents bs).length + 3) ≤ 2 ^ f.p)
    (A : ℝ) (hA : A = |pri| + |μ| + |con| + ((allEvents bs).map fun ev => 2 * B + (ev.length : ℝ)).sum) (hA2 : 4 * A ≤ (2 : ℝ) ^ f.emax) :
    ∃ v y : ℝ, likelihoodFn fl R S x bs = fin v ∧ (withModel S M₀ μ₀).likelihoodFn x bs = fin y ∧
      |v - y| ≤ (allEvents bs).length * ε + η +
        (((allEvents bs).map fun ev => 5 * (ev.length : ℝ) + 2 * B).sum + (allEvents bs).length * B + 9 / 4 * ((allEvents bs).length + 2) * A) / 2 ^ f.p := by
  obtain ⟨rows, top, e, elen, hrow, hlog, s1, s2, s3⟩ := rows_facts hw h bs hB0 hB hs hnear hpos hn
  obtain ⟨v, ev, dv⟩ := C109_posterior hw h R S x bs pri μ con top rows e hp hr hc hrow (by rw [elen]; exact hJ) _ rfl (by linarith)
  refine ⟨v, pri + ((con + ((allEvents bs).map fun ev => Real.log (ev.map fun p => (M₀.logProb p.1 - p.2).expR).sum).sum) - μ₀), ev, ?_, ?_⟩
  · unfold Likelihood.Setup.likelihoodFn
    simp only [withModel]
    rw [hp.1, Likelihood.total_eq, hc.1, Likelihood.sum_eventTerm_fin _ _ hlog hpos]
    simp [XR.nanToNum]
  · have hp0 : (0 : ℝ) < 2 ^ f.p := by positivity
    have hJ0 : (0 : ℝ) ≤ (allEvents bs).length := Nat.cast_nonneg _
    rw [elen] at dv
    have k1 : ((rows.map fun w => 5 * ((finites w : ℝ) - 1) + |top w|).sum +
        9 / 4 * ((allEvents bs).length + 2) * (|pri| + |μ| + |con| + (rows.map fun w => |top w| + (finites w : ℝ)).sum)) / 2 ^ f.p ≤
        (((allEvents bs).map fun ev => 5 * (ev.length : ℝ) + 2 * B).sum + 9 / 4 * ((allEvents bs).length + 2) * A) / 2 ^ f.p := by
      apply div_le_div_of_nonneg_right _ hp0.le
      have : 9 / 4 * ((allEvents bs).length + 2) * (|pri| + |μ| + |con| + (rows.map fun w => |top w| + (finites w : ℝ)).sum) ≤ 9 / 4 * ((allEvents bs).length + 2) * A :=
        mul_le_mul_of_nonneg_left (by linarith) (by linarith)
      linarith
    have k2 := dv.trans k1
    obtain ⟨a1, a2⟩ := abs_le.1 k2
    obtain ⟨b1, b2⟩ := abs_le.1 s3
    obtain ⟨c1, c2⟩ := abs_le.1 hη
    have e3 : (((allEvents bs).map fun ev => 5 * (ev.length : ℝ) + 2 * B).sum + (allEvents bs).length * B + 9 / 4 * ((allEvents bs).length + 2) * A) / 2 ^ f.p =
        (((allEvents bs).map fun ev => 5 * (ev.length : ℝ) + 2 * B).sum + 9 / 4 * ((allEvents bs).length + 2) * A) / 2 ^ f.p + (allEvents bs).length * (B / 2 ^ f.p) := by ring
    rw [e3]
    rw [mul_add] at b1 b2
    rw [abs_le]; constructor <;> linarith

/-- **C109 (end to end, numpyro).**  The same for the number given to numpyro, which adds the prior itself. -/
theorem C109_end_to_end_numpyro {θ} (hw : Wide f) (h : Nearest f fl) (R : Reduction) (S : Likelihood.Setup θ) (x : List XR) (bs : List (Likelihood.Bucket θ))
    (M₀ : Likelihood.Model θ) (μ μ₀ con B ε η : ℝ)
    (hr : S.poissonMean (S.distFn (S.constants ++ S.mapParams x)) = fin μ ∧ f.Mem μ) (hc : S.logConstants = fin con ∧ f.Mem con) (hη : |μ - μ₀| ≤ η) (hB0 : 0 ≤ B)
    (hB : B ≤ (2 : ℝ) ^ f.emax)
    (hs : ∀ ev ∈ allEvents bs, ∀ p ∈ ev, Sample f B ((S.distFn (S.constants ++ S.mapParams x)).logProb p.1) p.2)
    (hnear : ∀ ev ∈ allEvents bs, ∀ p ∈ ev, Within ε (M₀.logProb p.1) ((S.distFn (S.constants ++ S.mapParams x)).logProb p.1))
    (hpos : ∀ ev ∈ allEvents bs, 0 < (ev.map fun p => (M₀.logProb p.1 - p.2).expR).sum)
    (hn : ∀ ev ∈ allEvents bs, (8 : ℝ) * ev.length ≤ 2 ^ f.p) (hJ : (8 : ℝ) * ((allEvents bs).length + 2) ≤ 2 ^ f.p)
    (A : ℝ) (hA : A = |μ| + |con| + ((allEvents bs).map fun ev => 2 * B + (ev.length : ℝ)).sum) (hA2 : 4 * A ≤ (2 : ℝ) ^ f.emax) :
    ∃ v y : ℝ, numpyroCore fl R S x bs = fin v ∧ (withModel S M₀ μ₀).numpyroCore x bs = fin y ∧
      |v - y| ≤ (allEvents bs).length * ε + η +
        (((allEvents bs).map fun ev => 5 * (ev.length : ℝ) + 2 * B).sum + (allEvents bs).length * B + 9 / 4 * ((allEvents bs).length + 1) * A) / 2 ^ f.p := by
  obtain ⟨rows, top, e, elen, hrow, hlog, s1, s2, s3⟩ := rows_facts hw h bs hB0 hB hs hnear hpos hn
  obtain ⟨v, ev, dv⟩ := C109_numpyro hw h R S x bs μ con top rows e hr hc hrow (by rw [elen]; exact hJ) _ rfl (by linarith)
  refine ⟨v, (con + ((allEvents bs).map fun ev => Real.log (ev.map fun p => (M₀.logProb p.1 - p.2).expR).sum).sum) - μ₀, ev, ?_, ?_⟩
  · unfold Likelihood.Setup.numpyroCore
    simp only [withModel]
    rw [Likelihood.total_eq, hc.1, Likelihood.sum_eventTerm_fin _ _ hlog hpos]
    simp [XR.nanToNum]
  · have hp0 : (0 : ℝ) < 2 ^ f.p := by positivity
    have hJ0 : (0 : ℝ) ≤ (allEvents bs).length := Nat.cast_nonneg _
    rw [elen] at dv
    have k1 : ((rows.map fun w => 5 * ((finites w : ℝ) - 1) + |top w|).sum +
        9 / 4 * ((allEvents bs).length + 1) * (|μ| + |con| + (rows.map fun w => |top w| + (finites w : ℝ)).sum)) / 2 ^ f.p ≤
        (((allEvents bs).map fun ev => 5 * (ev.length : ℝ) + 2 * B).sum + 9 / 4 * ((allEvents bs).length + 1) * A) / 2 ^ f.p := by
      apply div_le_div_of_nonneg_right _ hp0.le
      have : 9 / 4 * ((allEvents bs).length + 1) * (|μ| + |con| + (rows.map fun w => |top w| + (finites w : ℝ)).sum) ≤ 9 / 4 * ((allEvents bs).length + 1) * A :=
        mul_le_mul_of_nonneg_left (by linarith) (by linarith)
      linarith
    have k2 := dv.trans k1
    obtain ⟨a1, a2⟩ := abs_le.1 k2
    obtain ⟨b1, b2⟩ := abs_le.1 s3
    obtain ⟨c1, c2⟩ := abs_le.1 hη
    have e3 : (((allEvents bs).map fun ev => 5 * (ev.length : ℝ) + 2 * B).sum + (allEvents bs).length * B + 9 / 4 * ((allEvents bs).length + 1) * A) / 2 ^ f.p =
        (((allEvents bs).map fun ev => 5 * (ev.length : ℝ) + 2 * B).sum + 9 / 4 * ((allEvents bs).length + 1) * A) / 2 ^ f.p + (allEvents bs).length * (B / 2 ^ f.p) := by ring
    rw [e3]
    rw [mul_add] at b1 b2
    rw [abs_le]; constructor <;> linarith

/-! ## Non-vacuity -/

theorem exampleSamples : ∀ ev ∈ allEvents [exampleBucket], ev = [((), fin 0)] := by
  intro ev hev
  simp [allEvents, Likelihood.Bucket.events, exampleBucket, Likelihood.rowSamples] at hev
  exact hev

/-- `C109_end_to_end` in single precision: the exact model has the log density 1/100 and the computed one 0, the exact expected number is 3.01 and the computed one 3. -/
example (R : Reduction) : ∃ fl v y, Nearest single fl ∧ likelihoodFn fl R exampleSetup [] [exampleBucket] = fin v ∧
    (withModel exampleSetup ⟨fun _ => fin (1 / 100), fun _ _ => ()⟩ (3 + 1 / 100)).likelihoodFn [] [exampleBucket] = fin y ∧ |v - y| ≤ 1 / 100 + 1 / 100 + 46 / 2 ^ 24 := by
  obtain ⟨fl, h⟩ := exists_nearest wide_single.1
  have hm : ∀ n : ℤ, |n| < 8 → single.Mem n := mem_int wide_single.1
  have he : allEvents [exampleBucket] = [[((), fin 0)]] := by simp [allEvents, Likelihood.Bucket.events, exampleBucket, Likelihood.rowSamples]
  obtain ⟨v, y, h1, h2, h3⟩ := C109_end_to_end wide_single h R exampleSetup [] [exampleBucket] ⟨fun _ => fin (1 / 100), fun _ _ => ()⟩ 1 3 (3 + 1 / 100) (-1) 0 (1 / 100) (1 / 100)
    ⟨rfl, by simpa using hm 1 (by norm_num)⟩ ⟨rfl, by simpa using hm 3 (by norm_num)⟩ ⟨rfl, by simpa using hm (-1) (by norm_num)⟩ (by rw [abs_of_nonpos] <;> norm_num)
    le_rfl (by linarith [single_emax])
    (by
      intro ev hev p hp
      rw [exampleSamples ev hev, List.mem_singleton] at hp
      subst hp
      exact ⟨Or.inr ⟨0, rfl, mem_zero wide_single.1⟩, ⟨0, rfl, mem_zero wide_single.1⟩, by
        intro a r ha hr
        obtain rfl := fin.inj ha
        obtain rfl := fin.inj hr
        simp⟩)
    (by
      intro ev hev p hp
      exact Or.inr ⟨1 / 100, 0, rfl, rfl, by rw [abs_of_nonpos] <;> norm_num⟩)
    (by
      intro ev hev
      rw [exampleSamples ev hev]
      simp
      positivity)
    (by
      intro ev hev
      rw [exampleSamples ev hev]
      norm_num [single])
    (by rw [he]; norm_num [single]) 6 (by rw [he]; norm_num) (by linarith [single_emax])
  refine ⟨fl, v, y, h, h1, h2, h3.trans ?_⟩
  rw [he]
  norm_num [single]

/-- `C109_end_to_end_numpyro`: the same numbers without the prior. -/
example (R : Reduction) : ∃ fl v y, Nearest single fl ∧ numpyroCore fl R exampleSetup [] [exampleBucket] = fin v ∧
    (withModel exampleSetup ⟨fun _ => fin (1 / 100), fun _ _ => ()⟩ (3 + 1 / 100)).numpyroCore [] [exampleBucket] = fin y ∧ |v - y| ≤ 1 / 100 + 1 / 100 + 46 / 2 ^ 24 := by
  obtain ⟨fl, h⟩ := exists_nearest wide_single.1
  have hm : ∀ n : ℤ, |n| < 8 → single.Mem n := mem_int wide_single.1
  have he : allEvents [exampleBucket] = [[((), fin 0)]] := by simp [allEvents, Likelihood.Bucket.events, exampleBucket, Likelihood.rowSamples]
  obtain ⟨v, y, h1, h2, h3⟩ := C109_end_to_end_numpyro wide_single h R exampleSetup [] [exampleBucket] ⟨fun _ => fin (1 / 100), fun _ _ => ()⟩ 3 (3 + 1 / 100) (-1) 0 (1 / 100) (1 / 100)
    ⟨rfl, by simpa using hm 3 (by norm_num)⟩ ⟨rfl, by simpa using hm (-1) (by norm_num)⟩ (by rw [abs_of_nonpos] <;> norm_num)
    le_rfl (by linarith [single_emax])
    (by
      intro ev hev p hp
      rw [exampleSamples ev hev, List.mem_singleton] at hp
      subst hp
      exact ⟨Or.inr ⟨0, rfl, mem_zero wide_single.1⟩, ⟨0, rfl, mem_zero wide_single.1⟩, by
        intro a r ha hr
        obtain rfl := fin.inj ha
        obtain rfl := fin.inj hr
        simp⟩)
    (by
      intro ev hev p hp
      exact Or.inr ⟨1 / 100, 0, rfl, rfl, by rw [abs_of_nonpos] <;> norm_num⟩)
    (by
      intro ev hev
      rw [exampleSamples ev hev]
      simp
      positivity)
    (by
      intro ev hev
      rw [exampleSamples ev hev]
      norm_num [single])
    (by rw [he]; norm_num [single]) 5 (by rw [he]; norm_num) (by linarith [single_emax])
  refine ⟨fl, v, y, h, h1, h2, h3.trans ?_⟩
  rw [he]
  norm_num [single]

end GW.RoundedLikelihood
