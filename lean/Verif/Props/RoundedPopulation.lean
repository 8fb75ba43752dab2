import Verif.Props.RoundedPowerLaw
import Verif.Props.RoundedLikelihood
import Verif.Spec.RoundedPopulation
import Verif.Lemmas.Robust
import Verif.Props.RoundedEnd

/-!
# C110: the rate density of a population of power laws in floating point arithmetic
-/

namespace GW.RoundedPowerLaw
open GW XR Rounding RoundedLikelihood
open GW.Likelihood (allEvents)

variable {f : Format} {fl : ℝ → XR}

/-- A finite log density is a number of the format. -/
theorem logProb_mem (h : Nearest f fl) {x : XR} {alpha low high r : ℝ} (e : logProb fl x alpha low high = fin r) : f.Mem r := by
  unfold logProb at e
  generalize mul fl (fin alpha) (rd fl (log x)) = a at e
  generalize logNorm fl alpha low high = b at e
  unfold Rounding.sub at e
  cases hab : a - b with
  | fin z => rw [hab] at e; exact h.mem e
  | pinf => rw [hab] at e; cases e
  | ninf => rw [hab] at e; cases e
  | nan => rw [hab] at e; cases e

/-- The exact log density of a component, `-inf` outside its support. -/
noncomputable def Component.exact (c : Component) (m : ℝ) : XR :=
  open Classical in
  if c.low ≤ m ∧ m ≤ c.high then fin (c.alpha * Real.log m - Real.log (mass c.alpha c.low c.high)) else ninf

theorem mass_pos {alpha low high : ℝ} (hl : 0 < low) (hlh : low < high) : 0 < mass alpha low high := by
  refine intervalIntegral.intervalIntegral_pos_of_pos_on ?_ ?_ hlh
  · apply ContinuousOn.intervalIntegrable
    intro t ht
    rw [Set.uIcc_of_le hlh.le] at ht
    exact (Real.continuousAt_rpow_const t alpha (Or.inl (by linarith [ht.1]))).continuousWithinAt
  · intro t ht
    exact Real.rpow_pos_of_pos (by linarith [ht.1]) _

/-- A population of truncated power laws, each as `C110_log_density` asks for: the rounded log density of the mixture is `-inf` where no component has support; elsewhere
it is finite and off by at most `(5 n + 3 (B + 1) + E) / 2^p` from the logarithm of the exact rate density. -/
theorem C110_population (hw : Wide f) (h : Nearest f fl) (R : Reduction) (cs : List Component) (m E B : ℝ) (hE : E ≤ 2 ^ f.p)
    (hr : ∀ c ∈ cs, f.Mem c.logRate) (hc : ∀ c ∈ cs, c.low ≤ m → m ≤ c.high → c.Fine f E B m)
    (hn : (8 : ℝ) * cs.length ≤ 2 ^ f.p) (hb : 2 * (B + 1) + cs.length ≤ (2 : ℝ) ^ f.emax) :
    Robust.Within ((5 * cs.length + 3 * (B + 1) + E) / 2 ^ f.p) (log (fin (rateDensity cs m))) (populationLogProb fl R cs m) := by
  classical
  have hpp : (0 : ℝ) < 2 ^ f.p := by positivity
  have hEu : E / 2 ^ f.p ≤ 1 := (div_le_one hpp).2 hE
  -- every component
  have comp : ∀ c ∈ cs, Robust.Within (E / 2 ^ f.p) (c.exact m) (c.logProb fl m) ∧ Weight f (c.logProb fl m) ∧
      ∀ a, c.logProb fl m = fin a → |c.logRate + a| ≤ B + 1 := by
    intro c hc'
    by_cases hs : c.low ≤ m ∧ m ≤ c.high
    · have F := hc c hc' hs.1 hs.2
      obtain ⟨r, e, b⟩ := C110_log_density hw h F.slope F.pos F.lt F.range F.apart hs.1 hs.2 F.size
      have b' : |r - (c.alpha * Real.log m - Real.log (mass c.alpha c.low c.high))| ≤ E / 2 ^ f.p :=
        b.trans (div_le_div_of_nonneg_right F.error hpp.le)
      have e' : c.logProb fl m = fin r := by unfold Component.logProb; rw [if_pos hs, e]
      refine ⟨Or.inr ⟨_, r, by unfold Component.exact; rw [if_pos hs], e', b'⟩, Or.inr ⟨r, e', logProb_mem h e⟩, fun a ha => ?_⟩
      rw [e'] at ha
      obtain rfl : r = a := by simpa using ha
      have := abs_add_le (c.logRate + (c.alpha * Real.log m - Real.log (mass c.alpha c.low c.high)))
        (r - (c.alpha * Real.log m - Real.log (mass c.alpha c.low c.high)))
      rw [show c.logRate + (c.alpha * Real.log m - Real.log (mass c.alpha c.low c.high)) + (r - (c.alpha * Real.log m - Real.log (mass c.alpha c.low c.high))) =
        c.logRate + r by ring] at this
      linarith [F.value]
    · have e' : c.logProb fl m = ninf := by unfold Component.logProb; rw [if_neg hs]
      refine ⟨Or.inl ⟨by unfold Component.exact; rw [if_neg hs], e'⟩, Or.inl e', fun a ha => ?_⟩
      rw [e'] at ha; cases ha
  -- the exact rate density
  have dens : rateDensity cs m = ((cs.map fun c => fin c.logRate + c.exact m).map expR).sum := by
    unfold rateDensity
    rw [List.map_map]
    congr 1
    refine List.map_congr_left fun c hc' => ?_
    by_cases hs : c.low ≤ m ∧ m ≤ c.high
    · have F := hc c hc' hs.1 hs.2
      have hm : 0 < m := by linarith [F.pos, hs.1]
      have hZ := mass_pos (alpha := c.alpha) F.pos F.lt
      simp only [Function.comp, Component.exact, if_pos hs, add_fin_fin, XR.expR]
      rw [Real.exp_add, Real.exp_sub, Real.exp_log hZ, Real.rpow_def_of_pos hm, mul_comm (Real.log m)]
      rfl
    · simp [Function.comp, Component.exact, if_neg hs, XR.expR]
  have len : (finites ((cs.map fun c => (c.logRate, c.logProb fl m)).map (·.2)) : ℝ) ≤ cs.length := by
    have : finites ((cs.map fun c => (c.logRate, c.logProb fl m)).map (·.2)) ≤ cs.length := by
      unfold finites
      refine (List.length_filter_le _ _).trans ?_
      simp
    exact_mod_cast this
  by_cases hx : ∃ c ∈ cs, c.low ≤ m ∧ m ≤ c.high
  · obtain ⟨c0, hc0, hs0⟩ := hx
    obtain ⟨r, e, b⟩ := C109_mixture_accurate hw h R (cs.map fun c => (c.logRate, c.logProb fl m)) (B + 1)
      (by
        intro p hp
        obtain ⟨c, hc', rfl⟩ := List.mem_map.1 hp
        exact ⟨hr c hc', (comp c hc').2.1, (comp c hc').2.2⟩)
      (by
        refine ⟨_, List.mem_map.2 ⟨c0, hc0, rfl⟩, ?_⟩
        intro e
        rcases (comp c0 hc0).1 with ⟨e1, -⟩ | ⟨a, b, -, e2, -⟩
        · unfold Component.exact at e1; rw [if_pos hs0] at e1; cases e1
        · change c0.logProb fl m = ninf at e
          rw [e] at e2; cases e2)
      (by linarith) (by linarith)
    have hpos : 0 < rateDensity cs m := by
      rw [dens]
      have nn : ∀ x ∈ (cs.map fun c => fin c.logRate + c.exact m).map expR, 0 ≤ x := by
        intro x hx
        obtain ⟨y, hy, rfl⟩ := List.mem_map.1 hx
        obtain ⟨c, -, rfl⟩ := List.mem_map.1 hy
        unfold Component.exact
        split
        · exact (Real.exp_pos _).le
        · exact le_of_eq rfl
      refine lt_of_lt_of_le ?_ (List.single_le_sum nn (expR (fin c0.logRate + c0.exact m)) (List.mem_map.2 ⟨_, List.mem_map.2 ⟨c0, hc0, rfl⟩, rfl⟩))
      unfold Component.exact
      rw [if_pos hs0]
      exact Real.exp_pos _
    have sw := Robust.sum_within (e := E / 2 ^ f.p) (Robust.forall₂_map (l := cs) (f := fun c => fin c.logRate + c.exact m)
      (g := fun c => fin c.logRate + c.logProb fl m) fun c hc' => by
        have := (comp c hc').1.add (d := 0) (s := fin c.logRate) (t := fin c.logRate) (Or.inr ⟨_, _, rfl, rfl, by simp⟩)
        rwa [zero_add] at this)
    rw [← dens] at sw
    have lw := Robust.log_sum_within sw.1 sw.2 hpos
    have same : ((cs.map fun c => (c.logRate, c.logProb fl m)).map fun c => Real.exp c.1 * expR c.2).sum =
        ((cs.map fun c => fin c.logRate + c.logProb fl m).map expR).sum := by
      rw [List.map_map, List.map_map]
      congr 1
      refine List.map_congr_left fun c hc' => ?_
      rcases (comp c hc').2.1 with e | ⟨a, e, -⟩
      · simp [Function.comp, e, XR.expR]
      · simp [Function.comp, e, XR.expR, Real.exp_add]
    rw [same] at b
    refine Or.inr ⟨Real.log (rateDensity cs m), r, log_fin_pos hpos, e, ?_⟩
    have t := abs_sub_le r (Real.log ((cs.map fun c => fin c.logRate + c.logProb fl m).map expR).sum) (Real.log (rateDensity cs m))
    have q : (5 * ((finites ((cs.map fun c => (c.logRate, c.logProb fl m)).map (·.2)) : ℝ) - 1) + 3 * (B + 1)) / 2 ^ f.p + E / 2 ^ f.p ≤
        (5 * cs.length + 3 * (B + 1) + E) / 2 ^ f.p := by
      rw [← add_div]
      exact div_le_div_of_nonneg_right (by linarith) hpp.le
    linarith
  · left
    have none : ∀ c ∈ cs, c.logProb fl m = ninf := by
      intro c hc'
      unfold Component.logProb
      rw [if_neg fun hs => hx ⟨c, hc', hs⟩]
    have z : rateDensity cs m = 0 := by
      unfold rateDensity
      refine List.sum_eq_zero fun x hx' => ?_
      obtain ⟨c, hc', rfl⟩ := List.mem_map.1 hx'
      exact if_neg fun hs => hx ⟨c, hc', hs⟩
    have add_ninf : ∀ l : ℝ, Rounding.add fl (fin l) ninf = ninf := fun l => rfl
    refine ⟨by rw [z]; exact log_fin_zero, ?_⟩
    refine ((C109_mixture hw.1 h R _ ?_ ?_).1).2 ?_
    · intro p hp
      obtain ⟨c, hc', rfl⟩ := List.mem_map.1 hp
      left
      change Rounding.add fl (fin c.logRate) (c.logProb fl m) = ninf
      rw [none c hc']; rfl
    · rw [List.length_map]
      have : (cs.length : ℝ) < 2 ^ f.p := by
        have h0 : (0 : ℝ) ≤ cs.length := Nat.cast_nonneg _
        rcases h0.eq_or_lt with e | e
        · rw [← e]; exact hpp
        · linarith
      exact_mod_cast this
    · intro p hp
      obtain ⟨c, hc', rfl⟩ := List.mem_map.1 hp
      change Rounding.add fl (fin c.logRate) (c.logProb fl m) = ninf
      rw [none c hc']; rfl

theorem add_mem (h : Nearest f fl) {a b : XR} {r : ℝ} (e : Rounding.add fl a b = fin r) : f.Mem r := by
  unfold Rounding.add at e
  cases hab : a + b with
  | fin z => rw [hab] at e; exact h.mem e
  | pinf => rw [hab] at e; cases e
  | ninf => rw [hab] at e; cases e
  | nan => rw [hab] at e; cases e

/-- A finite log rate density is a number of the format. -/
theorem populationLogProb_mem (h : Nearest f fl) (R : Reduction) {cs : List Component} {m r : ℝ} (e : populationLogProb fl R cs m = fin r) : f.Mem r := by
  unfold populationLogProb mixtureLogProb RoundedLikelihood.logsumexp at e
  exact add_mem h e

/-- The population in exact arithmetic, as a model instance. -/
noncomputable def exactModel (cs : List Component) (feasible : List ℝ → ℕ → ℝ) : Likelihood.Model ℝ := ⟨fun m => log (fin (rateDensity cs m)), feasible⟩

/-- What both samplers need of the samples. -/
theorem population_samples (hw : Wide f) (h : Nearest f fl) (R : Reduction) (cs : List Component) (evs : List (List (ℝ × XR))) (E B D : ℝ) (hE0 : 0 ≤ E) (hB : 0 ≤ B)
    (hr : ∀ c ∈ cs, f.Mem c.logRate) (hc : ∀ ev ∈ evs, ∀ p ∈ ev, ∀ c ∈ cs, c.low ≤ p.1 → p.1 ≤ c.high → c.Fine f E B p.1)
    (href : ∀ ev ∈ evs, ∀ p ∈ ev, ∃ r, p.2 = fin r ∧ f.Mem r ∧ (0 < rateDensity cs p.1 → |Real.log (rateDensity cs p.1) - r| ≤ D))
    (hn : (8 : ℝ) * cs.length ≤ 2 ^ f.p) (hb : 2 * (B + 1) + cs.length ≤ (2 : ℝ) ^ f.emax) (hE : 5 * cs.length + 3 * (B + 1) + E ≤ 2 ^ f.p) :
    (∀ ev ∈ evs, ∀ p ∈ ev, Sample f (D + 1) (populationLogProb fl R cs p.1) p.2) ∧
    ∀ ev ∈ evs, ∀ p ∈ ev, Robust.Within ((5 * cs.length + 3 * (B + 1) + E) / 2 ^ f.p) (log (fin (rateDensity cs p.1))) (populationLogProb fl R cs p.1) := by
  have hpp : (0 : ℝ) < 2 ^ f.p := by positivity
  have n0 : (0 : ℝ) ≤ cs.length := Nat.cast_nonneg _
  have key : ∀ ev ∈ evs, ∀ p ∈ ev, Robust.Within ((5 * cs.length + 3 * (B + 1) + E) / 2 ^ f.p) (log (fin (rateDensity cs p.1))) (populationLogProb fl R cs p.1) :=
    fun ev hev p hp => C110_population hw h R cs p.1 E B (by linarith) hr (hc ev hev p hp) hn hb
  refine ⟨fun ev hev p hp => ?_, key⟩
  have k := key ev hev p hp
  obtain ⟨r, er, mr, br⟩ := href ev hev p hp
  refine ⟨?_, ⟨r, er, mr⟩, ?_⟩
  · rcases k with ⟨-, e⟩ | ⟨a, b, -, e, -⟩
    · exact Or.inl e
    · exact Or.inr ⟨b, e, populationLogProb_mem h R e⟩
  · intro a r' ha hr'
    rw [er] at hr'
    obtain rfl := fin.inj hr'
    rcases k with ⟨-, e⟩ | ⟨x, b, e1, e2, e3⟩
    · rw [e] at ha; cases ha
    · rw [ha] at e2
      obtain rfl := fin.inj e2
      have hpos : 0 < rateDensity cs p.1 := by
        by_contra hneg
        rcases (not_lt.1 hneg).lt_or_eq with hlt | heq
        · rw [log_fin_neg hlt] at e1; cases e1
        · rw [heq, log_fin_zero] at e1; cases e1
      rw [log_fin_pos hpos] at e1
      obtain rfl := fin.inj e1
      have e4 : (5 * cs.length + 3 * (B + 1) + E) / 2 ^ f.p ≤ 1 := (div_le_one hpp).2 hE
      have := abs_sub_le a (Real.log (rateDensity cs p.1)) r
      linarith [br hpos]

/-- An event with a sample of positive rate density has positive weight. -/
theorem events_positive {cs : List Component} {evs : List (List (ℝ × XR))} {D : ℝ} {feasible : List ℝ → ℕ → ℝ}
    (href : ∀ ev ∈ evs, ∀ p ∈ ev, ∃ r, p.2 = fin r ∧ f.Mem r ∧ (0 < rateDensity cs p.1 → |Real.log (rateDensity cs p.1) - r| ≤ D))
    (hsome : ∀ ev ∈ evs, ∃ p ∈ ev, 0 < rateDensity cs p.1) :
    ∀ ev ∈ evs, 0 < (ev.map fun p => ((exactModel cs feasible).logProb p.1 - p.2).expR).sum := by
  intro ev hev
  obtain ⟨p, hp', pos⟩ := hsome ev hev
  obtain ⟨r, er, -⟩ := href ev hev p hp'
  refine lt_of_lt_of_le ?_ (List.single_le_sum ?_ _ (List.mem_map.2 ⟨p, hp', rfl⟩))
  · change 0 < expR (log (fin (rateDensity cs p.1)) - p.2)
    rw [er, log_fin_pos pos]
    exact Real.exp_pos _
  · intro z hz
    obtain ⟨q, -, rfl⟩ := List.mem_map.1 hz
    exact expR_nonneg _

/-- From the parameters to the log posterior, every operation rounded: for a population of truncated power laws that stay in range at every sample, the log posterior of the
flowMC sampler is finite and as close to that of the exact rate density as the bounds of the parts add up to. -/
theorem C110_posterior (hw : Wide f) (h : Nearest f fl) (R : Reduction) (S : Likelihood.Setup ℝ) (x : List XR) (bs : List (Likelihood.Bucket ℝ)) (cs : List Component)
    (hM : (S.distFn (S.constants ++ S.mapParams x)).logProb = populationLogProb fl R cs)
    (pri μ μ₀ con E B D η : ℝ) (hp : S.priorLogProb x = fin pri ∧ f.Mem pri)
    (hμ : S.poissonMean (S.distFn (S.constants ++ S.mapParams x)) = fin μ ∧ f.Mem μ) (hcon : S.logConstants = fin con ∧ f.Mem con) (hη : |μ - μ₀| ≤ η)
    (hE0 : 0 ≤ E) (hB : 0 ≤ B) (hD : 0 ≤ D) (hD' : D + 1 ≤ (2 : ℝ) ^ f.emax)
    (hr : ∀ c ∈ cs, f.Mem c.logRate)
    (hc : ∀ ev ∈ allEvents bs, ∀ p ∈ ev, ∀ c ∈ cs, c.low ≤ p.1 → p.1 ≤ c.high → c.Fine f E B p.1)
    (href : ∀ ev ∈ allEvents bs, ∀ p ∈ ev, ∃ r, p.2 = fin r ∧ f.Mem r ∧ (0 < rateDensity cs p.1 → |Real.log (rateDensity cs p.1) - r| ≤ D))
    (hsome : ∀ ev ∈ allEvents bs, ∃ p ∈ ev, 0 < rateDensity cs p.1)
    (hlen : (8 : ℝ) * cs.length ≤ 2 ^ f.p) (hb : 2 * (B + 1) + cs.length ≤ (2 : ℝ) ^ f.emax) (hE : 5 * cs.length + 3 * (B + 1) + E ≤ 2 ^ f.p)
    (hn : ∀ ev ∈ allEvents bs, (8 : ℝ) * ev.length ≤ 2 ^ f.p) (hJ : (8 : ℝ) * ((allEvents bs).length + 3) ≤ 2 ^ f.p)
    (A : ℝ) (hA : A = |pri| + |μ| + |con| + ((allEvents bs).map fun ev => 2 * (D + 1) + (ev.length : ℝ)).sum) (hA2 : 4 * A ≤ (2 : ℝ) ^ f.emax) (feasible : List ℝ → ℕ → ℝ) :
    ∃ v y : ℝ, likelihoodFn fl R S x bs = fin v ∧ (withModel S (exactModel cs feasible) μ₀).likelihoodFn x bs = fin y ∧
      |v - y| ≤ (allEvents bs).length * ((5 * cs.length + 3 * (B + 1) + E) / 2 ^ f.p) + η +
        (((allEvents bs).map fun ev => 5 * (ev.length : ℝ) + 2 * (D + 1)).sum + (allEvents bs).length * (D + 1) +
          9 / 4 * ((allEvents bs).length + 2) * A) / 2 ^ f.p := by
  obtain ⟨s1, s2⟩ := population_samples hw h R cs (allEvents bs) E B D hE0 hB hr hc href hlen hb hE
  exact C109_end_to_end hw h R S x bs (exactModel cs feasible) pri μ μ₀ con (D + 1) _ η hp hμ hcon hη (by linarith) hD' (by rw [hM]; exact s1) (by rw [hM]; exact s2)
    (events_positive href hsome) hn hJ A hA hA2

theorem amplification_eighteen : amplification (-2) 5 100 ≤ 18 := by
  have h1 := logs_small (b := 100) (by norm_num) le_rfl
  have h2 := logs_small (b := 5) (by norm_num) (by norm_num)
  have h3 : Max.max |Real.log 100| |Real.log 5| ≤ 5 := max_le h1 h2
  have e : amplification (-2) 5 100 = (1 + Max.max |Real.log 100| |Real.log 5|) * (21 / 19) := by
    rw [amplification, if_neg (by norm_num), show (1 + -2 : ℝ) = -1 by norm_num, Real.rpow_neg_one, Real.rpow_neg_one, abs_neg, abs_one]
    norm_num [abs_of_neg]
  rw [e]; nlinarith

theorem fine_inverse_square {l : ℝ} (hl : |l| ≤ 3) : Component.Fine single 400 20 30 ⟨l, -2, 5, 100⟩ := by
  have h1 := logs_small (b := 19 / 100) (by norm_num) (by norm_num)
  have h2 := logs_small (b := 30) (by norm_num) (by norm_num)
  have w3 : (128 : ℝ) ≤ (2 : ℝ) ^ single.emax := by
    rw [show (128 : ℝ) = 2 ^ (7 : ℤ) by norm_num]; exact zpow_le_zpow_right₀ (by norm_num) (by decide)
  refine ⟨by simpa using mem_single (-2) 0 (by norm_num) (by norm_num) (by norm_num), by norm_num, by norm_num, range_inverse_square,
    amplification_inverse_square, ?_, ?_, ?_⟩
  · change 3 * (|(-2 : ℝ)| * (|Real.log 30| + 1)) + 2 * |Real.log (mass (-2) 5 100)| + 2 ≤ _
    rw [mass_inverse_square, show |(-2 : ℝ)| = 2 by norm_num]; linarith
  · change 6 * (|(-2 : ℝ)| * (|Real.log 30| + 1)) + 3 * |Real.log (mass (-2) 5 100)| + 14 * amplification (-2) 5 100 ≤ _
    rw [mass_inverse_square, show |(-2 : ℝ)| = 2 by norm_num]; linarith [amplification_eighteen]
  · change |l + (-2 * Real.log 30 - Real.log (mass (-2) 5 100))| ≤ _
    rw [mass_inverse_square]
    rw [abs_le] at *
    constructor <;> linarith [h1.1, h1.2, h2.1, h2.2, hl.1, hl.2]

/-- Two populations of inverse-square slope between 5 and 100, with different rates, and a third one that does not reach 30: in single precision the log rate density at 30
is off by at most `500 / 2^24`. -/
example (fl : ℝ → XR) (h : Nearest single fl) (R : Reduction) :
    Robust.Within (500 / 2 ^ 24) (log (fin (rateDensity [⟨3, -2, 5, 100⟩, ⟨1, -2, 5, 100⟩, ⟨2, 4, 50, 60⟩] 30)))
      (populationLogProb fl R [⟨3, -2, 5, 100⟩, ⟨1, -2, 5, 100⟩, ⟨2, 4, 50, 60⟩] 30) := by
  have w3 : (128 : ℝ) ≤ (2 : ℝ) ^ single.emax := by
    rw [show (128 : ℝ) = 2 ^ (7 : ℤ) by norm_num]; exact zpow_le_zpow_right₀ (by norm_num) (by decide)
  have := C110_population wide_single h R [⟨3, -2, 5, 100⟩, ⟨1, -2, 5, 100⟩, ⟨2, 4, 50, 60⟩] 30 400 20
    (by rw [show single.p = 24 from rfl]; norm_num)
    (by
      intro c hc
      simp only [List.mem_cons, List.not_mem_nil, or_false] at hc
      rcases hc with rfl | rfl | rfl
      · simpa using mem_single 3 0 (by norm_num) (by norm_num) (by norm_num)
      · simpa using mem_single 1 0 (by norm_num) (by norm_num) (by norm_num)
      · simpa using mem_single 2 0 (by norm_num) (by norm_num) (by norm_num))
    (by
      intro c hc h1 h2
      simp only [List.mem_cons, List.not_mem_nil, or_false] at hc
      rcases hc with rfl | rfl | rfl
      · exact fine_inverse_square (by norm_num)
      · exact fine_inverse_square (by norm_num)
      · norm_num at h1)
    (by rw [show single.p = 24 from rfl]; norm_num) (by norm_num; linarith)
  rcases this with e | ⟨a, b, e1, e2, e3⟩
  · exact Or.inl e
  · refine Or.inr ⟨a, b, e1, e2, e3.trans ?_⟩
    rw [show single.p = 24 from rfl]
    norm_num

/-- A setup whose model is one population, whatever the parameters: log rate 3, slope -2 between 5 and 100. -/
noncomputable def populationSetup (fl : ℝ → XR) (R : Reduction) : Likelihood.Setup ℝ where
  constants := []
  priorSupport _ := true
  variablesIndex := []
  whereFns := none
  distFn _ := ⟨populationLogProb fl R [⟨3, -2, 5, 100⟩], fun _ _ => 30⟩
  poissonMean _ := fin 3
  priorLogProb _ := fin 1
  logConstants := fin (-1)

/-- One event with a sample of mass 30 and a padded position. -/
def populationBucket : Likelihood.Bucket ℝ := ⟨[[30, 0]], [[fin 0, fin 0]], [[true, false]]⟩

theorem populationEvents : allEvents [populationBucket] = [[(30, fin 0)]] := by
  simp [allEvents, Likelihood.Bucket.events, populationBucket, Likelihood.rowSamples]

theorem populationRate : Real.log (rateDensity [⟨3, -2, 5, 100⟩] 30) = 3 + (-2 * Real.log 30 - Real.log (19 / 100)) ∧ 0 < rateDensity [⟨3, -2, 5, 100⟩] 30 := by
  have e : rateDensity [⟨3, -2, 5, 100⟩] 30 = Real.exp 3 * ((30 : ℝ) ^ (-2 : ℝ) / (19 / 100)) := by
    have := mass_inverse_square
    unfold mass at this
    simp only [rateDensity, List.map_cons, List.map_nil, List.sum_cons, List.sum_nil, add_zero]
    rw [if_pos (by norm_num), this]
  have pos : (0 : ℝ) < 30 ^ (-2 : ℝ) := Real.rpow_pos_of_pos (by norm_num) _
  rw [e]
  refine ⟨?_, by positivity⟩
  rw [Real.log_mul (Real.exp_pos _).ne' (by positivity), Real.log_exp, Real.log_div pos.ne' (by norm_num), Real.log_rpow (by norm_num)]

/-- `C110_posterior` in single precision: the log posterior is off by at most `860 / 2^24`. -/
example (fl : ℝ → XR) (h : Nearest single fl) (R : Reduction) : ∃ v y : ℝ, likelihoodFn fl R (populationSetup fl R) [] [populationBucket] = fin v ∧
    (withModel (populationSetup fl R) (exactModel [⟨3, -2, 5, 100⟩] fun _ _ => 30) 3).likelihoodFn [] [populationBucket] = fin y ∧ |v - y| ≤ 860 / 2 ^ 24 := by
  have hm : ∀ n : ℤ, |n| < 8 → single.Mem n := mem_int wide_single.1
  have w3 : (2048 : ℝ) ≤ (2 : ℝ) ^ single.emax := by
    rw [show (2048 : ℝ) = 2 ^ (11 : ℤ) by norm_num]; exact zpow_le_zpow_right₀ (by norm_num) (by decide)
  have h1 := logs_small (b := 19 / 100) (by norm_num) (by norm_num)
  have h2 := logs_small (b := 30) (by norm_num) (by norm_num)
  obtain ⟨v, y, e1, e2, e3⟩ := C110_posterior wide_single h R (populationSetup fl R) [] [populationBucket] [⟨3, -2, 5, 100⟩] rfl 1 3 3 (-1) 400 20 20 0
    ⟨rfl, by simpa using hm 1 (by norm_num)⟩ ⟨rfl, by simpa using hm 3 (by norm_num)⟩ ⟨rfl, by simpa using hm (-1) (by norm_num)⟩ (by simp) (by norm_num) (by norm_num)
    (by norm_num) (by linarith)
    (by
      intro c hc
      rw [List.mem_singleton.1 hc]
      simpa using mem_single 3 0 (by norm_num) (by norm_num) (by norm_num))
    (by
      intro ev hev p hp c hc _ _
      rw [populationEvents, List.mem_singleton] at hev
      subst hev
      rw [List.mem_singleton] at hp hc
      subst hp; subst hc
      exact fine_inverse_square (by norm_num))
    (by
      intro ev hev p hp
      rw [populationEvents, List.mem_singleton] at hev
      subst hev
      rw [List.mem_singleton] at hp
      subst hp
      refine ⟨0, rfl, mem_zero wide_single.1, fun _ => ?_⟩
      rw [populationRate.1]
      rw [abs_le] at *
      constructor <;> linarith [h1.1, h1.2, h2.1, h2.2])
    (by
      intro ev hev
      rw [populationEvents, List.mem_singleton] at hev
      subst hev
      exact ⟨_, List.mem_singleton.2 rfl, populationRate.2⟩)
    (by norm_num [single]) (by norm_num; linarith) (by norm_num [single])
    (by
      intro ev hev
      rw [populationEvents, List.mem_singleton] at hev
      subst hev
      norm_num [single])
    (by rw [populationEvents]; norm_num [single]) 48 (by rw [populationEvents]; norm_num) (by linarith) (fun _ _ => 30)
  refine ⟨v, y, e1, e2, e3.trans ?_⟩
  rw [populationEvents]
  norm_num [single]

end GW.RoundedPowerLaw
