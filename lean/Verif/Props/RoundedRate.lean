import Verif.Props.RoundedPopulation

/-!
# C109, C110: the expected number of the injections, from the model on
-/

namespace GW.RoundedLikelihood
open GW XR Rounding
open GW.Robust (Within)

variable {f : Format} {fl : ℝ → XR}

/-- A finite expected number is a number of the format. -/
theorem injectionMean_mem (h : Nearest f fl) (R : Reduction) {years total r : ℝ} {modelLp logW : List XR} (e : injectionMean fl R years total modelLp logW = fin r) : f.Mem r := by
  unfold injectionMean Rounding.div at e
  simp only at e
  generalize hab : (_ / _ : XR) = z at e
  cases z with
  | fin z => exact h.mem e
  | pinf => cases e
  | ninf => cases e
  | nan => cases e

theorem zip_weights {θ} (M : Likelihood.Model θ) (inj : List (θ × XR)) :
    (inj.map fun p => Rounding.sub fl (M.logProb p.1) p.2) = List.zipWith (fun m w => Rounding.sub fl m w) (inj.map fun p => M.logProb p.1) (inj.map (·.2)) := by
  induction inj with
  | nil => rfl
  | cons a l ih => rw [List.map_cons, ih]; rfl

theorem sum_finite {w : List XR} (wt : ∀ y ∈ w, Weight f y) : ((w.filter XR.isFinite).map expR).sum = (w.map expR).sum := by
  induction w with
  | nil => rfl
  | cons x xs ih =>
    have := ih fun y hy => wt y (by simp [hy])
    rcases wt x (by simp) with rfl | ⟨a, rfl, -⟩
    · simpa [XR.isFinite, expR] using this
    · rw [List.filter_cons_of_pos (by rfl), List.map_cons, List.map_cons, List.sum_cons, List.sum_cons, this]

/-- The computed expected number of the injections against the exact one of an exact model: the computed log densities of the model are off by at most `ε`, log densities
minus log weights are at most `B` in size, and every further operation is rounded. -/
theorem C109_rate_end_to_end {θ} (hw : Wide f) (h : Nearest f fl) (R : Reduction) (years total : ℝ) (hy : 0 < years) (ht : 0 < total) (M M₀ : Likelihood.Model θ)
    (inj : List (θ × XR)) (B ε : ℝ) (hB0 : 0 ≤ B) (hε0 : 0 ≤ ε) (hs : ∀ p ∈ inj, Sample f B (M.logProb p.1) p.2) (hnear : ∀ p ∈ inj, Within ε (M₀.logProb p.1) (M.logProb p.1))
    (hn : (8 : ℝ) * inj.length ≤ 2 ^ f.p) (hb : 2 * B + inj.length ≤ (2 : ℝ) ^ f.emax)
    (δ : ℝ) (hδ : δ = (5 * (inj.length : ℝ) + 2 * B) / 2 ^ f.p) (hδ8 : δ ≤ 1 / 8) (hε : ε + B / 2 ^ f.p ≤ 1 / 2)
    (E₀ : ℝ) (hE : E₀ = (inj.map fun p => (M₀.logProb p.1 - p.2).expR).sum)
    (hrange : ∀ X ∈ [E₀, years * E₀, years * E₀ / total], (2 : ℝ) ^ (f.emin + f.p + 1) ≤ X ∧ X ≤ (2 : ℝ) ^ (f.emax - 2)) :
    ∃ v, injectionMean fl R years total (inj.map fun p => M.logProb p.1) (inj.map (·.2)) = fin v ∧ f.Mem v ∧
      |v - years * E₀ / total| ≤ ((1 + 2 * δ + 4 / 2 ^ f.p) * Real.exp (ε + B / 2 ^ f.p) - 1) * (years * E₀ / total) := by
  have hpp : (0 : ℝ) < 2 ^ f.p := by positivity
  have n0 : (0 : ℝ) ≤ inj.length := Nat.cast_nonneg _
  set ε' := ε + B / 2 ^ f.p with hε'
  have hε'0 : 0 ≤ ε' := by positivity
  have hE0 : 0 < E₀ := lt_of_lt_of_le (by positivity) (hrange E₀ (by simp)).1
  set w := inj.map fun p => Rounding.sub fl (M.logProb p.1) p.2 with hwdef
  have hrow : RowOf fl M w inj := rfl
  obtain ⟨wt, ⟨T, hT⟩, bT, -, ex⟩ := row_facts hw h hrow (by linarith) hs hnear (by rw [← hE]; exact hE0)
  rw [← hE] at ex
  have hTb := bT T hT
  have hws : w = List.zipWith (fun m w => Rounding.sub fl m w) (inj.map fun p => M.logProb p.1) (inj.map (·.2)) := by
    rw [hwdef, zip_weights]
  have hfin : finites w ≤ inj.length := hrow.finites
  have hfin' : (finites w : ℝ) ≤ inj.length := by exact_mod_cast hfin
  have hTm : Largest (w.filter XR.isFinite) T := ⟨List.mem_filter.2 ⟨hT.1, rfl⟩, fun x hx => hT.2 x (List.mem_of_mem_filter hx)⟩
  have hsum : ((w.filter XR.isFinite).map expR).sum = (w.map expR).sum := sum_finite wt
  set E := (w.map expR).sum with hEdef
  have hEpos : 0 < E := by
    have : expR (fin T) ≤ E := List.single_le_sum (by
      intro z hz
      obtain ⟨q, -, rfl⟩ := List.mem_map.1 hz
      exact expR_nonneg _) _ (List.mem_map.2 ⟨_, hT.1, rfl⟩)
    exact lt_of_lt_of_le (Real.exp_pos _) this
  obtain ⟨x1, x2⟩ := abs_le.1 ex
  have l1 : Real.exp (-ε') * E₀ ≤ E := by
    rw [← Real.exp_log hE0, ← Real.exp_add, ← Real.exp_log hEpos, Real.exp_le_exp]
    have : exactLog w = Real.log E := rfl
    linarith
  have l2 : E ≤ Real.exp ε' * E₀ := by
    rw [← Real.exp_log hE0, ← Real.exp_add, ← Real.exp_log hEpos, Real.exp_le_exp]
    have : exactLog w = Real.log E := rfl
    linarith
  have he2 : Real.exp ε' ≤ 2 := by
    have h1 : Real.exp ε' ≤ Real.exp (1 / 2) := Real.exp_le_exp.2 hε
    have h2 : Real.exp (1 / 2) * Real.exp (1 / 2) = Real.exp 1 := by rw [← Real.exp_add]; norm_num
    have h3 := Real.exp_one_lt_d9
    have h4 := Real.exp_pos (1 / 2 : ℝ)
    nlinarith
  have he3 : 1 / 2 ≤ Real.exp (-ε') := by
    rw [Real.exp_neg, one_div]
    exact inv_anti₀ (Real.exp_pos _) he2
  have lo : E₀ / 2 ≤ E := by
    have := mul_le_mul_of_nonneg_right he3 hE0.le
    linarith
  have hi : E ≤ 2 * E₀ := l2.trans (mul_le_mul_of_nonneg_right he2 hE0.le)
  have z1 : (2 : ℝ) ^ (f.emin + f.p + 1) = 2 * 2 ^ (f.emin + f.p) := by rw [zpow_add₀ (by norm_num)]; norm_num; ring
  have z2 : (2 : ℝ) ^ (f.emax - 1) = 2 * 2 ^ (f.emax - 2) := by
    rw [show f.emax - 1 = (f.emax - 2) + 1 by ring, zpow_add₀ (by norm_num)]; norm_num; ring
  have rng : ∀ X ∈ [E, years * E, years * E / total], (2 : ℝ) ^ (f.emin + f.p) ≤ X ∧ X ≤ (2 : ℝ) ^ (f.emax - 1) := by
    have r1 := hrange E₀ (by simp)
    have r2 := hrange (years * E₀) (by simp)
    have r3 := hrange (years * E₀ / total) (by simp)
    rw [z1] at r1 r2 r3
    rw [z2]
    have m1 : years * E₀ / 2 ≤ years * E := by rw [mul_div_assoc]; exact mul_le_mul_of_nonneg_left lo hy.le
    have m2 : years * E ≤ 2 * (years * E₀) := by rw [mul_left_comm]; exact mul_le_mul_of_nonneg_left hi hy.le
    have d1 : years * E₀ / total / 2 ≤ years * E / total := by
      rw [div_div, mul_comm total 2, ← div_div]; exact div_le_div_of_nonneg_right m1 ht.le
    have d2 : years * E / total ≤ 2 * (years * E₀ / total) := by
      rw [← mul_div_assoc]; exact div_le_div_of_nonneg_right m2 ht.le
    intro X hX
    simp only [List.mem_cons, List.not_mem_nil, or_false] at hX
    rcases hX with rfl | rfl | rfl
    · constructor <;> linarith [r1.1, r1.2]
    · constructor <;> linarith [r2.1, r2.2]
    · constructor <;> linarith [r3.1, r3.2]
  have δle : (5 * ((finites w : ℝ) - 1) + |T|) / 2 ^ f.p ≤ δ := by
    rw [hδ]; exact div_le_div_of_nonneg_right (by linarith) hpp.le
  obtain ⟨v, ev, dv⟩ := C109_rate_accurate hw h R years total hy ht _ _ w hws (fun x hx => Or.inr (wt x hx)) T hTm (by linarith) (by linarith) _ rfl (δle.trans hδ8) E hsum.symm rng
  refine ⟨v, ev, injectionMean_mem h R ev, ?_⟩
  set c := 2 * δ + 4 / 2 ^ f.p with hc
  have c0 : 0 ≤ c := by
    have : 0 ≤ δ := by rw [hδ]; positivity
    positivity
  set μ := years * E / total with hμ
  set μ₀ := years * E₀ / total with hμ₀
  have μpos : 0 ≤ μ := by positivity
  have μ₀pos : 0 ≤ μ₀ := by positivity
  have k1 : |v - μ| ≤ c * μ := dv.trans (mul_le_mul_of_nonneg_right (by rw [hc]; linarith) μpos)
  have k2 : μ ≤ Real.exp ε' * μ₀ := by
    rw [hμ, hμ₀, ← mul_div_assoc]; exact div_le_div_of_nonneg_right (by rw [mul_left_comm]; exact mul_le_mul_of_nonneg_left l2 hy.le) ht.le
  have k3 : Real.exp (-ε') * μ₀ ≤ μ := by
    rw [hμ, hμ₀, ← mul_div_assoc]; exact div_le_div_of_nonneg_right (by rw [mul_left_comm]; exact mul_le_mul_of_nonneg_left l1 hy.le) ht.le
  have k4 := Robust.factor_within μ₀pos k3 k2
  have k5 := abs_sub_le v μ μ₀
  have k6 : c * μ ≤ c * (Real.exp ε' * μ₀) := mul_le_mul_of_nonneg_left k2 c0
  calc |v - μ₀| ≤ c * (Real.exp ε' * μ₀) + (Real.exp ε' - 1) * μ₀ := by linarith
    _ = ((1 + 2 * δ + 4 / 2 ^ f.p) * Real.exp ε' - 1) * μ₀ := by rw [hc]; ring

end GW.RoundedLikelihood

namespace GW.RoundedPowerLaw
open GW XR Rounding RoundedLikelihood
open GW.Likelihood (allEvents)

variable {f : Format} {fl : ℝ → XR}

/-- The expected number of a population of truncated power laws from injections (their masses and the logarithms of their weights), every operation rounded from the
parameters on, against `years / total` times the sum of the exact rate densities over the weights. -/
theorem C110_expected_number (hw : Wide f) (h : Nearest f fl) (R : Reduction) (years total : ℝ) (hy : 0 < years) (ht : 0 < total) (cs : List Component)
    (inj : List (ℝ × ℝ)) (E B D : ℝ) (hE0 : 0 ≤ E) (hB : 0 ≤ B) (hD : 0 ≤ D)
    (hr : ∀ c ∈ cs, f.Mem c.logRate) (hc : ∀ p ∈ inj, ∀ c ∈ cs, c.low ≤ p.1 → p.1 ≤ c.high → c.Fine f E B p.1)
    (hwt : ∀ p ∈ inj, f.Mem p.2 ∧ (0 < rateDensity cs p.1 → |Real.log (rateDensity cs p.1) - p.2| ≤ D))
    (hlen : (8 : ℝ) * cs.length ≤ 2 ^ f.p) (hb : 2 * (B + 1) + cs.length ≤ (2 : ℝ) ^ f.emax)
    (hn : (8 : ℝ) * inj.length ≤ 2 ^ f.p) (hb' : 2 * (D + 1) + inj.length ≤ (2 : ℝ) ^ f.emax)
    (δ : ℝ) (hδ : δ = (5 * (inj.length : ℝ) + 2 * (D + 1)) / 2 ^ f.p) (hδ8 : δ ≤ 1 / 8)
    (ε : ℝ) (hε : ε = (5 * cs.length + 3 * (B + 1) + E + (D + 1)) / 2 ^ f.p) (hε2 : ε ≤ 1 / 2)
    (s : ℝ) (hs : s = (inj.map fun p => rateDensity cs p.1 / Real.exp p.2).sum)
    (hrange : ∀ X ∈ [s, years * s, years * s / total], (2 : ℝ) ^ (f.emin + f.p + 1) ≤ X ∧ X ≤ (2 : ℝ) ^ (f.emax - 2)) :
    ∃ v, injectionMean fl R years total (inj.map fun p => populationLogProb fl R cs p.1) (inj.map fun p => fin p.2) = fin v ∧ f.Mem v ∧
      |v - years * s / total| ≤ ((1 + 2 * δ + 4 / 2 ^ f.p) * Real.exp ε - 1) * (years * s / total) := by
  have hpp : (0 : ℝ) < 2 ^ f.p := by positivity
  have n0 : (0 : ℝ) ≤ cs.length := Nat.cast_nonneg _
  have hE : 5 * cs.length + 3 * (B + 1) + E ≤ 2 ^ f.p := by
    rw [hε, div_le_iff₀ hpp] at hε2; linarith
  obtain ⟨s1, s2⟩ := population_samples hw h R cs [inj.map fun p => (p.1, fin p.2)] E B D hE0 hB hr
    (by
      intro ev hev p hp
      rw [List.mem_singleton.1 hev] at hp
      obtain ⟨q, hq, rfl⟩ := List.mem_map.1 hp
      exact hc q hq)
    (by
      intro ev hev p hp
      rw [List.mem_singleton.1 hev] at hp
      obtain ⟨q, hq, rfl⟩ := List.mem_map.1 hp
      exact ⟨q.2, rfl, hwt q hq⟩)
    hlen hb hE
  have nn : ∀ p ∈ inj, 0 ≤ rateDensity cs p.1 := by
    intro p hp
    by_contra hneg
    have e : log (fin (rateDensity cs p.1)) = nan := log_fin_neg (not_le.1 hneg)
    rcases s2 _ (List.mem_singleton.2 rfl) (p.1, fin p.2) (List.mem_map.2 ⟨p, hp, rfl⟩) with ⟨e1, -⟩ | ⟨a, b, e1, -⟩
    · rw [e] at e1; cases e1
    · rw [e] at e1; cases e1
  have key := C109_rate_end_to_end hw h R years total hy ht ⟨populationLogProb fl R cs, fun _ _ => 0⟩ (exactModel cs fun _ _ => 0) (inj.map fun p => (p.1, fin p.2)) (D + 1)
    ((5 * cs.length + 3 * (B + 1) + E) / 2 ^ f.p) (by linarith) (by positivity) (s1 _ (by simp)) (s2 _ (by simp)) (by rw [List.length_map]; exact hn)
    (by rw [List.length_map]; exact hb') δ (by rw [List.length_map]; exact hδ) hδ8 (by rw [← add_div, ← hε]; exact hε2) s
    (by
      rw [hs, List.map_map]
      congr 1
      refine List.map_congr_left fun p hp => ?_
      change _ = expR (log (fin (rateDensity cs p.1)) - fin p.2)
      rcases (nn p hp).eq_or_lt with e | e
      · rw [← e, log_fin_zero, zero_div]; rfl
      · rw [log_fin_pos e, sub_fin_fin]
        change _ = Real.exp _
        rw [Real.exp_sub, Real.exp_log e])
    hrange
  rw [← add_div, ← hε, List.map_map, List.map_map] at key
  exact key

/-- The whole analysis, rounded from the parameters of the population on: the samples of the events, the injections behind the expected number, the prior and all sums. -/
theorem C110_analysis (hw : Wide f) (h : Nearest f fl) (R : Reduction) (S : Likelihood.Setup ℝ) (x : List XR) (bs : List (Likelihood.Bucket ℝ)) (cs : List Component)
    (hM : (S.distFn (S.constants ++ S.mapParams x)).logProb = populationLogProb fl R cs)
    (years total : ℝ) (hy : 0 < years) (ht : 0 < total) (inj : List (ℝ × ℝ))
    (hinj : ∀ M, S.poissonMean M = injectionMean fl R years total (inj.map fun p => M.logProb p.1) (inj.map fun p => fin p.2))
    (pri con E B D : ℝ) (hp : S.priorLogProb x = fin pri ∧ f.Mem pri) (hcon : S.logConstants = fin con ∧ f.Mem con)
    (hE0 : 0 ≤ E) (hB : 0 ≤ B) (hD : 0 ≤ D) (hr : ∀ c ∈ cs, f.Mem c.logRate)
    (hc : ∀ m, (m ∈ inj.map (·.1) ∨ ∃ ev ∈ allEvents bs, m ∈ ev.map (·.1)) → ∀ c ∈ cs, c.low ≤ m → m ≤ c.high → c.Fine f E B m)
    (hwt : ∀ p ∈ inj, f.Mem p.2 ∧ (0 < rateDensity cs p.1 → |Real.log (rateDensity cs p.1) - p.2| ≤ D))
    (href : ∀ ev ∈ allEvents bs, ∀ p ∈ ev, ∃ r, p.2 = fin r ∧ f.Mem r ∧ (0 < rateDensity cs p.1 → |Real.log (rateDensity cs p.1) - r| ≤ D))
    (hsome : ∀ ev ∈ allEvents bs, ∃ p ∈ ev, 0 < rateDensity cs p.1)
    (hlen : (8 : ℝ) * cs.length ≤ 2 ^ f.p) (hb : 2 * (B + 1) + cs.length ≤ (2 : ℝ) ^ f.emax)
    (hn : ∀ ev ∈ allEvents bs, (8 : ℝ) * ev.length ≤ 2 ^ f.p) (hJ : (8 : ℝ) * ((allEvents bs).length + 3) ≤ 2 ^ f.p)
    (hni : (8 : ℝ) * inj.length ≤ 2 ^ f.p) (hbi : 2 * (D + 1) + inj.length ≤ (2 : ℝ) ^ f.emax)
    (δ : ℝ) (hδ : δ = (5 * (inj.length : ℝ) + 2 * (D + 1)) / 2 ^ f.p) (hδ8 : δ ≤ 1 / 8)
    (ε : ℝ) (hε : ε = (5 * cs.length + 3 * (B + 1) + E + (D + 1)) / 2 ^ f.p) (hε2 : ε ≤ 1 / 2)
    (s : ℝ) (hs : s = (inj.map fun p => rateDensity cs p.1 / Real.exp p.2).sum)
    (hrange : ∀ X ∈ [s, years * s, years * s / total], (2 : ℝ) ^ (f.emin + f.p + 1) ≤ X ∧ X ≤ (2 : ℝ) ^ (f.emax - 2))
    (η : ℝ) (hη : η = ((1 + 2 * δ + 4 / 2 ^ f.p) * Real.exp ε - 1) * (years * s / total))
    (A : ℝ) (hA : A = |pri| + (years * s / total + η) + |con| + ((allEvents bs).map fun ev => 2 * (D + 1) + (ev.length : ℝ)).sum) (hA2 : 4 * A ≤ (2 : ℝ) ^ f.emax)
    (feasible : List ℝ → ℕ → ℝ) :
    ∃ v y : ℝ, likelihoodFn fl R S x bs = fin v ∧ (withModel S (exactModel cs feasible) (years * s / total)).likelihoodFn x bs = fin y ∧
      |v - y| ≤ (allEvents bs).length * ((5 * cs.length + 3 * (B + 1) + E) / 2 ^ f.p) + η +
        (((allEvents bs).map fun ev => 5 * (ev.length : ℝ) + 2 * (D + 1)).sum + (allEvents bs).length * (D + 1) +
          9 / 4 * ((allEvents bs).length + 2) * A) / 2 ^ f.p := by
  have hpp : (0 : ℝ) < 2 ^ f.p := by positivity
  have j0 : (0 : ℝ) ≤ (allEvents bs).length := Nat.cast_nonneg _
  obtain ⟨μ, e, mμ, bμ⟩ := C110_expected_number hw h R years total hy ht cs inj E B D hE0 hB hD hr
    (fun p hp' => hc p.1 (Or.inl (List.mem_map.2 ⟨p, hp', rfl⟩))) hwt hlen hb hni hbi δ hδ hδ8 ε hε hε2 s hs hrange
  rw [← hη] at bμ
  have hpos : 0 ≤ years * s / total := (zpow_nonneg (by norm_num) _).trans (hrange _ (by simp)).1
  have hμ : |μ| ≤ years * s / total + η := by
    have := abs_sub_abs_le_abs_sub μ (years * s / total)
    rw [abs_of_nonneg hpos] at this
    linarith
  have hE : 5 * cs.length + 3 * (B + 1) + E ≤ 2 ^ f.p := by
    rw [hε, div_le_iff₀ hpp] at hε2; linarith
  obtain ⟨v, y, h1, h2, h3⟩ := C110_posterior hw h R S x bs cs hM pri μ (years * s / total) con E B D η hp ⟨by rw [hinj, hM]; exact e, mμ⟩ hcon bμ hE0 hB hD
    (by
      have : (0 : ℝ) ≤ inj.length := Nat.cast_nonneg _
      linarith)
    hr (fun ev hev p hp' => hc p.1 (Or.inr ⟨ev, hev, List.mem_map.2 ⟨p, hp', rfl⟩⟩)) href hsome hlen hb hE hn hJ _ rfl (by linarith) feasible
  refine ⟨v, y, h1, h2, h3.trans ?_⟩
  gcongr
  rw [hA]
  linarith

/-- The same for the log likelihood that numpyro is given (it adds the prior itself). -/
theorem C110_analysis_numpyro (hw : Wide f) (h : Nearest f fl) (R : Reduction) (S : Likelihood.Setup ℝ) (x : List XR) (bs : List (Likelihood.Bucket ℝ)) (cs : List Component)
    (hM : (S.distFn (S.constants ++ S.mapParams x)).logProb = populationLogProb fl R cs)
    (years total : ℝ) (hy : 0 < years) (ht : 0 < total) (inj : List (ℝ × ℝ))
    (hinj : ∀ M, S.poissonMean M = injectionMean fl R years total (inj.map fun p => M.logProb p.1) (inj.map fun p => fin p.2))
    (con E B D : ℝ) (hcon : S.logConstants = fin con ∧ f.Mem con)
    (hE0 : 0 ≤ E) (hB : 0 ≤ B) (hD : 0 ≤ D) (hr : ∀ c ∈ cs, f.Mem c.logRate)
    (hc : ∀ m, (m ∈ inj.map (·.1) ∨ ∃ ev ∈ allEvents bs, m ∈ ev.map (·.1)) → ∀ c ∈ cs, c.low ≤ m → m ≤ c.high → c.Fine f E B m)
    (hwt : ∀ p ∈ inj, f.Mem p.2 ∧ (0 < rateDensity cs p.1 → |Real.log (rateDensity cs p.1) - p.2| ≤ D))
    (href : ∀ ev ∈ allEvents bs, ∀ p ∈ ev, ∃ r, p.2 = fin r ∧ f.Mem r ∧ (0 < rateDensity cs p.1 → |Real.log (rateDensity cs p.1) - r| ≤ D))
    (hsome : ∀ ev ∈ allEvents bs, ∃ p ∈ ev, 0 < rateDensity cs p.1)
    (hlen : (8 : ℝ) * cs.length ≤ 2 ^ f.p) (hb : 2 * (B + 1) + cs.length ≤ (2 : ℝ) ^ f.emax)
    (hn : ∀ ev ∈ allEvents bs, (8 : ℝ) * ev.length ≤ 2 ^ f.p) (hJ : (8 : ℝ) * ((allEvents bs).length + 2) ≤ 2 ^ f.p)
    (hni : (8 : ℝ) * inj.length ≤ 2 ^ f.p) (hbi : 2 * (D + 1) + inj.length ≤ (2 : ℝ) ^ f.emax)
    (δ : ℝ) (hδ : δ = (5 * (inj.length : ℝ) + 2 * (D + 1)) / 2 ^ f.p) (hδ8 : δ ≤ 1 / 8)
    (ε : ℝ) (hε : ε = (5 * cs.length + 3 * (B + 1) + E + (D + 1)) / 2 ^ f.p) (hε2 : ε ≤ 1 / 2)
    (s : ℝ) (hs : s = (inj.map fun p => rateDensity cs p.1 / Real.exp p.2).sum)
    (hrange : ∀ X ∈ [s, years * s, years * s / total], (2 : ℝ) ^ (f.emin + f.p + 1) ≤ X ∧ X ≤ (2 : ℝ) ^ (f.emax - 2))
    (η : ℝ) (hη : η = ((1 + 2 * δ + 4 / 2 ^ f.p) * Real.exp ε - 1) * (years * s / total))
    (A : ℝ) (hA : A = (years * s / total + η) + |con| + ((allEvents bs).map fun ev => 2 * (D + 1) + (ev.length : ℝ)).sum) (hA2 : 4 * A ≤ (2 : ℝ) ^ f.emax)
    (feasible : List ℝ → ℕ → ℝ) :
    ∃ v y : ℝ, numpyroCore fl R S x bs = fin v ∧ (withModel S (exactModel cs feasible) (years * s / total)).numpyroCore x bs = fin y ∧
      |v - y| ≤ (allEvents bs).length * ((5 * cs.length + 3 * (B + 1) + E) / 2 ^ f.p) + η +
        (((allEvents bs).map fun ev => 5 * (ev.length : ℝ) + 2 * (D + 1)).sum + (allEvents bs).length * (D + 1) +
          9 / 4 * ((allEvents bs).length + 1) * A) / 2 ^ f.p := by
  have hpp : (0 : ℝ) < 2 ^ f.p := by positivity
  have j0 : (0 : ℝ) ≤ (allEvents bs).length := Nat.cast_nonneg _
  obtain ⟨μ, e, mμ, bμ⟩ := C110_expected_number hw h R years total hy ht cs inj E B D hE0 hB hD hr
    (fun p hp' => hc p.1 (Or.inl (List.mem_map.2 ⟨p, hp', rfl⟩))) hwt hlen hb hni hbi δ hδ hδ8 ε hε hε2 s hs hrange
  rw [← hη] at bμ
  have hpos : 0 ≤ years * s / total := (zpow_nonneg (by norm_num) _).trans (hrange _ (by simp)).1
  have hμ : |μ| ≤ years * s / total + η := by
    have := abs_sub_abs_le_abs_sub μ (years * s / total)
    rw [abs_of_nonneg hpos] at this
    linarith
  have hE : 5 * cs.length + 3 * (B + 1) + E ≤ 2 ^ f.p := by
    rw [hε, div_le_iff₀ hpp] at hε2; linarith
  obtain ⟨s1, s2⟩ := population_samples hw h R cs (allEvents bs) E B D hE0 hB hr
    (fun ev hev p hp' => hc p.1 (Or.inr ⟨ev, hev, List.mem_map.2 ⟨p, hp', rfl⟩⟩)) href hlen hb hE
  obtain ⟨v, y, h1, h2, h3⟩ := C109_end_to_end_numpyro hw h R S x bs (exactModel cs feasible) μ (years * s / total) con (D + 1) _ η ⟨by rw [hinj, hM]; exact e, mμ⟩ hcon bμ
    (by linarith)
    (by
      have : (0 : ℝ) ≤ inj.length := Nat.cast_nonneg _
      linarith)
    (by rw [hM]; exact s1) (by rw [hM]; exact s2) (events_positive href hsome) hn hJ _ rfl (by linarith)
  refine ⟨v, y, h1, h2, h3.trans ?_⟩
  gcongr
  rw [hA]
  linarith

/-! ## One population and two injections -/

/-- Two injections of mass 30, of weight 1 and e. -/
def exampleInjections : List (ℝ × ℝ) := [(30, 0), (30, 1)]

theorem example_range {s : ℝ} (h1 : 1 / 200 ≤ s) (h2 : s ≤ 1000) :
    ∀ X ∈ [s, 2 * s, 2 * s / 10], (2 : ℝ) ^ (single.emin + single.p + 1) ≤ X ∧ X ≤ (2 : ℝ) ^ (single.emax - 2) := by
  have w1 : (2 : ℝ) ^ (single.emin + single.p + 1) ≤ 1 / 1024 := by
    rw [show (1 / 1024 : ℝ) = 2 ^ (-10 : ℤ) by norm_num]; exact zpow_le_zpow_right₀ (by norm_num) (by decide)
  have w2 : (2048 : ℝ) ≤ (2 : ℝ) ^ (single.emax - 2) := by
    rw [show (2048 : ℝ) = 2 ^ (11 : ℤ) by norm_num]; exact zpow_le_zpow_right₀ (by norm_num) (by decide)
  intro X hX
  simp only [List.mem_cons, List.not_mem_nil, or_false] at hX
  rcases hX with rfl | rfl | rfl <;> constructor <;> linarith

theorem rate_bounds : 1 / 200 ≤ rateDensity [⟨3, -2, 5, 100⟩] 30 ∧ rateDensity [⟨3, -2, 5, 100⟩] 30 ≤ 1 := by
  have e : rateDensity [⟨3, -2, 5, 100⟩] 30 = Real.exp 3 * ((30 : ℝ) ^ (-2 : ℝ) / (19 / 100)) := by
    have := mass_inverse_square
    unfold mass at this
    simp only [rateDensity, List.map_cons, List.map_nil, List.sum_cons, List.sum_nil, add_zero]
    rw [if_pos (by norm_num), this]
  have e2 : (30 : ℝ) ^ (-2 : ℝ) = 1 / 900 := by
    rw [show (-2 : ℝ) = ((-2 : ℤ) : ℝ) by norm_num, Real.rpow_intCast]; norm_num
  have e3 : Real.exp 3 = Real.exp 1 ^ 3 := by rw [← Real.exp_nat_mul]; norm_num
  have a1 := Real.exp_one_gt_d9
  have a2 := Real.exp_one_lt_d9
  have a3 : (1 : ℝ) ≤ Real.exp 1 ^ 3 := one_le_pow₀ (by linarith)
  have a4 : Real.exp 1 ^ 3 ≤ 3 ^ 3 := pow_le_pow_left₀ (by positivity) (by linarith) 3
  rw [e, e2, e3]
  constructor <;> linarith

theorem exampleSum : 1 / 200 ≤ (exampleInjections.map fun p => rateDensity [⟨3, -2, 5, 100⟩] p.1 / Real.exp p.2).sum ∧
    (exampleInjections.map fun p => rateDensity [⟨3, -2, 5, 100⟩] p.1 / Real.exp p.2).sum ≤ 2 := by
  obtain ⟨h1, h2⟩ := rate_bounds
  have h3 : 0 ≤ rateDensity [⟨3, -2, 5, 100⟩] 30 / Real.exp 1 := by positivity
  have h4 : rateDensity [⟨3, -2, 5, 100⟩] 30 / Real.exp 1 ≤ rateDensity [⟨3, -2, 5, 100⟩] 30 := div_le_self (by linarith) (Real.one_le_exp (by norm_num))
  simp only [exampleInjections, List.map_cons, List.map_nil, List.sum_cons, List.sum_nil, Real.exp_zero, div_one, add_zero]
  constructor <;> linarith

theorem single_big : (2048 : ℝ) ≤ (2 : ℝ) ^ single.emax := by
  rw [show (2048 : ℝ) = 2 ^ (11 : ℤ) by norm_num]; exact zpow_le_zpow_right₀ (by norm_num) (by decide)

theorem example_logRate : ∀ c ∈ ([⟨3, -2, 5, 100⟩] : List Component), single.Mem c.logRate := by
  intro c hc
  rw [List.mem_singleton.1 hc]
  simpa using mem_single 3 0 (by norm_num) (by norm_num) (by norm_num)

theorem example_fine : ∀ c ∈ ([⟨3, -2, 5, 100⟩] : List Component), c.Fine single 400 20 30 := by
  intro c hc
  rw [List.mem_singleton.1 hc]
  exact fine_inverse_square (by norm_num)

theorem example_weights : ∀ p ∈ exampleInjections, single.Mem p.2 ∧
    (0 < rateDensity [⟨3, -2, 5, 100⟩] p.1 → |Real.log (rateDensity [⟨3, -2, 5, 100⟩] p.1) - p.2| ≤ 20) := by
  have h1 := abs_le.1 (logs_small (b := 19 / 100) (by norm_num) (by norm_num))
  have h2 := abs_le.1 (logs_small (b := 30) (by norm_num) (by norm_num))
  intro p hp
  simp only [exampleInjections, List.mem_cons, List.not_mem_nil, or_false] at hp
  rcases hp with rfl | rfl
  · refine ⟨mem_zero wide_single.1, fun _ => ?_⟩
    rw [populationRate.1, abs_le]
    constructor <;> linarith [h1.1, h1.2, h2.1, h2.2]
  · refine ⟨by simpa using mem_single 1 0 (by norm_num) (by norm_num) (by norm_num), fun _ => ?_⟩
    rw [populationRate.1, abs_le]
    constructor <;> linarith [h1.1, h1.2, h2.1, h2.2]

/-- The factor of the example: less than a ten-thousandth. -/
theorem example_factor : (1 + 2 * (52 / 2 ^ 24) + 4 / 2 ^ 24) * Real.exp (489 / 2 ^ 24) - 1 ≤ 1 / 10000 := by
  have h1 := Real.add_one_le_exp (-(489 / 2 ^ 24 : ℝ))
  rw [Real.exp_neg] at h1
  have h2 := Real.exp_pos (489 / 2 ^ 24 : ℝ)
  have h3 : Real.exp (489 / 2 ^ 24) ≤ 1 + 1000 / 2 ^ 24 := by
    have h4 : Real.exp (489 / 2 ^ 24) * (-(489 / 2 ^ 24) + 1) ≤ 1 := by
      have := mul_le_mul_of_nonneg_left h1 h2.le
      rwa [mul_inv_cancel₀ h2.ne'] at this
    by_contra hlt
    have h5 := mul_lt_mul_of_pos_right (not_le.1 hlt) (show (0 : ℝ) < -(489 / 2 ^ 24) + 1 by norm_num)
    norm_num at h4 h5
    linarith
  have := mul_le_mul_of_nonneg_left h3 (show (0 : ℝ) ≤ 1 + 2 * (52 / 2 ^ 24) + 4 / 2 ^ 24 by norm_num)
  norm_num at this ⊢
  linarith

/-- `C110_expected_number` (and with it `C109_rate_end_to_end`) in single precision: two years, ten injections made of which two were found; off by at most a ten-thousandth. -/
example (fl : ℝ → XR) (h : Nearest single fl) (R : Reduction) (s : ℝ) (hs : s = (exampleInjections.map fun p => rateDensity [⟨3, -2, 5, 100⟩] p.1 / Real.exp p.2).sum) :
    ∃ v, injectionMean fl R 2 10 (exampleInjections.map fun p => populationLogProb fl R [⟨3, -2, 5, 100⟩] p.1) (exampleInjections.map fun p => fin p.2) = fin v ∧
      |v - 2 * s / 10| ≤ 1 / 10000 * (2 * s / 10) := by
  have hb := exampleSum
  rw [← hs] at hb
  obtain ⟨v, e, -, b⟩ := C110_expected_number wide_single h R 2 10 (by norm_num) (by norm_num) [⟨3, -2, 5, 100⟩] exampleInjections 400 20 20 (by norm_num) (by norm_num)
    (by norm_num) example_logRate
    (by
      intro p hp c hc _ _
      have : p.1 = 30 := by
        simp only [exampleInjections, List.mem_cons, List.not_mem_nil, or_false] at hp
        rcases hp with rfl | rfl <;> rfl
      rw [this]
      exact example_fine c hc)
    example_weights (by norm_num [single]) (by norm_num; linarith [single_big]) (by norm_num [single, exampleInjections]) (by norm_num [exampleInjections]; linarith [single_big])
    (52 / 2 ^ 24) (by norm_num [single, exampleInjections]) (by norm_num) (489 / 2 ^ 24) (by norm_num [single]) (by norm_num) s hs
    (example_range hb.1 (by linarith))
  refine ⟨v, e, b.trans (mul_le_mul_of_nonneg_right ?_ (by linarith))⟩
  rw [show single.p = 24 from rfl]
  exact example_factor

/-- The setup of `populationSetup` with the expected number from the two injections. -/
noncomputable def analysisSetup (fl : ℝ → XR) (R : Reduction) : Likelihood.Setup ℝ :=
  { populationSetup fl R with poissonMean := fun M => injectionMean fl R 2 10 (exampleInjections.map fun p => M.logProb p.1) (exampleInjections.map fun p => fin p.2) }

/-- `C110_analysis` in single precision: the whole analysis of one event is off by at most a thousandth. -/
example (fl : ℝ → XR) (h : Nearest single fl) (R : Reduction) (s : ℝ) (hs : s = (exampleInjections.map fun p => rateDensity [⟨3, -2, 5, 100⟩] p.1 / Real.exp p.2).sum) :
    ∃ v y : ℝ, likelihoodFn fl R (analysisSetup fl R) [] [populationBucket] = fin v ∧
      (withModel (analysisSetup fl R) (exactModel [⟨3, -2, 5, 100⟩] fun _ _ => 30) (2 * s / 10)).likelihoodFn [] [populationBucket] = fin y ∧ |v - y| ≤ 1 / 1000 := by
  have hm : ∀ n : ℤ, |n| < 8 → single.Mem n := mem_int wide_single.1
  have hb := exampleSum
  rw [← hs] at hb
  have hη : ((1 + 2 * (52 / 2 ^ 24) + 4 / 2 ^ 24) * Real.exp (489 / 2 ^ 24) - 1) * (2 * s / 10) ≤ 1 / 10000 * (2 * s / 10) :=
    mul_le_mul_of_nonneg_right example_factor (by linarith)
  obtain ⟨v, y, e1, e2, e3⟩ := C110_analysis wide_single h R (analysisSetup fl R) [] [populationBucket] [⟨3, -2, 5, 100⟩] rfl 2 10 (by norm_num) (by norm_num) exampleInjections
    (fun _ => rfl) 1 (-1) 400 20 20 ⟨rfl, by simpa using hm 1 (by norm_num)⟩ ⟨rfl, by simpa using hm (-1) (by norm_num)⟩ (by norm_num) (by norm_num) (by norm_num) example_logRate
    (by
      intro m hm c hc _ _
      have : m = 30 := by
        rw [populationEvents] at hm
        simpa [exampleInjections] using hm
      rw [this]
      exact example_fine c hc)
    example_weights
    (by
      intro ev hev p hp
      rw [populationEvents, List.mem_singleton] at hev
      subst hev
      rw [List.mem_singleton] at hp
      subst hp
      exact ⟨0, rfl, example_weights (30, 0) (by simp [exampleInjections])⟩)
    (by
      intro ev hev
      rw [populationEvents, List.mem_singleton] at hev
      subst hev
      exact ⟨_, List.mem_singleton.2 rfl, populationRate.2⟩)
    (by norm_num [single]) (by norm_num; linarith [single_big])
    (by
      intro ev hev
      rw [populationEvents, List.mem_singleton] at hev
      subst hev
      norm_num [single])
    (by rw [populationEvents]; norm_num [single]) (by norm_num [single, exampleInjections]) (by norm_num [exampleInjections]; linarith [single_big])
    (52 / 2 ^ 24) (by norm_num [single, exampleInjections]) (by norm_num) (489 / 2 ^ 24) (by norm_num [single]) (by norm_num) s hs
    (example_range hb.1 (by linarith)) _ rfl _ rfl
    (by
      rw [populationEvents, show single.p = 24 from rfl]
      simp only [List.map_cons, List.map_nil, List.sum_cons, List.sum_nil, List.length_singleton, abs_one, abs_neg]
      push_cast
      linarith [single_big])
    (fun _ _ => 30)
  refine ⟨v, y, e1, e2, e3.trans ?_⟩
  rw [populationEvents, show single.p = 24 from rfl]
  simp only [List.map_cons, List.map_nil, List.sum_cons, List.sum_nil, List.length_singleton, abs_one, abs_neg]
  push_cast
  rw [← le_sub_iff_add_le', div_le_iff₀ (by norm_num)]
  norm_num at hη ⊢
  linarith

/-- `C110_analysis_numpyro`: the same without the prior. -/
example (fl : ℝ → XR) (h : Nearest single fl) (R : Reduction) (s : ℝ) (hs : s = (exampleInjections.map fun p => rateDensity [⟨3, -2, 5, 100⟩] p.1 / Real.exp p.2).sum) :
    ∃ v y : ℝ, numpyroCore fl R (analysisSetup fl R) [] [populationBucket] = fin v ∧
      (withModel (analysisSetup fl R) (exactModel [⟨3, -2, 5, 100⟩] fun _ _ => 30) (2 * s / 10)).numpyroCore [] [populationBucket] = fin y ∧ |v - y| ≤ 1 / 1000 := by
  have hm : ∀ n : ℤ, |n| < 8 → single.Mem n := mem_int wide_single.1
  have hb := exampleSum
  rw [← hs] at hb
  have hη : ((1 + 2 * (52 / 2 ^ 24) + 4 / 2 ^ 24) * Real.exp (489 / 2 ^ 24) - 1) * (2 * s / 10) ≤ 1 / 10000 * (2 * s / 10) :=
    mul_le_mul_of_nonneg_right example_factor (by linarith)
  obtain ⟨v, y, e1, e2, e3⟩ := C110_analysis_numpyro wide_single h R (analysisSetup fl R) [] [populationBucket] [⟨3, -2, 5, 100⟩] rfl 2 10 (by norm_num) (by norm_num) exampleInjections
    (fun _ => rfl) (-1) 400 20 20 ⟨rfl, by simpa using hm (-1) (by norm_num)⟩ (by norm_num) (by norm_num) (by norm_num) example_logRate
    (by
      intro m hm c hc _ _
      have : m = 30 := by
        rw [populationEvents] at hm
        simpa [exampleInjections] using hm
      rw [this]
      exact example_fine c hc)
    example_weights
    (by
      intro ev hev p hp
      rw [populationEvents, List.mem_singleton] at hev
      subst hev
      rw [List.mem_singleton] at hp
      subst hp
      exact ⟨0, rfl, example_weights (30, 0) (by simp [exampleInjections])⟩)
    (by
      intro ev hev
      rw [populationEvents, List.mem_singleton] at hev
      subst hev
      exact ⟨_, List.mem_singleton.2 rfl, populationRate.2⟩)
    (by norm_num [single]) (by norm_num; linarith [single_big])
    (by
      intro ev hev
      rw [populationEvents, List.mem_singleton] at hev
      subst hev
      norm_num [single])
    (by rw [populationEvents]; norm_num [single]) (by norm_num [single, exampleInjections]) (by norm_num [exampleInjections]; linarith [single_big])
    (52 / 2 ^ 24) (by norm_num [single, exampleInjections]) (by norm_num) (489 / 2 ^ 24) (by norm_num [single]) (by norm_num) s hs
    (example_range hb.1 (by linarith)) _ rfl _ rfl
    (by
      rw [populationEvents, show single.p = 24 from rfl]
      simp only [List.map_cons, List.map_nil, List.sum_cons, List.sum_nil, List.length_singleton, abs_one, abs_neg]
      push_cast
      linarith [single_big])
    (fun _ _ => 30)
  refine ⟨v, y, e1, e2, e3.trans ?_⟩
  rw [populationEvents, show single.p = 24 from rfl]
  simp only [List.map_cons, List.map_nil, List.sum_cons, List.sum_nil, List.length_singleton, abs_one, abs_neg]
  push_cast
  rw [← le_sub_iff_add_le', div_le_iff₀ (by norm_num)]
  norm_num at hη ⊢
  linarith

end GW.RoundedPowerLaw
