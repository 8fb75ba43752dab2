import Verif.Lemmas.Rates
import Verif.Props.Sage
import Verif.Props.FullModels
import Verif.Props.PoissonMean

/-! # C94: what the log rates do to a likelihood

Raising every log rate by `c` multiplies the differential rate of events by `e^c`. -/

namespace GW.Rates
open GW XR PyDict Sage
open GW.Likelihood (FRow inputEvents mcAverage)
open GW.PoissonMean (injectionMean vtMean pdetMean Marginal)

noncomputable section
open Classical

/-! ## The population models -/

/-- **C94 (mixtures).**  For every mixture: with all log scales raised by `c` the constructor accepts the same components, and the log density is higher by `c` at
every point, validated or not, special values included. -/
theorem C94_mixture {α : Type} (ls : List XR) (cs : List (Mixture.Comp α)) (supp : Option (α → Bool)) (m : Mixture.Mix α)
    (hm : Mixture.mkMix ls cs supp = .ok m) (c : ℝ) :
    ∃ m', Mixture.mkMix (ls.map (· + fin c)) cs supp = .ok m' ∧ ∀ v x, m'.logProbChecked v x = m.logProbChecked v x + fin c := by
  have hform : ∀ ls' : List XR, ls'.length = ls.length → Mixture.mkMix ls' cs supp = .ok ⟨ls', cs, supp⟩ ∧ m = ⟨ls, cs, supp⟩ := by
    intro ls' hl
    unfold Mixture.mkMix at hm ⊢
    rw [hl]
    split_ifs at hm ⊢ with h1
    cases cs with
    | nil => cases hm
    | cons d ds =>
      simp only at hm ⊢
      split_ifs at hm ⊢ with h2 h3
      exact ⟨rfl, (Except.ok.inj hm).symm⟩
  obtain ⟨h1, h2⟩ := hform (ls.map (· + fin c)) (by simp)
  refine ⟨_, h1, fun v x => ?_⟩
  subst h2
  have key := mix_add (Mixture.Mix.mk ls cs supp) c x
  simp only at key
  have hsupp : (Mixture.Mix.mk (ls.map (· + fin c)) cs supp).support x = (Mixture.Mix.mk ls cs supp).support x := rfl
  unfold Mixture.Mix.logProbChecked
  rw [key, hsupp]
  split_ifs <;> rfl

/-- The dictionaries `p` and `p'` differ only in `log_rate`, which is higher by `c` in `p'`. -/
structure RateRaised (p p' : Dict String ℝ) (c : ℝ) : Prop where
  same : ∀ n, n ≠ "log_rate" → get? p' n = get? p n
  raised : get? p' "log_rate" = (get? p "log_rate").map (· + c)

theorem RateRaised.val {p p' : Dict String ℝ} {c : ℝ} (h : RateRaised p p' c) (n : String) (hn : n ≠ "log_rate") : Full.val p' n = Full.val p n := by
  simp only [Full.val, h.same n hn]

theorem RateRaised.require {p p' : Dict String ℝ} {c : ℝ} (h : RateRaised p p' c) (ns : List String) : Full.requireAll p' ns = Full.requireAll p ns := by
  induction ns with
  | nil => rfl
  | cons n ns ih =>
    unfold Full.requireAll
    rw [ih]
    by_cases hn : n = "log_rate"
    · rw [hn, h.raised]
      cases get? p "log_rate" <;> rfl
    · rw [h.same n hn]

theorem RateRaised.scaled {p p' : Dict String ℝ} {c : ℝ} (h : RateRaised p p' c) (v : Bool) (d : Joint.Dist XR) (m : Mixture.Mix (Joint.Slice XR))
    (hm : (Full.requireAll p ["log_rate"] >>= fun _ => Full.scaled v (Full.val p "log_rate") d) = .ok m) :
    ∃ m', (Full.requireAll p' ["log_rate"] >>= fun _ => Full.scaled v (Full.val p' "log_rate") d) = .ok m' ∧
      ∀ w x, m'.logProbChecked w x = m.logProbChecked w x + fin c := by
  rw [h.require]
  cases hr : get? p "log_rate" with
  | none =>
    have : Full.requireAll p ["log_rate"] = .error (.keyError "log_rate") := by simp [Full.requireAll, hr]
    rw [this] at hm
    cases hm
  | some l =>
    have : Full.requireAll p ["log_rate"] = .ok () := by simp [Full.requireAll, hr]
    rw [this] at hm ⊢
    have e1 : Full.val p "log_rate" = l := by simp [Full.val, hr]
    have e2 : Full.val p' "log_rate" = l + c := by simp [Full.val, h.raised, hr]
    rw [e1] at hm
    rw [e2]
    change Full.scaled v l d = .ok m at hm
    change ∃ m', Full.scaled v (l + c) d = .ok m' ∧ _
    unfold Full.scaled at hm ⊢
    cases hmk : Mixture.mkMix [fin l] [Full.component v d] (some (Full.component v d).support) with
    | error e => rw [hmk] at hm; cases hm
    | ok m₀ =>
      rw [hmk] at hm
      obtain rfl := Except.ok.inj hm
      obtain ⟨m', h1, h2⟩ := C94_mixture _ _ _ _ hmk c
      rw [List.map_singleton, add_fin_fin] at h1
      rw [h1]
      exact ⟨m', rfl, h2⟩

/-- **C94 (named models).**  For every dictionary of hyper-parameters, every set of flags and every event: raising `log_rate` by `c` raises the log density of
`PowerlawPeak` by `c`. -/
theorem C94_powerlaw_peak (cos : Cosmo.Cosmology) (f : Full.Flags) (v : Bool) {p p' : Dict String ℝ} {c : ℝ} (h : RateRaised p p' c) {m : Mixture.Mix (Joint.Slice XR)}
    (hm : Full.powerlawPeak cos f v p = .ok m) :
    ∃ m', Full.powerlawPeak cos f v p' = .ok m' ∧ ∀ x, m'.logProbChecked v x = m.logProbChecked v x + fin c := by
  have hv := h.val
  rw [Full.powerlawPeak_eq] at hm ⊢
  have e1 : Full.peakMass v p' = Full.peakMass v p := by simp [Full.peakMass, hv]
  have e2 : Full.betaSpins v p' = Full.betaSpins v p := by simp [Full.betaSpins, hv]
  have e3 : Full.peakTilts v p' = Full.peakTilts v p := by simp [Full.peakTilts, hv]
  have e4 : Full.halfNormalEcc v p' = Full.halfNormalEcc v p := by simp [Full.halfNormalEcc, hv]
  have e5 : Full.redshiftModel cos v p' = Full.redshiftModel cos v p := by simp [Full.redshiftModel, hv]
  rw [e1, e2, e3, e4, e5, h.require]
  cases hq : Full.requireAll p (Full.peakNames f.spin f.redshift f.tilt f.ecc) with
  | error e => rw [hq] at hm; cases hm
  | ok u =>
    rw [hq] at hm
    cases hj : Full.joinIfMany ([Full.peakBlock (Full.peakMass v p)] ++ (if f.spin then [Full.betaSpins v p] else []) ++ (if f.tilt then [Full.peakTilts v p] else []) ++
        (if f.ecc then [Full.halfNormalEcc v p] else []) ++ (if f.redshift then [Full.redshiftBlock (Full.redshiftModel cos v p)] else [])) with
    | error e => rw [hj] at hm; cases hm
    | ok d =>
      rw [hj] at hm
      obtain ⟨m', h1, h2⟩ := h.scaled v d m hm
      exact ⟨m', h1, h2 v⟩

/-- **C94 (named models).**  The same for `BrokenPowerlawTwoPeakFull`. -/
theorem C94_broken_powerlaw (cos : Cosmo.Cosmology) (f : Full.Flags) (v : Bool) {p p' : Dict String ℝ} {c : ℝ} (h : RateRaised p p' c) {m : Mixture.Mix (Joint.Slice XR)}
    (hm : Full.brokenPowerlawTwoPeakFull cos f v p = .ok m) :
    ∃ m', Full.brokenPowerlawTwoPeakFull cos f v p' = .ok m' ∧ ∀ x, m'.logProbChecked v x = m.logProbChecked v x + fin c := by
  have hv := h.val
  rw [Full.brokenFull_eq] at hm ⊢
  have e1 : Full.brokenMass v p' = Full.brokenMass v p := by simp [Full.brokenMass, hv]
  have e2 : Full.truncatedSpins v p' = Full.truncatedSpins v p := by simp [Full.truncatedSpins, hv]
  have e3 : Full.minimumTilts v p' = Full.minimumTilts v p := by simp [Full.minimumTilts, hv, h.same]
  have e4 : Full.truncatedEcc v p' = Full.truncatedEcc v p := by simp [Full.truncatedEcc, hv, h.same]
  have e5 : Full.redshiftModel cos v p' = Full.redshiftModel cos v p := by simp [Full.redshiftModel, hv]
  rw [e1, e2, e3, e4, e5, h.require]
  cases hq : Full.requireAll p (Full.brokenNames f.spin f.redshift f.tilt f.ecc) with
  | error e => rw [hq] at hm; cases hm
  | ok u =>
    rw [hq] at hm
    cases hj : Full.joinIfMany ([Full.brokenBlock (Full.brokenMass v p)] ++ (if f.spin then [Full.truncatedSpins v p] else []) ++ (if f.tilt then [Full.minimumTilts v p] else []) ++
        (if f.ecc then [Full.truncatedEcc v p] else []) ++ (if f.redshift then [Full.redshiftBlock (Full.redshiftModel cos v p)] else [])) with
    | error e => rw [hj] at hm; cases hm
    | ok d =>
      rw [hj] at hm
      obtain ⟨m', h1, h2⟩ := h.scaled v d m hm
      exact ⟨m', h1, h2 v⟩

/-- **C94 (named models).**  The same for `BrokenPowerlawTwoPeakMultiSpinMultiTiltFull`. -/
theorem C94_multi_spin (cos : Cosmo.Cosmology) (ecc v : Bool) {p p' : Dict String ℝ} {c : ℝ} (h : RateRaised p p' c) {m : Mixture.Mix (Joint.Slice XR)}
    (hm : Full.multiSpinMultiTiltFull cos ecc v p = .ok m) :
    ∃ m', Full.multiSpinMultiTiltFull cos ecc v p' = .ok m' ∧ ∀ x, m'.logProbChecked v x = m.logProbChecked v x + fin c := by
  have hv := h.val
  rw [Full.multiFull_eq] at hm ⊢
  have e1 : Full.multiMass v p' = Full.multiMass v p := by simp [Full.multiMass, Full.brokenMass, Full.multiSpins, hv]
  have e4 : Full.halfNormalEcc v p' = Full.halfNormalEcc v p := by simp [Full.halfNormalEcc, hv]
  have e5 : Full.redshiftModel cos v p' = Full.redshiftModel cos v p := by simp [Full.redshiftModel, hv]
  rw [e1, e4, e5, h.require]
  cases hq : Full.requireAll p (Full.multiAllNames ecc) with
  | error e => rw [hq] at hm; cases hm
  | ok u =>
    rw [hq] at hm
    cases hj : Full.join ([Full.multiBlock (Full.multiMass v p)] ++ (if ecc then [Full.halfNormalEcc v p] else []) ++ [Full.redshiftBlock (Full.redshiftModel cos v p)]) with
    | error e => rw [hj] at hm; cases hm
    | ok d =>
      rw [hj] at hm
      obtain ⟨m', h1, h2⟩ := h.scaled v d m hm
      exact ⟨m', h1, h2 v⟩

/-! ## The expected numbers -/

/-- **C94 (injections).**  With a log density higher by `c` the expected number is multiplied by `e^c`; with a `k`-fold observing time, by `k`. -/
theorem C94_injections (T c : ℝ) {k N : ℝ} (hk : 0 < k) (hN : 0 < N) (modelLp logW : List XR) :
    injectionMean T N (modelLp.map (· + fin c)) logW = fin (Real.exp c) * injectionMean T N modelLp logW ∧
      injectionMean (k * T) N modelLp logW = fin k * injectionMean T N modelLp logW := by
  constructor
  · unfold injectionMean
    rw [safe_add, lse1_add, exp_add, mul_left_pos (Real.exp_pos c), div_left_pos (Real.exp_pos c) hN]
  · unfold injectionMean
    rw [← div_left_pos hk hN, ← mul_fin_fin]
    congr 1
    generalize exp _ = x
    exact mul_assoc_pos hk T x

/-- **C94 (neural estimators).**  With the log rates of all components higher by `c` the expected number is multiplied by `e^c`. -/
theorem C94_neural (T c : ℝ) {num : ℕ} (hn : 0 < num) :
    (∀ comps : List (XR × List XR), vtMean T num (comps.map fun p => (p.1 + fin c, p.2)) = fin (Real.exp c) * vtMean T num comps) ∧
      ∀ comps : List (XR × Option (List Marginal) × List XR), pdetMean T num (comps.map fun p => (p.1 + fin c, p.2)) = fin (Real.exp c) * pdetMean T num comps := by
  have hn' : (num : ℝ) ≠ 0 := by exact_mod_cast hn.ne'
  constructor
  · intro comps
    unfold vtMean
    rw [div_fin_of_ne _ hn', ← mul_left_pos (Real.exp_pos c), ← sum_left_pos (Real.exp_pos c), List.map_map, List.map_map]
    congr 2
    refine List.map_congr_left fun p _ => ?_
    simp only [Function.comp]
    rw [add_right, exp_add]
  · intro comps
    unfold pdetMean
    rw [div_fin_of_ne _ hn', ← mul_left_pos (Real.exp_pos c), ← sum_left_pos (Real.exp_pos c), List.map_map, List.map_map]
    congr 2
    refine List.map_congr_left fun p _ => ?_
    simp only [Function.comp]
    rw [add_right, add_right, exp_add]

/-! ## The likelihood -/

variable {ord : List String → List String} {orc : Jenks.Oracle} {inp : Inputs} {r : Analysis}

/-- At the parameter values `value` the analysis has the log prior `lp`, the population model `M`, the expected number `μ`, and no event is impossible. -/
structure Possible (inp : Inputs) (labels : List String) (value : String → ℝ) (lp : ℝ) (M : Likelihood.Model FRow) (μ : ℝ) : Prop where
  model : M = inp.model none (meaning inp.params inp.extra fun n => fin (value n))
  passes : ∀ fns, inp.whereFns = some fns → ∀ f ∈ fns, f (meaning inp.params inp.extra fun n => fin (value n)) = true
  inside : ∀ n ∈ labels, inPrior inp.params (fun n => fin (value n)) n = true
  prior : XR.sum (labels.map (logPriorOf inp.params fun n => fin (value n))) = fin lp
  expected : inp.rate M = fin μ
  isLog : ∀ ev ∈ inputEvents inp.data inp.refs, ∀ p ∈ ev, (M.logProb p.1 - p.2).IsLog
  possible : ∀ ev ∈ inputEvents inp.data inp.refs, 0 < (ev.map fun p => (M.logProb p.1 - p.2).expR).sum

theorem value_of (hord : ∀ l, (ord l).Perm l) (ho : Jenks.OracleSorted orc) (hm : Meaningful inp.params) (hx : (keys inp.extra).Nodup)
    (hrows : RowsMatch inp) (hT : 0 < inp.tObs) (h : run ord orc inp = .ok r) {value : String → ℝ} {lp μ : ℝ} {M : Likelihood.Model FRow}
    (hp : Possible inp r.labels value lp M μ) :
    r.flowMC (r.labels.map fun n => fin (value n)) =
      fin (lp + ((inputEvents inp.data inp.refs).map fun ev => Real.log (inp.tObs * mcAverage M.logProb ev)).sum - μ) :=
  C82_flowMC_value hord ho hm hx hrows hT h value M hp.model hp.passes hp.inside lp μ hp.prior hp.expected hp.isLog hp.possible

theorem expR_shift {x w : XR} (c : ℝ) (h : (x - w).IsLog) : (x + fin c - w).expR = Real.exp c * (x - w).expR := by
  rw [add_sub_right, expR_add h (isLog_fin c), expR_fin, mul_comm]

theorem average_shift {M M' : Likelihood.Model FRow} {c : ℝ} (hs : ∀ x, M'.logProb x = M.logProb x + fin c) {ev : List (FRow × XR)}
    (hl : ∀ p ∈ ev, (M.logProb p.1 - p.2).IsLog) : (ev.map fun p => (M'.logProb p.1 - p.2).expR).sum = Real.exp c * (ev.map fun p => (M.logProb p.1 - p.2).expR).sum ∧
      mcAverage M'.logProb ev = Real.exp c * mcAverage M.logProb ev := by
  have : (ev.map fun p => (M'.logProb p.1 - p.2).expR).sum = Real.exp c * (ev.map fun p => (M.logProb p.1 - p.2).expR).sum := by
    rw [← List.sum_map_mul_left]
    congr 1
    refine List.map_congr_left fun p hp => ?_
    rw [hs, expR_shift c (hl p hp)]
  exact ⟨this, by rw [mcAverage, mcAverage, this, mul_div_assoc]⟩

/-- What is possible stays possible at a higher rate. -/
theorem Possible.raise {value' : String → ℝ} {labels : List String} {value : String → ℝ} {lp lp' μ c : ℝ} {M M' : Likelihood.Model FRow}
    (hp : Possible inp labels value lp M μ) (hM' : M' = inp.model none (meaning inp.params inp.extra fun n => fin (value' n)))
    (hwhere : ∀ fns, inp.whereFns = some fns → ∀ f ∈ fns, f (meaning inp.params inp.extra fun n => fin (value' n)) = true)
    (hin : ∀ n ∈ labels, inPrior inp.params (fun n => fin (value' n)) n = true) (hlp : XR.sum (labels.map (logPriorOf inp.params fun n => fin (value' n))) = fin lp')
    (hs : ∀ x, M'.logProb x = M.logProb x + fin c) (hrate : inp.rate M' = fin (Real.exp c) * inp.rate M) : Possible inp labels value' lp' M' (Real.exp c * μ) where
  model := hM'
  passes := hwhere
  inside := hin
  prior := hlp
  expected := by rw [hrate, hp.expected, mul_fin_fin]
  isLog := by
    intro ev hev p hpe
    rw [hs, add_sub_right]
    exact (hp.isLog ev hev p hpe).add (isLog_fin c)
  possible := by
    intro ev hev
    rw [(average_shift hs (hp.isLog ev hev)).1]
    exact mul_pos (Real.exp_pos c) (hp.possible ev hev)

/-- The sum over the events at a higher rate and another observing time. -/
theorem events_shift {M M' : Likelihood.Model FRow} {T T' c : ℝ} (hT : 0 < T) (hT' : 0 < T') (hs : ∀ x, M'.logProb x = M.logProb x + fin c) :
    ∀ evs : List (List (FRow × XR)), (∀ ev ∈ evs, ∀ p ∈ ev, (M.logProb p.1 - p.2).IsLog) → (∀ ev ∈ evs, 0 < (ev.map fun p => (M.logProb p.1 - p.2).expR).sum) →
      (evs.map fun ev => Real.log (T' * mcAverage M'.logProb ev)).sum =
        (evs.map fun ev => Real.log (T * mcAverage M.logProb ev)).sum + evs.length * (c + Real.log (T' / T)) := by
  intro evs
  induction evs with
  | nil => simp
  | cons ev evs ih =>
    intro hl hp
    have hpe := hp ev (by simp)
    have hlen : (0 : ℝ) < ev.length := by
      rw [Nat.cast_pos]
      apply List.length_pos_of_ne_nil
      rintro rfl
      simp at hpe
    have hav : 0 < mcAverage M.logProb ev := div_pos hpe hlen
    simp only [List.map_cons, List.sum_cons, List.length_cons, ih (fun e he => hl e (by simp [he])) fun e he => hp e (by simp [he])]
    rw [(average_shift hs (hl ev (by simp))).2, Real.log_mul hT'.ne' (mul_pos (Real.exp_pos c) hav).ne', Real.log_mul (Real.exp_pos c).ne' hav.ne', Real.log_exp,
      Real.log_mul hT.ne' hav.ne', Real.log_div hT'.ne' hT.ne']
    push_cast
    ring

/-- As many events as data sets. -/
theorem events_length (h : run ord orc inp = .ok r) : (inputEvents inp.data inp.refs).length = inp.data.length := by
  obtain ⟨s, pr, c, bs, -, -, hd, -, -⟩ := run_ok h
  have hlen : inp.data.length = inp.refs.length := by
    by_contra hne
    unfold Likelihood.readData at hd
    rw [if_pos hne] at hd
    cases hd
  simp [inputEvents, hlen]

/-- **C94 (likelihood).**  For every analysis, data set and pair of parameter values at which the differential rate is higher by a factor `e^c`: the log density
handed to flowMC changes by the change of the log prior, plus `c` for each event, minus the change `(e^c - 1) μ` of the expected number. -/
theorem C94_likelihood (hord : ∀ l, (ord l).Perm l) (ho : Jenks.OracleSorted orc) (hm : Meaningful inp.params) (hx : (keys inp.extra).Nodup)
    (hrows : RowsMatch inp) (hT : 0 < inp.tObs) (h : run ord orc inp = .ok r) {value value' : String → ℝ} {lp lp' μ μ' c : ℝ} {M M' : Likelihood.Model FRow}
    (hp : Possible inp r.labels value lp M μ) (hp' : Possible inp r.labels value' lp' M' μ') (hs : ∀ x, M'.logProb x = M.logProb x + fin c)
    (hrate : inp.rate M' = fin (Real.exp c) * inp.rate M) :
    ∃ y, r.flowMC (r.labels.map fun n => fin (value n)) = fin y ∧
      r.flowMC (r.labels.map fun n => fin (value' n)) = fin (y + (lp' - lp) + inp.data.length * c - (Real.exp c - 1) * μ) := by
  refine ⟨_, value_of hord ho hm hx hrows hT h hp, ?_⟩
  rw [value_of hord ho hm hx hrows hT h hp', events_shift hT hT hs _ hp.isLog hp.possible, events_length h]
  have : μ' = Real.exp c * μ := by
    have := hp'.expected
    rw [hrate, hp.expected, mul_fin_fin] at this
    exact (fin.inj this).symm
  rw [this, div_self hT.ne', Real.log_one]
  congr 1
  ring

/-- **C94 (best rate).**  For every analysis with at least one event, and parameter values `at c` that differ by the overall rate `e^c` only and have the same
log prior: there is one best overall rate, the one at which the expected number of events is the observed one. -/
theorem C94_best_rate (hord : ∀ l, (ord l).Perm l) (ho : Jenks.OracleSorted orc) (hm : Meaningful inp.params) (hx : (keys inp.extra).Nodup)
    (hrows : RowsMatch inp) (hT : 0 < inp.tObs) (h : run ord orc inp = .ok r) (hK : inp.data ≠ []) (S : Set ℝ) (value : ℝ → String → ℝ) (lp : ℝ)
    (M : ℝ → Likelihood.Model FRow) (μ : ℝ → ℝ) (hp : ∀ c ∈ S, Possible inp r.labels (value c) lp (M c) (μ c))
    (hs : ∀ c ∈ S, ∀ d ∈ S, ∀ x, (M d).logProb x = (M c).logProb x + fin (d - c)) (hrate : ∀ c ∈ S, ∀ d ∈ S, inp.rate (M d) = fin (Real.exp (d - c)) * inp.rate (M c))
    (best : ℝ) (hbest : best ∈ S) (hμ : μ best = inp.data.length) :
    ∃ y : ℝ → ℝ, (∀ c ∈ S, r.flowMC (r.labels.map fun n => fin (value c n)) = fin (y c)) ∧ ∀ c ∈ S, c ≠ best → y c < y best ∧ μ c ≠ inp.data.length := by
  choose! y hy using fun c (hc : c ∈ S) => (⟨_, value_of hord ho hm hx hrows hT h (hp c hc)⟩ : ∃ y, r.flowMC (r.labels.map fun n => fin (value c n)) = fin y)
  refine ⟨y, hy, fun c hc hne => ?_⟩
  have hKpos : (0 : ℝ) < inp.data.length := by exact_mod_cast List.length_pos_of_ne_nil hK
  obtain ⟨y₀, h1, h2⟩ := C94_likelihood hord ho hm hx hrows hT h (hp best hbest) (hp c hc) (hs best hbest c hc) (hrate best hbest c hc)
  rw [hy best hbest] at h1
  rw [hy c hc] at h2
  have e1 := fin.inj h1
  have e2 := fin.inj h2
  have hd : c - best ≠ 0 := sub_ne_zero.2 hne
  have hexp := Real.add_one_lt_exp hd
  constructor
  · rw [e2, e1, hμ]
    nlinarith
  · intro hc'
    have := hrate best hbest c hc
    rw [(hp c hc).expected, (hp best hbest).expected, mul_fin_fin, hc', hμ] at this
    have := fin.inj this
    have h3 : Real.exp (c - best) = 1 := by
      field_simp at this
      linarith
    rw [Real.exp_eq_one_iff] at h3
    exact hd h3

/-- **C94 (rate and observing time).**  For every analysis: another observing time is made up for by another overall rate.  With an observing time `e^c` times as
long, and rates lower by `e^c`, so that the expected number is the same, the log density handed to flowMC is the same up to the prior. -/
theorem C94_time (hord : ∀ l, (ord l).Perm l) (ho : Jenks.OracleSorted orc) (hm : Meaningful inp.params) (hx : (keys inp.extra).Nodup)
    (hrows : RowsMatch inp) (hT : 0 < inp.tObs) (rate' : Likelihood.Model FRow → XR) {r' : Analysis} {c : ℝ} (h : run ord orc inp = .ok r)
    (h' : run ord orc { inp with tObs := Real.exp c * inp.tObs, rate := rate' } = .ok r') {value value' : String → ℝ} {lp lp' μ : ℝ} {M M' : Likelihood.Model FRow}
    (hp : Possible inp r.labels value lp M μ) (hp' : Possible { inp with tObs := Real.exp c * inp.tObs, rate := rate' } r'.labels value' lp' M' μ)
    (hs : ∀ x, M'.logProb x = M.logProb x + fin (-c)) :
    ∃ y, r.flowMC (r.labels.map fun n => fin (value n)) = fin y ∧ r'.flowMC (r'.labels.map fun n => fin (value' n)) = fin (y + (lp' - lp)) := by
  refine ⟨_, value_of hord ho hm hx hrows hT h hp, ?_⟩
  have hT' : 0 < Real.exp c * inp.tObs := mul_pos (Real.exp_pos c) hT
  rw [value_of (inp := { inp with tObs := Real.exp c * inp.tObs, rate := rate' }) hord ho hm hx hrows hT' h' hp']
  have := events_shift hT hT' hs _ hp.isLog hp.possible
  simp only [this]
  rw [mul_div_assoc, div_self hT.ne', mul_one, Real.log_exp]
  congr 1
  ring

/-! ## Examples -/

/-- A mixture of two components. -/
example : ∃ m, Mixture.mkMix [fin 1, fin 2] [⟨fun _ => fin 0, fun _ => true, "", [1], true, fun _ => nan⟩, ⟨fun _ => ninf, fun _ => true, "", [1], true, fun _ => nan⟩]
    (none : Option (ℝ → Bool)) = .ok m := ⟨_, rfl⟩

theorem exRaised {p : Dict String ℝ} {l : ℝ} (hl : get? p "log_rate" = some l) (c : ℝ) : RateRaised p (("log_rate", l + c) :: p) c := by
  refine ⟨fun n hn => ?_, ?_⟩
  · rw [get?, if_neg (Ne.symm hn)]
  · rw [get?, if_pos rfl, hl]
    rfl

/-- The hypotheses of `C94_powerlaw_peak`: the parameters of the GWTC-3 analyses, and a rate three e-folds higher. -/
example (f : Full.Flags) (v : Bool) : ∃ m m', Full.powerlawPeak Cosmo.planck2015 f v Full.peakExample = .ok m ∧
    Full.powerlawPeak Cosmo.planck2015 f v (("log_rate", 2 + 3) :: Full.peakExample) = .ok m' ∧ ∀ x, m'.logProbChecked v x = m.logProbChecked v x + fin 3 := by
  obtain ⟨-, -, m, -, hm, -⟩ := Full.peakExample_ok f v
  obtain ⟨m', h1, h2⟩ := C94_powerlaw_peak Cosmo.planck2015 f v (exRaised (p := Full.peakExample) (l := 2) (by simp [Full.peakExample, get?]) 3) hm
  exact ⟨m, m', hm, h1, h2⟩

/-- A log rate, uniform over a range. -/
def exRate : Joint.Base XR := ⟨none, fun _ => fin (-Real.log 10), fun v => match v with
  | .one (fin x) => decide (-5 ≤ x ∧ x ≤ 5)
  | _ => false, fun _ => .one (fin 0)⟩

/-- Two events, one sampled log rate, two found injections among four. -/
def exInputs : Inputs where
  params := [("log_rate", .dist exRate)]
  extra := []
  model := fun _ kw => ⟨fun _ => match kw "log_rate" with
    | some (some v) => v
    | _ => nan, fun _ _ => []⟩
  whereFns := none
  data := [⟨[[.fin 1], [.fin 2]], 1⟩, ⟨[[.fin 3]], 1⟩]
  refs := [⟨[[.fin 0], [.fin 0]], 1⟩, ⟨[[.fin 0]], 1⟩]
  nBuckets := some 1
  threshold := 3
  rate := fun M => injectionMean 2 4 ([[fin 1], [fin 2]].map M.logProb) [fin 0, fin 0]
  tObs := 2

theorem exMeaningful : Meaningful exInputs.params where
  nodup := by decide +kernel
  dist := by
    intro n b h
    simp only [exInputs, List.mem_singleton, Prod.mk.injEq, Guru.PVal.dist.injEq] at h
    obtain ⟨-, rfl⟩ := h
    exact ⟨rfl, fun _ => trivial⟩
  lazy := by intro n ip f a h; simp [exInputs] at h
  deps := by intro n ip f a h; simp [exInputs] at h
  aliases := by intro n t h; simp [exInputs] at h

theorem exRun : ∃ r, run id Jenks.exOracle exInputs = .ok r ∧ r.labels = ["log_rate"] := by
  obtain ⟨s, hs, hn⟩ : ∃ s, Guru.setup id exInputs.params exInputs.extra = .ok s ∧ s.names = ["log_rate"] := ⟨_, rfl, by decide +kernel⟩
  obtain ⟨c, bs, hd⟩ := Sage.exData
  obtain ⟨r, hr⟩ := (C82_stops_iff (ord := id) (inp := exInputs) (fun l => List.Perm.refl l) exMeaningful (by decide +kernel) s hs c bs hd).2 (by
    rintro ⟨n, hn, h⟩
    simp [exInputs, keys] at hn)
  refine ⟨r, hr, ?_⟩
  obtain ⟨s', pr, c, bs, hs', -, -, -, rfl⟩ := run_ok hr
  rw [hs] at hs'
  cases hs'
  exact hn

theorem exModel (c : ℝ) (x : FRow) : (exInputs.model none (meaning exInputs.params exInputs.extra fun _ => fin c)).logProb x = fin c := by
  have : meaning exInputs.params exInputs.extra (fun _ => fin c) "log_rate" = some (some (fin c)) := by simp [meaning, exInputs, get?, direct]
  simp only [exInputs] at this ⊢
  simp only [this]

theorem exPossible {c : ℝ} (hc : c ∈ Set.Icc (-5 : ℝ) 5) :
    Possible exInputs ["log_rate"] (fun _ => c) (-Real.log 10) (exInputs.model none (meaning exInputs.params exInputs.extra fun _ => fin c)) (Real.exp c) where
  model := rfl
  passes := by intro fns hf; cases hf
  inside := by
    intro n hn
    simp only [List.mem_singleton] at hn
    subst hn
    simp [inPrior, priorOf, exInputs, get?, exRate]
    exact hc
  prior := by
    rw [XR.sum_eq]
    simp [logPriorOf, priorOf, exInputs, get?, exRate]
  expected := by
    have hl : ([[fin 1], [fin 2]].map (exInputs.model none (meaning exInputs.params exInputs.extra fun _ => fin c)).logProb) = [fin c, fin c] := by
      simp only [List.map_cons, List.map_nil, exModel]
    change injectionMean 2 4 ([[fin 1], [fin 2]].map (exInputs.model none (meaning exInputs.params exInputs.extra fun _ => fin c)).logProb) [fin 0, fin 0] = _
    rw [hl, (PoissonMean.C12_mean 2 4 (by norm_num) (by norm_num) _ _ (by simp)).1]
    simp
    ring
  isLog := by
    intro ev _ p hp
    rw [exModel]
    simp only [inputEvents, exInputs] at *
    have : p.2 = fin 0 := by
      rename_i hev
      simp at hev
      rcases hev with rfl | rfl <;> simp at hp
      · rcases hp with rfl | rfl <;> rfl
      · rw [hp]
    rw [this, sub_fin_fin]
    exact isLog_fin _
  possible := by
    intro ev hev
    simp only [exModel]
    simp [inputEvents, exInputs] at hev
    rcases hev with rfl | rfl <;> simp <;> positivity

/-- The hypotheses of `C94_best_rate`: the best log rate is `log 2`, where two events are expected. -/
example : ∃ (r : Analysis) (y : ℝ → ℝ), run id Jenks.exOracle exInputs = .ok r ∧ (∀ c ∈ Set.Icc (-5 : ℝ) 5, r.flowMC [fin c] = fin (y c)) ∧
    ∀ c ∈ Set.Icc (-5 : ℝ) 5, c ≠ Real.log 2 → y c < y (Real.log 2) := by
  obtain ⟨r, hr, hl⟩ := exRun
  have hlog : Real.log 2 ∈ Set.Icc (-5 : ℝ) 5 := by
    have h1 := Real.log_nonneg (x := 2) (by norm_num)
    have h2 := Real.log_le_sub_one_of_pos (x := 2) (by norm_num)
    constructor <;> linarith
  have hrate : ∀ c : ℝ, c ∈ Set.Icc (-5 : ℝ) 5 → exInputs.rate (exInputs.model none (meaning exInputs.params exInputs.extra fun _ => fin c)) = fin (Real.exp c) :=
    fun c hc => (exPossible hc).expected
  obtain ⟨y, hy, hbest⟩ := C94_best_rate (ord := id) (inp := exInputs) (fun l => List.Perm.refl l) Jenks.exOracle_sorted exMeaningful (by decide +kernel)
    (by intro i; rcases i with _ | _ | i <;> rfl) (by norm_num [exInputs]) hr (by simp [exInputs]) (Set.Icc (-5) 5) (fun c _ => c) (-Real.log 10)
    (fun c => exInputs.model none (meaning exInputs.params exInputs.extra fun _ => fin c)) Real.exp (fun c hc => by rw [hl]; exact exPossible hc)
    (fun c _ d _ x => by rw [exModel, exModel, add_fin_fin]; congr 1; ring)
    (fun c hc d hd => by rw [hrate c hc, hrate d hd, mul_fin_fin, ← Real.exp_add]; congr 2; ring) (Real.log 2) hlog
    (by rw [Real.exp_log (by norm_num)]; norm_num [exInputs])
  refine ⟨r, y, hr, fun c hc => ?_, fun c hc hne => (hbest c hc hne).1⟩
  have := hy c hc
  simpa [hl] using this

/-- The hypotheses of `C94_likelihood` and `C94_time`: at another rate, and with three times the observing time. -/
example : ∃ r r', run id Jenks.exOracle exInputs = .ok r ∧
    run id Jenks.exOracle { exInputs with tObs := Real.exp 1 * exInputs.tObs, rate := fun M => fin (Real.exp 1) * exInputs.rate M } = .ok r' ∧
    ∃ y, r.flowMC [fin 1] = fin y ∧ r'.flowMC [fin 0] = fin y ∧ r.flowMC [fin 2] = fin (y + 2 - (Real.exp 1 - 1) * Real.exp 1) := by
  obtain ⟨r, hr, hl⟩ := exRun
  obtain ⟨s, pr, c, bs, hs, hp, hd, hdis, hreq⟩ := run_ok hr
  obtain ⟨r', hr', hl'⟩ : ∃ r', run id Jenks.exOracle { exInputs with tObs := Real.exp 1 * exInputs.tObs, rate := fun M => fin (Real.exp 1) * exInputs.rate M } = .ok r' ∧
      r'.labels = ["log_rate"] := by
    unfold run
    simp only [hs, hp, hd]
    rw [if_neg hdis]
    refine ⟨_, rfl, ?_⟩
    rw [hreq] at hl
    exact hl
  have p0 := exPossible (c := 0) ⟨by norm_num, by norm_num⟩
  have p1 := exPossible (c := 1) ⟨by norm_num, by norm_num⟩
  have p2 := exPossible (c := 2) ⟨by norm_num, by norm_num⟩
  have hrows : RowsMatch exInputs := by intro i; rcases i with _ | _ | i <;> rfl
  obtain ⟨y, h1, h2⟩ := C94_likelihood (ord := id) (inp := exInputs) (c := 1) (fun l => List.Perm.refl l) Jenks.exOracle_sorted exMeaningful (by decide +kernel)
    hrows (by norm_num [exInputs]) hr (hl ▸ p1) (hl ▸ p2) (fun x => by rw [exModel, exModel, add_fin_fin]; norm_num)
    (by rw [p1.expected, p2.expected, mul_fin_fin, ← Real.exp_add]; norm_num)
  obtain ⟨y', h3, h4⟩ := C94_time (ord := id) (inp := exInputs) (c := 1) (fun l => List.Perm.refl l) Jenks.exOracle_sorted exMeaningful (by decide +kernel)
    hrows (by norm_num [exInputs]) (fun M => fin (Real.exp 1) * exInputs.rate M) hr hr' (hl ▸ p1) (value' := fun _ => 0) (lp' := -Real.log 10)
    (M' := exInputs.model none (meaning exInputs.params exInputs.extra fun _ => fin 0))
    (by
      rw [hl']
      refine ⟨p0.model, p0.passes, p0.inside, p0.prior, ?_, p0.isLog, p0.possible⟩
      change fin (Real.exp 1) * exInputs.rate _ = _
      rw [p0.expected, mul_fin_fin]
      simp)
    (fun x => by rw [exModel, exModel, add_fin_fin]; norm_num)
  rw [h1] at h3
  obtain rfl := fin.inj h3
  refine ⟨r, r', hr, hr', y, by simpa [hl] using h1, by simpa [hl'] using h4, ?_⟩
  rw [hl] at h2
  refine Eq.trans h2 ?_
  congr 1
  norm_num [exInputs]

end
end GW.Rates
