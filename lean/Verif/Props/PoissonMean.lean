import Verif.Model.PoissonMean
import Verif.Lemmas.Likelihood
import Verif.Props.Analytic

/-!
# C12, C13: expected-rate estimators
-/

namespace GW.PoissonMean
open GW XR GW.Analytic
open scoped Classical

/-! ## Helpers -/

theorem clean_isLog (t : XR) (h : t ≠ pinf) : IsLog (if t.isNegInf || t.isNan then ninf else t) := by
  cases t <;> simp_all [IsLog]

theorem safe_isLog {modelLp logW : List XR} (h : ∀ p ∈ modelLp.zip logW, p.1 - p.2 ≠ pinf) : ∀ x ∈ safeLogProb modelLp logW, IsLog x := by
  intro x hx
  simp only [safeLogProb, List.mem_map, ← List.map_uncurry_zip_eq_zipWith] at hx
  obtain ⟨t, ⟨p, hp, rfl⟩, rfl⟩ := hx
  have := h p hp
  exact clean_isLog _ this

theorem safe_expR (modelLp logW : List XR) : (safeLogProb modelLp logW).map expR = List.zipWith (fun m w => expR (m - w)) modelLp logW := by
  simp only [safeLogProb, List.map_zipWith]
  congr 1
  funext m w
  generalize m - w = t
  cases t <;> simp [expR]

theorem two_log {a : ℝ} (h : 0 < a) (c : ℝ) : fin c * log (fin a) = fin (c * Real.log a) := by rw [log_fin_pos h, mul_fin_fin]

theorem exp_isLog {x : XR} (h : IsLog x) : exp x = fin (expR x) := by
  rcases h.cases with e | ⟨a, e⟩ <;> subst e <;> rfl

theorem two_mul_log {s : ℝ} (h : 0 ≤ s) : IsLog (fin 2 * log (fin s)) ∧ expR (fin 2 * log (fin s)) = s ^ 2 := by
  obtain ⟨a, b⟩ := two_mul_isLog (isLog_log_sum h)
  refine ⟨a, ?_⟩
  rw [b, expR_log_fin h]

theorem sq_sum_nonneg (w : List ℝ) : 0 ≤ (w.map (· ^ 2)).sum := by
  apply List.sum_nonneg
  intro x hx
  obtain ⟨y, -, rfl⟩ := List.mem_map.1 hx
  positivity

/-! ## C12 -/

/-- **C12.**  The injection estimate is `T / N · Σ exp(log p - log w)` over the found injections, NaN and `-inf` model values counting as zero; finite and not negative whenever no difference is `+inf`. -/
theorem C12_mean (T N : ℝ) (hT : 0 ≤ T) (hN : 0 < N) (modelLp logW : List XR) (h : ∀ p ∈ modelLp.zip logW, p.1 - p.2 ≠ pinf) :
    injectionMean T N modelLp logW = fin (T / N * (List.zipWith (fun m w => expR (m - w)) modelLp logW).sum) ∧ 0 ≤ T / N * (List.zipWith (fun m w => expR (m - w)) modelLp logW).sum := by
  have hl := safe_isLog h
  have hs : 0 ≤ (List.zipWith (fun m w => expR (m - w)) modelLp logW).sum := by
    rw [← safe_expR]
    exact sum_expR_nonneg _
  refine ⟨?_, mul_nonneg (div_nonneg hT hN.le) hs⟩
  rw [injectionMean, lse1, lse_masked hl, safe_expR, exp_log_fin hs, mul_fin_fin, div_fin_of_ne _ hN.ne']
  congr 1
  ring

/-- **C12.**  The order of the injections is irrelevant, for all values including infinities and NaN. -/
theorem C12_order (T N : ℝ) (pairs pairs' : List (XR × XR)) (h : pairs.Perm pairs') :
    injectionMean T N (pairs.map (·.1)) (pairs.map (·.2)) = injectionMean T N (pairs'.map (·.1)) (pairs'.map (·.2)) ∧
    injectionVariance T N (pairs.map (·.1)) (pairs.map (·.2)) = injectionVariance T N (pairs'.map (·.1)) (pairs'.map (·.2)) := by
  have hp : (safeLogProb (pairs.map (·.1)) (pairs.map (·.2))).Perm (safeLogProb (pairs'.map (·.1)) (pairs'.map (·.2))) := by
    simp only [safeLogProb, List.zipWith_map, List.zipWith_self, List.map_map]
    exact h.map _
  have key : ∀ {a b : List (XR × Bool)}, a.Perm b → logsumexpWhere a = logsumexpWhere b := by
    intro a b hab
    have hk := (hab.filter (·.2)).map (·.1)
    unfold logsumexpWhere
    simp only []
    rw [foldr_max_perm hk, sum_perm (hk.map _)]
  have h1 : lse1 (safeLogProb (pairs.map (·.1)) (pairs.map (·.2))) = lse1 (safeLogProb (pairs'.map (·.1)) (pairs'.map (·.2))) := key (hp.map _)
  have h2 : lse2 (safeLogProb (pairs.map (·.1)) (pairs.map (·.2))) = lse2 (safeLogProb (pairs'.map (·.1)) (pairs'.map (·.2))) := key (hp.map _)
  simp only [injectionMean, injectionVariance, h1, h2, and_self]

/-- **C12.**  The variance estimate is `T² / N² · (Σ w² - (Σ w)² / N)`, and not negative when at most `N` injections were found. -/
theorem C12_variance (T N : ℝ) (hT : 0 < T) (hN : 0 < N) (modelLp logW : List XR) (h : ∀ p ∈ modelLp.zip logW, p.1 - p.2 ≠ pinf) (w : List ℝ) (hw : w = List.zipWith (fun m w => expR (m - w)) modelLp logW) :
    injectionVariance T N modelLp logW = fin (T ^ 2 / N ^ 2 * ((w.map (· ^ 2)).sum - w.sum ^ 2 / N)) ∧ ((w.length : ℝ) ≤ N → 0 ≤ T ^ 2 / N ^ 2 * ((w.map (· ^ 2)).sum - w.sum ^ 2 / N)) := by
  have hl := safe_isLog h
  have hs : 0 ≤ w.sum := by
    rw [hw, ← safe_expR]
    exact sum_expR_nonneg _
  have hq : 0 ≤ (w.map (· ^ 2)).sum := sq_sum_nonneg w
  constructor
  · obtain ⟨q1, q2⟩ := two_mul_log hs
    have q3 := isLog_log_sum hq
    have q4 := expR_log_fin hq
    rw [injectionVariance]
    simp only [lse1, lse2]
    rw [lse_masked hl, lse_masked_sq hl, safe_expR, ← hw, two_log hT, two_log hN, two_log hN, sub_fin_fin, sub_fin_fin, exp_isLog ((isLog_fin _).add q1), exp_isLog ((isLog_fin _).add q3), expR_add (isLog_fin _) q1,
      expR_add (isLog_fin _) q3, q2, q4, expR_fin, expR_fin, sub_fin_fin]
    congr 1
    have e2 : Real.exp (2 * Real.log T - 2 * Real.log N) = T ^ 2 / N ^ 2 := by
      rw [Real.exp_sub, show (2 : ℝ) * Real.log T = Real.log (T ^ 2) by rw [Real.log_pow]; norm_num, show (2 : ℝ) * Real.log N = Real.log (N ^ 2) by rw [Real.log_pow]; norm_num, Real.exp_log (by positivity), Real.exp_log (by positivity)]
    have e3 : Real.exp (2 * Real.log T - 3 * Real.log N) = T ^ 2 / N ^ 3 := by
      rw [Real.exp_sub, show (2 : ℝ) * Real.log T = Real.log (T ^ 2) by rw [Real.log_pow]; norm_num, show (3 : ℝ) * Real.log N = Real.log (N ^ 3) by rw [Real.log_pow]; norm_num, Real.exp_log (by positivity), Real.exp_log (by positivity)]
    rw [e2, e3]
    field_simp
  · intro hle
    have cs := GW.Likelihood.cauchy_list w
    apply mul_nonneg (by positivity)
    rw [sub_nonneg, div_le_iff₀ hN]
    calc w.sum ^ 2 ≤ w.length * (w.map fun x => x ^ 2).sum := cs
      _ ≤ N * (w.map fun x => x ^ 2).sum := mul_le_mul_of_nonneg_right hle hq
      _ = (w.map fun x => x ^ 2).sum * N := by ring

/-- Non-vacuity: three injections, one with a NaN and one with a `-inf` model value. -/
example : ∀ p ∈ [fin 0, nan, ninf].zip [fin 1, fin 2, fin 3], p.1 - p.2 ≠ pinf := by simp

/-- If more injections are "found" than were generated the variance estimate can be negative: `N = 1`, two unit weights. -/
example : injectionVariance 1 1 [fin 0, fin 0] [fin 0, fin 0] = fin (-2) := by
  rw [(C12_variance 1 1 one_pos one_pos [fin 0, fin 0] [fin 0, fin 0] (by simp) [1, 1] (by simp)).1]
  norm_num

/-! ## C13 -/

/-- **C13.**  If every network input is among the caller's parameters, the network is given, for each of its inputs, the entry of that name — for every row, i.e. whatever permutation and subset of the caller's order the network uses. -/
theorem C13_columns (parameters names : List String) (batchSize : Option ℤ) (idx : List ℕ) (h : shuffleIndices parameters names batchSize = .ok idx) (x : String → XR) :
    takeColumns idx (parameters.map x) = names.map x ∧ ∀ n ∈ names, n ∈ parameters := by
  unfold shuffleIndices at h
  split_ifs at h with h1 h2 h3
  have hmem : ∀ n ∈ names, n ∈ parameters := by
    intro n hn
    by_contra hc
    apply h3
    simp only [List.any_eq_true]
    exact ⟨n, hn, by simpa using hc⟩
  simp only [Except.ok.injEq] at h
  subst h
  refine ⟨?_, hmem⟩
  rw [takeColumns, List.map_map]
  apply List.map_congr_left
  intro n hn
  have hlt := List.idxOf_lt_length_of_mem (hmem n hn)
  simp only [Function.comp]
  rw [List.getD_eq_getElem?_getD, List.getElem?_map, List.getElem?_eq_getElem hlt]
  simp

/-- **C13.**  Rejections: an empty parameter list, a batch size below one, or a network input that is not a parameter; nothing else. -/
theorem C13_rejects (parameters names : List String) (batchSize : Option ℤ) :
    (∃ e, shuffleIndices parameters names batchSize = .error e) ↔ parameters = [] ∨ (∃ b, batchSize = some b ∧ b < 1) ∨ ∃ n ∈ names, n ∉ parameters := by
  unfold shuffleIndices
  split_ifs with h1 h2 h3
  · simp [h1]
  · cases batchSize with
    | none => simp at h2
    | some b =>
      simp only [decide_eq_true_eq] at h2
      simp [h2]
  · simp only [List.any_eq_true] at h3
    obtain ⟨n, hn, hc⟩ := h3
    simp only [Except.error.injEq, exists_eq', true_iff]
    exact Or.inr (Or.inr ⟨n, hn, by simpa using hc⟩)
  · simp only [reduceCtorEq, exists_false, false_iff, not_or, not_exists, not_and, not_not]
    refine ⟨h1, ?_, ?_⟩
    · rintro b rfl hb
      simp [hb] at h2
    · intro n hn
      by_contra hc
      apply h3
      simp only [List.any_eq_true]
      exact ⟨n, hn, by simpa using hc⟩

example : shuffleIndices ["m1", "m2", "z"] ["z", "m1"] (some 5) = .ok [2, 0] := by decide +kernel

/-- **C13.**  The log detection probability is `-inf` for every non-positive (or `-inf`) network output, the log of the output for every positive one, and NaN only for a NaN output. -/
theorem C13_log_pdet (idx : List ℕ) (net : List XR → XR) (x : List XR) (y : XR) (hy : net (takeColumns idx x) = y) :
    (le y (fin 0) → logPdet idx net x = ninf) ∧ (∀ a : ℝ, y = fin a → 0 < a → logPdet idx net x = fin (Real.log a)) ∧ (logPdet idx net x = nan ↔ y = nan) := by
  have e : logPdet idx net x = select (decide (le y (fin 0))) ninf (log (select (decide (le y (fin 0))) (fin 1) y)) := by
    simp only [logPdet, hy]
  rw [e]
  refine ⟨?_, ?_, ?_⟩
  · intro h
    simp [h]
  · rintro a rfl ha
    have : ¬ a ≤ 0 := not_le.2 ha
    simp [this, ha]
  · cases y with
    | fin a =>
      by_cases h : a ≤ 0
      · simp [h]
      · push Not at h
        simp [not_le.2 h, h]
    | pinf =>
      have : ¬ le pinf (fin 0) := id
      simp [this]
    | ninf =>
      have : le ninf (fin 0) := trivial
      simp [this]
    | nan =>
      have : ¬ le nan (fin 0) := id
      simp [this]

/-- **C13.**  Expected rate of the neural VT estimator: `T · Σ_c R_c · (mean VT over the samples of component c)`, for finite log rates and log VT values finite or `-inf`. -/
theorem C13_vt_mean (T : ℝ) (num : ℕ) (hnum : 1 ≤ num) (comps : List (ℝ × List XR)) (h : ∀ c ∈ comps, c.2.length = num ∧ ∀ v ∈ c.2, IsLog v) :
    vtMean T num (comps.map fun c => (fin c.1, c.2)) = fin (T * (comps.map fun c => Real.exp c.1 * mean (c.2.map expR)).sum) := by
  have hn : (num : ℝ) ≠ 0 := by
    have : num ≠ 0 := by omega
    exact_mod_cast this
  have e1 : ((comps.map fun c => (fin c.1, c.2)).map fun c : XR × List XR => exp (c.1 + logsumexp c.2)) = (comps.map fun c => Real.exp c.1 * (c.2.map expR).sum).map fin := by
    rw [List.map_map, List.map_map]
    apply List.map_congr_left
    intro c hc
    simp only [Function.comp]
    rw [logsumexp_eq _ (h c hc).2, exp_isLog ((isLog_fin _).add (isLog_log_sum (sum_expR_nonneg _))), expR_add (isLog_fin _) (isLog_log_sum (sum_expR_nonneg _)), expR_log_fin (sum_expR_nonneg _), expR_fin]
  rw [vtMean, e1, sum_map_fin, div_fin_of_ne _ hn, mul_fin_fin]
  congr 1
  have e2 : (comps.map fun c => Real.exp c.1 * mean (c.2.map expR)) = comps.map fun c => (1 / (num : ℝ)) * (Real.exp c.1 * (c.2.map expR).sum) := by
    apply List.map_congr_left
    intro c hc
    rw [mean, List.length_map, (h c hc).1]
    ring
  rw [e2, List.sum_map_mul_left]
  ring

theorem term_eq {T : ℝ} (hT : 0 < T) {num : ℝ} (hn : 0 < num) (r : ℝ) (l : List XR) (hl : ∀ v ∈ l, IsLog v) :
    exp (fin 2 * log (fin T) - fin 2 * log (fin num) + fin 2 * fin r + logsumexp (l.map fun v => fin 2 * v)) - exp (fin 2 * log (fin T) - fin 3 * log (fin num) + fin 2 * fin r + fin 2 * logsumexp l) =
      fin (T ^ 2 / num ^ 2 * Real.exp r ^ 2 * (((l.map expR).map (· ^ 2)).sum - (l.map expR).sum ^ 2 / num)) := by
  have hs := sum_expR_nonneg l
  have hq := sq_sum_nonneg (l.map expR)
  have el : logsumexp (l.map fun v => fin 2 * v) = log (fin ((l.map expR).map (· ^ 2)).sum) := by
    rw [logsumexp_eq]
    · congr 3
      rw [List.map_map, List.map_map]
      apply List.map_congr_left
      intro a ha
      exact (two_mul_isLog (hl a ha)).2
    · intro x hx
      obtain ⟨a, ha, rfl⟩ := List.mem_map.1 hx
      exact (two_mul_isLog (hl a ha)).1
  obtain ⟨q1, q2⟩ := two_mul_log hs
  have q3 := isLog_log_sum hq
  have q4 := expR_log_fin hq
  rw [logsumexp_eq _ hl, el, two_log hT, two_log hn, two_log hn, sub_fin_fin, sub_fin_fin, mul_fin_fin, add_fin_fin, add_fin_fin, exp_isLog ((isLog_fin _).add q1), exp_isLog ((isLog_fin _).add q3),
    expR_add (isLog_fin _) q1, expR_add (isLog_fin _) q3, q2, q4, expR_fin, expR_fin, sub_fin_fin]
  congr 1
  have e2 : Real.exp (2 * Real.log T - 2 * Real.log num + 2 * r) = T ^ 2 / num ^ 2 * Real.exp r ^ 2 := by
    rw [Real.exp_add, Real.exp_sub, show (2 : ℝ) * Real.log T = Real.log (T ^ 2) by rw [Real.log_pow]; norm_num, show (2 : ℝ) * Real.log num = Real.log (num ^ 2) by rw [Real.log_pow]; norm_num, Real.exp_log (by positivity),
      Real.exp_log (by positivity), two_mul, Real.exp_add, ← sq]
  have e3 : Real.exp (2 * Real.log T - 3 * Real.log num + 2 * r) = T ^ 2 / num ^ 3 * Real.exp r ^ 2 := by
    rw [Real.exp_add, Real.exp_sub, show (2 : ℝ) * Real.log T = Real.log (T ^ 2) by rw [Real.log_pow]; norm_num, show (3 : ℝ) * Real.log num = Real.log (num ^ 3) by rw [Real.log_pow]; norm_num, Real.exp_log (by positivity),
      Real.exp_log (by positivity), two_mul r, Real.exp_add, ← sq]
  rw [e2, e3]
  field_simp

theorem term_nonneg {num : ℕ} (hn : 1 ≤ num) {w : List ℝ} (hw : w.length = num) (a : ℝ) (ha : 0 ≤ a) : 0 ≤ a * ((w.map (· ^ 2)).sum - w.sum ^ 2 / num) := by
  have cs := GW.Likelihood.cauchy_list w
  have : (0 : ℝ) < num := by exact_mod_cast (by omega : 0 < num)
  apply mul_nonneg ha
  rw [sub_nonneg, div_le_iff₀ this, ← hw]
  linarith [cs]

/-- **C13.**  The variance of the neural VT estimate: a sum over components of `(T R_c)² / n² · (Σ VT² - (Σ VT)² / n)`, never negative. -/
theorem C13_vt_variance (T : ℝ) (hT : 0 < T) (num : ℕ) (hnum : 1 ≤ num) (comps : List (ℝ × List XR)) (h : ∀ c ∈ comps, c.2.length = num ∧ ∀ v ∈ c.2, IsLog v) :
    ∃ v, vtVariance T num (comps.map fun c => (fin c.1, c.2)) = fin v ∧ 0 ≤ v ∧
      v = (comps.map fun c => T ^ 2 / (num : ℝ) ^ 2 * Real.exp c.1 ^ 2 * (((c.2.map expR).map (· ^ 2)).sum - (c.2.map expR).sum ^ 2 / num)).sum := by
  have hn : (0 : ℝ) < num := by exact_mod_cast (by omega : 0 < num)
  refine ⟨_, ?_, ?_, rfl⟩
  · rw [vtVariance, ← sum_map_fin, List.map_map, List.map_map]
    congr 1
    apply List.map_congr_left
    intro c hc
    simp only [Function.comp]
    exact term_eq hT hn c.1 c.2 (h c hc).2
  · apply List.sum_nonneg
    intro x hx
    obtain ⟨c, hc, rfl⟩ := List.mem_map.1 hx
    exact term_nonneg hnum (by rw [List.length_map, (h c hc).1]) _ (by positivity)

/-- The factor of a component: the norm of the first power-law redshift among its marginals, 1 if there is none. -/
theorem redshiftLogNorm_eq {ms : Option (List Marginal)} {z : ℝ}
    (hfound : ∀ before m after, ms = some (before ++ m :: after) → (∀ b ∈ before, b.cls ≠ "PowerlawRedshift") → m.cls = "PowerlawRedshift" → m.logNorm = fin z)
    (hnone : (∀ l, ms = some l → ∀ m ∈ l, m.cls ≠ "PowerlawRedshift") → z = 0) : redshiftLogNorm ms = fin z := by
  cases ms with
  | none => rw [redshiftLogNorm, hnone (by simp)]
  | some l =>
    rw [redshiftLogNorm]
    cases hf : l.find? fun m => decide (m.cls = "PowerlawRedshift") with
    | none =>
      rw [hnone]
      intro l' e m hmm hcl
      cases e
      exact absurd (by simpa using hcl) (by simpa using List.find?_eq_none.1 hf m hmm)
    | some m =>
      obtain ⟨hcl, before, after, rfl, hb⟩ := List.find?_eq_some_iff_append.1 hf
      exact hfound before m after rfl (fun b hbm => by simpa using hb b hbm) (by simpa using hcl)

/-- **C13.**  Expected rate of the neural detection-probability estimator: `T · Σ_c R_c Z_c · (mean p_det over the samples of component c)`, where `log Z_c` is the log norm of the first `PowerlawRedshift` marginal of the component and `0`
if there is none; the variance is `Σ_c (T R_c Z_c)² / n² · (Σ p_det² - (Σ p_det)² / n)`, never negative. -/
theorem C13_pdet (T : ℝ) (hT : 0 < T) (num : ℕ) (hnum : 1 ≤ num) (comps : List (ℝ × Option (List Marginal) × List XR)) (h : ∀ c ∈ comps, c.2.2.length = num ∧ ∀ v ∈ c.2.2, IsLog v)
    (z : Option (List Marginal) → ℝ)
    (hfound : ∀ c ∈ comps, ∀ before m after, c.2.1 = some (before ++ m :: after) → (∀ b ∈ before, b.cls ≠ "PowerlawRedshift") → m.cls = "PowerlawRedshift" → m.logNorm = fin (z c.2.1))
    (hnone : ∀ c ∈ comps, (∀ ms, c.2.1 = some ms → ∀ m ∈ ms, m.cls ≠ "PowerlawRedshift") → z c.2.1 = 0) :
    pdetMean T num (comps.map fun c => (fin c.1, c.2)) = fin (T * (comps.map fun c => Real.exp c.1 * Real.exp (z c.2.1) * mean (c.2.2.map expR)).sum) ∧
    ∃ v, pdetVariance T num (comps.map fun c => (fin c.1, c.2)) = fin v ∧ 0 ≤ v ∧
      v = (comps.map fun c => T ^ 2 / (num : ℝ) ^ 2 * (Real.exp c.1 * Real.exp (z c.2.1)) ^ 2 * (((c.2.2.map expR).map (· ^ 2)).sum - (c.2.2.map expR).sum ^ 2 / num)).sum := by
  have hz : ∀ c ∈ comps, redshiftLogNorm c.2.1 = fin (z c.2.1) := fun c hc => redshiftLogNorm_eq (hfound c hc) (hnone c hc)
  set comps' : List (ℝ × List XR) := comps.map fun c => (c.1 + z c.2.1, c.2.2) with hc'
  have h' : ∀ c ∈ comps', c.2.length = num ∧ ∀ v ∈ c.2, IsLog v := by
    intro c hc
    obtain ⟨p, hp, rfl⟩ := List.mem_map.1 hc
    exact h p hp
  constructor
  · have := C13_vt_mean T num hnum comps' h'
    have e : pdetMean T num (comps.map fun c => (fin c.1, c.2)) = vtMean T num (comps'.map fun c => (fin c.1, c.2)) := by
      rw [pdetMean, vtMean, hc', List.map_map, List.map_map, List.map_map]
      congr 2
      apply List.map_congr_left
      intro c hc
      simp only [Function.comp]
      rw [hz c hc, add_fin_fin]
    rw [e, this, hc', List.map_map]
    congr 3
    apply List.map_congr_left
    intro c _
    simp only [Function.comp]
    rw [Real.exp_add]
  · obtain ⟨v, hv, h0, hval⟩ := C13_vt_variance T hT num hnum comps' h'
    refine ⟨v, ?_, h0, by rw [hval, hc', List.map_map]; congr 1; apply List.map_congr_left; intro c _; simp only [Function.comp]; rw [Real.exp_add]⟩
    rw [← hv, pdetVariance, vtVariance, hc', List.map_map, List.map_map, List.map_map]
    congr 1
    apply List.map_congr_left
    intro c hc
    simp only [Function.comp]
    rw [hz c hc]
    have e1 : ∀ a : ℝ, fin a + fin 2 * fin c.1 + fin 2 * fin (z c.2.1) = fin a + fin 2 * fin (c.1 + z c.2.1) := by
      intro a
      simp only [mul_fin_fin, add_fin_fin]
      congr 1
      ring
    have hn : (0 : ℝ) < num := by exact_mod_cast (by omega : 0 < num)
    rw [two_log hT, two_log hn, two_log hn, sub_fin_fin, sub_fin_fin, e1, e1]

/-- Non-vacuity: one component with rate `1`, a power-law redshift with log norm `2` and two samples. -/
example : pdetMean 1 2 [(fin 0, some [⟨"Uniform", nan⟩, ⟨"PowerlawRedshift", fin 2⟩], [fin 0, ninf])] = fin (1 * (Real.exp 0 * Real.exp 2 * mean [1, 0])) := by
  have := (C13_pdet 1 one_pos 2 (by norm_num) [(0, some [⟨"Uniform", nan⟩, ⟨"PowerlawRedshift", fin 2⟩], [fin 0, ninf])] (by simp [IsLog]) (fun _ => 2) (by
    intro c hc before m after e hb hm
    rw [List.mem_singleton] at hc
    subst hc
    match before, e with
    | [], e => simp at e; simp [← e.1] at hm
    | [_], e => simp at e; simp [← e.2.1]
    | _ :: _ :: _, e => simp at e) (by
    intro c hc hno
    rw [List.mem_singleton] at hc
    subst hc
    exact absurd rfl (hno _ rfl ⟨"PowerlawRedshift", fin 2⟩ (by simp)))).1
  simpa using this

/-- **C13, the Madau–Dickinson redshift is not normalised.**  For a component whose redshift marginal is `MadauDickinsonRedshift` (whose `log_prob` is just as unnormalised as that of `PowerlawRedshift`) the factor `Z` is missing: the
estimated rate does not depend on the norm at all. -/
theorem C13_madau_violated (T : ℝ) (num : ℕ) (r : ℝ) (logZ : XR) (vals : List XR) :
    pdetMean T num [(fin r, some [⟨"MadauDickinsonRedshift", logZ⟩], vals)] = pdetMean T num [(fin r, none, vals)] := by
  simp [pdetMean, redshiftLogNorm]

end GW.PoissonMean
