import Verif.Model.Analytic
import Verif.Spec.Analytic
import Verif.Lemmas.XR
import Verif.Lemmas.XRMath
import Verif.Props.VarianceCut
import Mathlib.LinearAlgebra.Matrix.Block
import Mathlib.MeasureTheory.Measure.Lebesgue.EqHaar
import Mathlib.MeasureTheory.Integral.Bochner.Basic
import Mathlib.MeasureTheory.Integral.Bochner.ContinuousLinearMap
import Mathlib.MeasureTheory.Group.Integral

/-!
# C10, C11: streaming Monte-Carlo estimates and the adaptive loop
-/

namespace GW.Analytic
open GW XR
open scoped Classical

/-! ## Helpers -/

theorem filter_sum (g : XR → ℝ) (hg : g ninf = 0) (l : List XR) : ((l.filter fun x => !x.isNegInf).map g).sum = (l.map g).sum := by
  induction l with
  | nil => rfl
  | cons x l ih => cases x <;> simp_all

theorem two_mul_isLog {x : XR} (h : IsLog x) : IsLog (fin 2 * x) ∧ expR (fin 2 * x) = expR x ^ 2 := by
  rcases h.cases with e | ⟨a, e⟩ <;> subst e
  · have : fin 2 * (ninf : XR) = ninf := by
      have : fin 2 * (ninf : XR) = neg (mulInf 2) := rfl
      rw [this, mulInf, if_pos (by norm_num)]
      rfl
    rw [this]
    simp [isLog_ninf]
  · refine ⟨isLog_fin _, ?_⟩
    rw [mul_fin_fin, expR_fin, expR_fin, two_mul, Real.exp_add, sq]

theorem lse_masked {l : List XR} (h : ∀ x ∈ l, IsLog x) : logsumexpWhere (l.map fun a => (a, !a.isNegInf)) = log (fin (l.map expR).sum) := by
  rw [logsumexpWhere_eq]
  · rw [List.filter_map, List.map_map]
    have := filter_sum expR rfl l
    rw [← this]
    rfl
  · intro p hp _
    obtain ⟨x, hx, rfl⟩ := List.mem_map.1 hp
    exact h x hx

theorem lse_masked_sq {l : List XR} (h : ∀ x ∈ l, IsLog x) : logsumexpWhere (l.map fun a => (fin 2 * a, !a.isNegInf)) = log (fin ((l.map expR).map (· ^ 2)).sum) := by
  rw [logsumexpWhere_eq]
  · rw [List.filter_map, List.map_map, List.map_map]
    have e : ((l.filter fun x => !x.isNegInf).map ((fun p : XR × Bool => expR p.1) ∘ fun a => (fin 2 * a, !a.isNegInf))) = (l.filter fun x => !x.isNegInf).map fun a => expR a ^ 2 := by
      apply List.map_congr_left
      intro a ha
      exact (two_mul_isLog (h a (List.mem_filter.1 ha).1)).2
    have := filter_sum (fun a => expR a ^ 2) (by simp) l
    rw [show ((fun x => x ^ 2) ∘ expR) = fun a => expR a ^ 2 from rfl, ← this, ← e]
    rfl
  · intro p hp _
    obtain ⟨x, hx, rfl⟩ := List.mem_map.1 hp
    exact (two_mul_isLog (h x hx)).1

/-- `exp(log x) = x` on non-negative numbers. -/
theorem exp_log_fin {a : ℝ} (h : 0 ≤ a) : exp (log (fin a)) = fin a := by
  rcases h.eq_or_lt with k | k
  · rw [← k]
    simp
  · rw [log_fin_pos k, exp_fin, Real.exp_log k]

theorem expR_log_fin {a : ℝ} (h : 0 ≤ a) : expR (log (fin a)) = a := by
  rcases h.eq_or_lt with k | k
  · rw [← k]
    simp
  · rw [log_fin_pos k, expR_fin, Real.exp_log k]

theorem log_sub_log {a b : ℝ} (ha : 0 ≤ a) (hb : 0 < b) : log (fin a) - log (fin b) = log (fin (a / b)) := by
  rcases ha.eq_or_lt with k | k
  · rw [← k, log_fin_zero, log_fin_pos hb, zero_div, log_fin_zero]
    rfl
  · rw [log_fin_pos k, log_fin_pos hb, log_fin_pos (div_pos k hb), sub_fin_fin, Real.log_div k.ne' hb.ne']

theorem log_add_log {a b : ℝ} (ha : 0 ≤ a) (hb : 0 ≤ b) : log (fin a) + log (fin b) = log (fin (a * b)) := by
  rcases ha.eq_or_lt with k | k
  · rw [← k, log_fin_zero, zero_mul, log_fin_zero]
    rcases hb.eq_or_lt with q | q
    · rw [← q]
      simp
    · rw [log_fin_pos q]
      rfl
  · rcases hb.eq_or_lt with q | q
    · rw [← q, log_fin_pos k, mul_zero, log_fin_zero]
      rfl
    · rw [log_fin_pos k, log_fin_pos q, log_fin_pos (mul_pos k q), add_fin_fin, Real.log_mul k.ne' q.ne']

theorem exp_two_log {a : ℝ} (ha : 0 ≤ a) : exp (fin 2 * log (fin a)) = fin (a ^ 2) := by
  rcases ha.eq_or_lt with k | k
  · have : fin 2 * (ninf : XR) = ninf := by
      have : fin 2 * (ninf : XR) = neg (mulInf 2) := rfl
      rw [this, mulInf, if_pos (by norm_num)]
      rfl
    rw [← k, log_fin_zero, this, exp_ninf]
    norm_num
  · rw [log_fin_pos k, mul_fin_fin, exp_fin, two_mul, Real.exp_add, Real.exp_log k, sq]

theorem logaddexp_log {a b : ℝ} (ha : 0 ≤ a) (hb : 0 ≤ b) : logaddexp (log (fin a)) (log (fin b)) = log (fin (a + b)) := by
  rcases ha.eq_or_lt with k | k
  · rw [← k, log_fin_zero, zero_add]
    rcases hb.eq_or_lt with q | q
    · rw [← q, log_fin_zero]
      rfl
    · rw [log_fin_pos q]
      have e1 : (ninf : XR) - fin (Real.log b) = ninf := rfl
      have e2 : -(XR.abs ninf) = ninf := rfl
      have e3 : XR.max ninf (fin (Real.log b)) = fin (Real.log b) := rfl
      simp only [logaddexp, e1, isNan_ninf, Bool.false_eq_true, if_false, e2, e3, exp_ninf]
      rw [log1p_fin (by norm_num), add_fin_fin]
      norm_num
  · rcases hb.eq_or_lt with q | q
    · rw [← q, log_fin_zero, add_zero, log_fin_pos k]
      have e1 : fin (Real.log a) - (ninf : XR) = pinf := rfl
      have e2 : -(XR.abs pinf) = ninf := rfl
      have e3 : XR.max (fin (Real.log a)) ninf = fin (Real.log a) := rfl
      simp only [logaddexp, e1, isNan_pinf, Bool.false_eq_true, if_false, e2, e3, exp_ninf]
      rw [log1p_fin (by norm_num), add_fin_fin]
      norm_num
    · rw [log_fin_pos k, log_fin_pos q, logaddexp_fin, Real.exp_log k, Real.exp_log q, log_fin_pos (by linarith)]

/-! ## C10 -/

/-- `s` summarises the draws with weights `w`: the log of their mean, the estimated variance of the mean, their number; before any draw: `-inf`, `0`, `0`. -/
def Summarises (w : List ℝ) (e v : XR) (N : ℝ) : Prop :=
  N = w.length ∧ (if w = [] then e = ninf ∧ v = fin 0 else e = log (fin (mean w)) ∧ v = fin (varOfMean w))

/-- **C10.**  One batch of `N ≥ 2` log weights (finite or `-inf`): the returned pair is the log of the mean weight (`-inf` if all weights are zero) and the estimated variance of the mean, which is not negative. -/
theorem C10_batch (l : List XR) (hl : ∀ x ∈ l, IsLog x) (hn : 2 ≤ l.length) :
    batchEstimate l l.length = (log (fin (mean (l.map expR))), fin (varOfMean (l.map expR))) ∧ 0 ≤ mean (l.map expR) ∧ 0 ≤ varOfMean (l.map expR) := by
  have hN : (0 : ℝ) < l.length := by
    have : 0 < l.length := by omega
    exact_mod_cast this
  have hN1 : (0 : ℝ) < (l.length : ℝ) - 1 := by
    have : (2 : ℝ) ≤ l.length := by exact_mod_cast hn
    linarith
  have hs : 0 ≤ (l.map expR).sum := sum_expR_nonneg l
  have hq : 0 ≤ ((l.map expR).map (· ^ 2)).sum := by
    apply List.sum_nonneg
    intro x hx
    obtain ⟨y, -, rfl⟩ := List.mem_map.1 hx
    positivity
  have hlen : (l.map expR).length = l.length := List.length_map _
  refine ⟨?_, ?_, ?_⟩
  · unfold batchEstimate
    simp only []
    rw [lse_masked hl, lse_masked_sq hl, log_sub_log hs hN, exp_log_fin hq, div_fin_of_ne _ hN.ne', exp_two_log (div_nonneg hs hN.le), sub_fin_fin, sub_fin_fin, div_fin_of_ne _ hN1.ne']
    simp only [mean, varOfMean, hlen]
  · exact div_nonneg hs (by rw [hlen]; exact hN.le)
  · apply div_nonneg _ (by rw [hlen]; exact hN1.le)
    rw [mean, hlen]
    set w := l.map expR
    have cs := GW.Likelihood.cauchy_list w
    rw [hlen] at cs
    rw [sub_nonneg, div_pow, div_le_div_iff₀ (by positivity) hN]
    have : w.sum ^ 2 * (l.length : ℝ) ≤ l.length * (w.map fun x => x ^ 2).sum * l.length := mul_le_mul_of_nonneg_right cs hN.le
    calc w.sum ^ 2 * (l.length : ℝ) ≤ l.length * (w.map fun x => x ^ 2).sum * l.length := this
      _ = (w.map fun x => x ^ 2).sum * (l.length : ℝ) ^ 2 := by ring

/-- The number of draws from which a variance of the mean can be formed: none at all, or at least two. -/
theorem sum_of_mean {w : List ℝ} (h : w ≠ []) : (w.length : ℝ) * mean w = w.sum := by
  have : (w.length : ℝ) ≠ 0 := by simpa using h
  rw [mean]
  field_simp

theorem sumsq_of_var {w : List ℝ} (h : 2 ≤ w.length) : (w.length : ℝ) * ((w.length - 1) * varOfMean w + mean w ^ 2) = (w.map (· ^ 2)).sum := by
  have h1 : (2 : ℝ) ≤ w.length := by exact_mod_cast h
  have h2 : (w.length : ℝ) ≠ 0 := by linarith
  have h3 : (w.length : ℝ) - 1 ≠ 0 := by linarith
  rw [varOfMean, mul_div_cancel₀ _ h3]
  field_simp
  ring

theorem mean_nonneg {w : List ℝ} (h : ∀ x ∈ w, 0 ≤ x) : 0 ≤ mean w := div_nonneg (List.sum_nonneg h) (Nat.cast_nonneg _)

/-- **C10.**  Combining: if one pair summarises the draws `u` (none yet, or at least two) and another the draws `v` (at least two), the combined pair summarises `u ++ v`: it is the log mean and the variance of the mean of all draws
pooled, whatever the sizes and even if all weights so far are zero. -/
theorem C10_combine (u v : List ℝ) (hu0 : ∀ x ∈ u, 0 ≤ x) (hv0 : ∀ x ∈ v, 0 ≤ x) (hu : u = [] ∨ 2 ≤ u.length) (hv : 2 ≤ v.length) (e1 e2 v1 v2 : XR) (N1 N2 : ℝ) (h1 : Summarises u e1 v1 N1) (h2 : Summarises v e2 v2 N2) :
    Summarises (u ++ v) (combineLogEstimates e1 e2 N1 N2) (combineErrorsSq v1 v2 e1 e2 (combineLogEstimates e1 e2 N1 N2) N1 N2) (N1 + N2) := by
  obtain ⟨rfl, h1⟩ := h1
  obtain ⟨rfl, h2⟩ := h2
  have hvne : v ≠ [] := by
    rintro rfl
    simp at hv
  rw [if_neg hvne] at h2
  obtain ⟨rfl, rfl⟩ := h2
  have hv' : (2 : ℝ) ≤ v.length := by exact_mod_cast hv
  have hu' : (0 : ℝ) ≤ u.length := Nat.cast_nonneg _
  have hne : u ++ v ≠ [] := by simp [hvne]
  have mv := mean_nonneg hv0
  have muv : 0 ≤ mean (u ++ v) := mean_nonneg fun x hx => (List.mem_append.1 hx).elim (hu0 x) (hv0 x)
  have hlen : ((u ++ v).length : ℝ) = u.length + v.length := by simp
  -- the two log terms
  have t1 : log (fin (u.length : ℝ)) + e1 = log (fin u.sum) ∧ fin (u.length : ℝ) * ((fin (u.length : ℝ) - fin 1) * v1 + exp (fin 2 * e1)) = fin (u.map (· ^ 2)).sum := by
    rcases hu with rfl | hu
    · rw [if_pos rfl] at h1
      obtain ⟨rfl, rfl⟩ := h1
      have := exp_two_log (a := 0) le_rfl
      rw [log_fin_zero] at this
      simp [this]
    · have une : u ≠ [] := by
        rintro rfl
        simp at hu
      rw [if_neg une] at h1
      obtain ⟨rfl, rfl⟩ := h1
      have mu := mean_nonneg hu0
      rw [log_add_log hu' mu, sum_of_mean une, exp_two_log mu, sub_fin_fin, mul_fin_fin, add_fin_fin, mul_fin_fin, sumsq_of_var hu]
      exact ⟨rfl, rfl⟩
  have t2 : log (fin (v.length : ℝ)) + log (fin (mean v)) = log (fin v.sum) := by rw [log_add_log (by linarith) mv, sum_of_mean hvne]
  have us : 0 ≤ u.sum := List.sum_nonneg hu0
  have vs : 0 ≤ v.sum := List.sum_nonneg hv0
  have c3 : combineLogEstimates e1 (log (fin (mean v))) u.length v.length = log (fin (mean (u ++ v))) := by
    rw [combineLogEstimates, t1.1, t2, logaddexp_log us vs, add_fin_fin, log_sub_log (by linarith) (by linarith), mean, List.sum_append, hlen]
  refine ⟨hlen.symm, ?_⟩
  rw [if_neg hne, c3]
  refine ⟨rfl, ?_⟩
  unfold combineErrorsSq
  simp only []
  rw [t1.2, exp_two_log mv, exp_two_log muv, sub_fin_fin, mul_fin_fin, add_fin_fin, add_fin_fin, mul_fin_fin, sumsq_of_var hv, add_fin_fin, sub_fin_fin, neg_fin, div_fin_of_ne _ (by linarith), div_fin_of_ne _ (by linarith),
    div_fin_of_ne _ (by linarith), add_fin_fin]
  congr 1
  rw [varOfMean, List.map_append, List.sum_append, hlen]
  ring

/-- The running state after absorbing one more batch (the combine calls of the loop body), for batches of any sizes. -/
noncomputable def absorb (s : XR × XR × ℝ) (batch : List XR) : XR × XR × ℝ :=
  let b := batchEstimate batch batch.length
  let e3 := combineLogEstimates s.1 b.1 s.2.2 batch.length
  (e3, combineErrorsSq s.2.1 b.2 s.1 b.1 e3 s.2.2 batch.length, s.2.2 + batch.length)

/-- **C10.**  Streaming: starting from the empty state and absorbing any number of batches, each of any size at least two, gives exactly the log mean and the variance of the mean of all draws pooled together. -/
theorem C10_stream (batches : List (List XR)) (hl : ∀ b ∈ batches, 2 ≤ b.length ∧ ∀ x ∈ b, IsLog x) :
    Summarises (batches.flatten.map expR) (batches.foldl absorb (ninf, fin 0, 0)).1 (batches.foldl absorb (ninf, fin 0, 0)).2.1 (batches.foldl absorb (ninf, fin 0, 0)).2.2 := by
  have key : ∀ (bs : List (List XR)) (u : List ℝ) (s : XR × XR × ℝ), (∀ b ∈ bs, 2 ≤ b.length ∧ ∀ x ∈ b, IsLog x) → (∀ x ∈ u, 0 ≤ x) → (u = [] ∨ 2 ≤ u.length) → Summarises u s.1 s.2.1 s.2.2 →
      Summarises (u ++ bs.flatten.map expR) (bs.foldl absorb s).1 (bs.foldl absorb s).2.1 (bs.foldl absorb s).2.2 := by
    intro bs
    induction bs with
    | nil =>
      intro u s _ _ _ h
      simpa using h
    | cons b bs ih =>
      intro u s hb u0 hu h
      obtain ⟨hb2, hbl⟩ := hb b (by simp)
      obtain ⟨e, m0, -⟩ := C10_batch b hbl hb2
      have w0 : ∀ x ∈ b.map expR, 0 ≤ x := by
        intro x hx
        obtain ⟨y, -, rfl⟩ := List.mem_map.1 hx
        exact expR_nonneg y
      have hs : Summarises (b.map expR) (batchEstimate b b.length).1 (batchEstimate b b.length).2 b.length := by
        refine ⟨by simp, ?_⟩
        rw [if_neg (by
          intro hnil
          have : b = [] := by simpa using hnil
          subst this
          simp at hb2), e]
        exact ⟨rfl, rfl⟩
      have hc := C10_combine u (b.map expR) u0 w0 hu (by simpa using hb2) _ _ _ _ _ _ h hs
      have := ih (u ++ b.map expR) (absorb s b) (fun c hc => hb c (by simp [hc])) (by
        intro x hx
        exact (List.mem_append.1 hx).elim (u0 x) (w0 x)) (Or.inr (by simp; omega)) hc
      simpa [List.append_assoc] using this
  have := key batches [] (ninf, fin 0, 0) hl (by simp) (Or.inl rfl) ⟨by simp, by simp⟩
  simpa using this

/-- Non-vacuity: a batch with a zero weight followed by a batch of zero weights. -/
example : ∀ b ∈ [[fin 0, ninf, fin 1], [ninf, ninf]], 2 ≤ b.length ∧ ∀ x ∈ b, IsLog x := by simp [IsLog]

/-- **C10, violated for one-draw batches.**  With `n_samples = 1` the variance of every batch is NaN (zero over zero) and stays NaN: the claim "any sizes" needs batches of at least two draws. -/
theorem C10_single_draw_violated (e v x N : ℝ) : (absorb (fin e, fin v, N) [fin x]).2.1 = nan := by
  have hb : (batchEstimate [fin x] 1).2 = nan := by
    have h1 := lse_masked (l := [fin x]) (by simp [isLog_fin])
    have h2 := lse_masked_sq (l := [fin x]) (by simp [isLog_fin])
    have hp := Real.exp_pos x
    unfold batchEstimate
    simp only []
    rw [h1, h2]
    simp only [List.map_cons, List.map_nil, expR_fin, List.sum_cons, List.sum_nil, add_zero]
    rw [log_sub_log hp.le one_pos, div_one, exp_log_fin (by positivity), div_fin_of_ne _ one_ne_zero, div_one, exp_two_log hp.le, sub_fin_fin, sub_fin_fin, sub_self, sub_self, div_fin_fin]
    simp [mulInf]
  simp only [absorb, List.length_cons, List.length_nil, zero_add, Nat.cast_one, combineErrorsSq, hb]
  simp only [mul_nan, nan_add, add_nan]
  have hd : ∀ y : XR, nan / y = nan := by intro y; cases y <;> rfl
  simp only [hd, add_nan]

/-! ## C11 -/

/-- The key of the `j`-th batch of an event (from `0`), and the key carried into it. -/
def carried (k : Key) : ℕ → Key
  | 0 => k
  | j + 1 => Key.sub (carried k j) 0

def batchKey (k : Key) (j : ℕ) : Key := Key.sub (carried k j) 1

/-- The state after `j` batches. -/
noncomputable def after (n : ℕ) (draw : Key → List XR) (k : Key) (j : ℕ) : State := (body n draw)^[j] (State.init k)

theorem after_key (n : ℕ) (draw : Key → List XR) (k : Key) (j : ℕ) : (after n draw k j).key = carried k j := by
  induction j with
  | zero => rfl
  | succ j ih =>
    rw [after, Function.iterate_succ_apply', ← after, carried, ← ih]
    rfl

theorem after_absorb (n : ℕ) (draw : Key → List XR) (k : Key) (hd : ∀ c, (draw c).length = n) (j : ℕ) :
    ((after n draw k j).logEst, (after n draw k j).errSq, (after n draw k j).N) = ((List.range j).map fun i => draw (batchKey k i)).foldl absorb (ninf, fin 0, 0) := by
  induction j with
  | zero => rfl
  | succ j ih =>
    rw [List.range_succ, List.map_append, List.foldl_append, ← ih, after, Function.iterate_succ_apply', ← after]
    have hk : Key.sub (after n draw k j).key 1 = batchKey k j := by rw [after_key, batchKey]
    simp only [List.map_cons, List.map_nil, List.foldl_cons, List.foldl_nil, absorb, body, hk, hd]

theorem whileLoop_spec {σ : Type} (cond : σ → Bool) (f : σ → σ) (m : ℕ) (s : σ) :
    ∃ j ≤ m, whileLoop cond f m s = f^[j] s ∧ (∀ i < j, cond (f^[i] s) = true) ∧ (j < m → cond (f^[j] s) = false) := by
  induction m generalizing s with
  | zero => exact ⟨0, le_rfl, rfl, by simp, by simp⟩
  | succ m ih =>
    by_cases h : cond s = true
    · obtain ⟨j, hj, e, h1, h2⟩ := ih (f s)
      refine ⟨j + 1, by omega, ?_, ?_, ?_⟩
      · rw [whileLoop, if_pos h, e, Function.iterate_succ_apply]
      · intro i hi
        cases i with
        | zero => exact h
        | succ i =>
          rw [Function.iterate_succ_apply]
          exact h1 i (by omega)
      · intro hlt
        rw [Function.iterate_succ_apply]
        exact h2 (by omega)
    · refine ⟨0, by omega, ?_, by simp, ?_⟩
      · rw [whileLoop, if_neg h]
        rfl
      · intro _
        simpa using h

/-- The batches an event draws: number `0, …, b - 1`. -/
theorem runEvent_spec (n nMax : ℕ) (hn : 1 ≤ nMax) (minErr : ℝ) (draw : Key → List XR) (k : Key) :
    ∃ b, 1 ≤ b ∧ b ≤ nMax ∧ runEvent n nMax minErr draw k = after n draw k b ∧ (∀ i, 1 ≤ i → i < b → le (after n draw k i).errSq (fin (minErr ^ 2))) ∧
      (b < nMax → ¬ le (after n draw k b).errSq (fin (minErr ^ 2))) := by
  obtain ⟨j, hj, e, h1, h2⟩ := whileLoop_spec (loopCond (minErr ^ 2)) (body n draw) (nMax - 1) (body n draw (State.init k))
  have it : ∀ i, (body n draw)^[i] (body n draw (State.init k)) = after n draw k (i + 1) := fun i => by rw [after, Function.iterate_succ_apply]
  refine ⟨j + 1, by omega, by omega, ?_, ?_, ?_⟩
  · rw [runEvent, e, it]
  · intro i hi hlt
    obtain ⟨i, rfl⟩ : ∃ i', i = i' + 1 := ⟨i - 1, by omega⟩
    have := h1 i (by omega)
    rw [it] at this
    simpa [loopCond] using this
  · intro hlt
    have := h2 (by omega)
    rw [it] at this
    simpa [loopCond] using this

/-- **C11 (bound and pooled estimate).**  For every stream of draws, error target and step limit `n_max_steps ≥ 1`, the loop of an event draws between one and `n_max_steps` batches, and returns the log of the mean weight — and the
variance of that mean — of exactly the draws of these batches, pooled. Missing from the full property: that it stops early only when the error target is met (false, see below). -/
theorem C11_pooled_partial (n nMax : ℕ) (hn : 2 ≤ n) (hmax : 1 ≤ nMax) (minErr : ℝ) (draw : Key → List XR) (hd : ∀ c, (draw c).length = n ∧ ∀ x ∈ draw c, IsLog x) (k : Key) :
    ∃ b, 1 ≤ b ∧ b ≤ nMax ∧ ∃ w, w = ((List.range b).map fun i => (draw (batchKey k i)).map expR).flatten ∧ w.length = b * n ∧
      (runEvent n nMax minErr draw k).logEst = log (fin (mean w)) ∧ (runEvent n nMax minErr draw k).errSq = fin (varOfMean w) ∧ (runEvent n nMax minErr draw k).N = b * n := by
  obtain ⟨b, hb1, hb2, e, -, -⟩ := runEvent_spec n nMax hmax minErr draw k
  have hs := C10_stream ((List.range b).map fun i => draw (batchKey k i)) (by
    intro x hx
    obtain ⟨i, -, rfl⟩ := List.mem_map.1 hx
    exact ⟨by rw [(hd _).1]; exact hn, (hd _).2⟩)
  rw [← after_absorb n draw k (fun c => (hd c).1), ← e] at hs
  have ew : (((List.range b).map fun i => draw (batchKey k i)).flatten.map expR) = ((List.range b).map fun i => (draw (batchKey k i)).map expR).flatten := by
    rw [List.map_flatten, List.map_map]
    rfl
  have hlen : (((List.range b).map fun i => (draw (batchKey k i)).map expR).flatten).length = b * n := by
    rw [List.length_flatten, List.map_map]
    have : (List.length ∘ fun i => (draw (batchKey k i)).map expR) = fun _ => n := by
      funext i
      simp [(hd _).1]
    rw [this]
    simp
  rw [ew] at hs
  obtain ⟨h1, h2⟩ := hs
  rw [hlen] at h1
  rw [if_neg (by
    intro hnil
    rw [hnil] at hlen
    have : 0 < b * n := Nat.mul_pos (by omega) (by omega)
    simp at hlen
    omega)] at h2
  refine ⟨b, hb1, hb2, _, rfl, hlen, h2.1, h2.2, ?_⟩
  refine Eq.trans h1 ?_
  push_cast
  rfl

/-- The weights of the first `i` batches of an event, pooled. -/
noncomputable def pool (draw : Key → List XR) (k : Key) (i : ℕ) : List ℝ := ((List.range i).map fun j => (draw (batchKey k j)).map expR).flatten

/-- **C11 (exit condition inverted).**  For every stream of draws, the loop of an event goes on as long as the estimated squared error of the draws so far is at or *below* the requested minimum and stops at the first batch after which
it is *above* it (or after `n_max_steps` batches) — the opposite of the documented stopping rule. -/
theorem C11_exit_violated (n nMax : ℕ) (hn : 2 ≤ n) (hmax : 1 ≤ nMax) (minErr : ℝ) (draw : Key → List XR) (hd : ∀ c, (draw c).length = n ∧ ∀ x ∈ draw c, IsLog x) (k : Key) :
    ∃ b, 1 ≤ b ∧ b ≤ nMax ∧ (runEvent n nMax minErr draw k).N = b * n ∧ (∀ i, 1 ≤ i → i < b → varOfMean (pool draw k i) ≤ minErr ^ 2) ∧ (b < nMax → minErr ^ 2 < varOfMean (pool draw k b)) := by
  obtain ⟨b, hb1, hb2, e, h1, h2⟩ := runEvent_spec n nMax hmax minErr draw k
  have hs : ∀ i, 1 ≤ i → (after n draw k i).errSq = fin (varOfMean (pool draw k i)) ∧ (after n draw k i).N = i * n := by
    intro i hi
    have hs := C10_stream ((List.range i).map fun j => draw (batchKey k j)) (by
      intro x hx
      obtain ⟨i, -, rfl⟩ := List.mem_map.1 hx
      exact ⟨by rw [(hd _).1]; exact hn, (hd _).2⟩)
    rw [← after_absorb n draw k (fun c => (hd c).1)] at hs
    have ew : (((List.range i).map fun j => draw (batchKey k j)).flatten.map expR) = pool draw k i := by
      rw [pool, List.map_flatten, List.map_map]
      rfl
    have hlen : (pool draw k i).length = i * n := by
      rw [pool, List.length_flatten, List.map_map]
      have : (List.length ∘ fun j => (draw (batchKey k j)).map expR) = fun _ => n := by
        funext i
        simp [(hd _).1]
      rw [this]
      simp
    rw [ew] at hs
    obtain ⟨k1, k2⟩ := hs
    rw [if_neg (by
      intro hnil
      rw [hnil] at hlen
      have : 0 < i * n := Nat.mul_pos (by omega) (by omega)
      simp at hlen
      omega)] at k2
    refine ⟨k2.2, Eq.trans k1 ?_⟩
    rw [hlen]
    push_cast
    rfl
  refine ⟨b, hb1, hb2, ?_, ?_, ?_⟩
  · rw [e, (hs b hb1).2]
  · intro i hi hlt
    have := h1 i hi hlt
    rw [(hs i hi).1] at this
    simpa using this
  · intro hlt
    have := h2 hlt
    rw [(hs b hb1).1] at this
    simpa using this

/-- A stream of draws with weights `1` and `3` in every batch. -/
noncomputable def demoDraw (_ : Key) : List XR := [fin 0, fin (Real.log 3)]

/-- Concrete instance: weights `1, 3`, target `0.01`, up to 20 batches.  The first batch has squared error `1 > 10⁻⁴`, and the loop stops there, with the target missed by four orders of magnitude. -/
example : (runEvent 2 20 0.01 demoDraw (Key.seed 0)).N = 2 ∧ (runEvent 2 20 0.01 demoDraw (Key.seed 0)).errSq = fin 1 := by
  have hd : ∀ c, (demoDraw c).length = 2 ∧ ∀ x ∈ demoDraw c, IsLog x := by
    intro c
    simp [demoDraw, isLog_fin]
  have h1 := after_absorb 2 demoDraw (Key.seed 0) (fun c => (hd c).1) 1
  have h2 := C10_stream [demoDraw (batchKey (Key.seed 0) 0)] (by simp [demoDraw, isLog_fin])
  rw [show [demoDraw (batchKey (Key.seed 0) 0)] = (List.range 1).map fun i => demoDraw (batchKey (Key.seed 0) i) from rfl, ← h1] at h2
  obtain ⟨hN, hS⟩ := h2
  have hv : (after 2 demoDraw (Key.seed 0) 1).errSq = fin 1 := by
    rw [if_neg (by simp [demoDraw])] at hS
    refine Eq.trans hS.2 ?_
    simp only [demoDraw, varOfMean, mean, List.range_one, List.map_cons, List.map_nil, List.flatten_cons, List.flatten_nil, List.append_nil, expR_fin, Real.exp_zero, Real.exp_log (by norm_num : (0 : ℝ) < 3), List.sum_cons,
      List.sum_nil, List.length_cons, List.length_nil]
    norm_num
  have e : runEvent 2 20 0.01 demoDraw (Key.seed 0) = after 2 demoDraw (Key.seed 0) 1 := by
    have hc : loopCond (0.01 ^ 2) (body 2 demoDraw (State.init (Key.seed 0))) = false := by
      have : body 2 demoDraw (State.init (Key.seed 0)) = after 2 demoDraw (Key.seed 0) 1 := rfl
      rw [this, loopCond, hv]
      simp
      norm_num
    rw [runEvent, whileLoop, hc]
    rfl
  rw [e]
  refine ⟨?_, hv⟩
  refine Eq.trans hN ?_
  simp [demoDraw]

/-- **C11.**  No two batches — of the same event or of different events — use the same key. -/
theorem C11_keys (key : Key) (i i' j j' : ℕ) (h : batchKey (Key.sub key i) j = batchKey (Key.sub key i') j') : i = i' ∧ j = j' := by
  have depth : ∀ (k k' : Key) (j j' : ℕ), carried k j = carried k' j' → j ≤ j' → k = carried k' (j' - j) := by
    intro k k' j
    induction j with
    | zero =>
      intro j' h _
      exact h
    | succ j ih =>
      intro j' h hle
      obtain ⟨m, rfl⟩ : ∃ m, j' = m + 1 := ⟨j' - 1, by omega⟩
      simp only [carried, Key.sub.injEq, and_true] at h
      have := ih m h (by omega)
      rwa [show m + 1 - (j + 1) = m - j by omega]
  have main : ∀ (i i' j j' : ℕ), carried (Key.sub key i) j = carried (Key.sub key i') j' → j ≤ j' → i = i' ∧ j = j' := by
    intro i i' j j' h hle
    have := depth _ _ _ _ h hle
    generalize hm : j' - j = m at this
    cases m with
    | zero =>
      simp only [carried, Key.sub.injEq, true_and] at this
      exact ⟨this, by omega⟩
    | succ m =>
      simp only [carried, Key.sub.injEq] at this
      exfalso
      have hk := congrArg sizeOf this.1
      have : ∀ m, sizeOf key < sizeOf (carried (Key.sub key i') m) := by
        intro m
        induction m with
        | zero =>
          simp only [carried, Key.sub.sizeOf_spec]
          omega
        | succ m ih =>
          simp only [carried, Key.sub.sizeOf_spec]
          omega
      have := this m
      omega
  simp only [batchKey, Key.sub.injEq, and_true] at h
  rcases le_total j j' with k | k
  · exact main i i' j j' h k
  · obtain ⟨a, b⟩ := main i' i j' j h.symm k
    exact ⟨a.symm, b.symm⟩

/-! ## C60: importance sampling -/

section
variable {d : ℕ}
open Matrix

/-- A Cholesky factor: lower triangular with non-zero diagonal. -/
structure IsTril (L : Matrix (Fin d) (Fin d) ℝ) : Prop where
  lower : ∀ i j, i < j → L i j = 0
  diag : ∀ i, L i i ≠ 0

theorem IsTril.det {L : Matrix (Fin d) (Fin d) ℝ} (h : IsTril L) : L.det = ∏ i, L i i := by
  apply Matrix.det_of_isLowerTriangular
  intro i j hij
  exact h.lower _ _ (by simpa using hij)

theorem IsTril.det_ne {L : Matrix (Fin d) (Fin d) ℝ} (h : IsTril L) : L.det ≠ 0 := by
  rw [h.det]
  exact Finset.prod_ne_zero_iff.2 fun i _ => h.diag i

theorem quad {L : Matrix (Fin d) (Fin d) ℝ} (v : Fin d → ℝ) : v ⬝ᵥ (L * Lᵀ)⁻¹.mulVec v = ∑ i, (L⁻¹.mulVec v i) ^ 2 := by
  rw [Matrix.mul_inv_rev, ← Matrix.transpose_nonsing_inv, ← Matrix.mulVec_mulVec, Matrix.dotProduct_mulVec, Matrix.vecMul_transpose]
  simp [dotProduct, sq]

/-- **C60.**  Up to the constant `(d/2) log 2π`, which cancels between the event and the proposal, the Gaussian log density of the code is the log of the multivariate normal density with covariance `L Lᵀ`. -/
theorem C60_gaussian (μ : Fin d → ℝ) (L : Matrix (Fin d) (Fin d) ℝ) (h : IsTril L) (x : Fin d → ℝ) :
    Real.exp (mvnLogProbScaled μ L x) = Real.sqrt (2 * Real.pi) ^ d * gauss μ (L * Lᵀ) x := by
  have hdet : Real.sqrt (L * Lᵀ).det = |L.det| := by rw [Matrix.det_mul, Matrix.det_transpose, Real.sqrt_mul_self_eq_abs]
  have hl : Real.exp (∑ i, Real.log |L i i|) = |L.det| := by
    rw [Real.exp_sum, h.det, Finset.abs_prod]
    exact Finset.prod_congr rfl fun i _ => Real.exp_log (abs_pos.2 (h.diag i))
  have h1 : |L.det| ≠ 0 := abs_ne_zero.2 h.det_ne
  have h2 : Real.sqrt (2 * Real.pi) ^ d ≠ 0 := by positivity
  rw [mvnLogProbScaled, Real.exp_sub, hl, gauss, hdet, quad]
  field_simp

theorem gauss_pos {μ : Fin d → ℝ} {L : Matrix (Fin d) (Fin d) ℝ} (h : IsTril L) (x : Fin d → ℝ) : 0 < gauss μ (L * Lᵀ) x := by
  have := C60_gaussian μ L h x
  have h1 := Real.exp_pos (mvnLogProbScaled μ L x)
  rw [this] at h1
  exact pos_of_mul_pos_right h1 (by positivity)

/-- **C60.**  The importance weight of a draw is model density times event Gaussian over proposal Gaussian; it is a proper log value whenever the model's is. -/
theorem C60_weight (model : (Fin d → ℝ) → XR) (ev ft : Event d) (he : IsTril ev.tril) (hf : IsTril ft.tril) (x : Fin d → ℝ) (hm : IsLog (model x)) :
    IsLog (logWeight model ev ft x) ∧
    expR (logWeight model ev ft x) = expR (model x) * gauss ev.mean (ev.tril * ev.trilᵀ) x / gauss ft.mean (ft.tril * ft.trilᵀ) x := by
  have e1 := C60_gaussian ev.mean ev.tril he x
  have e2 := C60_gaussian ft.mean ft.tril hf x
  have p2 := gauss_pos (μ := ft.mean) hf x
  have h2 : Real.sqrt (2 * Real.pi) ^ d ≠ 0 := by positivity
  rcases hm.cases with k | ⟨a, k⟩
  · rw [logWeight, k]
    exact ⟨isLog_ninf, by simp⟩
  · rw [logWeight, k, add_fin_fin, sub_fin_fin]
    refine ⟨isLog_fin _, ?_⟩
    rw [expR_fin, expR_fin, Real.exp_sub, Real.exp_add, e1, e2]
    field_simp

/-- **C60.**  The density of the draws is the density divided out: pulled back along the affine map of the sampler it is that of independent standard normals. -/
theorem C60_proposal (ft : Event d) (hf : IsTril ft.tril) (e : Fin d → ℝ) :
    gauss ft.mean (ft.tril * ft.trilᵀ) (mvnSample ft.mean ft.tril e) * |ft.tril.det| = stdNormal e := by
  have h0 := hf.det_ne
  have hdet : Real.sqrt (ft.tril * ft.trilᵀ).det = |ft.tril.det| := by rw [Matrix.det_mul, Matrix.det_transpose, Real.sqrt_mul_self_eq_abs]
  have h1 : |ft.tril.det| ≠ 0 := abs_ne_zero.2 h0
  rw [gauss, hdet, quad, mvnSample, add_sub_cancel_left, Matrix.mulVec_mulVec, Matrix.nonsing_inv_mul _ (Ne.isUnit h0), Matrix.one_mulVec, stdNormal, Finset.prod_div_distrib, Finset.prod_const, Finset.card_univ, Fintype.card_fin,
    ← Real.exp_sum, Finset.mul_sum]
  field_simp

/-- **C60.**  Unbiasedness: the expectation of the importance weight over the standard normal draws is the integral of the model density against the Gaussian of the event, whatever (non-singular) proposal was fitted. -/
theorem C60_unbiased (model : (Fin d → ℝ) → XR) (hm : ∀ x, IsLog (model x)) (ev ft : Event d) (he : IsTril ev.tril) (hf : IsTril ft.tril) :
    ∫ e : Fin d → ℝ, stdNormal e * expR (logWeight model ev ft (mvnSample ft.mean ft.tril e)) = ∫ x : Fin d → ℝ, expR (model x) * gauss ev.mean (ev.tril * ev.trilᵀ) x := by
  have h0 := hf.det_ne
  have h1 : |ft.tril.det| ≠ 0 := abs_ne_zero.2 h0
  set f : (Fin d → ℝ) → ℝ := fun x => expR (model x) * gauss ev.mean (ev.tril * ev.trilᵀ) x with hfdef
  have e1 : ∀ e : Fin d → ℝ, stdNormal e * expR (logWeight model ev ft (mvnSample ft.mean ft.tril e)) = |ft.tril.det| * f (ft.mean + ft.tril.mulVec e) := by
    intro e
    have p := gauss_pos (μ := ft.mean) hf (mvnSample ft.mean ft.tril e)
    rw [(C60_weight model ev ft he hf _ (hm _)).2, ← C60_proposal ft hf e]
    simp only [hfdef, mvnSample] at p ⊢
    field_simp
  simp only [e1]
  rw [MeasureTheory.integral_const_mul]
  have hmap := Real.map_matrix_volume_pi_eq_smul_volume_pi h0
  have hemb : MeasurableEmbedding (Matrix.toLin' ft.tril) := by
    have := (LinearEquiv.toContinuousLinearEquiv (Matrix.toLin'OfInv (Matrix.nonsing_inv_mul _ (Ne.isUnit h0)) (Matrix.mul_nonsing_inv _ (Ne.isUnit h0)))).toHomeomorph.measurableEmbedding
    exact this
  have step : ∫ e : Fin d → ℝ, f (ft.mean + ft.tril.mulVec e) = ∫ x, f (ft.mean + x) ∂(MeasureTheory.Measure.map (Matrix.toLin' ft.tril) MeasureTheory.volume) := by
    rw [hemb.integral_map]
    rfl
  rw [step, hmap, MeasureTheory.integral_smul_measure, MeasureTheory.integral_add_left_eq_self]
  rw [ENNReal.toReal_ofReal (abs_nonneg _), smul_eq_mul, ← mul_assoc, abs_inv, mul_inv_cancel₀ h1, one_mul]

/-- **C60.**  If the log density of the population is quadratic (gradient `g` and symmetric Hessian `H` at the mean of the event) and the fitted precision is positive definite, the Laplace fit is exact: all draws have the same weight. -/
theorem C60_laplace_exact (psd : Matrix (Fin d) (Fin d) ℝ → Bool) (cholInv : Matrix (Fin d) (Fin d) ℝ → Matrix (Fin d) (Fin d) ℝ) (ev : Event d) (g : Fin d → ℝ) (H : Matrix (Fin d) (Fin d) ℝ) (c : ℝ)
    (hH : Hᵀ = H) (hP : (precision ev.tril - H).det ≠ 0) (hpsd : psd (precision ev.tril - H)⁻¹ = true)
    (hc : IsTril (cholInv (precision ev.tril - H)) ∧ cholInv (precision ev.tril - H) * (cholInv (precision ev.tril - H))ᵀ = (precision ev.tril - H)⁻¹)
    (model : (Fin d → ℝ) → XR) (hmodel : ∀ x, model x = fin (c + g ⬝ᵥ (x - ev.mean) + 1 / 2 * ((x - ev.mean) ⬝ᵥ H.mulVec (x - ev.mean)))) :
    ∃ w : ℝ, ∀ x, logWeight model ev (fit psd cholInv ev g H) x = fin w := by
  set P := precision ev.tril - H with hPdef
  have hPT : Pᵀ = P := by
    rw [hPdef, Matrix.transpose_sub, hH, precision, Matrix.transpose_nonsing_inv, Matrix.transpose_mul, Matrix.transpose_transpose]
  have hfit : fit psd cholInv ev g H = ⟨ev.mean + P⁻¹.mulVec g, cholInv P⟩ := by
    unfold fit
    simp only [← hPdef, hpsd, if_true]
  have hinv : ((cholInv P) * (cholInv P)ᵀ)⁻¹ = P := by rw [hc.2, Matrix.nonsing_inv_nonsing_inv _ (Ne.isUnit hP)]
  have hPP : P.mulVec (P⁻¹.mulVec g) = g := by rw [Matrix.mulVec_mulVec, Matrix.mul_nonsing_inv _ (Ne.isUnit hP), Matrix.one_mulVec]
  rw [hfit]
  refine ⟨c - ∑ i, Real.log |ev.tril i i| + ∑ i, Real.log |cholInv P i i| + 1 / 2 * (P⁻¹.mulVec g ⬝ᵥ g), ?_⟩
  intro x
  rw [logWeight, hmodel, add_fin_fin, sub_fin_fin]
  congr 1
  simp only [mvnLogProbScaled]
  rw [← quad, ← quad, hinv]
  set v := x - ev.mean with hv
  set u := P⁻¹.mulVec g with hu
  have hx : x - (ev.mean + u) = v - u := by
    rw [hv]
    abel
  rw [hx]
  have hS : (ev.tril * ev.trilᵀ)⁻¹ = P + H := by
    rw [hPdef, precision]
    abel
  have hsym : u ⬝ᵥ P.mulVec v = g ⬝ᵥ v := by
    rw [Matrix.dotProduct_mulVec, ← Matrix.mulVec_transpose, hPT, hPP]
  clear_value v
  rw [hS, Matrix.add_mulVec, dotProduct_add, Matrix.mulVec_sub P, hPP, dotProduct_sub, sub_dotProduct, sub_dotProduct, hsym, dotProduct_comm v g]
  ring

/-- **C60.**  When the eigenvalue test fails (for instance on a NaN Hessian) the proposal is the Gaussian of the event itself and the weight of a draw is the model density. -/
theorem C60_fallback (psd : Matrix (Fin d) (Fin d) ℝ → Bool) (cholInv : Matrix (Fin d) (Fin d) ℝ → Matrix (Fin d) (Fin d) ℝ) (ev : Event d) (g : Fin d → ℝ) (H : Matrix (Fin d) (Fin d) ℝ)
    (hpsd : psd (precision ev.tril - H)⁻¹ = false) (model : (Fin d → ℝ) → XR) (x : Fin d → ℝ) : logWeight model ev (fit psd cholInv ev g H) x = model x := by
  have : fit psd cholInv ev g H = ev := by
    unfold fit
    simp only [hpsd]
    rfl
  rw [this, logWeight]
  cases h : model x with
  | fin a =>
    rw [add_fin_fin, sub_fin_fin]
    congr 1
    ring
  | _ => rfl

/-- **C60.**  The returned log posterior is never NaN or `+inf`; for a finite log prior and expected rate and positive observing time it is `log π + n log T + Σ_i log(mean weight of event i) − μ`, where the mean is over the pooled
draws of at least one and at most `n_max_steps` batches of event `i` (with keys of its own; as many as the rule of the loop says), and `-inf` if the mean weight of some event is zero.
Only the values of the model at the draws matter. -/
theorem C60_posterior (n nMax : ℕ) (hn : 2 ≤ n) (hmax : 1 ≤ nMax) (minErr T : ℝ) (hT : 0 < T) (model : (Fin d → ℝ) → XR) (normals : Key → List (Fin d → ℝ)) (hnorm : ∀ k, (normals k).length = n)
    (key : Key) (events : List (Event d × Event d)) (htri : ∀ p ∈ events, IsTril p.1.tril ∧ IsTril p.2.tril)
    (hm : ∀ p ∈ events, ∀ k, ∀ z ∈ normals k, IsLog (model (mvnSample p.2.mean p.2.tril z))) (mu pi : ℝ) :
    ∃ b : ℕ → ℕ, (∀ i, 1 ≤ b i ∧ b i ≤ nMax) ∧
      (∀ p ∈ events.zipIdx, StopsAfter minErr nMax (pool (drawOf model p.1.1 p.1.2 normals) (Key.sub key p.2)) (b p.2)) ∧
      logPosterior n nMax minErr T model normals (fin mu) (fin pi) key events =
        XR.sum ((events.zipIdx).map fun p => log (fin (mean (pool (drawOf model p.1.1 p.1.2 normals) (Key.sub key p.2) (b p.2))))) + fin (pi + events.length * Real.log T - mu) := by
  have hdraw : ∀ p ∈ events, ∀ c, (drawOf model p.1 p.2 normals c).length = n ∧ ∀ x ∈ drawOf model p.1 p.2 normals c, IsLog x := by
    intro p hp c
    refine ⟨by simp [drawOf, hnorm], ?_⟩
    intro x hx
    obtain ⟨e, he, rfl⟩ := List.mem_map.1 hx
    exact (C60_weight model p.1 p.2 (htri p hp).1 (htri p hp).2 _ (hm p hp c e he)).1
  have hex : ∀ i : ℕ, ∃ b, 1 ≤ b ∧ b ≤ nMax ∧ ∀ h : i < events.length, (runEvent n nMax minErr (drawOf model events[i].1 events[i].2 normals) (Key.sub key i)).logEst =
      log (fin (mean (pool (drawOf model events[i].1 events[i].2 normals) (Key.sub key i) b))) ∧
      StopsAfter minErr nMax (pool (drawOf model events[i].1 events[i].2 normals) (Key.sub key i)) b := by
    intro i
    by_cases h : i < events.length
    · obtain ⟨b, h1, h2, w, hw, -, h3, -, hN⟩ := C11_pooled_partial n nMax hn hmax minErr _ (hdraw events[i] (List.getElem_mem h)) (Key.sub key i)
      obtain ⟨b', k1, k2, hN', k3, k4⟩ := C11_exit_violated n nMax hn hmax minErr _ (hdraw events[i] (List.getElem_mem h)) (Key.sub key i)
      have hbb : b' = b := by
        rw [hN] at hN'
        have : b * n = b' * n := by exact_mod_cast hN'
        exact (Nat.eq_of_mul_eq_mul_right (by omega) this).symm
      subst hbb
      refine ⟨b', h1, h2, fun _ => ⟨?_, k1, k2, k3, k4⟩⟩
      rw [h3, hw]
      rfl
    · exact ⟨1, le_rfl, hmax, fun h' => absurd h' h⟩
  choose b hb1 hb2 hb using hex
  refine ⟨b, fun i => ⟨hb1 i, hb2 i⟩, ?_, ?_⟩
  · intro p hp
    obtain ⟨h1, h2, h3⟩ := List.mem_zipIdx hp
    have he : p.1 = events[p.2] := by simpa using h3
    rw [he]
    exact (hb p.2 (by omega)).2
  have hzip : events.zip (key.split events.length) = events.zipIdx.map fun p => (p.1, Key.sub key p.2) := by
    rw [Key.split, List.zipIdx_eq_zip_range', ← List.range_eq_range', List.map_zip_eq_zipWith, List.zip_map_right, List.map_zip_eq_zipWith]
    rfl
  have hfold : ∀ (l : List ((Event d × Event d) × ℕ)) (a : XR), (l.map fun p => (p.1, Key.sub key p.2)).foldl
      (fun acc p => acc + (runEvent n nMax minErr (drawOf model p.1.1 p.1.2 normals) p.2).logEst) a =
      a + XR.sum (l.map fun p => (runEvent n nMax minErr (drawOf model p.1.1 p.1.2 normals) (Key.sub key p.2)).logEst) := by
    intro l
    induction l with
    | nil =>
      intro a
      simp only [List.map_nil, List.foldl_nil, sum_nil]
      exact (add_zero' a).symm
    | cons p l ih =>
      intro a
      simp only [List.map_cons, List.foldl_cons, sum_cons]
      rw [ih, add_assoc']
  have hmap : (events.zipIdx.map fun p => (runEvent n nMax minErr (drawOf model p.1.1 p.1.2 normals) (Key.sub key p.2)).logEst) =
      events.zipIdx.map fun p => log (fin (mean (pool (drawOf model p.1.1 p.1.2 normals) (Key.sub key p.2) (b p.2)))) := by
    apply List.map_congr_left
    intro p hp
    obtain ⟨h1, h2, h3⟩ := List.mem_zipIdx hp
    have hlt : p.2 < events.length := by omega
    have he : p.1 = events[p.2] := by simpa using h3
    have := (hb p.2 hlt).1
    rw [he]
    exact this
  have hlog : ∀ l : List XR, (∀ x ∈ l, IsLog x) → IsLog (XR.sum l) := by
    intro l
    induction l with
    | nil =>
      intro _
      exact isLog_fin 0
    | cons x l ih =>
      intro h
      rw [sum_cons]
      exact (h x (by simp)).add (ih fun y hy => h y (by simp [hy]))
  have hsum : IsLog (XR.sum (events.zipIdx.map fun p => log (fin (mean (pool (drawOf model p.1.1 p.1.2 normals) (Key.sub key p.2) (b p.2)))))) := by
    apply hlog
    intro x hx
    obtain ⟨p, -, rfl⟩ := List.mem_map.1 hx
    apply isLog_log_sum
    apply mean_nonneg
    intro y hy
    simp only [pool, List.mem_flatten, List.mem_map] at hy
    obtain ⟨l, ⟨j, -, rfl⟩, hy⟩ := hy
    obtain ⟨z, -, rfl⟩ := List.mem_map.1 hy
    exact expR_nonneg z
  unfold logPosterior
  simp only []
  rw [hzip, hfold, hmap, log_fin_pos hT, mul_fin_fin]
  rcases hsum.cases with k | ⟨a, k⟩
  · rw [k]
    rfl
  · rw [k, add_fin_fin, sub_fin_fin, add_fin_fin, add_fin_fin]
    simp only [nanToNum]
    congr 1
    ring

/-- Non-vacuity: a Cholesky factor in two dimensions. -/
example : IsTril (!![1, 0; 3, -2] : Matrix (Fin 2) (Fin 2) ℝ) := by
  refine ⟨fun i j h => ?_, fun i => ?_⟩
  · fin_cases i <;> fin_cases j <;> simp_all
  · fin_cases i <;> simp

/-- Non-vacuity of the exactness theorem: unit event, `H = -1`, so that the fitted precision is `2`. -/
example : (precision (1 : Matrix (Fin 1) (Fin 1) ℝ) - (-1)).det ≠ 0 := by
  have : precision (1 : Matrix (Fin 1) (Fin 1) ℝ) = 1 := by simp [precision]
  rw [this]
  simp

end

end GW.Analytic
