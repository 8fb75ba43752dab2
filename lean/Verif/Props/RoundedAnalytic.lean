import Verif.Lemmas.RoundedAnalytic
import Verif.Props.Analytic
import Verif.Props.RoundedJoint

/-!
# C109: the Monte-Carlo estimates of the analytic likelihood survive rounding

`f` is the floating-point format, `fl` a rounding to nearest of that format and `R` an order of the additions; all theorems hold for every one of them.
-/

namespace GW.RoundedAnalytic
open GW XR Rounding RoundedLikelihood
open GW.Analytic (pool batchKey carried)
open GW (mean)

variable {f : Format} {fl : ℝ → XR}

/-! ## No rounding: the model of `Model/Analytic.lean` -/

theorem masked_exact (R : Reduction) (g : XR → XR) (xs : List XR) :
    RoundedLikelihood.logsumexp fin R ((xs.filter fun a => !a.isNegInf).map g) = logsumexpWhere (xs.map fun a => (g a, !a.isNegInf)) := by
  rw [logsumexp_exact, XR.logsumexp]
  have gen : ∀ A B : List (XR × Bool), (A.filter (·.2)).map (·.1) = (B.filter (·.2)).map (·.1) → XR.logsumexpWhere A = XR.logsumexpWhere B := by
    intro A B h
    unfold XR.logsumexpWhere
    simp only [h]
  apply gen
  induction xs with
  | nil => rfl
  | cons x xs ih => cases hx : x.isNegInf <;> simp [hx] at ih ⊢ <;> exact ih

theorem batch_exact (R : Reduction) (xs : List XR) (N : ℝ) : batchEstimate fin R xs (fin N) = Analytic.batchEstimate xs N := by
  have e1 := masked_exact R id xs
  have e2 := masked_exact R (fun a => fin 2 * a) xs
  simp only [List.map_id, id] at e1
  simp only [batchEstimate, Analytic.batchEstimate, Rounding.sub, Rounding.div, Rounding.mul, rd_exact, e1, e2]

/-- One rounded state stands for the exact one. -/
def Same (s : State) (t : Analytic.State) : Prop := s.logEst = t.logEst ∧ s.errSq = t.errSq ∧ s.N = fin t.N ∧ s.key = t.key

theorem body_exact (R : Reduction) (n : ℕ) (draw : Key → List XR) {s : State} {t : Analytic.State} (h : Same s t) :
    Same (body fin R n draw s) (Analytic.body n draw t) := by
  obtain ⟨h1, h2, h3, h4⟩ := h
  simp only [Same, body, Analytic.body, h1, h2, h3, h4, batch_exact]
  refine ⟨?_, ?_, ?_, trivial⟩ <;>
    simp only [combineLogEstimates, Analytic.combineLogEstimates, combineErrorsSq, Analytic.combineErrorsSq, logaddexp, XR.logaddexp, Rounding.add, Rounding.sub, Rounding.mul, Rounding.div,
      rd_exact]
  rfl

open Classical in
/-- Without rounding the loop is that of `Model/Analytic.lean`, whatever the order of the additions. -/
theorem C109_exact_monte_carlo (R : Reduction) (n nMax : ℕ) (minErr : ℝ) (draw : Key → List XR) (k : Key) :
    (runEvent fin R n nMax (minErr ^ 2) draw k).logEst = (Analytic.runEvent n nMax minErr draw k).logEst := by
  have key : ∀ (m : ℕ) (s : State) (t : Analytic.State), Same s t →
      Same (Analytic.whileLoop (fun s : State => decide (le s.errSq (fin (minErr ^ 2)))) (body fin R n draw) m s)
        (Analytic.whileLoop (Analytic.loopCond (minErr ^ 2)) (Analytic.body n draw) m t) := by
    intro m
    induction m with
    | zero => intro s t h; exact h
    | succ m ih =>
      intro s t h
      have hc : decide (le s.errSq (fin (minErr ^ 2))) = Analytic.loopCond (minErr ^ 2) t := by rw [Analytic.loopCond, h.2.1]
      rw [Analytic.whileLoop, Analytic.whileLoop, hc]
      split
      · exact ih _ _ (body_exact R n draw h)
      · exact h
  exact (key (nMax - 1) _ _ (body_exact R n draw (s := State.init k) (t := Analytic.State.init k) ⟨rfl, rfl, rfl, rfl⟩)).1

/-! ## Rounding -/

theorem weights_sized {B : ℝ} {xs : List XR} (hx : ∀ x ∈ xs, Weight f x ∧ ∀ a, x = fin a → |a| ≤ B) :
    ∀ y ∈ xs.map expR, y = 0 ∨ Real.exp (-B) ≤ y ∧ y ≤ Real.exp B := by
  intro y hy
  obtain ⟨x, hx', rfl⟩ := List.mem_map.1 hy
  obtain ⟨h1, h2⟩ := hx x hx'
  rcases h1 with rfl | ⟨a, rfl, -⟩
  · exact Or.inl rfl
  · obtain ⟨a1, a2⟩ := abs_le.1 (h2 a rfl)
    exact Or.inr ⟨Real.exp_le_exp.2 a1, Real.exp_le_exp.2 a2⟩

/-- The estimate of one batch. -/
theorem batch_near (hw : Wide f) (h : Nearest f fl) (R : Reduction) {B W : ℝ} {n : ℕ} (hn : 1 ≤ n) {xs : List XR} (hlen : xs.length = n)
    (hx : ∀ x ∈ xs, Weight f x ∧ ∀ a, x = fin a → |a| ≤ B) (hB : 0 ≤ B) (hWB : B + Real.log n + 4 ≤ W) (hW : W ≤ (2 : ℝ) ^ f.emax)
    (hn8 : (8 : ℝ) * n ≤ 2 ^ f.p) (hBn : B + n ≤ (2 : ℝ) ^ f.emax) (hE : (5 * n + 3 * W) / 2 ^ f.p ≤ 1) :
    Near f ((5 * n + 3 * W) / 2 ^ f.p) ((xs.map expR).sum / n) (batchEstimate fl R xs (fin n)).1 := by
  have hpp : (0 : ℝ) < 2 ^ f.p := by positivity
  have hn1 : (1 : ℝ) ≤ n := by exact_mod_cast hn
  have hln := Real.log_nonneg hn1
  set kept := xs.filter fun a => !a.isNegInf with hkept
  have hk : ∀ x ∈ kept, Weight f x := fun x hx' => (hx x (List.mem_of_mem_filter hx')).1
  have hfin : (finites kept : ℝ) ≤ n := by
    have : finites kept ≤ n := by
      rw [← hlen]
      exact (List.length_filter_le _ _).trans (List.length_filter_le _ _)
    exact_mod_cast this
  have hsum : (kept.map expR).sum = (xs.map expR).sum := sum_expR_filter xs
  have hnn : ∀ y ∈ kept.map expR, 0 ≤ y := by
    intro y hy
    obtain ⟨x, -, rfl⟩ := List.mem_map.1 hy
    exact expR_nonneg x
  have near : Near f ((5 * n + W) / 2 ^ f.p) (xs.map expR).sum (RoundedLikelihood.logsumexp fl R kept) := by
    rw [← hsum]
    rcases (List.sum_nonneg hnn).eq_or_lt with e | e
    · refine Or.inl ⟨e.symm, (C109_logsumexp hw.1 h R kept hk ?_).1 ?_⟩
      · have : (finites kept : ℝ) < 2 ^ f.p := by linarith
        exact_mod_cast this
      · intro x hx'
        have := List.single_le_sum hnn _ (List.mem_map_of_mem (f := expR) hx')
        rw [← e] at this
        rcases hk x hx' with r | ⟨a, rfl, -⟩
        · exact r
        · exact absurd this (not_le.2 (Real.exp_pos a))
    · obtain ⟨M, hM⟩ := exists_largest_weight hk e
      have hMB : |M| ≤ B := (hx _ (List.mem_of_mem_filter hM.1)).2 M rfl
      obtain ⟨r, e1, e2, e3⟩ := C109_logsumexp_accurate hw h R kept M hk hM (by linarith) (by linarith)
      exact Or.inr ⟨e, r, e1, e2, e3.trans (div_le_div_of_nonneg_right (by linarith) hpp.le)⟩
  have res := sub_log hw h (W := W) near hn (by linarith) (by linarith) hW
    (by
      intro h0
      have := (log_size (weights_sized hx) h0).2
      rw [List.length_map, hlen] at this
      linarith)
    (by
      have : (5 * n + W) / 2 ^ f.p + W / 2 ^ f.p ≤ (5 * n + 3 * W) / 2 ^ f.p := by
        rw [← add_div]
        exact div_le_div_of_nonneg_right (by linarith) hpp.le
      linarith)
  refine res.mono (le_of_eq ?_)
  ring

theorem pool_succ (draw : Key → List XR) (k : Key) (j : ℕ) : pool draw k (j + 1) = pool draw k j ++ (draw (batchKey k j)).map expR := by
  simp [pool, List.range_succ]

theorem pool_length {n : ℕ} {draw : Key → List XR} (hd : ∀ c, (draw c).length = n) (k : Key) (j : ℕ) : (pool draw k j).length = j * n := by
  induction j with
  | zero => simp [pool]
  | succ j ih => rw [pool_succ, List.length_append, ih, List.length_map, hd]; ring

/-- The state after `j` batches. -/
theorem loop_near (hw : Wide f) (h : Nearest f fl) (R : Reduction) (n b : ℕ) (hn : 1 ≤ n) (draw : Key → List XR) {B W : ℝ} (hB : 0 ≤ B)
    (hd : ∀ c, (draw c).length = n ∧ ∀ x ∈ draw c, Weight f x ∧ ∀ a, x = fin a → |a| ≤ B) (hWB : B + Real.log (b * n : ℕ) + 4 ≤ W) (hW : W ≤ (2 : ℝ) ^ f.emax)
    (hn8 : (8 : ℝ) * (b * n : ℕ) ≤ 2 ^ f.p) (hBn : B + n ≤ (2 : ℝ) ^ f.emax) (hE : (5 * n + 3 * W + 6 * b * W) / 2 ^ f.p ≤ 1) (k : Key) :
    ∀ j ≤ b, ((body fl R n draw)^[j] (State.init k)).key = carried k j ∧ ((body fl R n draw)^[j] (State.init k)).N = fin ((j * n : ℕ) : ℝ) ∧
      Near f ((5 * n + 3 * W + 6 * j * W) / 2 ^ f.p) ((pool draw k j).sum / (j * n : ℕ)) ((body fl R n draw)^[j] (State.init k)).logEst := by
  have hpp : (0 : ℝ) < 2 ^ f.p := by positivity
  have hlen := pool_length (fun c => (hd c).1)
  have sized : ∀ j, ∀ y ∈ pool draw k j, y = 0 ∨ Real.exp (-B) ≤ y ∧ y ≤ Real.exp B := by
    intro j y hy
    obtain ⟨l, hl, hy⟩ := List.mem_flatten.1 hy
    obtain ⟨i, -, rfl⟩ := List.mem_map.1 hl
    exact weights_sized (hd _).2 y hy
  intro j
  induction j with
  | zero =>
    intro _
    exact ⟨rfl, by simp [State.init], Or.inl ⟨by simp [pool], rfl⟩⟩
  | succ j ih =>
    intro hj
    obtain ⟨i1, i2, i3⟩ := ih (by omega)
    rw [Function.iterate_succ_apply']
    set s := (body fl R n draw)^[j] (State.init k) with hs
    have logle : ∀ m : ℕ, 1 ≤ m → m ≤ b * n → Real.log m ≤ Real.log (b * n : ℕ) := fun m h1 h2 =>
      Real.log_le_log (by exact_mod_cast h1) (by exact_mod_cast h2)
    have jn : j * n + n ≤ b * n := by
      calc j * n + n = (j + 1) * n := by ring
        _ ≤ b * n := Nat.mul_le_mul_right n hj
    have lnb := logle n hn (by omega)
    have lb0 : 0 ≤ Real.log (b * n : ℕ) := (Real.log_nonneg (by exact_mod_cast hn)).trans lnb
    have W4 : 4 ≤ W := by linarith
    have hjb : ((j : ℝ) + 1) ≤ b := by exact_mod_cast hj
    have j0 : (0 : ℝ) ≤ j := Nat.cast_nonneg j
    have hnR : (0 : ℝ) ≤ n := Nat.cast_nonneg n
    -- the errors so far
    set u : ℝ := W / 2 ^ f.p with hu
    have u0 : 0 ≤ u := by positivity
    set d : ℝ := (5 * n + 3 * W + 6 * j * W) / 2 ^ f.p with hdd
    have d0 : 0 ≤ d := by positivity
    have e2u : 2 * W / 2 ^ f.p = 2 * u := by rw [hu]; ring
    have dsucc : (5 * n + 3 * W + 6 * ((j + 1 : ℕ) : ℝ) * W) / 2 ^ f.p = d + 6 * u := by rw [hu, hdd]; push_cast; ring
    have dle : d + 6 * u ≤ 1 := by
      rw [← dsucc]
      refine le_trans (div_le_div_of_nonneg_right ?_ hpp.le) hE
      have := mul_le_mul_of_nonneg_right hjb (show 0 ≤ W by linarith)
      push_cast
      linarith
    have β : (5 * n + 3 * W) / 2 ^ f.p ≤ d := by
      rw [hdd]
      have : 0 ≤ 6 * (j : ℝ) * W := by positivity
      exact div_le_div_of_nonneg_right (by linarith) hpp.le
    -- the new batch
    have hb := batch_near hw h R hn (hd (Key.sub s.key 1)).1 (hd _).2 hB (show B + Real.log n + 4 ≤ W by linarith) hW
      (by
        have : (n : ℝ) ≤ (b * n : ℕ) := by exact_mod_cast (by omega : n ≤ b * n)
        linarith) hBn (by linarith)
    rw [i1] at hb
    change Near f _ (((draw (batchKey k j)).map expR).sum / n) _ at hb
    have x2 := add_log hw h (W := W) (hb.mono β) hn (by linarith) (by linarith) hW
      (by
        intro h0
        have := (log_size (weights_sized (hd (batchKey k j)).2) h0).1
        rw [List.length_map, (hd _).1] at this
        linarith) (by linarith)
    -- the old batches
    have x1 : Near f (d + 2 * W / 2 ^ f.p) (pool draw k j).sum (Rounding.add fl (rd fl (log s.N)) s.logEst) := by
      rcases Nat.eq_zero_or_pos j with rfl | hj0
      · have e0 : (pool draw k 0).sum = 0 := by simp [pool]
        rcases i3 with ⟨-, e⟩ | ⟨hh, -⟩
        · refine Or.inl ⟨e0, ?_⟩
          rw [i2, e]
          simp [rd, Rounding.add]
        · rw [e0] at hh
          simp at hh
      · rw [i2]
        have hm : 1 ≤ j * n := Nat.mul_pos hj0 hn
        have := logle (j * n) hm (by omega)
        exact add_log hw h (W := W) i3 hm (by linarith) (by linarith) hW
          (by
            intro h0
            have := (log_size (sized j) h0).1
            rw [hlen] at this
            linarith) (by linarith)
    rw [e2u] at x1 x2
    have x3 := logaddexp_near hw h (W := W) x1 x2 (by linarith) (by linarith) hW
      (by
        intro h0
        have hj0 : 1 ≤ j := by
          rcases Nat.eq_zero_or_pos j with rfl | hj0
          · simp [pool] at h0
          · exact hj0
        have := (log_size (sized j) h0).1
        rw [hlen] at this
        have := logle (j * n) (Nat.mul_pos hj0 hn) (by omega)
        linarith)
      (by
        intro h0
        have := (log_size (weights_sized (hd (batchKey k j)).2) h0).1
        rw [List.length_map, (hd _).1] at this
        linarith)
    rw [e2u] at x3
    have es : (pool draw k j).sum + ((draw (batchKey k j)).map expR).sum = (pool draw k (j + 1)).sum := by rw [pool_succ, List.sum_append]
    rw [es] at x3
    have hsum : Rounding.add fl (fin ((j * n : ℕ) : ℝ)) (fin (n : ℝ)) = fin (((j + 1) * n : ℕ) : ℝ) := by
      rw [Rounding.add_def]
      have e : (((j * n : ℕ) : ℝ) + n) = (((j + 1) * n : ℕ) : ℝ) := by push_cast; ring
      rw [e]
      refine h.exact (mem_nat hw.1 ?_)
      have : (((j + 1) * n : ℕ) : ℝ) < 2 ^ f.p := by
        have h1 : (((j + 1) * n : ℕ) : ℝ) ≤ (b * n : ℕ) := by exact_mod_cast Nat.mul_le_mul_right n hj
        have h2 : (1 : ℝ) ≤ (((j + 1) * n : ℕ) : ℝ) := by exact_mod_cast Nat.mul_pos (Nat.succ_pos j) hn
        linarith
      exact_mod_cast this
    have hm : 1 ≤ (j + 1) * n := Nat.mul_pos (Nat.succ_pos j) hn
    have hlm := logle ((j + 1) * n) hm (Nat.mul_le_mul_right n hj)
    have x4 := sub_log hw h (W := W) x3 hm (by linarith) (by linarith) hW
      (by
        intro h0
        have := (log_size (sized (j + 1)) h0).2
        rw [hlen] at this
        linarith) (by linarith)
    refine ⟨?_, ?_, ?_⟩
    · change Key.sub s.key 0 = _
      rw [i1]; rfl
    · change Rounding.add fl s.N (fin n) = _
      rw [i2, hsum]
    · rw [dsucc]
      have e : (body fl R n draw s).logEst = Rounding.sub fl (logaddexp fl (Rounding.add fl (rd fl (log s.N)) s.logEst)
          (Rounding.add fl (rd fl (log (fin n))) (batchEstimate fl R (draw (batchKey k j)) (fin n)).1)) (rd fl (log (fin (((j + 1) * n : ℕ) : ℝ)))) := by
        simp only [body, combineLogEstimates, i1]
        rw [i2, hsum]
        rfl
      rw [e]
      exact x4.mono (by rw [e2u]; linarith)

theorem while_iterates {σ : Type} (c : σ → Bool) (g : σ → σ) : ∀ (m : ℕ) (s : σ), ∃ j ≤ m, Analytic.whileLoop c g m s = g^[j] s
  | 0, s => ⟨0, le_rfl, rfl⟩
  | m + 1, s => by
    simp only [Analytic.whileLoop]
    split
    · obtain ⟨j, hj, e⟩ := while_iterates c g m (g s)
      exact ⟨j + 1, by omega, e⟩
    · exact ⟨0, by omega, rfl⟩

/-- The computed estimate of one event. -/
theorem event_near (hw : Wide f) (h : Nearest f fl) (R : Reduction) (n nMax : ℕ) (hn : 1 ≤ n) (hmax : 1 ≤ nMax) (minErrSq : ℝ) (draw : Key → List XR) (k : Key) {B W : ℝ}
    (hB : 0 ≤ B) (hd : ∀ c, (draw c).length = n ∧ ∀ x ∈ draw c, Weight f x ∧ ∀ a, x = fin a → |a| ≤ B)
    (hWdef : W = B + Real.log (nMax * n : ℕ) + 4) (hW : W ≤ (2 : ℝ) ^ f.emax) (hBn : B + n ≤ (2 : ℝ) ^ f.emax) (hn8 : (8 : ℝ) * (nMax * n : ℕ) ≤ 2 ^ f.p)
    (hE : (5 * n + 3 * W + 6 * nMax * W) / 2 ^ f.p ≤ 1) :
    ∃ b, 1 ≤ b ∧ b ≤ nMax ∧ Near f ((5 * n + 3 * W + 6 * b * W) / 2 ^ f.p) (mean (pool draw k b)) (runEvent fl R n nMax minErrSq draw k).logEst ∧
      (0 < mean (pool draw k b) → |Real.log (mean (pool draw k b))| ≤ W - 4) := by
  classical
  obtain ⟨j, hj, e⟩ := while_iterates (fun s : State => decide (le s.errSq (fin minErrSq))) (body fl R n draw) (nMax - 1) (body fl R n draw (State.init k))
  have hlen := pool_length (fun c => (hd c).1) k (j + 1)
  refine ⟨j + 1, by omega, by omega, ?_, ?_⟩
  · have := (loop_near hw h R n nMax hn draw hB hd (by rw [hWdef]) hW hn8 hBn hE k (j + 1) (by omega)).2.2
    rw [runEvent, e, mean, hlen]
    exact this
  · intro h0
    have hs : 0 < (pool draw k (j + 1)).sum := by
      by_contra hc
      exact absurd h0 (not_lt.2 (div_nonpos_of_nonpos_of_nonneg (not_lt.1 hc) (Nat.cast_nonneg _)))
    have := (log_size (B := B) (w := pool draw k (j + 1)) (by
      intro y hy
      obtain ⟨l, hl, hy⟩ := List.mem_flatten.1 hy
      obtain ⟨i, -, rfl⟩ := List.mem_map.1 hl
      exact weights_sized (hd _).2 y hy) hs).2
    have hle : Real.log ((pool draw k (j + 1)).length : ℝ) ≤ Real.log (nMax * n : ℕ) := by
      rw [hlen]
      exact Real.log_le_log (by exact_mod_cast Nat.mul_pos (Nat.succ_pos j) hn) (by exact_mod_cast Nat.mul_le_mul_right n (by omega))
    rw [mean]
    linarith

/-- The estimate of an event by the analytic likelihood, in floating point: `nMax` batches of `n` draws at most, whose log weights are floats of size at most `B` or `-inf`.
Whenever the loop stops, the computed logarithm is `-inf` if no draw so far has weight, and otherwise a finite number close to the logarithm of the mean weight of all draws so far;
no NaN or infinity appears, whatever happens to the estimated error. -/
theorem C109_monte_carlo (hw : Wide f) (h : Nearest f fl) (R : Reduction) (n nMax : ℕ) (hn : 1 ≤ n) (hmax : 1 ≤ nMax) (minErrSq : ℝ) (draw : Key → List XR) (k : Key) {B W : ℝ}
    (hB : 0 ≤ B) (hd : ∀ c, (draw c).length = n ∧ ∀ x ∈ draw c, Weight f x ∧ ∀ a, x = fin a → |a| ≤ B)
    (hWdef : W = B + Real.log (nMax * n : ℕ) + 4) (hW : W ≤ (2 : ℝ) ^ f.emax) (hBn : B + n ≤ (2 : ℝ) ^ f.emax) (hn8 : (8 : ℝ) * (nMax * n : ℕ) ≤ 2 ^ f.p)
    (hE : (5 * n + 3 * W + 6 * nMax * W) / 2 ^ f.p ≤ 1) :
    ∃ b, 1 ≤ b ∧ b ≤ nMax ∧ Robust.Within ((5 * n + 3 * W + 6 * b * W) / 2 ^ f.p) (log (fin (mean (pool draw k b)))) (runEvent fl R n nMax minErrSq draw k).logEst := by
  obtain ⟨b, b1, b2, b3, -⟩ := event_near hw h R n nMax hn hmax minErrSq draw k hB hd hWdef hW hBn hn8 hE
  exact ⟨b, b1, b2, b3.within⟩

/-- `C109_monte_carlo` in single precision: up to 10 batches of 100 draws with weights between `exp (-20)` and `exp 20`, every second one without weight. -/
example (fl : ℝ → XR) (h : Nearest single fl) (R : Reduction) (k : Key) :
    ∃ b, 1 ≤ b ∧ b ≤ 10 ∧ Robust.Within (1 / 2000) (log (fin (mean (pool (fun _ => (List.replicate 50 (fin 2)) ++ List.replicate 50 ninf) k b))))
      (runEvent fl R 100 10 (1 / 100) (fun _ => (List.replicate 50 (fin 2)) ++ List.replicate 50 ninf) k).logEst := by
  have big : (2048 : ℝ) ≤ (2 : ℝ) ^ single.emax := by
    rw [show (2048 : ℝ) = 2 ^ (11 : ℤ) by norm_num]; exact zpow_le_zpow_right₀ (by norm_num) (by decide)
  have hl : Real.log ((10 * 100 : ℕ) : ℝ) ≤ 10 := by
    rw [Real.log_le_iff_le_exp (by norm_num)]
    have h2 : (2 : ℝ) ≤ Real.exp 1 := by have := Real.add_one_le_exp (1 : ℝ); linarith
    calc (((10 * 100 : ℕ) : ℝ)) ≤ 2 ^ 10 := by norm_num
      _ ≤ Real.exp 1 ^ 10 := pow_le_pow_left₀ (by norm_num) h2 10
      _ = Real.exp 10 := by rw [← Real.exp_nat_mul]; norm_num
  obtain ⟨b, b1, b2, b3⟩ := C109_monte_carlo wide_single h R 100 10 (by norm_num) (by norm_num) (1 / 100) (fun _ => (List.replicate 50 (fin 2)) ++ List.replicate 50 ninf) k (B := 20) (by norm_num)
    (by
      intro c
      refine ⟨by simp, fun x hx => ?_⟩
      rcases List.mem_append.1 hx with hx | hx <;> obtain rfl := List.eq_of_mem_replicate hx
      · exact ⟨Or.inr ⟨2, rfl, by simpa using mem_int wide_single.1 2 (by norm_num)⟩, fun a ha => by obtain rfl := fin.inj ha; norm_num⟩
      · exact ⟨Or.inl rfl, fun a ha => by cases ha⟩)
    rfl (by linarith) (by norm_num; linarith) (by norm_num [single])
    (by rw [show single.p = 24 from rfl, div_le_one (by positivity)]; push_cast at hl ⊢; linarith)
  refine ⟨b, b1, b2, ?_⟩
  have hb : (b : ℝ) ≤ 10 := by exact_mod_cast b2
  have hb0 : (0 : ℝ) ≤ b := Nat.cast_nonneg b
  rcases b3 with e | ⟨x, y, e1, e2, e3⟩
  · exact Or.inl e
  · refine Or.inr ⟨x, y, e1, e2, e3.trans ?_⟩
    rw [show single.p = 24 from rfl, div_le_div_iff₀ (by positivity) (by norm_num)]
    push_cast at hl ⊢
    have l0 : 0 ≤ Real.log (10 * 100) := Real.log_nonneg (by norm_num)
    nlinarith

/-! ## All events -/

/-- Without rounding the log posterior is that of `Model/Analytic.lean`. -/
theorem C109_exact_analytic {d : ℕ} (R : Reduction) (n nMax : ℕ) (minErr T : ℝ) (model : (Fin d → ℝ) → XR) (normals : Key → List (Fin d → ℝ)) (rates logPrior : XR) (key : Key)
    (events : List (Analytic.Event d × Analytic.Event d)) :
    logPosterior fin R n nMax (minErr ^ 2) (fin (events.length : ℝ) * log (fin T)) rates logPrior key (events.map fun p => Analytic.drawOf model p.1 p.2 normals) =
      Analytic.logPosterior n nMax minErr T model normals rates logPrior key events := by
  have gen : ∀ (evs : List (Analytic.Event d × Analytic.Event d)) (ks : List Key) (acc : XR),
      ((evs.map fun p => Analytic.drawOf model p.1 p.2 normals).zip ks).foldl (fun acc p => Rounding.add fin acc (runEvent fin R n nMax (minErr ^ 2) p.1 p.2).logEst) acc =
        (evs.zip ks).foldl (fun acc p => acc + (Analytic.runEvent n nMax minErr (Analytic.drawOf model p.1.1 p.1.2 normals) p.2).logEst) acc := by
    intro evs
    induction evs with
    | nil => intro ks acc; rfl
    | cons e evs ih =>
      intro ks acc
      cases ks with
      | nil => rfl
      | cons k ks =>
        simp only [List.map_cons, List.zip_cons_cons, List.foldl_cons]
        rw [ih, C109_exact_monte_carlo, Rounding.add, rd_exact]
  simp only [logPosterior, Analytic.logPosterior, List.length_map]
  rw [gen, Rounding.add, Rounding.sub, rd_exact, rd_exact]

theorem sum_bound {S : ℝ} : ∀ (l : List XR), (∀ a, fin a ∈ l → |a| ≤ S) → ∀ c, l.sum = fin c → |c| ≤ l.length * S := by
  intro l
  induction l with
  | nil =>
    intro _ c hc
    have : (fin 0 : XR) = fin c := hc
    rw [← fin.inj this]
    simp
  | cons x l ih =>
    intro hl c hc
    rw [List.sum_cons] at hc
    cases x with
    | fin a =>
      cases hs : l.sum with
      | fin t =>
        rw [hs] at hc
        have hc : a + t = c := fin.inj hc
        have h1 := hl a (by simp)
        have h2 := ih (fun a ha => hl a (by simp [ha])) t hs
        rw [← hc, List.length_cons]
        push_cast
        have := abs_add_le a t
        linarith
      | pinf => rw [hs] at hc; cases hc
      | ninf => rw [hs] at hc; cases hc
      | nan => rw [hs] at hc; cases hc
    | pinf => cases hs : l.sum <;> rw [hs] at hc <;> cases hc
    | ninf => cases hs : l.sum <;> rw [hs] at hc <;> cases hc
    | nan => cases hs : l.sum <;> rw [hs] at hc <;> cases hc

/-- The last steps: minus the expected rate, plus the log prior. -/
theorem posterior_step (hf : f.Usable) (h : Nearest f fl) {mu pri D Z A : ℝ} {x t : XR} (hmu : f.Mem mu) (hpri : f.Mem pri) (hx : Robust.Within D x t) (ht : Weight f t)
    (hsize : ∀ c, x = fin c → |c| ≤ A) (hZ : A + |mu| + |pri| + 4 ≤ Z) (hD : D ≤ 1) (hZ1 : Z ≤ (2 : ℝ) ^ f.emax) (hZ2 : Z ≤ 2 ^ f.p) :
    Robust.Within (D + 2 * Z / 2 ^ f.p) (fin pri + (x - fin mu)) (nanToNum ninf ninf ninf (Rounding.add fl (fin pri) (Rounding.sub fl t (fin mu)))) := by
  have hpp : (0 : ℝ) < 2 ^ f.p := by positivity
  have m0 := abs_nonneg mu
  have p0 := abs_nonneg pri
  rcases hx with ⟨rfl, rfl⟩ | ⟨a, c, rfl, rfl, e3⟩
  · exact Or.inl ⟨rfl, rfl⟩
  · have mc : f.Mem c := by
      rcases ht with e | ⟨x, e, m⟩
      · cases e
      · rwa [fin.inj e]
    have ha := hsize a rfl
    have zu : Z / 2 ^ f.p ≤ 1 := by rw [div_le_one hpp]; exact hZ2
    obtain ⟨x, ex, mx, dx⟩ := add_near hf h (W := Z) mc hmu.neg e3 (show |-mu - -mu| ≤ 0 by simp)
      (by have := abs_add_le a (-mu); rw [_root_.abs_neg] at this; linarith) (by linarith) hZ1
    obtain ⟨v, ev, mv, dv⟩ := add_near hf h (W := Z) hpri mx (show |pri - pri| ≤ 0 by simp) dx
      (by
        have h1 := abs_add_le pri (a + -mu)
        have h2 := abs_add_le a (-mu)
        rw [_root_.abs_neg] at h2
        linarith) (by linarith) hZ1
    refine Or.inr ⟨pri + (a + -mu), v, ?_, ?_, ?_⟩
    · rw [Rounding.sub_fin, Rounding.add_fin, sub_eq_add_neg]
    · rw [Rounding.sub_def, sub_eq_add_neg, ex, Rounding.add_def, ev]
      rfl
    · refine dv.trans (le_of_eq ?_)
      ring

/-- The facts about one event that the sum over the events needs. -/
theorem event_facts (hw : Wide f) (h : Nearest f fl) (R : Reduction) (n nMax : ℕ) (hn : 1 ≤ n) (hmax : 1 ≤ nMax) (minErrSq : ℝ) (draw : Key → List XR) (k : Key) {B W S E : ℝ}
    (hB : 0 ≤ B) (hd : ∀ c, (draw c).length = n ∧ ∀ x ∈ draw c, Weight f x ∧ ∀ a, x = fin a → |a| ≤ B)
    (hWdef : W = B + Real.log (nMax * n : ℕ) + 4) (hW0 : 0 ≤ W) (hW : W ≤ (2 : ℝ) ^ f.emax) (hBn : B + n ≤ (2 : ℝ) ^ f.emax) (hn8 : (8 : ℝ) * (nMax * n : ℕ) ≤ 2 ^ f.p)
    (hEdef : E = (5 * n + 3 * W + 6 * nMax * W) / 2 ^ f.p) (hE : E ≤ 1) (hS : W ≤ S) :
    ∃ l, (∃ b, 1 ≤ b ∧ b ≤ nMax ∧ l = log (fin (mean (pool draw k b)))) ∧
      Robust.Within E l (runEvent fl R n nMax minErrSq draw k).logEst ∧ Weight f (runEvent fl R n nMax minErrSq draw k).logEst ∧
      (∀ a, (runEvent fl R n nMax minErrSq draw k).logEst = fin a → |a| ≤ S) ∧ ∀ a, l = fin a → |a| ≤ S := by
  have hpp : (0 : ℝ) < 2 ^ f.p := by positivity
  obtain ⟨b, b1, b2, b3, b4⟩ := event_near hw h R n nMax hn hmax minErrSq draw k hB hd hWdef hW hBn hn8 (by rw [← hEdef]; exact hE)
  have hbE : (5 * n + 3 * W + 6 * b * W) / 2 ^ f.p ≤ E := by
    rw [hEdef]
    refine div_le_div_of_nonneg_right ?_ hpp.le
    have hb : (b : ℝ) ≤ nMax := by exact_mod_cast b2
    have := mul_le_mul_of_nonneg_right hb hW0
    linarith
  refine ⟨_, ⟨b, b1, b2, rfl⟩, (b3.mono hbE).within, ?_⟩
  rcases b3 with ⟨e1, e2⟩ | ⟨e1, a, e2, e3, e4⟩
  · refine ⟨Or.inl e2, fun a ha => ?_, fun a ha => ?_⟩
    · rw [e2] at ha; cases ha
    · rw [e1, log_fin_zero] at ha; cases ha
  · have b4 := b4 e1
    refine ⟨Or.inr ⟨a, e2, e3⟩, fun a' ha => ?_, fun a' ha => ?_⟩
    · rw [e2] at ha
      obtain rfl := fin.inj ha
      have := abs_sub_abs_le_abs_sub a (Real.log (mean (pool draw k b)))
      linarith
    · rw [log_fin_pos e1] at ha
      obtain rfl := fin.inj ha
      linarith

theorem exists_logs {α} {P : α → XR → Prop} : ∀ ps : List α, (∀ p ∈ ps, ∃ l, P p l) → ∃ ls, List.Forall₂ P ps ls
  | [], _ => ⟨[], .nil⟩
  | p :: ps, h => by
    obtain ⟨l, hl⟩ := h p (by simp)
    obtain ⟨ls, hls⟩ := exists_logs ps fun q hq => h q (by simp [hq])
    exact ⟨l :: ls, .cons hl hls⟩

/-- The log posterior of the analytic likelihood, in floating point: with `logs` the exact logarithms of the mean weights of the draws made for each event, the result is `-inf` if one of
them is, and otherwise a finite number close to prior plus constant plus the sum of the logarithms minus the expected rate. -/
theorem C109_analytic_posterior (hw : Wide f) (h : Nearest f fl) (R : Reduction) (n nMax : ℕ) (hn : 1 ≤ n) (hmax : 1 ≤ nMax) (minErrSq : ℝ) (draws : List (Key → List XR)) (key : Key)
    {B W : ℝ} (hB : 0 ≤ B) (hd : ∀ draw ∈ draws, ∀ c, (draw c).length = n ∧ ∀ x ∈ draw c, Weight f x ∧ ∀ a, x = fin a → |a| ≤ B)
    (hWdef : W = B + Real.log (nMax * n : ℕ) + 4) (hBn : B + n ≤ (2 : ℝ) ^ f.emax) (hn8 : (8 : ℝ) * (nMax * n : ℕ) ≤ 2 ^ f.p)
    (con mu pri : ℝ) (hcon : f.Mem con) (hmu : f.Mem mu) (hpri : f.Mem pri) (S : ℝ) (hS : |con| ≤ S ∧ W ≤ S) (K : ℕ) (hK : K = draws.length + 1)
    (E : ℝ) (hEdef : E = (5 * n + 3 * W + 6 * nMax * W) / 2 ^ f.p) (D : ℝ) (hD : D = K * E + ((1 + 1 / 2 ^ f.p) ^ K - 1) * (K * S)) (hD1 : D ≤ 1)
    (Z : ℝ) (hZ : Z = K * S + |mu| + |pri| + 4) (hZ1 : Z ≤ (2 : ℝ) ^ f.emax) (hZ2 : Z ≤ 2 ^ f.p) (hsize : (1 + 1 / 2 ^ f.p) ^ K * (K * S) ≤ (2 : ℝ) ^ f.emax) :
    ∃ logs : List XR, List.Forall₂ (fun p l => ∃ b, 1 ≤ b ∧ b ≤ nMax ∧ l = log (fin (mean (pool p.1 p.2 b)))) (draws.zip (key.split draws.length)) logs ∧
      Robust.Within (D + 2 * Z / 2 ^ f.p) (fin pri + ((fin con + logs.sum) - fin mu)) (logPosterior fl R n nMax minErrSq (fin con) (fin mu) (fin pri) key draws) := by
  have hf := hw.1
  have hpp : (0 : ℝ) < 2 ^ f.p := by positivity
  have hnN : 1 ≤ nMax * n := Nat.mul_pos hmax hn
  have hl0 : 0 ≤ Real.log (nMax * n : ℕ) := Real.log_nonneg (by exact_mod_cast hnN)
  have W4 : 4 ≤ W := by linarith
  have hK1 : (1 : ℝ) ≤ K := by rw [hK]; push_cast; linarith [Nat.cast_nonneg (α := ℝ) draws.length]
  have S0 : 0 ≤ S := (abs_nonneg con).trans hS.1
  have SK : S ≤ K * S := le_mul_of_one_le_left S0 hK1
  have m0 := abs_nonneg mu
  have p0 := abs_nonneg pri
  have E0 : 0 ≤ E := by rw [hEdef]; positivity
  have D0 : K * E ≤ D := by
    rw [hD]
    have : (1 : ℝ) ≤ (1 + 1 / 2 ^ f.p) ^ K := one_le_pow₀ (by have : (0 : ℝ) ≤ 1 / 2 ^ f.p := by positivity
                                                              linarith)
    have : 0 ≤ ((1 + 1 / 2 ^ f.p) ^ K - 1) * (K * S) := mul_nonneg (by linarith) (by linarith)
    linarith
  have ED : E ≤ D := (le_mul_of_one_le_left E0 hK1).trans D0
  -- every event
  have ev : ∀ p ∈ draws.zip (key.split draws.length), ∃ l, (∃ b, 1 ≤ b ∧ b ≤ nMax ∧ l = log (fin (mean (pool p.1 p.2 b)))) ∧
      Robust.Within E l (runEvent fl R n nMax minErrSq p.1 p.2).logEst ∧ Weight f (runEvent fl R n nMax minErrSq p.1 p.2).logEst ∧
      (∀ a, (runEvent fl R n nMax minErrSq p.1 p.2).logEst = fin a → |a| ≤ S) ∧ ∀ a, l = fin a → |a| ≤ S := by
    intro p hp
    exact event_facts hw h R n nMax hn hmax minErrSq p.1 p.2 hB (hd _ (List.of_mem_zip hp).1) hWdef (by linarith) (by linarith) hBn hn8 hEdef (by linarith) hS.2
  set ps := draws.zip (key.split draws.length) with hps
  have hlen : ps.length = draws.length := by rw [hps, List.length_zip, Key.split, List.length_map, List.length_range, min_self]
  obtain ⟨logs, hlogs⟩ := exists_logs ps ev
  refine ⟨logs, hlogs.imp fun p l hp => hp.1, ?_⟩
  set est : (Key → List XR) × Key → XR := fun p => (runEvent fl R n nMax minErrSq p.1 p.2).logEst with hest
  have total : ps.foldl (fun acc p => Rounding.add fl acc (est p)) (fin con) = jointLogProb fl (fin con :: ps.map est) := by
    rw [jointLogProb, List.foldl_cons, Rounding.add_def, zero_add, h.exact hcon, List.foldl_map]
  have near : List.Forall₂ (Robust.Within E) logs (ps.map est) := by
    rw [List.forall₂_map_right_iff]
    exact (hlogs.imp fun p l hp => hp.2.1).flip
  have ests : ∀ p ∈ ps, Weight f (est p) ∧ ∀ a, est p = fin a → |a| ≤ S := forall_of_forall₂ hlogs fun p l hp => ⟨hp.2.2.1, hp.2.2.2.1⟩
  have exacts : ∀ l ∈ logs, ∀ a, l = fin a → |a| ≤ S := forall_of_forall₂ hlogs.flip fun l p hp => hp.2.2.2.2
  have hl : logs.length + 1 = K := by rw [hK, ← hlen, hlogs.length_eq]
  obtain ⟨j1, j2⟩ := C109_joint hf h (xs := fin con :: logs) (ys := fin con :: ps.map est) (ε := E) (b := S) S0
    (.cons (Or.inr ⟨con, con, rfl, rfl, by simpa using E0⟩) near)
    (by
      intro y hy
      rcases List.mem_cons.1 hy with rfl | hy
      · exact Or.inr ⟨con, rfl, hcon⟩
      · obtain ⟨p, hp, rfl⟩ := List.mem_map.1 hy
        exact (ests p hp).1)
    (by
      intro a ha
      rcases List.mem_cons.1 ha with e | hy
      · rw [fin.inj e]; exact hS.1
      · obtain ⟨p, hp, e⟩ := List.mem_map.1 hy
        exact (ests p hp).2 a e)
    (by rw [List.length_cons, List.length_map, hlen, ← hK]; exact hsize)
  rw [List.length_cons, List.length_map, hlen, ← hK, ← hD, List.sum_cons] at j1
  have size : ∀ c, fin con + logs.sum = fin c → |c| ≤ K * S := by
    intro c hc
    have := sum_bound (fin con :: logs) (S := S) (by
      intro a ha
      rcases List.mem_cons.1 ha with e | hy
      · rw [fin.inj e]; exact hS.1
      · exact exacts _ hy a rfl) c (by rw [List.sum_cons]; exact hc)
    rwa [List.length_cons, hl] at this
  have res := posterior_step hf h hmu hpri j1 j2 size hZ.ge hD1 hZ1 hZ2
  rw [← total] at res
  exact res

/-- Log weights of 100 draws: half of them `x`, the other half `-inf`. -/
def exampleDraw (x : ℝ) : Key → List XR := fun _ => (List.replicate 50 (fin x)) ++ List.replicate 50 ninf

/-- `C109_analytic_posterior` in single precision, for two events and up to 10 batches of 100 draws. -/
example (fl : ℝ → XR) (h : Nearest single fl) (R : Reduction) (k : Key) :
    ∃ logs : List XR, logs.length = 2 ∧ Robust.Within (1 / 1000) (fin (-3) + ((fin 4 + logs.sum) - fin 5))
      (logPosterior fl R 100 10 (1 / 100) (fin 4) (fin 5) (fin (-3)) k [exampleDraw 2, exampleDraw (-1)]) := by
  have hm : ∀ n : ℤ, |n| < 8 → single.Mem n := mem_int wide_single.1
  have big : (2048 : ℝ) ≤ (2 : ℝ) ^ single.emax := by
    rw [show (2048 : ℝ) = 2 ^ (11 : ℤ) by norm_num]; exact zpow_le_zpow_right₀ (by norm_num) (by decide)
  have hl : Real.log ((10 * 100 : ℕ) : ℝ) ≤ 10 := by
    rw [Real.log_le_iff_le_exp (by norm_num)]
    have h2 : (2 : ℝ) ≤ Real.exp 1 := by have := Real.add_one_le_exp (1 : ℝ); linarith
    calc (((10 * 100 : ℕ) : ℝ)) ≤ 2 ^ 10 := by norm_num
      _ ≤ Real.exp 1 ^ 10 := pow_le_pow_left₀ (by norm_num) h2 10
      _ = Real.exp 10 := by rw [← Real.exp_nat_mul]; norm_num
  have draws : ∀ y : ℝ, single.Mem y → |y| ≤ 20 → ∀ c, (exampleDraw y c).length = 100 ∧ ∀ x ∈ exampleDraw y c, Weight single x ∧ ∀ a, x = fin a → |a| ≤ 20 := by
    intro y my hy c
    refine ⟨by simp [exampleDraw], fun x hx => ?_⟩
    rcases List.mem_append.1 hx with hx | hx <;> obtain rfl := List.eq_of_mem_replicate hx
    · exact ⟨Or.inr ⟨y, rfl, my⟩, fun a ha => by obtain rfl := fin.inj ha; exact hy⟩
    · exact ⟨Or.inl rfl, fun a ha => by cases ha⟩
  have hE : (5 * ((100 : ℕ) : ℝ) + 3 * (20 + Real.log ((10 * 100 : ℕ) : ℝ) + 4) + 6 * ((10 : ℕ) : ℝ) * (20 + Real.log ((10 * 100 : ℕ) : ℝ) + 4)) / 2 ^ single.p ≤ 1 / 5000 := by
    rw [show single.p = 24 from rfl, div_le_div_iff₀ (by positivity) (by norm_num)]
    push_cast at hl ⊢
    linarith
  obtain ⟨logs, h1, h2⟩ := C109_analytic_posterior wide_single h R 100 10 (by norm_num) (by norm_num) (1 / 100) [exampleDraw 2, exampleDraw (-1)] k (B := 20) (by norm_num)
    (by
      intro d hd
      simp only [List.mem_cons, List.not_mem_nil, or_false] at hd
      rcases hd with rfl | rfl
      · exact draws 2 (by simpa using hm 2 (by norm_num)) (by norm_num)
      · exact draws (-1) (by simpa using hm (-1) (by norm_num)) (by norm_num))
    rfl (by norm_num; linarith) (by norm_num [single]) 4 5 (-3) (by simpa using hm 4 (by norm_num)) (by simpa using hm 5 (by norm_num)) (by simpa using hm (-3) (by norm_num))
    40 ⟨by norm_num, by linarith⟩ 3 rfl _ rfl _ rfl
    (by rw [show single.p = 24 from rfl] at hE ⊢; push_cast at hE ⊢; norm_num at hE ⊢; linarith)
    _ rfl (by norm_num; linarith) (by rw [show single.p = 24 from rfl]; norm_num) (by rw [show single.p = 24 from rfl]; norm_num; linarith)
  refine ⟨logs, h1.length_eq.symm, RoundedLikelihood.within_mono h2 ?_⟩
  rw [show single.p = 24 from rfl] at hE ⊢
  push_cast at hE ⊢
  norm_num at hE ⊢
  linarith

end GW.RoundedAnalytic
