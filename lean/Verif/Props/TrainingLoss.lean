import Verif.Lemmas.Training
import Verif.Model.PoissonMean
import Verif.Model.ModelFile
import Mathlib.Analysis.SpecialFunctions.Log.Deriv
import Mathlib.Analysis.Complex.ExponentialBounds

/-!
# C79 and C80: what the training losses select, and how the selected network is read back
-/

namespace GW.Training
open GW XR Tools TrainingSpec

noncomputable section
open Classical

theorem sigmoid_mem (l : ℝ) : 0 < sigmoid l ∧ sigmoid l < 1 := by
  have h := Real.exp_pos (-l)
  unfold sigmoid
  exact ⟨by positivity, by rw [div_lt_one (by linarith)]; linarith⟩

theorem one_sub_sigmoid (l : ℝ) : 1 - sigmoid l = 1 / (1 + Real.exp l) := by
  unfold sigmoid
  have h1 := Real.exp_pos l
  rw [Real.exp_neg]
  field_simp
  ring

theorem clipped_mem (y : ℝ) : 0 < clipped y ∧ clipped y < 1 := by
  unfold clipped
  constructor
  · refine lt_min (lt_of_lt_of_le (by norm_num) (le_max_right _ _)) (by norm_num)
  · exact lt_of_le_of_lt (min_le_right _ _) (by norm_num)

/-- Gibbs' inequality for two outcomes, with the case of equality. -/
theorem gibbs {c p : ℝ} (hc : 0 < c) (hc1 : c < 1) (hp : 0 < p) (hp1 : p < 1) :
    crossEntropy c c ≤ crossEntropy c p ∧ (crossEntropy c p = crossEntropy c c ↔ p = c) := by
  have key : p ≠ c → crossEntropy c c < crossEntropy c p := by
    intro hne
    have h1 : Real.log (p / c) < p / c - 1 := Real.log_lt_sub_one_of_pos (by positivity) (by rw [Ne, div_eq_one_iff_eq hc.ne']; exact hne)
    have h2 : Real.log ((1 - p) / (1 - c)) ≤ (1 - p) / (1 - c) - 1 := Real.log_le_sub_one_of_pos (div_pos (by linarith) (by linarith))
    rw [Real.log_div hp.ne' hc.ne'] at h1
    rw [Real.log_div (by linarith) (by linarith)] at h2
    have h1' : c * (Real.log p - Real.log c) < p - c := by
      have := mul_lt_mul_of_pos_left h1 hc
      rw [mul_sub, mul_sub, mul_div_cancel₀ _ hc.ne'] at this
      linarith
    have h2' : (1 - c) * (Real.log (1 - p) - Real.log (1 - c)) ≤ c - p := by
      have hd : 0 < 1 - c := by linarith
      have := mul_le_mul_of_nonneg_left h2 hd.le
      rw [mul_sub, mul_sub, mul_div_cancel₀ _ hd.ne'] at this
      linarith
    unfold crossEntropy
    nlinarith
  constructor
  · by_cases h : p = c
    · rw [h]
    · exact (key h).le
  · constructor
    · intro h
      by_contra hne
      exact (key hne).ne' h
    · intro h
      rw [h]

/-- **C79** The squared-error entry is the square of the difference, so it is smallest exactly at the target. -/
theorem C79_mse (y p : ℝ) : entry .mse (fin y) (fin p) = fin ((y - p) ^ 2) ∧ ((∀ p', le (entry .mse (fin y) (fin p)) (entry .mse (fin y) (fin p'))) ↔ p = y) := by
  have e : ∀ p, entry .mse (fin y) (fin p) = fin ((y - p) ^ 2) := fun p => by simp [entry, pow_two]
  refine ⟨e p, ?_⟩
  simp only [e, le_fin_fin]
  constructor
  · intro h
    have := h y
    nlinarith [sq_nonneg (y - p), pow_eq_zero_iff (two_ne_zero) |>.1 (le_antisymm (by simpa using this) (sq_nonneg (y - p)))]
  · rintro rfl p'
    nlinarith [sq_nonneg (p - p')]

/-- **C79** The cross-entropy entry is the cross-entropy of the forecast `sigmoid(logit)` for the clipped target. -/
theorem C79_bce (y l : ℝ) : entry .bce (fin y) (fin l) = fin (crossEntropy (clipped y) (sigmoid l)) := by
  have hs : ∀ x : ℝ, logSigmoid (fin x) = fin (Real.log (sigmoid x)) := by
    intro x
    rw [logSigmoid, neg_fin, softplus_fin, neg_fin, sigmoid, one_div, Real.log_inv]
  have h1 : sigmoid (-l) = 1 - sigmoid l := by rw [one_sub_sigmoid, sigmoid, neg_neg]
  have hc : clip 1e-6 (fin y) = fin (clipped y) := by
    rw [clip, max_fin_fin, min_fin_fin, clipped]
    norm_num
  rw [entry, hc, sigmoidBce, hs, neg_fin, neg_fin, hs, h1]
  simp only [mul_fin_fin, sub_fin_fin, crossEntropy, neg_mul]

/-- **C79** It is smallest exactly when the forecast equals the clipped target. -/
theorem C79_bce_minimum (y l : ℝ) :
    (∀ l', le (entry .bce (fin y) (fin l)) (entry .bce (fin y) (fin l'))) ↔ sigmoid l = clipped y := by
  obtain ⟨hc, hc1⟩ := clipped_mem y
  have hsurj : ∃ l₀, sigmoid l₀ = clipped y := by
    refine ⟨Real.log (clipped y / (1 - clipped y)), ?_⟩
    have hd : 0 < 1 - clipped y := by linarith
    rw [sigmoid, ← Real.log_inv, Real.exp_log (by positivity)]
    field_simp
    ring
  simp only [C79_bce, le_fin_fin]
  constructor
  · intro h
    obtain ⟨l₀, h₀⟩ := hsurj
    have h1 := h l₀
    rw [h₀] at h1
    have hg := gibbs hc hc1 (sigmoid_mem l).1 (sigmoid_mem l).2
    exact hg.2.1 (le_antisymm h1 hg.1)
  · intro h l'
    rw [h]
    exact (gibbs hc hc1 (sigmoid_mem l').1 (sigmoid_mem l').2).1

/-- **C79** So a logit that minimises it for a probability target gives that probability up to `1e-6`. -/
theorem C79_bce_accuracy {y l : ℝ} (h0 : 0 ≤ y) (h1 : y ≤ 1) (h : ∀ l', le (entry .bce (fin y) (fin l)) (entry .bce (fin y) (fin l'))) :
    |sigmoid l - y| ≤ 1 / 1000000 := by
  rw [(C79_bce_minimum y l).1 h, clipped, abs_le]
  rcases le_total y (1 / 1000000) with a | a
  · rw [max_eq_right a, min_eq_left (by norm_num)]
    constructor <;> linarith
  · rw [max_eq_left a]
    rcases le_total y (1 - 1 / 1000000) with b | b
    · rw [min_eq_left b]
      constructor <;> linarith
    · rw [min_eq_right b]
      constructor <;> linarith

example : ∀ l', le (entry .bce (fin (1 / 2)) (fin 0)) (entry .bce (fin (1 / 2)) (fin l')) := by
  rw [C79_bce_minimum]
  norm_num [sigmoid, clipped]

/-- Sums of finite entries. -/
theorem foldl_fin (l : List ℝ) : ∀ a : ℝ, (l.map fin).foldl (· + ·) (fin a) = fin (a + l.sum) := by
  induction l with
  | nil => intro a; simp
  | cons b l ih => intro a; rw [List.map_cons, List.foldl_cons, add_fin_fin, ih, List.sum_cons, add_assoc]

theorem mean_fin {l : List ℝ} (h : l ≠ []) : mean (l.map fin) = fin (l.sum / l.length) := by
  have : (l.length : ℝ) ≠ 0 := by exact_mod_cast (List.length_pos_of_ne_nil h).ne'
  rw [mean, foldl_fin, zero_add, List.length_map, div_fin_of_ne _ this]

/-- **C79** The squared-error loss of a network with one finite output is the mean of the squares over the rows: never negative, and zero exactly when the
network reproduces every target. -/
theorem C79_mse_batch {M : Type} (eval : M → Row → Row) (m : M) (f : Row → ℝ) (hf : ∀ x, eval m x = [fin (f x)]) (rows : List (Row × ℝ)) (hne : rows ≠ []) :
    lossFn eval .mse m (rows.map Prod.fst) (rows.map fun r => [fin r.2]) = fin ((rows.map fun r => (r.2 - f r.1) ^ 2).sum / rows.length) ∧
      0 ≤ (rows.map fun r => (r.2 - f r.1) ^ 2).sum / (rows.length : ℝ) ∧
      ((rows.map fun r => (r.2 - f r.1) ^ 2).sum / (rows.length : ℝ) = 0 ↔ ∀ r ∈ rows, f r.1 = r.2) := by
  have hpos : (0 : ℝ) < rows.length := by exact_mod_cast List.length_pos_of_ne_nil hne
  have hflat : (List.zipWith (fun x y => List.zipWith (entry .mse) y (eval m x)) (rows.map Prod.fst) (rows.map fun r => [fin r.2])).flatten
      = (rows.map fun r => (r.2 - f r.1) ^ 2).map fin := by
    clear hne hpos
    induction rows with
    | nil => rfl
    | cons r rows ih =>
      rw [List.map_cons, List.map_cons, List.zipWith_cons_cons, List.flatten_cons, ih, hf]
      simp [(C79_mse _ _).1]
  have hnn : ∀ x ∈ rows.map fun r => (r.2 - f r.1) ^ 2, 0 ≤ x := by
    intro x hx
    obtain ⟨r, -, rfl⟩ := List.mem_map.1 hx
    positivity
  refine ⟨?_, div_nonneg (List.sum_nonneg hnn) hpos.le, ?_⟩
  · rw [lossFn, hflat, mean_fin (by simpa using hne), List.length_map]
  · rw [div_eq_zero_iff, or_iff_left hpos.ne']
    constructor
    · intro h r hr
      have := le_antisymm ((List.single_le_sum hnn _ (List.mem_map.2 ⟨r, hr, rfl⟩)).trans h.le) (sq_nonneg (r.2 - f r.1))
      have := pow_eq_zero_iff (two_ne_zero) |>.1 this
      linarith
    · intro h
      refine List.sum_eq_zero fun x hx => ?_
      obtain ⟨r, hr, rfl⟩ := List.mem_map.1 hx
      rw [h r hr]
      ring

/-! ### C80: reading the network back -/

/-- A network output is *fitted* to a prepared target if no other output has a smaller loss there. -/
def Fitted (k : Loss) (target out : XR) : Prop := ∀ o : ℝ, le (entry k target out) (entry k target (fin o))

/-- **C80** (partial: squared error only, see the `_violated` theorems) A network fitted with squared error to detection probabilities, loaded as a
detection-probability estimator, gives the logarithm of the probability; one fitted in log space, loaded as a VT estimator, gives the logarithm of VT. -/
theorem C80_round_trip_partial {y o : ℝ} (hy : 0 < y) (idx : List ℕ) (net : Row → XR) (x : Row) (hnet : net (PoissonMean.takeColumns idx x) = fin o)
    (tiny : ℝ) :
    (Fitted .mse (fin y) (fin o) → PoissonMean.logPdet idx net x = fin (Real.log y)) ∧
      (Fitted .mse (TrainTargets.logTarget tiny (fin y)) (fin o) → PoissonMean.logVT idx net x = fin (Real.log y)) := by
  constructor
  · intro h
    have ho := (C79_mse y o).2.1 h
    subst ho
    simp only [PoissonMean.logPdet, hnet, le_fin_fin, decide_eq_false (not_le.2 hy), select_false, log_fin_pos hy]
  · intro h
    have ht : TrainTargets.logTarget tiny (fin y) = fin (Real.log y) := by simp [TrainTargets.logTarget, log_fin_pos hy, XR.isNegInf]
    rw [ht] at h
    have ho := (C79_mse _ o).2.1 h
    rw [PoissonMean.logVT, hnet, ho]

example (idx : List ℕ) (x : Row) : PoissonMean.logPdet idx (fun _ => fin (1 / 4)) x = fin (Real.log (1 / 4)) :=
  (C80_round_trip_partial (by norm_num) idx _ x rfl 1).1 ((C79_mse _ _).2.2 rfl)

/-- **C80** With the loss recommended for probabilities the round trip fails: a network fitted to a probability of at most one half is read back as
certainly not detected. -/
theorem C80_bce_violated {y o : ℝ} (hy2 : y ≤ 1 / 2) (h : Fitted .bce (fin y) (fin o)) (idx : List ℕ) (net : Row → XR) (x : Row)
    (hnet : net (PoissonMean.takeColumns idx x) = fin o) : PoissonMean.logPdet idx net x = ninf := by
  have hs := (C79_bce_minimum y o).1 h
  have hc : clipped y ≤ 1 / 2 := (min_le_left _ _).trans (max_le hy2 (by norm_num))
  have ho : o ≤ 0 := by
    by_contra hpos
    have : Real.exp (-o) < 1 := by rw [Real.exp_lt_one_iff]; linarith
    rw [← hs, sigmoid, div_le_div_iff₀ (by positivity) (by norm_num)] at hc
    linarith
  simp only [PoissonMean.logPdet, hnet, le_fin_fin, decide_eq_true ho, select_true]

/-- **C80** …and one fitted to a probability of at least three quarters is read back as a probability above one. -/
theorem C80_bce_above_one_violated {y o : ℝ} (hy : 3 / 4 ≤ y) (h : Fitted .bce (fin y) (fin o)) (idx : List ℕ) (net : Row → XR) (x : Row)
    (hnet : net (PoissonMean.takeColumns idx x) = fin o) : ∃ v, 0 < v ∧ PoissonMean.logPdet idx net x = fin v := by
  have hs := (C79_bce_minimum y o).1 h
  have hc : 3 / 4 ≤ clipped y := le_min (hy.trans (le_max_left _ _)) (by norm_num)
  have ho : 1 < o := by
    by_contra hle
    have h1 : Real.exp (-1) ≤ Real.exp (-o) := Real.exp_le_exp.2 (by linarith)
    have h2 : (1 : ℝ) / 3 < Real.exp (-1) := by
      have := Real.exp_one_lt_three
      rw [Real.exp_neg, ← one_div]
      exact one_div_lt_one_div_of_lt (Real.exp_pos 1) (by linarith)
    rw [← hs, sigmoid, le_div_iff₀ (by positivity)] at hc
    linarith
  refine ⟨Real.log o, Real.log_pos ho, ?_⟩
  simp only [PoissonMean.logPdet, hnet, le_fin_fin, decide_eq_false (not_le.2 (one_pos.trans ho)), select_false, log_fin_pos (one_pos.trans ho)]

/-- **C80** A network fitted to probabilities in log space, loaded as a detection-probability estimator, is read back as certainly not detected. -/
theorem C80_log_violated {y o : ℝ} (hy : 0 < y) (hy1 : y ≤ 1) (tiny : ℝ) (h : Fitted .mse (TrainTargets.logTarget tiny (fin y)) (fin o)) (idx : List ℕ)
    (net : Row → XR) (x : Row) (hnet : net (PoissonMean.takeColumns idx x) = fin o) : PoissonMean.logPdet idx net x = ninf := by
  have hv := (C80_round_trip_partial hy idx net x hnet tiny).2 h
  rw [PoissonMean.logVT, hnet] at hv
  have ho : o ≤ 0 := by
    have : o = Real.log y := by simpa using hv
    rw [this]
    exact Real.log_nonpos hy.le hy1
  simp only [PoissonMean.logPdet, hnet, le_fin_fin, decide_eq_true ho, select_true]

/-- **C80** The stored flag that tells the two kinds of networks apart is not looked at when loading. -/
theorem C80_flag_violated {A W : Type} (fresh : ℕ → W × W) (path : String) (attr : PyDict.Dict String A) (m : ModelFile.MLP W) (names : List String)
    (a b : A) (fa fb : ModelFile.H5 A W) (ha : ModelFile.save path attr (.checkpointed m) (some names) a = .ok fa) (hb : ModelFile.save path attr (.checkpointed m) (some names) b = .ok fb) :
    ModelFile.load fresh fa = ModelFile.load fresh fb := by
  unfold ModelFile.save at ha hb
  split_ifs at ha hb with h
  simp only [ModelFile.Network.inner, Except.ok.injEq] at ha hb
  subst ha
  subst hb
  rfl

/-- Fitted outputs exist for every target, so the hypotheses above are met. -/
example : Fitted .bce (fin (1 / 2)) (fin 0) := by
  refine (C79_bce_minimum _ _).2 ?_
  norm_num [sigmoid, clipped]
example (x : Row) : PoissonMean.logPdet [] (fun _ => fin 0) x = ninf :=
  C80_bce_violated (y := 1 / 2) le_rfl ((C79_bce_minimum _ _).2 (by norm_num [sigmoid, clipped])) [] _ x rfl
example (x : Row) : PoissonMean.logPdet [] (fun _ => fin (Real.log (1 / 2))) x = ninf :=
  C80_log_violated (y := 1 / 2) (by norm_num) (by norm_num) 1 (by
    have : TrainTargets.logTarget 1 (fin (1 / 2)) = fin (Real.log (1 / 2)) := by
      simp [TrainTargets.logTarget, XR.isNegInf]
    rw [this]
    exact (C79_mse _ _).2.2 rfl) [] _ x rfl

end

end GW.Training
