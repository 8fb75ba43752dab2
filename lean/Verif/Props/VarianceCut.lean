import Verif.Model.VarianceCut
import Verif.Lemmas.Tools
import Verif.Lemmas.Likelihood
import Mathlib.Algebra.Order.BigOperators.Group.List
import Mathlib.Algebra.Order.Chebyshev
import Mathlib.Tactic.FieldSimp

/-!
# C45: the variance cut
-/

namespace GW.VarianceCut
open GW GW.Tools Classical

theorem mask_foldl {α : Type} (v : α → Bool) : ∀ (chunks : List (List α)) (m : List Bool),
    chunks.foldl (maskStep v) (some m) = some (m ++ chunks.flatten.map v)
  | [], m => by simp
  | c :: cs, m => by
    rw [List.foldl_cons, maskStep, mask_foldl v cs]
    simp

/-- **C45.** The mask has one entry per row, in order, for every number of rows `≥ 1` and every batch size. -/
theorem C45_mask_one_entry_per_row {α : Type} (v : α → Bool) (samples : List α) (hs : samples ≠ []) (b : Nat)
    (hb : 0 < b) : mask v samples b = .ok (samples.map v) := by
  obtain ⟨bs, r, h, h1, h2, h3, h4⟩ := batchAndRemainder_ok samples b hb
  unfold mask
  rw [h]
  simp only [bind, Except.bind]
  have hflat : (if r.length > 0 then bs ++ [r] else bs).flatten = samples := by
    split_ifs with hr
    · simp [h1]
    · have : r = [] := List.eq_nil_of_length_eq_zero (by omega)
      rw [← h1, this, List.append_nil]
  generalize (if r.length > 0 then bs ++ [r] else bs) = chunks at hflat
  cases chunks with
  | nil => exact absurd hflat.symm hs
  | cons c cs =>
    simp only [List.foldl_cons, maskStep]
    rw [mask_foldl]
    rw [← hflat]
    simp [pure, Except.pure]

/-- **C45.** The saved rows are exactly the rows, in order, whose variance is a number below the threshold; rows with
NaN variance and (for thresholds representable as floats) infinite variance are dropped. -/
theorem C45_keeps_rows_below_threshold_partial (variance : List XR → XR) (hv : ∀ r, variance r ≠ .ninf) (big thr : ℝ)
    (hthr : thr ≤ big) (b : Nat) (hb : 0 < b) (file : List (List XR)) (h2 : 2 ≤ file.length)
    (hw : ∀ r ∈ file, r.length ≠ 1) :
    cut variance big (.fin thr) b file =
      .ok (file.filter fun r => decide (∃ x : ℝ, variance r = .fin x ∧ x < thr)) := by
  obtain ⟨r0, r1, rest, rfl⟩ : ∃ r0 r1 rest, file = r0 :: r1 :: rest := by
    rcases file with _ | ⟨a, _ | ⟨c, l⟩⟩
    · simp at h2
    · simp at h2
    · exact ⟨_, _, _, rfl⟩
  unfold cut
  simp only [loadtxt, if_neg (hw r0 (by simp))]
  rw [C45_mask_one_entry_per_row _ _ (by simp) b hb]
  simp only [bind, Except.bind, pure, Except.pure]
  congr 1
  have key : ∀ r, below big (.fin thr) (variance r) = decide (∃ x : ℝ, variance r = .fin x ∧ x < thr) := by
    intro r
    unfold below
    have := hv r
    cases hvr : variance r with
    | fin x => simp [XR.nanToNum]
    | pinf => simp [XR.nanToNum, hthr]
    | ninf => exact absurd hvr this
    | nan =>
      have h1 : ¬ XR.lt (.pinf) (.fin thr) := fun h => h
      simp [XR.nanToNum, h1]
  simp only [key]
  generalize r0 :: r1 :: rest = l
  generalize (fun r => decide (∃ x : ℝ, variance r = .fin x ∧ x < thr)) = p
  unfold applyMask
  induction l with
  | nil => rfl
  | cons a l ih =>
    cases hp : p a <;> simp_all

/-- **C45.** An empty posterior file ends in the assertion. -/
theorem C45_no_rows (variance : List XR → XR) (big : ℝ) (thr : XR) (b : Nat) :
    cut variance big thr b [] = .error .assertion := rfl

/-- **C45 (violated).** A posterior with a single free parameter (one column) cannot be filtered: the file is read back as a
one-dimensional array and indexing its scalar entries raises, for every variance function, threshold and number of
rows. -/
theorem C45_single_parameter_violated (variance : List XR → XR) (big : ℝ) (thr : XR) (b : Nat)
    (file : List (List XR)) (hne : file ≠ []) (hw : ∀ r ∈ file, r.length = 1) :
    cut variance big thr b file = .error .index := by
  rcases file with _ | ⟨r, _ | ⟨r', rest⟩⟩
  · exact absurd rfl hne
  · have := hw r (by simp)
    cases r with
    | nil => simp at this
    | cons x l => rfl
  · unfold cut
    simp [loadtxt, hw r (by simp)]

/-- **C45 (violated).** Nor can a posterior with a single row: it too is read back as a one-dimensional array. -/
theorem C45_single_row_violated (variance : List XR → XR) (big : ℝ) (thr : XR) (b : Nat) (row : List XR) (hne : row ≠ []) :
    cut variance big thr b [row] = .error .index := by
  cases row with
  | nil => exact absurd rfl hne
  | cons x r => rfl

/-- Non-vacuity: one sample of two parameters, with variance 0 below the threshold 1, which the claim would keep. -/
example : cut (fun _ => .fin 0) 10 (.fin 1) 2 [[.fin 0, .fin 7]] = .error .index :=
  C45_single_row_violated _ _ _ _ _ (by simp)

/-- Non-vacuity of C45: three rows of two parameters, one with NaN variance, one above the threshold. -/
example : cut (fun r => r.headD 0) 10 (.fin 1) 2
    [[.fin 0, .fin 7], [.nan, .fin 8], [.fin 3, .fin 9]] = .ok [[.fin 0, .fin 7]] := by
  have := C45_keeps_rows_below_threshold_partial
    (fun r => match r.headD 0 with | .ninf => .nan | x => x)
    (by intro r; cases h : r.headD 0 <;> simp) 10 1 (by norm_num) 2 (by norm_num)
    [[.fin 0, .fin 7], [.nan, .fin 8], [.fin 3, .fin 9]] (by simp) (by simp)
  simp at this
  rw [← this]
  simp [cut, loadtxt, mask, maskStep, batchAndRemainder, reshape, bind, Except.bind, pure, Except.pure]

end GW.VarianceCut

namespace GW.Likelihood
open GW Classical

theorem evTerms_filter {θ : Type} (M : Model θ) (fp : Nat → θ) : ∀ (i : Nat) (d : List θ) (r : List XR) (m : List Bool),
    (eventVariance.terms M fp i d r m).filter (fun x => !x.isNegInf) =
      ((rowSamples d r m).map fun p => M.logProb p.1 - p.2).filter (fun x => !x.isNegInf && !x.isNan)
  | i, [], r, m => by simp [eventVariance.terms, rowSamples]
  | i, d :: ds, [], m => by simp [eventVariance.terms, rowSamples]
  | i, d :: ds, r :: rs, [] => by simp [eventVariance.terms, rowSamples]
  | i, d :: ds, r :: rs, m :: ms => by
    have ih := evTerms_filter M fp (i + 1) ds rs ms
    cases m
    · simpa [eventVariance.terms, rowSamples] using ih
    · simp only [eventVariance.terms, if_true, Bool.true_and]
      rw [List.filter_cons, ih]
      have : rowSamples (d :: ds) (r :: rs) (true :: ms) = (d, r) :: rowSamples ds rs ms := by
        simp [rowSamples]
      rw [this, List.map_cons, List.filter_cons]
      cases M.logProb d - r <;> simp

theorem cauchy_list (w : List ℝ) : w.sum ^ 2 ≤ w.length * (w.map fun x => x ^ 2).sum := by
  have := sq_sum_le_card_mul_sum_sq (s := (Finset.univ : Finset (Fin w.length))) (f := fun i => w[i])
  simp only [Finset.card_univ, Fintype.card_fin] at this
  have h1 : ∑ i : Fin w.length, w[i] = w.sum := by
    rw [← List.sum_ofFn]; congr 1; exact List.ofFn_getElem
  have h2 : ∑ i : Fin w.length, w[i] ^ 2 = (w.map fun x => x ^ 2).sum := by
    rw [← List.sum_ofFn]; congr 1
    apply List.ext_getElem <;> simp
  rw [h1, h2] at this
  exact this

/-- **C45.** The single-event part of the variance that is compared with the threshold depends on the unmasked samples only
and equals `Σw² / (Σw)² - 1/n` with `w` the importance weights and `n` the number of samples; it is never negative. -/
theorem C45_event_variance {θ : Type} (M : Model θ) (fp : Nat → θ) (d : List θ) (r : List XR) (m : List Bool)
    (hd : d.length = m.length) (hr : r.length = m.length)
    (hlog : ∀ p ∈ rowSamples d r m, (M.logProb p.1 - p.2).IsLog)
    (w : List ℝ) (hw : w = (rowSamples d r m).map fun p => (M.logProb p.1 - p.2).expR) (hpos : 0 < w.sum) :
    eventVariance M fp d r m = .fin ((w.map fun x => x ^ 2).sum / w.sum ^ 2 - 1 / w.length) ∧
    0 ≤ (w.map fun x => x ^ 2).sum / w.sum ^ 2 - 1 / w.length := by
  have hlen : w.length = (m.filter id).length := by
    rw [hw, List.length_map]
    unfold rowSamples
    rw [List.length_map]
    clear hw hpos hlog
    induction m generalizing d r with
    | nil =>
      have : d = [] := List.eq_nil_of_length_eq_zero (by simpa using hd)
      subst this; simp
    | cons a m ih =>
      cases d with
      | nil => simp at hd
      | cons x d =>
        cases r with
        | nil => simp at hr
        | cons y r =>
          have := ih d r (by simpa using hd) (by simpa using hr)
          cases a <;> simp_all
  have hn : (0 : ℝ) < w.length := by
    rcases w with _ | ⟨a, w⟩
    · simp at hpos
    · simp; positivity
  constructor
  · have hfilt : ∀ x ∈ (rowSamples d r m).map (fun p => M.logProb p.1 - p.2), x.IsLog := by
      intro x hx
      obtain ⟨p, hp, rfl⟩ := List.mem_map.1 hx
      exact hlog p hp
    set ys := (rowSamples d r m).map (fun p => M.logProb p.1 - p.2) with hys
    have hT : (eventVariance.terms M fp 0 d r m).filter (fun x => !x.isNegInf) = ys.filter fun x => !x.isNegInf := by
      rw [evTerms_filter]
      refine List.filter_congr fun x hx => ?_
      have := (hfilt x hx).1
      cases x <;> simp_all
    set T := eventVariance.terms M fp 0 d r m with hTdef
    have hTlog : ∀ x ∈ T.filter (fun x => !x.isNegInf), x.IsLog := by
      rw [hT]; intro x hx; exact hfilt x (List.mem_filter.1 hx).1
    have hsum : ∀ g : XR → ℝ, g .ninf = 0 → ∀ l : List XR, ((l.filter fun x => !x.isNegInf).map g).sum = (l.map g).sum := by
      intro g hg l
      induction l with
      | nil => rfl
      | cons x l ih => cases x <;> simp_all
    have hk1 : ((T.map fun a => (a, !a.isNegInf)).filter (·.2)).map (·.1) = T.filter fun x => !x.isNegInf := by
      rw [List.filter_map, List.map_map]; simp [Function.comp_def]
    have hk2 : ((T.map fun a => (XR.fin 2 * a, !a.isNegInf)).filter (·.2)).map (·.1) =
        (T.filter fun x => !x.isNegInf).map fun a => XR.fin 2 * a := by
      rw [List.filter_map, List.map_map]; simp [Function.comp_def]
    have hlse1 : XR.logsumexpWhere (T.map fun a => (a, !a.isNegInf)) = XR.log (.fin w.sum) := by
      have : XR.logsumexpWhere (T.map fun a => (a, !a.isNegInf)) = XR.logsumexp (T.filter fun x => !x.isNegInf) := by
        rw [XR.logsumexp_unfold]; unfold XR.logsumexpWhere; rw [hk1]
      rw [this, XR.logsumexp_eq _ hTlog, hT, hsum XR.expR rfl, hw, hys, List.map_map]
      rfl
    have h2log : ∀ x ∈ (T.filter fun x => !x.isNegInf).map (fun a => XR.fin 2 * a), x.IsLog := by
      intro x hx
      obtain ⟨a, ha, rfl⟩ := List.mem_map.1 hx
      have h1 := hTlog a ha
      rcases h1.cases with e | ⟨y, e⟩
      · subst e; simp at ha
      · subst e; exact XR.isLog_fin _
    have hlse2 : XR.logsumexpWhere (T.map fun a => (XR.fin 2 * a, !a.isNegInf)) =
        XR.log (.fin (w.map fun x => x ^ 2).sum) := by
      have : XR.logsumexpWhere (T.map fun a => (XR.fin 2 * a, !a.isNegInf)) =
          XR.logsumexp ((T.filter fun x => !x.isNegInf).map fun a => XR.fin 2 * a) := by
        rw [XR.logsumexp_unfold]; unfold XR.logsumexpWhere; rw [hk2]
      rw [this, XR.logsumexp_eq _ h2log, List.map_map]
      have : ((T.filter fun x => !x.isNegInf).map (XR.expR ∘ fun a => XR.fin 2 * a)) =
          (T.filter fun x => !x.isNegInf).map fun a => a.expR ^ 2 := by
        refine List.map_congr_left fun a ha => ?_
        rcases (hTlog a ha).cases with e | ⟨y, e⟩
        · subst e; simp at ha
        · subst e
          simp only [Function.comp_apply, XR.mul_fin_fin, XR.expR_fin]
          rw [two_mul, Real.exp_add, sq]
      rw [this, hT, hsum (fun a => a.expR ^ 2) (by simp), hw, hys, List.map_map, List.map_map]
      rfl
    have hsq : 0 < (w.map fun x => x ^ 2).sum := by
      have h1 := cauchy_list w
      have h2 : 0 < w.sum ^ 2 := by positivity
      by_contra hcon
      push Not at hcon
      nlinarith
    unfold eventVariance
    simp only [← hTdef]
    rw [hlse1, hlse2, XR.log_fin_pos hpos, XR.log_fin_pos hsq]
    simp only [XR.isNegInf_fin, Bool.false_eq_true, if_false, XR.exp_fin, Real.exp_log hpos, Real.exp_log hsq,
      XR.mul_fin_fin]
    rw [XR.div_fin_of_ne _ (by positivity), XR.div_fin_of_ne _ (by rw [← hlen]; positivity), XR.sub_fin_fin, hlen, sq]
  · have h1 := cauchy_list w
    have h2 : 0 < w.sum ^ 2 := by positivity
    rw [sub_nonneg, div_le_div_iff₀ hn h2]
    linarith

/-- Non-vacuity of the variance formula: weights 1 and 1 and a padded position. -/
example : ∃ v, eventVariance (θ := Unit) ⟨fun _ => .fin 0, fun _ _ => ()⟩ (fun _ => ()) [(), (), ()]
    [.fin 0, .fin 0, .fin 5] [true, true, false] = .fin v ∧ 0 ≤ v := by
  have := C45_event_variance (θ := Unit) ⟨fun _ => .fin 0, fun _ _ => ()⟩ (fun _ => ()) [(), (), ()]
    [.fin 0, .fin 0, .fin 5] [true, true, false] rfl rfl (by simp [rowSamples, XR.IsLog]) [1, 1]
    (by simp [rowSamples]) (by norm_num)
  exact ⟨_, this.1, this.2⟩

end GW.Likelihood
