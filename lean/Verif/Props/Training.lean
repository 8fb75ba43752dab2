import Verif.Lemmas.Training
import Verif.Lemmas.PyDict
import Verif.Props.Tools
import Verif.Props.TrainingRate
import Mathlib.Tactic.IntervalCases

/-!
# C77: a training run visits every training row once per epoch and saves the network it ends with

The batches of an epoch cut the training rows in order; the saved network is the result of one optimiser step per batch and epoch, and does not depend on
the held-out rows; a call that raises before training writes nothing.
-/

namespace GW.Training
open GW XR Tools PyDict TrainingSpec

noncomputable section
open Classical

/-- The call passes all checks: checkpoint name, data file, split, schedule and loss. -/
structure Ready {M S : Type} (env : Env M S) (st : Settings) (file : Dict String (List XR)) (path : String) (n : ℕ) (col : String → List XR)
    (trX teX trY teY : List Row) (lr : ℕ → ℝ) (k : Loss) : Prop where
  named : st.checkpoint = some path
  ext : path.endsWith ".hdf5" = true
  read : readData file (st.inputKeys ++ st.outputKeys) = .ok (n, col)
  split : trainTestSplit (rowsOf n col st.inputKeys) (targets env.tiny st.trainInLog (rowsOf n col st.outputKeys)) (env.indices n) st.batchSize
    st.validationSplit = .ok (trX, teX, trY, teY)
  rate : schedule st trX.length = .ok lr
  loss : chooseLoss st.lossType = .ok k

variable {M S : Type}

theorem Ready.lengths {env : Env M S} {st : Settings} {file : Dict String (List XR)} {path : String} {n : ℕ} {col : String → List XR}
    {trX teX trY teY : List Row} {lr : ℕ → ℝ} {k : Loss} (h : Ready env st file path n col trX teX trY teY lr k) :
    0 < st.batchSize ∧ trX.length = trY.length ∧ trX.length = ((env.indices n).take (splitIndex n st.batchSize st.validationSplit)).length ∧
      teX.length = ((env.indices n).drop (splitIndex n st.batchSize st.validationSplit)).length := by
  have hs := h.split
  have hn : (rowsOf n col st.inputKeys).length = n := by simp [rowsOf]
  unfold trainTestSplit at hs
  by_cases hb : st.batchSize = 0
  · rw [if_pos hb] at hs
    cases hs
  · rw [if_neg hb, hn] at hs
    simp only [Except.ok.injEq, Prod.mk.injEq] at hs
    obtain ⟨h1, h2, h3, h4⟩ := hs
    refine ⟨Nat.pos_of_ne_zero hb, ?_, ?_, ?_⟩
    · rw [← h1, ← h3, List.length_map, List.length_map]
    · rw [← h1, List.length_map]
    · rw [← h2, List.length_map]

/-- What an accepted call writes. -/
theorem run_eq {env : Env M S} {st : Settings} {file : Dict String (List XR)} {path : String} {n : ℕ} {col : String → List XR}
    {trX teX trY teY : List Row} {lr : ℕ → ℝ} {k : Loss} (h : Ready env st file path n col trX teX trY teY lr k) :
    ∃ sq, trainRegressor env st file =
      let B := batchesOf st.batchSize (trX.zip trY)
      let m₀ := env.fresh st.inputKeys.length st.outputKeys.length
      let state := after (env.update k) lr B m₀
      let done := [Written.checkpoint path (state st.epochs).1 st.inputKeys st.trainInLog,
        .curves (path ++ "_loss.png")
          ((List.range st.epochs).map fun e => (batchLosses (env.update k) lr (lossFn env.eval k) (state e) B).foldl (· + ·) (fin 0)
            / fin ((Max.max 1 (trX.length / st.batchSize) : ℕ) : ℝ))
          ((List.range st.epochs).map fun e => lossFn env.eval k (state (e + 1)).1 teX teY)]
      if st.outputKeys.length ≠ 1 then (done, .error .valueError) else (done ++ [.residuals (path ++ "_total_loss.png") sq], .ok ()) := by
  obtain ⟨hb, hlen, -, -⟩ := h.lengths
  refine ⟨List.zipWith (fun x y => (List.zipWith (entry .mse) y (env.eval (after (env.update k) lr (batchesOf st.batchSize (trX.zip trY))
    (env.fresh st.inputKeys.length st.outputKeys.length) st.epochs).1 x)).headD nan) (rowsOf n col st.inputKeys)
    (targets env.tiny st.trainInLog (rowsOf n col st.outputKeys)), ?_⟩
  unfold trainRegressor
  rw [h.named]
  simp only [h.ext, not_true_eq_false, if_false, h.read, h.split, h.rate, h.loss, epochLoop_eq env k lr st.batchSize trX trY teX teY hlen, after]

/-- **C77** An accepted call first saves the network obtained from the fresh one by one optimiser step per batch, epoch after epoch, over batches that cut
the training rows in order; it is stored under the given path with the input names and the log flag. -/
theorem C77_training {env : Env M S} {st : Settings} {file : Dict String (List XR)} {path : String} {n : ℕ} {col : String → List XR}
    {trX teX trY teY : List Row} {lr : ℕ → ℝ} {k : Loss} (h : Ready env st file path n col trX teX trY teY lr k) :
    ∃ batches, Batching st.batchSize (trX.zip trY) batches ∧
      (trainRegressor env st file).1.head? = some (.checkpoint path
        (after (env.update k) lr batches (env.fresh st.inputKeys.length st.outputKeys.length) st.epochs).1 st.inputKeys st.trainInLog) ∧
      (after (env.update k) lr batches (env.fresh st.inputKeys.length st.outputKeys.length) st.epochs).2.2 = st.epochs * batches.length := by
  obtain ⟨hb, hlen, -, -⟩ := h.lengths
  refine ⟨batchesOf st.batchSize (trX.zip trY), batching hb _ _ le_rfl, ?_, ?_⟩
  · obtain ⟨sq, e⟩ := run_eq h
    rw [e]
    simp only
    split_ifs <;> rfl
  · have key : ∀ (l : List (List Pair)) (s : M × S × ℕ), (l.foldl (step (env.update k) lr) s).2.2 = s.2.2 + l.length := by
      intro l
      induction l with
      | nil => intro s; rfl
      | cons a l ih => intro s; rw [List.foldl_cons, ih, List.length_cons, step]; simp only; omega
    rw [after, key, List.length_flatten, List.map_replicate, List.sum_replicate, smul_eq_mul, zero_add]

/-- **C77** The saved network does not depend on the held-out rows: two data files that agree on the training rows give the same checkpoint. -/
theorem C77_held_out {env : Env M S} {st : Settings} {file₁ file₂ : Dict String (List XR)} {n : ℕ} {col₁ col₂ : String → List XR}
    (h₁ : readData file₁ (st.inputKeys ++ st.outputKeys) = .ok (n, col₁)) (h₂ : readData file₂ (st.inputKeys ++ st.outputKeys) = .ok (n, col₂))
    (agree : ∀ key ∈ st.inputKeys ++ st.outputKeys, ∀ i ∈ (env.indices n).take (splitIndex n st.batchSize st.validationSplit),
      (col₁ key).getD i nan = (col₂ key).getD i nan) :
    (trainRegressor env st file₁).1.head? = (trainRegressor env st file₂).1.head? := by
  have hX : ∀ keys : List String, (∀ key ∈ keys, key ∈ st.inputKeys ++ st.outputKeys) → ∀ f : Row → Row,
      ((env.indices n).take (splitIndex n st.batchSize st.validationSplit)).map (((rowsOf n col₁ keys).map f).getD · default)
        = ((env.indices n).take (splitIndex n st.batchSize st.validationSplit)).map (((rowsOf n col₂ keys).map f).getD · default) := by
    intro keys hk f
    refine List.map_congr_left fun i hi => ?_
    by_cases hin : i < n
    · have e : ∀ col : String → List XR, ((rowsOf n col keys).map f).getD i default = f (keys.map fun k => (col k).getD i nan) := by
        intro col
        simp [rowsOf, List.getD, hin]
      simp only [e]
      congr 1
      exact List.map_congr_left fun key hkey => agree key (hk key hkey) i hi
    · have e : ∀ col : String → List XR, ((rowsOf n col keys).map f).getD i default = default := fun col => by
        simp [rowsOf, List.getD, hin]
      simp only [e]
  have hXin := hX st.inputKeys (fun key hk => List.mem_append_left _ hk) id
  simp only [List.map_id] at hXin
  have hYout : ((env.indices n).take (splitIndex n st.batchSize st.validationSplit)).map ((targets env.tiny st.trainInLog (rowsOf n col₁ st.outputKeys)).getD · default)
      = ((env.indices n).take (splitIndex n st.batchSize st.validationSplit)).map ((targets env.tiny st.trainInLog (rowsOf n col₂ st.outputKeys)).getD · default) := by
    unfold targets
    cases st.trainInLog
    · have := hX st.outputKeys (fun key hk => List.mem_append_right _ hk) id
      simpa only [List.map_id, Bool.false_eq_true, if_false] using this
    · exact hX st.outputKeys (fun key hk => List.mem_append_right _ hk) _
  have hlen : ∀ col, (rowsOf n col st.inputKeys).length = n := fun col => by simp [rowsOf]
  cases hp : st.checkpoint with
  | none => simp [trainRegressor, hp]
  | some path =>
    by_cases hx : path.endsWith ".hdf5" = true
    swap
    · simp [trainRegressor, hp, hx]
    by_cases hb : st.batchSize = 0
    · simp [trainRegressor, hp, hx, h₁, h₂, trainTestSplit, hb]
    have s₁ : ∃ te ye, trainTestSplit (rowsOf n col₁ st.inputKeys) (targets env.tiny st.trainInLog (rowsOf n col₁ st.outputKeys)) (env.indices n) st.batchSize
        st.validationSplit = .ok (((env.indices n).take (splitIndex n st.batchSize st.validationSplit)).map ((rowsOf n col₁ st.inputKeys).getD · default), te,
          ((env.indices n).take (splitIndex n st.batchSize st.validationSplit)).map ((targets env.tiny st.trainInLog (rowsOf n col₁ st.outputKeys)).getD · default), ye) :=
      ⟨_, _, by rw [trainTestSplit, if_neg hb, hlen]⟩
    have s₂ : ∃ te ye, trainTestSplit (rowsOf n col₂ st.inputKeys) (targets env.tiny st.trainInLog (rowsOf n col₂ st.outputKeys)) (env.indices n) st.batchSize
        st.validationSplit = .ok (((env.indices n).take (splitIndex n st.batchSize st.validationSplit)).map ((rowsOf n col₂ st.inputKeys).getD · default), te,
          ((env.indices n).take (splitIndex n st.batchSize st.validationSplit)).map ((targets env.tiny st.trainInLog (rowsOf n col₂ st.outputKeys)).getD · default), ye) :=
      ⟨_, _, by rw [trainTestSplit, if_neg hb, hlen]⟩
    obtain ⟨te₁, ye₁, s₁⟩ := s₁
    obtain ⟨te₂, ye₂, s₂⟩ := s₂
    rw [hXin, hYout] at s₁
    generalize hR : ((env.indices n).take (splitIndex n st.batchSize st.validationSplit)).map ((rowsOf n col₂ st.inputKeys).getD · default) = trX at s₁ s₂
    generalize hT : ((env.indices n).take (splitIndex n st.batchSize st.validationSplit)).map
      ((targets env.tiny st.trainInLog (rowsOf n col₂ st.outputKeys)).getD · default) = trY at s₁ s₂
    cases hr : schedule st trX.length with
    | error e => simp [trainRegressor, hp, hx, h₁, h₂, s₁, s₂, hr]
    | ok lr =>
      cases hk : chooseLoss st.lossType with
      | error e => simp [trainRegressor, hp, hx, h₁, h₂, s₁, s₂, hr, hk]
      | ok k =>
        obtain ⟨sq₁, e₁⟩ := run_eq ⟨hp, hx, h₁, s₁, hr, hk⟩
        obtain ⟨sq₂, e₂⟩ := run_eq ⟨hp, hx, h₂, s₂, hr, hk⟩
        rw [e₁, e₂]
        simp only
        split_ifs <;> rfl

/-- **C77** A call that fails one of the checks writes no file and raises. -/
theorem C77_rejected (env : Env M S) (st : Settings) (file : Dict String (List XR))
    (h : ¬ ∃ path n col trX teX trY teY lr k, Ready env st file path n col trX teX trY teY lr k) :
    (trainRegressor env st file).1 = [] ∧ ∃ e, (trainRegressor env st file).2 = .error e := by
  unfold trainRegressor
  cases hp : st.checkpoint with
  | none => exact ⟨rfl, _, rfl⟩
  | some path =>
    by_cases hx : path.endsWith ".hdf5" = true
    swap
    · simp [hx]
    simp only [hx, not_true_eq_false, if_false]
    cases hr : readData file (st.inputKeys ++ st.outputKeys) with
    | error e => exact ⟨rfl, _, rfl⟩
    | ok r =>
      obtain ⟨n, col⟩ := r
      simp only
      cases hs : trainTestSplit (rowsOf n col st.inputKeys) (targets env.tiny st.trainInLog (rowsOf n col st.outputKeys)) (env.indices n) st.batchSize
          st.validationSplit with
      | error e => exact ⟨rfl, _, rfl⟩
      | ok r =>
        obtain ⟨trX, teX, trY, teY⟩ := r
        simp only
        cases hl : schedule st trX.length with
        | error e => exact ⟨rfl, _, rfl⟩
        | ok lr =>
          simp only
          cases hk : chooseLoss st.lossType with
          | error e => exact ⟨rfl, _, rfl⟩
          | ok k => exact absurd ⟨path, n, col, trX, teX, trY, teY, lr, k, hp, hx, hr, hs, hl, hk⟩ h

/-- **C77** An unknown loss name, a missing checkpoint name, a wrong file ending, a data set that is not in the file and data sets of different lengths are
always rejected before anything is written. -/
theorem C77_bad_arguments (env : Env M S) (st : Settings) (file : Dict String (List XR)) :
    (st.checkpoint = none → trainRegressor env st file = ([], .error .valueError)) ∧
      (∀ path, st.checkpoint = some path → path.endsWith ".hdf5" = false → trainRegressor env st file = ([], .error .valueError)) ∧
      (st.lossType.toLower ∉ ["mse", "bce", "bce_logits", "bcelogits"] → (trainRegressor env st file).1 = []) ∧
      ((∃ k ∈ st.inputKeys ++ st.outputKeys, k ∉ keys file) →
        (trainRegressor env st file).1 = [] ∧ ∃ e, (trainRegressor env st file).2 = .error e) ∧
      ((∃ k ∈ st.inputKeys ++ st.outputKeys, ∃ k' ∈ st.inputKeys ++ st.outputKeys, ∃ c c', get? file k = some c ∧ get? file k' = some c' ∧
          c.length ≠ c'.length) →
        (trainRegressor env st file).1 = [] ∧ ∃ e, (trainRegressor env st file).2 = .error e) := by
  refine ⟨fun h => by simp [trainRegressor, h], fun path h hx => by simp [trainRegressor, h, hx], fun h => (C77_rejected env st file ?_).1,
    fun h => C77_rejected env st file ?_, fun h => C77_rejected env st file ?_⟩
  · rintro ⟨path, n, col, trX, teX, trY, teY, lr, k, hr⟩
    have hl := hr.loss
    simp only [List.mem_cons, List.not_mem_nil, or_false, not_or] at h
    simp [chooseLoss, h.1, h.2.1, h.2.2.1, h.2.2.2] at hl
  · rintro ⟨path, n, col, trX, teX, trY, teY, lr, k, hr⟩
    have hd := hr.read
    obtain ⟨k', hk', hno⟩ := h
    have hnone : get? file k' = none := (get?_eq_none_iff file k').2 hno
    have hall : ¬ ((st.inputKeys ++ st.outputKeys).all fun k => (get? file k).isSome) = true := by
      rw [List.all_eq_true]
      intro hall
      have := hall k' hk'
      simp [hnone] at this
    simp only [readData, if_neg hall] at hd
    cases hd
  · rintro ⟨path, n, col, trX, teX, trY, teY, lr, k, hr⟩
    have hd := hr.read
    obtain ⟨k₁, hk₁, k₂, hk₂, c, c', e₁, e₂, hne⟩ := h
    unfold readData at hd
    split_ifs at hd with h1
    generalize st.inputKeys ++ st.outputKeys = ks at hd hk₁ hk₂
    cases ks with
    | nil => cases hk₁
    | cons k₀ ks =>
      simp only at hd
      split_ifs at hd with h2
      have key : ∀ j ∈ k₀ :: ks, ((get? file j).getD []).length = ((get? file k₀).getD []).length := by
        intro j hj
        rcases List.mem_cons.1 hj with rfl | hj
        · rfl
        · simpa using List.all_eq_true.1 h2 j hj
      have a := key k₁ hk₁
      have b := key k₂ hk₂
      rw [e₁] at a
      rw [e₂] at b
      exact hne (by simpa using a.trans b.symm)

/-- **C77** (partial: see `C77_curves_violated`) The curves file has one training and one validation loss per epoch.  The validation loss is that of the
network at the end of the epoch on the held-out rows; when the number of training rows is a positive multiple of the batch size, the training loss is the
average of the batch losses of that epoch. -/
theorem C77_curves_partial {env : Env M S} {st : Settings} {file : Dict String (List XR)} {path : String} {n : ℕ} {col : String → List XR}
    {trX teX trY teY : List Row} {lr : ℕ → ℝ} {k : Loss} (h : Ready env st file path n col trX teX trY teY lr k) :
    ∃ batches train val, Batching st.batchSize (trX.zip trY) batches ∧
      (trainRegressor env st file).1[1]? = some (.curves (path ++ "_loss.png") train val) ∧ train.length = st.epochs ∧ val.length = st.epochs ∧
      ∀ e < st.epochs,
        val[e]? = some (lossFn env.eval k (after (env.update k) lr batches (env.fresh st.inputKeys.length st.outputKeys.length) (e + 1)).1 teX teY) ∧
        (0 < trX.length → st.batchSize ∣ trX.length → train[e]? = some (average (batchLosses (env.update k) lr (lossFn env.eval k)
          (after (env.update k) lr batches (env.fresh st.inputKeys.length st.outputKeys.length) e) batches))) := by
  obtain ⟨hb, hlen, -, -⟩ := h.lengths
  obtain ⟨sq, e⟩ := run_eq h
  refine ⟨batchesOf st.batchSize (trX.zip trY),
    (List.range st.epochs).map fun e => (batchLosses (env.update k) lr (lossFn env.eval k) (after (env.update k) lr (batchesOf st.batchSize (trX.zip trY))
      (env.fresh st.inputKeys.length st.outputKeys.length) e) (batchesOf st.batchSize (trX.zip trY))).foldl (· + ·) (fin 0)
        / fin ((Max.max 1 (trX.length / st.batchSize) : ℕ) : ℝ),
    (List.range st.epochs).map fun e => lossFn env.eval k (after (env.update k) lr (batchesOf st.batchSize (trX.zip trY))
      (env.fresh st.inputKeys.length st.outputKeys.length) (e + 1)).1 teX teY,
    batching hb _ _ le_rfl, ?_, ?_, ?_, fun i hi => ⟨?_, fun hpos hdvd => ?_⟩⟩
  rotate_left 1
  · exact (List.length_map _).trans List.length_range
  · exact (List.length_map _).trans List.length_range
  · rw [List.getElem?_map, List.getElem?_range hi]
    rfl
  · rw [List.getElem?_map, List.getElem?_range hi, Option.map_some, average, length_batchLosses, length_batchesOf, List.length_zip, ← hlen, min_self]
    obtain ⟨c, hc⟩ := hdvd
    have hc0 : 0 < c := by
      rcases Nat.eq_zero_or_pos c with h0 | h0
      · rw [hc, h0, Nat.mul_zero] at hpos
        exact absurd hpos (lt_irrefl 0)
      · exact h0
    have e1 : (st.batchSize * c + st.batchSize - 1) / st.batchSize = c := by
      rw [Nat.add_sub_assoc hb, Nat.add_comm, Nat.add_mul_div_left _ _ hb, Nat.div_eq_of_lt (by omega), zero_add]
    have e2 : Max.max 1 (trX.length / st.batchSize) = c := by
      rw [hc, Nat.mul_div_cancel_left _ hb]
      exact Nat.max_eq_right hc0
    rw [e2, hc, e1]
  · rw [e]
    simp only
    split_ifs <;> rfl

/-- **C77** With one output the call ends normally and also writes the residuals. -/
theorem C77_single_output {env : Env M S} {st : Settings} {file : Dict String (List XR)} {path : String} {n : ℕ} {col : String → List XR}
    {trX teX trY teY : List Row} {lr : ℕ → ℝ} {k : Loss} (h : Ready env st file path n col trX teX trY teY lr k) (h1 : st.outputKeys.length = 1) :
    (trainRegressor env st file).2 = .ok () ∧ (trainRegressor env st file).1.length = 3 := by
  obtain ⟨sq, e⟩ := run_eq h
  rw [e]
  simp [h1]

/-- **C77** With several outputs the call always raises after the network and the curves have been written. -/
theorem C77_outputs_violated {env : Env M S} {st : Settings} {file : Dict String (List XR)} {path : String} {n : ℕ} {col : String → List XR}
    {trX teX trY teY : List Row} {lr : ℕ → ℝ} {k : Loss} (h : Ready env st file path n col trX teX trY teY lr k) (h1 : 1 < st.outputKeys.length) :
    (trainRegressor env st file).2 = .error .valueError ∧ (trainRegressor env st file).1.length = 2 := by
  obtain ⟨sq, e⟩ := run_eq h
  rw [e]
  have : st.outputKeys.length ≠ 1 := by omega
  simp [this]

/-- **C77** With no more rows than a batch nothing is held out, and every validation loss is NaN. -/
theorem C77_validation_violated {env : Env M S} {st : Settings} {file : Dict String (List XR)} {path : String} {n : ℕ} {col : String → List XR}
    {trX teX trY teY : List Row} {lr : ℕ → ℝ} {k : Loss} (h : Ready env st file path n col trX teX trY teY lr k)
    (hperm : (env.indices n).Perm (List.range n)) (hn : n ≤ st.batchSize) (train val : List XR)
    (hw : (trainRegressor env st file).1[1]? = some (.curves (path ++ "_loss.png") train val)) : ∀ v ∈ val, v = nan := by
  obtain ⟨hb, hlen, -, hte⟩ := h.lengths
  have hnil : teX = [] := by
    refine List.length_eq_zero_iff.1 ?_
    rw [hte, List.length_drop, hperm.length_eq, List.length_range]
    have : st.batchSize ≤ splitIndex n st.batchSize st.validationSplit := by
      unfold splitIndex
      simp only
      split_ifs with h2
      · omega
      · exact le_max_left _ _
    omega
  obtain ⟨sq, e⟩ := run_eq h
  have hv : val = (List.range st.epochs).map fun e => lossFn env.eval k
      (after (env.update k) lr (batchesOf st.batchSize (trX.zip trY)) (env.fresh st.inputKeys.length st.outputKeys.length) (e + 1)).1 teX teY := by
    rw [e] at hw
    simp only at hw
    split_ifs at hw
    · simp only [List.getElem?_cons_succ, List.getElem?_cons_zero, Option.some.injEq, Written.curves.injEq] at hw
      exact hw.2.2.symm
    · simp only [List.cons_append, List.getElem?_cons_succ, List.getElem?_cons_zero, Option.some.injEq, Written.curves.injEq] at hw
      exact hw.2.2.symm
  intro v hmem
  rw [hv, hnil] at hmem
  obtain ⟨i, -, rfl⟩ := List.mem_map.1 hmem
  simp [lossFn, mean, div_fin_fin, mulInf]

/-- **C78** A default call with at most six epochs writes nothing, whatever the data. -/
theorem C78_short_run_violated (env : Env M S) {st : Settings} (hc : st.useCosine = true) (hw : 0 < warm st) (he : st.epochs ≤ 2 * warm st)
    (file : Dict String (List XR)) : (trainRegressor env st file).1 = [] ∧ ∃ e, (trainRegressor env st file).2 = .error e := by
  refine C77_rejected env st file ?_
  rintro ⟨path, n, col, trX, teX, trY, teY, lr, k, hr⟩
  have := hr.rate
  rw [C78_short_violated hc hw he] at this
  cases this

/-! ### A run with the default settings -/

/-- A network that always answers zero and never changes. -/
def still : Env Unit Unit where
  indices := List.range
  fresh := fun _ _ => ((), ())
  eval := fun _ _ => [fin 0]
  update := fun _ _ _ _ _ _ => ((), ())
  tiny := 1

/-- `n` rows with input zero and target one. -/
def ones (n : ℕ) : Dict String (List XR) := [("x", List.replicate n (fin 0)), ("p", List.replicate n (fin 1))]

theorem ones_ready : ∃ col lr, Ready still defaults (ones 25) "m.hdf5" 25 col (List.replicate 15 [fin 0]) (List.replicate 10 [fin 0])
    (List.replicate 15 [fin 1]) (List.replicate 10 [fin 1]) lr .mse := by
  obtain ⟨lr, h⟩ := (C78_exists_partial defaults 15 rfl).2 (Or.inr (by decide))
  refine ⟨fun k => (get? (ones 25) k).getD [], lr, rfl, by decide +kernel, ?_, ?_, h, ?_⟩
  · simp [readData, defaults, ones, get?]
  · have hs : splitIndex 25 10 (1 / 5) = 15 := by decide +kernel
    rw [trainTestSplit, if_neg (by decide)]
    show Except.ok (((List.range 25).take (splitIndex 25 10 (1 / 5))).map _, ((List.range 25).drop (splitIndex 25 10 (1 / 5))).map _,
      ((List.range 25).take (splitIndex 25 10 (1 / 5))).map _, ((List.range 25).drop (splitIndex 25 10 (1 / 5))).map _) = _
    rw [hs]
    rfl
  · have : (defaults.lossType).toLower = "mse" := by decide +kernel
    simp [chooseLoss, this]

/-- The loss of the run above is one on every non-empty batch of targets one. -/
theorem still_loss (n : ℕ) (X : List Row) (h : X.length = n) (hn : 0 < n) : lossFn still.eval .mse () X (List.replicate n [fin 1]) = fin 1 := by
  have h1 : (List.zipWith (fun x y => List.zipWith (entry .mse) y (still.eval () x)) X (List.replicate n [fin 1])).flatten = List.replicate n (fin 1) := by
    subst h
    clear hn
    induction X with
    | nil => rfl
    | cons a X ih =>
      rw [List.length_cons, List.replicate_succ, List.zipWith_cons_cons, List.flatten_cons, ih, List.replicate_succ]
      simp [still, entry]
  have h2 : ∀ (n : ℕ) (a : ℝ), (List.replicate n (fin 1)).foldl (· + ·) (fin a) = fin (a + n) := by
    intro n
    induction n with
    | zero => intro a; simp
    | succ n ih => intro a; rw [List.replicate_succ, List.foldl_cons, add_fin_fin, ih]; push_cast; ring_nf
  have hnR : (n : ℝ) ≠ 0 := by exact_mod_cast hn.ne'
  rw [lossFn, h1, mean, h2, List.length_replicate, zero_add, div_fin_of_ne _ hnR, div_self hnR]

/-- **C77** With the default split, 25 rows and batches of 10 (15 training rows: a batch of 10 and one of 5), every batch loss is one but the training loss
reported for every epoch is two. -/
theorem C77_curves_violated : ∃ col lr, Ready still defaults (ones 25) "m.hdf5" 25 col (List.replicate 15 [fin 0]) (List.replicate 10 [fin 0])
    (List.replicate 15 [fin 1]) (List.replicate 10 [fin 1]) lr .mse ∧
    ∃ batches train val, Batching 10 ((List.replicate 15 [fin 0]).zip (List.replicate 15 [fin 1])) batches ∧
      (trainRegressor still defaults (ones 25)).1[1]? = some (.curves "m.hdf5_loss.png" train val) ∧ train.length = 50 ∧
      (∀ l, ∀ v ∈ batchLosses (still.update .mse) lr (lossFn still.eval .mse) l batches, v = fin 1) ∧ ∀ v ∈ train, v = fin 2 := by
  obtain ⟨col, lr, h⟩ := ones_ready
  refine ⟨col, lr, h, ?_⟩
  have hB : batchesOf 10 ((List.replicate 15 [fin 0]).zip (List.replicate 15 [fin 1]))
      = [List.replicate 10 ([fin 0], [fin 1]), List.replicate 5 ([fin 0], [fin 1])] := by
    rw [batchesOf_cons (by norm_num) (by simp), batchesOf_cons (by norm_num) (by simp)]
    have : (List.drop 10 (List.drop 10 ((List.replicate 15 [fin 0]).zip (List.replicate 15 [fin 1])))) = ([] : List Pair) := rfl
    rw [this, batchesOf_nil (by norm_num)]
    rfl
  have hL : ∀ l, batchLosses (still.update .mse) lr (lossFn still.eval .mse) l
      [List.replicate 10 (([fin 0], [fin 1]) : Pair), List.replicate 5 ([fin 0], [fin 1])] = [fin 1, fin 1] := by
    intro l
    simp only [batchLosses, List.map_replicate]
    rw [still_loss 10 _ (by simp) (by norm_num), still_loss 5 _ (by simp) (by norm_num)]
  obtain ⟨sq, e⟩ := run_eq h
  have hb10 : defaults.batchSize = 10 := rfl
  refine ⟨_, (List.range 50).map fun _ => fin 2, (List.range 50).map fun e => lossFn still.eval .mse
    (after (still.update .mse) lr (batchesOf 10 ((List.replicate 15 [fin 0]).zip (List.replicate 15 [fin 1])))
      (still.fresh defaults.inputKeys.length defaults.outputKeys.length) (e + 1)).1 (List.replicate 10 [fin 0]) (List.replicate 10 [fin 1]),
    batching (by norm_num) _ _ le_rfl, ?_, by simp, ?_, ?_⟩
  · rw [e]
    have h1 : ¬ defaults.outputKeys.length ≠ 1 := by decide
    have h2 : fin 0 + fin 1 + fin 1 = fin 2 := by norm_num
    have h3 : fin 2 / fin ((Max.max 1 (15 / 10) : ℕ) : ℝ) = fin 2 := by norm_num
    simp only [if_neg h1, hb10, hB, hL, List.foldl_cons, List.foldl_nil, h2, List.length_replicate, h3]
    rfl
  · intro l v hv
    rw [hB, hL] at hv
    simpa using hv
  · intro v hv
    obtain ⟨_, _, rfl⟩ := List.mem_map.1 hv
    rfl

/-- The hypotheses of the theorems above are met by this run, which ends normally. -/
example : (trainRegressor still defaults (ones 25)).2 = .ok () ∧ (trainRegressor still defaults (ones 25)).1.length = 3 := by
  obtain ⟨col, lr, h⟩ := ones_ready
  exact C77_single_output h rfl
example : (trainRegressor still { defaults with epochs := 5 } (ones 25)).1 = [] := (C78_short_run_violated still rfl (by decide) (by decide) _).1
example : trainRegressor still { defaults with checkpoint := some "m.h5" } (ones 25) = ([], .error .valueError) :=
  (C77_bad_arguments still { defaults with checkpoint := some "m.h5" } (ones 25)).2.1 "m.h5" rfl (by decide +kernel)
example : (trainRegressor still { defaults with lossType := "huber" } (ones 25)).1 = [] :=
  (C77_bad_arguments still { defaults with lossType := "huber" } (ones 25)).2.2.1 (by decide +kernel)
example : (trainRegressor still defaults [("x", [fin 0])]).1 = [] :=
  ((C77_bad_arguments still defaults _).2.2.2.1 ⟨"p", by decide, by simp [keys]⟩).1
example : (trainRegressor still defaults [("x", [fin 0]), ("p", [])]).1 = [] :=
  ((C77_bad_arguments still defaults _).2.2.2.2 ⟨"x", by decide, "p", by decide, [fin 0], [], rfl, rfl, by simp⟩).1
/-- A held-out row may change freely: here row 20 of the targets. -/
example : (trainRegressor still defaults (ones 25)).1.head?
    = (trainRegressor still defaults [("x", List.replicate 25 (fin 0)), ("p", (List.replicate 25 (fin 1)).set 20 nan)]).1.head? := by
  refine C77_held_out (n := 25) (col₁ := fun k => (get? (ones 25) k).getD [])
    (col₂ := fun k => (get? [("x", List.replicate 25 (fin 0)), ("p", (List.replicate 25 (fin 1)).set 20 nan)] k).getD []) ?_ ?_ ?_
  · simp [readData, defaults, ones, get?]
  · simp [readData, defaults, get?]
  · have hs : splitIndex 25 defaults.batchSize defaults.validationSplit = 15 := by decide +kernel
    intro key hkey i hi
    rw [hs] at hi
    have hi15 : i < 15 := by
      have : i ∈ (List.range 25).take 15 := hi
      rw [List.take_range] at this
      simpa using this
    have hkey' : key = "x" ∨ key = "p" := by simpa [defaults] using hkey
    rcases hkey' with rfl | rfl
    · simp [get?, ones]
    · interval_cases i <;> rfl

end

end GW.Training
