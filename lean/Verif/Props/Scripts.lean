import Verif.Model.Scripts
import Verif.Spec.SamplerConfig
import Verif.Spec.Quantile
import Verif.Lemmas.Hybrids

/-!
# C67, C68, C69: the command-line helpers
-/

namespace GW.Scripts

/-! ### C67: the training set of a flowMC run -/

/-- `k` divides up to `w`: the rounded-up quotient. -/
theorem ceil_le_iff {w k L : ℕ} (hk : 0 < k) : (w + k - 1) / k ≤ L ↔ w ≤ k * L := by
  rw [Nat.div_le_iff_le_mul_add_pred hk]
  omega

theorem loopsToFill_eq {r : Run} (hk : 0 < r.keptPerChain) (hw : 0 < r.window) : r.loopsToFill = (r.window + r.keptPerChain - 1) / r.keptPerChain := by
  unfold Run.loopsToFill
  rw [if_pos ⟨hk, hw⟩]

theorem loopsToFill_pos {r : Run} (hk : 0 < r.keptPerChain) (hw : 0 < r.window) : 0 < r.loopsToFill := by
  by_contra h
  have h0 : (r.window + r.keptPerChain - 1) / r.keptPerChain ≤ 0 := by rw [← loopsToFill_eq hk hw]; omega
  rw [ceil_le_iff hk] at h0
  omega

/-- **C67.**  After `L` training loops every chain has contributed the steps that thinning keeps, of which the newest `window` are visible; the table gives the number
of visible samples of all chains, and a training set that is as large as `n_max_examples` allows. -/
theorem C67_pool (r : Run) (hl : 0 < r.localThin) (hg : 0 < r.globalThin) (hw : 0 < r.window) (hn : 0 < r.nChains) (hm : 0 < r.nMax) (L : ℕ) :
    (r.row L).total = r.nChains * (L * (r.nLocal / r.localThin + r.nGlobal / r.globalThin)) ∧
      (r.row L).candidates = r.nChains * min (L * (r.nLocal / r.localThin + r.nGlobal / r.globalThin)) r.window ∧
      (r.row L).nTrain = min (r.row L).candidates r.nMax := by
  have hk : r.keptPerChain = r.nLocal / r.localThin + r.nGlobal / r.globalThin := by
    unfold Run.keptPerChain
    rw [max_eq_left hl, max_eq_left hg]
  have hc : r.capacity > 0 := Nat.mul_pos hw hn
  refine ⟨?_, ?_, ?_⟩
  · simp only [Run.row, Run.keptTotal, hk]; ring
  · simp only [Run.row, if_pos hc]
    rw [← Nat.mul_min_mul_left, ← hk, Run.capacity, Run.keptTotal, Nat.mul_comm r.window, show r.keptPerChain * r.nChains * L = r.nChains * (L * r.keptPerChain) by ring]
  · simp only [Run.row, hm, if_true]

/-- **C67.**  "Saturated" is written exactly at the first loop after which the window is full. -/
theorem C67_saturated (r : Run) (hk : 0 < r.keptPerChain) (hw : 0 < r.window) (L : ℕ) :
    (r.row L).saturated = true ↔ r.window ≤ r.keptPerChain * L ∧ ∀ L' < L, r.keptPerChain * L' < r.window := by
  simp only [Run.row, decide_eq_true_eq]
  rw [loopsToFill_eq hk hw]
  constructor
  · rintro rfl
    refine ⟨(ceil_le_iff hk).1 le_rfl, fun L' h => ?_⟩
    by_contra hc
    exact absurd ((ceil_le_iff hk).2 (not_lt.1 hc)) (not_le.2 h)
  · rintro ⟨h1, h2⟩
    refine le_antisymm ?_ ((ceil_le_iff hk).2 h1)
    by_contra hc
    exact absurd ((ceil_le_iff hk).1 le_rfl) (not_le.2 (h2 _ (not_le.1 hc)))

theorem forgetting_iff (r : Run) (hk : 0 < r.keptPerChain) (hw : 0 < r.window) (L : ℕ) :
    (r.row L).forgetting = true ↔ ∃ L', L = L' + 1 ∧ r.window ≤ r.keptPerChain * L' := by
  have hp := loopsToFill_pos hk hw
  simp only [Run.row, decide_eq_true_eq, Run.firstForget, if_pos hp]
  constructor
  · rintro ⟨h, _⟩
    refine ⟨L - 1, by omega, ?_⟩
    rw [← ceil_le_iff hk, ← loopsToFill_eq hk hw]
    omega
  · rintro ⟨L', rfl, h⟩
    rw [← ceil_le_iff hk, ← loopsToFill_eq hk hw] at h
    omega

/-- **C67 (partial).**  "Forgetting" should be written exactly at the loops after which some sample has left the window.  Proved: it is never written too early, it is
at most one loop late, and it is exact if the window is a whole number of loops.  Missing: windows that are not, see `C67_forgetting_violated`. -/
theorem C67_forgetting_partial (r : Run) (hk : 0 < r.keptPerChain) (hw : 0 < r.window) (L : ℕ) :
    ((r.row L).forgetting = true → r.window < r.keptPerChain * L) ∧ (r.window < r.keptPerChain * L → (r.row (L + 1)).forgetting = true) ∧
      (r.keptPerChain ∣ r.window → ((r.row L).forgetting = true ↔ r.window < r.keptPerChain * L)) := by
  have h1 : (r.row L).forgetting = true → r.window < r.keptPerChain * L := by
    rw [forgetting_iff r hk hw]
    rintro ⟨L', rfl, h⟩
    rw [Nat.mul_add, Nat.mul_one]
    omega
  refine ⟨h1, fun h => ?_, fun hd => ⟨h1, fun h => ?_⟩⟩
  · rw [forgetting_iff r hk hw]
    exact ⟨L, rfl, h.le⟩
  · obtain ⟨c, hc⟩ := hd
    rw [forgetting_iff r hk hw]
    rw [hc] at h ⊢
    have hcL : c < L := Nat.lt_of_mul_lt_mul_left h
    exact ⟨L - 1, by omega, Nat.mul_le_mul_left _ (by omega)⟩

/-- The settings of the template script. -/
def templateRun : Run := ⟨10, 300, 1, 20, 1, 500, 100000⟩

/-- **C67 (violated).**  With the settings of the template, every chain has 640 samples after two loops and 500 are visible, but "Forgetting" is only written at
loop three. -/
theorem C67_forgetting_violated : templateRun.window < templateRun.keptPerChain * 2 ∧ (templateRun.row 2).forgetting = false ∧
    (templateRun.row 3).forgetting = true := by decide

/-- **C67.**  The suggestions fit together, whatever the dimension: the suggested window is filled after exactly the suggested number of loops and is a whole number
of loops, the suggested number of examples is positive and never more than the window of all chains holds, the batch is between 1024 and 10000, and the training is
at least four times as long as it takes to fill the window. -/
theorem C67_suggestions (r : Run) (nDims : ℕ) (hd : 0 < nDims) (hn : 0 < r.nChains) (hk : 0 < r.keptPerChain) :
    ∃ s, suggest nDims r.nChains r.keptTotal = some s ∧ s.historyLoops ∈ [5, 6, 8] ∧ s.window = s.historyLoops * r.keptPerChain ∧
      ({ r with window := s.window } : Run).loopsToFill = s.historyLoops ∧ 0 < s.nMax ∧ s.nMax ≤ s.window * r.nChains ∧ 1024 ≤ s.batchSize ∧ s.batchSize ≤ 10000 ∧
      4 * s.historyLoops ≤ s.trainingLoops ∧ s.trainingLoops ≤ 2 * s.productionLoops + 1 := by
  unfold suggest
  rw [if_neg (by omega)]
  have hkept : r.keptTotal / max r.nChains 1 = r.keptPerChain := by
    rw [max_eq_left hn, Run.keptTotal, Nat.mul_div_cancel _ hn]
  simp only [hkept]
  refine ⟨_, rfl, ?_, rfl, ?_, ?_, ?_, ?_, ?_, ?_, ?_⟩
  · dsimp only; split_ifs <;> simp
  · dsimp only
    generalize hh : (if nDims ≤ 15 then 5 else if nDims ≤ 30 then 6 else 8) = h
    have hpos : 0 < h := by rw [← hh]; split_ifs <;> norm_num
    have hk' : ({ r with window := h * r.keptPerChain } : Run).keptPerChain = r.keptPerChain := rfl
    rw [loopsToFill_eq (by rw [hk']; exact hk) (Nat.mul_pos hpos hk), hk']
    dsimp only
    apply le_antisymm
    · rw [ceil_le_iff hk, Nat.mul_comm]
    · have := (ceil_le_iff (w := h * r.keptPerChain) hk).1 le_rfl
      rw [Nat.mul_comm r.keptPerChain] at this
      exact Nat.le_of_mul_le_mul_right this hk
  · dsimp only
    refine lt_min (by split_ifs <;> norm_num) (Nat.mul_pos (Nat.mul_pos (by split_ifs <;> norm_num) hk) hn)
  · exact min_le_right _ _
  · dsimp only
    split_ifs <;> omega
  · dsimp only
    split_ifs <;> omega
  · exact le_max_left _ _
  · dsimp only
    omega

/-- **C67 (violated).**  The suggested batch can be larger than the suggested training set: for a short run of one chain there are 50 examples and a batch of 1024. -/
theorem C67_suggested_batch_violated : ∃ s, suggest 3 1 10 = some s ∧ s.nMax = 50 ∧ s.batchSize = 1024 := ⟨_, rfl, by decide, by decide⟩

/-- The template run meets the hypotheses of the theorems above. -/
example : 0 < templateRun.keptPerChain ∧ 0 < templateRun.window ∧ 0 < templateRun.localThin ∧ 0 < templateRun.globalThin ∧ 0 < templateRun.nChains ∧
    0 < templateRun.nMax := by decide

/-- A window of a whole number of loops, so that the last part of `C67_forgetting_partial` applies. -/
example : ({ templateRun with window := 640 } : Run).keptPerChain ∣ ({ templateRun with window := 640 } : Run).window := by decide

/-! ### C68: the mass matrix of a pilot run -/

open GW.Settings GW.Settings.Spec

/-- The unbiased variance of a list of numbers, with its mean given. -/
def IsVariance (c : List ℝ) (v : ℝ) : Prop := ∃ mean : ℝ, mean * c.length = c.sum ∧ v * ((c.length : ℝ) - 1) = (c.map fun x => (x - mean) ^ 2).sum

theorem std_sq {c : List ℝ} (hc : 2 ≤ c.length) : IsVariance c (std c ^ 2) := by
  have h2 : (2 : ℝ) ≤ c.length := by exact_mod_cast hc
  refine ⟨c.sum / c.length, by field_simp, ?_⟩
  unfold std
  rw [Real.sq_sqrt]
  · rw [div_mul_cancel₀]
    linarith
  · refine div_nonneg (List.sum_nonneg ?_) (by linarith)
    intro y hy
    obtain ⟨x, _, rfl⟩ := List.mem_map.1 hy
    exact sq_nonneg _

/-- **C68.**  For a pilot run with at least two samples of `d ≥ 2` parameters the script prints `d` numbers, the `j`-th being the reciprocal of the unbiased variance
of the `j`-th parameter plus `eps`; they are positive, and the list is accepted by the driver as the diagonal mass matrix in `d` dimensions. -/
theorem C68_mass (eps : ℝ) (heps : 0 < eps) (rows : List (List ℝ)) (d : ℕ) (hd : 2 ≤ d) (hr : 2 ≤ rows.length) (hw : ∀ r ∈ rows, r.length = d) :
    ∃ out, diagMass eps rows = .ok out ∧ out.length = d ∧
      (∀ j < d, ∃ v, IsVariance (rows.map fun r => r.getD j 0) v ∧ 0 < out.getD j 0 ∧ out.getD j 0 * (v + eps) = 1) ∧
      MassOf d (.list ((out.map Atom.float).map Item.atom)) (.matrix fun i j => if i = j then out.getD i 0 else 0) := by
  have hs : samples rows = rows := by
    match rows, hr, hw with
    | r :: r' :: rest, _, hw =>
      have : r.length ≠ 1 := by rw [hw r (by simp)]; omega
      simp [samples, this]
  have hlen : (rows.headD []).length = d := by
    match rows, hr, hw with
    | r :: rest, _, hw => exact hw r (by simp)
  have hout : diagMass eps rows = .ok ((List.range d).map fun j => ((std (column rows j)) ^ 2 + eps)⁻¹) := by
    unfold diagMass
    simp only [hs, hlen]
    rw [if_neg (by omega)]
  have hget : ∀ j < d, ((List.range d).map fun j => ((std (column rows j)) ^ 2 + eps)⁻¹).getD j 0 = ((std (column rows j)) ^ 2 + eps)⁻¹ := by
    intro j hj
    rw [List.getD_eq_getElem?_getD, List.getElem?_eq_getElem (by simpa using hj)]
    simp
  have hpos : ∀ j, 0 < (std (column rows j)) ^ 2 + eps := fun j => by positivity
  refine ⟨_, hout, by simp, ?_, ?_⟩
  · intro j hj
    refine ⟨std (column rows j) ^ 2, std_sq (c := column rows j) (by simpa [column] using hr), ?_, ?_⟩
    · rw [hget j hj]; exact inv_pos.2 (hpos j)
    · rw [hget j hj]; exact inv_mul_cancel₀ (hpos j).ne'
  · refine .diagonal (by simp) ?_ ?_
    · intro i
      refine ⟨_, List.getElem?_eq_getElem (by simp), ?_⟩
      rw [hget i.1 i.2]
      simpa using IsNum.float _
    · intro i
      rw [hget i.1 i.2]
      exact inv_pos.2 (hpos _)

/-- **C68 (violated).**  A pilot run of a single parameter is always refused, however many samples it has: its one column is read as one row. -/
theorem C68_single_parameter_violated (eps : ℝ) (xs : List ℝ) : diagMass eps (xs.map fun x => [x]) = .error () := by
  match xs with
  | [] => simp [diagMass, samples]
  | [x] => simp [diagMass, samples]
  | x :: y :: rest => simp [diagMass, samples]

/-- A pilot run of three samples of two parameters. -/
example : ∀ r ∈ ([[1, 2], [3, 4], [5, 7]] : List (List ℝ)), r.length = 2 := by simp

/-! ### C69: the plots of the posterior predictive -/

theorem sorted_getD {s : List ℝ} (hs : s.Pairwise (· ≤ ·)) {i j : ℕ} (hij : i ≤ j) (hj : j < s.length) : s.getD i 0 ≤ s.getD j 0 := by
  rcases Nat.lt_or_eq_of_le hij with h | rfl
  · have hi : i < s.length := lt_trans h hj
    simp only [List.getD_eq_getElem?_getD, List.getElem?_eq_getElem hi, List.getElem?_eq_getElem hj, Option.getD_some]
    exact List.pairwise_iff_getElem.1 hs i j hi hj h
  · exact le_rfl

theorem mergeSort_sorted (l : List ℝ) : (l.mergeSort).Pairwise (· ≤ ·) := by
  have := List.pairwise_mergeSort (le := fun a b : ℝ => decide (a ≤ b)) (by intro a b c; simp; exact le_trans) (by intro a b; simp; exact le_total a b) l
  simpa using this

/-- The interpolated order statistic lies between its neighbours. -/
theorem quantile_between {l : List ℝ} (hl : l ≠ []) {p : ℝ} (h0 : 0 ≤ p) (h1 : p ≤ 1) :
    (l.mergeSort).getD ⌊p * ((l.length : ℝ) - 1)⌋₊ 0 ≤ quantile l p ∧ quantile l p ≤ (l.mergeSort).getD ⌈p * ((l.length : ℝ) - 1)⌉₊ 0 ∧
      ⌈p * ((l.length : ℝ) - 1)⌉₊ < l.length := by
  have hN : 0 < l.length := List.length_pos_iff.2 hl
  have hN' : (1 : ℝ) ≤ l.length := by exact_mod_cast hN
  have hs := mergeSort_sorted l
  have hlen : l.mergeSort.length = l.length := List.length_mergeSort l
  set h := p * ((l.length : ℝ) - 1) with hh
  have hh0 : 0 ≤ h := mul_nonneg h0 (by linarith)
  have hhN : h ≤ (l.length : ℝ) - 1 := by nlinarith
  have hcl : ⌈h⌉₊ ≤ l.length - 1 := by
    rw [Nat.ceil_le, Nat.cast_sub hN]
    simpa using hhN
  have hceil : ⌈h⌉₊ < l.length := by omega
  have hfl : (⌊h⌋₊ : ℝ) ≤ h := Nat.floor_le hh0
  have hfl' : h < ⌊h⌋₊ + 1 := Nat.lt_floor_add_one h
  unfold quantile
  simp only [← hh]
  rcases Nat.lt_or_ge ⌊h⌋₊ ⌈h⌉₊ with hlt | hge
  · have hc : ⌈h⌉₊ = ⌊h⌋₊ + 1 := le_antisymm (Nat.ceil_le_floor_add_one h) hlt
    have hm : min (⌊h⌋₊ + 1) (l.length - 1) = ⌈h⌉₊ := by rw [← hc]; exact min_eq_left hcl
    rw [hm]
    have hab := sorted_getD hs (i := ⌊h⌋₊) (j := ⌈h⌉₊) hlt.le (by rw [hlen]; exact hceil)
    refine ⟨by nlinarith, by nlinarith, hceil⟩
  · have hc : ⌈h⌉₊ = ⌊h⌋₊ := le_antisymm hge (Nat.floor_le_ceil h)
    have he : h = ⌊h⌋₊ := le_antisymm (by rw [← hc]; exact Nat.le_ceil h) hfl
    rw [← he, sub_self, zero_mul, add_zero, hc]
    exact ⟨le_rfl, le_rfl, hc ▸ hceil⟩

/-- The quantile is the one of the specification, which determines it. -/
theorem quantile_iff {l : List ℝ} (hl : l ≠ []) {p : ℝ} (h0 : 0 ≤ p) (h1 : p ≤ 1) (v : ℝ) : IsQuantile l p v ↔ v = quantile l p := by
  have hN : 0 < l.length := List.length_pos_iff.2 hl
  have hN' : (1 : ℝ) ≤ l.length := by exact_mod_cast hN
  have hlen : l.mergeSort.length = l.length := List.length_mergeSort l
  set h := p * ((l.length : ℝ) - 1) with hh
  have hh0 : 0 ≤ h := mul_nonneg h0 (by linarith)
  have hhN : h ≤ (l.length : ℝ) - 1 := by nlinarith
  have hget : ∀ i, i < l.length → l.mergeSort[i]? = some (l.mergeSort.getD i 0) := by
    intro i hi
    rw [List.getD_eq_getElem?_getD, List.getElem?_eq_getElem (by rw [hlen]; exact hi), Option.getD_some]
  constructor
  · rintro ⟨s, hp, hs, i, t, ht0, ht1, hit, a, ha, hv⟩
    have hsm : s = l.mergeSort :=
      List.Perm.eq_of_pairwise (fun a b _ _ h1 h2 => le_antisymm h1 h2) hs (mergeSort_sorted l) (hp.trans (List.mergeSort_perm l _).symm)
    subst hsm
    have hfl : ⌊h⌋₊ = i := by
      rw [hh, hit]
      rw [Nat.floor_eq_iff (by positivity)]
      exact ⟨by linarith, by linarith⟩
    have ht : h - i = t := by rw [hh, hit]; ring
    unfold quantile
    simp only [← hh, hfl, ht]
    have ea : l.mergeSort.getD i 0 = a := by rw [List.getD_eq_getElem?_getD, ha]; rfl
    rw [ea]
    rcases hv with ⟨rfl, rfl⟩ | ⟨b, hb, rfl⟩
    · ring
    · have hb' : i + 1 < l.length := by rw [← hlen]; exact (List.getElem?_eq_some_iff.1 hb).1
      rw [min_eq_left (by omega)]
      have eb : l.mergeSort.getD (i + 1) 0 = b := by rw [List.getD_eq_getElem?_getD, hb]; rfl
      rw [eb]
      ring
  · rintro rfl
    have hfl : (⌊h⌋₊ : ℝ) ≤ h := Nat.floor_le hh0
    have hfl' : h < ⌊h⌋₊ + 1 := Nat.lt_floor_add_one h
    have hi : ⌊h⌋₊ < l.length := by
      have : (⌊h⌋₊ : ℝ) < l.length := by linarith
      exact_mod_cast this
    refine ⟨l.mergeSort, List.mergeSort_perm l _, mergeSort_sorted l, ⌊h⌋₊, h - ⌊h⌋₊, by linarith, by linarith, by ring, _, hget _ hi, ?_⟩
    unfold quantile
    simp only [← hh]
    by_cases hlast : ⌊h⌋₊ + 1 < l.length
    · right
      refine ⟨_, hget _ hlast, ?_⟩
      rw [min_eq_left (by omega)]
      ring
    · left
      have : (l.length : ℝ) ≤ ⌊h⌋₊ + 1 := by exact_mod_cast (by omega : l.length ≤ ⌊h⌋₊ + 1)
      have e : h - ⌊h⌋₊ = 0 := by linarith
      rw [e]
      exact ⟨rfl, by ring⟩

theorem curves_bands {marginal : List (List ℝ)} (h : ∀ line ∈ marginal, line ≠ []) : IsBands marginal (curves marginal) := by
  unfold IsBands curves levels
  have key : ∀ p : ℝ, 0 ≤ p → p ≤ 1 → List.Forall₂ (fun line v => IsQuantile line p v) marginal (marginal.map fun line => quantile line p) := by
    intro p h0 h1
    rw [List.forall₂_map_right_iff, List.forall₂_same]
    exact fun line hl => (quantile_iff (h line hl) h0 h1 _).2 rfl
  simp only [List.map_cons, List.map_nil, List.forall₂_cons, List.Forall₂.nil, and_true]
  exact ⟨key _ (by norm_num) (by norm_num), key _ (by norm_num) (by norm_num), key _ (by norm_num) (by norm_num), key _ (by norm_num) (by norm_num),
    key _ (by norm_num) (by norm_num)⟩

theorem quantile_mono {l : List ℝ} (hl : l ≠ []) {p q : ℝ} (h0 : 0 ≤ p) (hpq : p ≤ q) (h1 : q ≤ 1) : quantile l p ≤ quantile l q := by
  have hN : 0 < l.length := List.length_pos_iff.2 hl
  have hN' : (1 : ℝ) ≤ l.length := by exact_mod_cast hN
  have hs := mergeSort_sorted l
  have hlen : l.mergeSort.length = l.length := List.length_mergeSort l
  obtain ⟨_, hpu, hpc⟩ := quantile_between hl h0 (hpq.trans h1)
  obtain ⟨hql, _, hqc⟩ := quantile_between hl (h0.trans hpq) h1
  set h := p * ((l.length : ℝ) - 1) with hh
  set h' := q * ((l.length : ℝ) - 1) with hh'
  have hle : h ≤ h' := mul_le_mul_of_nonneg_right hpq (by linarith)
  rcases Nat.lt_or_ge ⌊h⌋₊ ⌊h'⌋₊ with hlt | hge
  · have hcf : ⌈h⌉₊ ≤ ⌊h'⌋₊ := (Nat.ceil_le_floor_add_one h).trans hlt
    exact hpu.trans ((sorted_getD hs hcf (by rw [hlen]; exact lt_of_le_of_lt (Nat.floor_le_ceil h') hqc)).trans hql)
  · have he : ⌊h⌋₊ = ⌊h'⌋₊ := le_antisymm (Nat.floor_mono hle) hge
    unfold quantile
    simp only [← hh, ← hh', he]
    have hb : l.mergeSort.getD ⌊h'⌋₊ 0 ≤ l.mergeSort.getD (min (⌊h'⌋₊ + 1) (l.length - 1)) 0 := by
      refine sorted_getD hs ?_ (by rw [hlen]; omega)
      have := Nat.floor_le_ceil h'
      omega
    nlinarith

theorem countP_le_of_index {s : List ℝ} {P : ℝ → Bool} {c : ℕ} (h : ∀ i, c ≤ i → i < s.length → P (s.getD i 0) = false) : s.countP P ≤ c := by
  rw [← List.take_append_drop c s, List.countP_append]
  have h2 : (s.drop c).countP P = 0 := by
    rw [List.countP_eq_zero]
    intro x hx
    obtain ⟨i, hi, rfl⟩ := List.getElem_of_mem hx
    rw [List.length_drop] at hi
    have := h (c + i) (by omega) (by omega)
    rw [List.getD_eq_getElem?_getD, List.getElem?_eq_getElem (by omega), Option.getD_some] at this
    rw [List.getElem_drop, this]
    simp
  rw [h2, add_zero]
  exact (List.countP_le_length).trans (by rw [List.length_take]; omega)

/-- At most `⌈p (N - 1)⌉` samples are below the quantile. -/
theorem below_quantile {l : List ℝ} (hl : l ≠ []) {p : ℝ} (h0 : 0 ≤ p) (h1 : p ≤ 1) :
    (l.countP fun x => decide (x < quantile l p)) ≤ ⌈p * ((l.length : ℝ) - 1)⌉₊ := by
  rw [← (List.mergeSort_perm l (fun a b : ℝ => decide (a ≤ b))).countP_eq]
  obtain ⟨_, hu, hc⟩ := quantile_between hl h0 h1
  refine countP_le_of_index fun i hi hil => ?_
  rw [decide_eq_false_iff_not, not_lt]
  exact hu.trans (sorted_getD (mergeSort_sorted l) hi hil)

/-- At most `⌈(1 - p) (N - 1)⌉` samples are above it. -/
theorem above_quantile {l : List ℝ} (hl : l ≠ []) {p : ℝ} (h0 : 0 ≤ p) (h1 : p ≤ 1) :
    (l.countP fun x => decide (quantile l p < x)) ≤ ⌈(1 - p) * ((l.length : ℝ) - 1)⌉₊ := by
  have hN : 0 < l.length := List.length_pos_iff.2 hl
  have hN' : (1 : ℝ) ≤ l.length := by exact_mod_cast hN
  rw [← (List.mergeSort_perm l (fun a b : ℝ => decide (a ≤ b))).countP_eq]
  obtain ⟨hlow, _, hc⟩ := quantile_between hl h0 h1
  have hlen : (l.mergeSort (fun a b : ℝ => decide (a ≤ b))).length = l.length := List.length_mergeSort l
  rw [← List.countP_reverse]
  refine countP_le_of_index fun i hi hil => ?_
  rw [List.length_reverse, hlen] at hil
  rw [decide_eq_false_iff_not, not_lt]
  refine le_trans ?_ hlow
  have hr : ((l.mergeSort (fun a b : ℝ => decide (a ≤ b))).reverse).getD i 0 = (l.mergeSort (fun a b : ℝ => decide (a ≤ b))).getD (l.length - 1 - i) 0 := by
    rw [List.getD_eq_getElem?_getD, List.getD_eq_getElem?_getD, List.getElem?_reverse (by rw [hlen]; exact hil), hlen]
  rw [hr]
  refine sorted_getD (mergeSort_sorted l) ?_ (by rw [hlen]; exact lt_of_le_of_lt (Nat.floor_le_ceil _) hc)
  rw [Nat.le_floor_iff (mul_nonneg h0 (by linarith))]
  have hi' : (1 - p) * ((l.length : ℝ) - 1) ≤ i := (Nat.ceil_le).1 hi
  have hcast : ((l.length - 1 - i : ℕ) : ℝ) = (l.length : ℝ) - 1 - i := by
    rw [Nat.cast_sub (by omega), Nat.cast_sub hN]; simp
  rw [hcast]
  linarith

/-- **C69.**  The five curves of a figure never cross, whatever the samples: at every grid point the 90% band contains the 50% band, which contains the median, and
all lie between the smallest and the largest of the samples.  The order of the samples does not matter. -/
theorem C69_bands (line : List ℝ) (hl : line ≠ []) :
    ∃ a b c d e, curves [line] = [[a], [b], [c], [d], [e]] ∧ IsQuantile line 0.05 a ∧ IsQuantile line 0.25 b ∧ IsQuantile line 0.5 c ∧ IsQuantile line 0.75 d ∧
      IsQuantile line 0.95 e ∧ a ≤ b ∧ b ≤ c ∧ c ≤ d ∧ d ≤ e ∧ (∃ x ∈ line, x ≤ a) ∧ (∃ x ∈ line, e ≤ x) ∧
      ∀ line', List.Perm line line' → curves [line'] = [[a], [b], [c], [d], [e]] := by
  have hlen : line.mergeSort.length = line.length := List.length_mergeSort line
  have hmem : ∀ i < line.length, line.mergeSort.getD i 0 ∈ line := by
    intro i hi
    rw [List.getD_eq_getElem?_getD, List.getElem?_eq_getElem (by rw [hlen]; exact hi), Option.getD_some]
    exact (List.mergeSort_perm line _).mem_iff.1 (List.getElem_mem _)
  refine ⟨_, _, _, _, _, rfl, (quantile_iff hl (by norm_num) (by norm_num) _).2 rfl, (quantile_iff hl (by norm_num) (by norm_num) _).2 rfl,
    (quantile_iff hl (by norm_num) (by norm_num) _).2 rfl, (quantile_iff hl (by norm_num) (by norm_num) _).2 rfl, (quantile_iff hl (by norm_num) (by norm_num) _).2 rfl,
    quantile_mono hl (by norm_num) (by norm_num) (by norm_num), quantile_mono hl (by norm_num) (by norm_num) (by norm_num),
    quantile_mono hl (by norm_num) (by norm_num) (by norm_num), quantile_mono hl (by norm_num) (by norm_num) (by norm_num), ?_, ?_, ?_⟩
  · obtain ⟨h1, _, h3⟩ := quantile_between hl (p := 0.05) (by norm_num) (by norm_num)
    exact ⟨_, hmem _ (lt_of_le_of_lt (Nat.floor_le_ceil _) h3), h1⟩
  · obtain ⟨_, h2, h3⟩ := quantile_between hl (p := 0.95) (by norm_num) (by norm_num)
    exact ⟨_, hmem _ h3, h2⟩
  · intro line' hp
    have : quantile line' = quantile line := by
      funext p
      have hs : line'.mergeSort = line.mergeSort :=
        List.Perm.eq_of_pairwise (fun a b _ _ h1 h2 => le_antisymm h1 h2) (mergeSort_sorted line') (mergeSort_sorted line)
          ((List.mergeSort_perm line' _).trans (hp.symm.trans (List.mergeSort_perm line _).symm))
      unfold quantile
      rw [hs, hp.length_eq]
    simp only [curves, List.map_cons, List.map_nil, this]
    rfl

/-- **C69.**  The band between the levels `p` and `1 - p` leaves out at most `2 ⌈p (N - 1)⌉` of the `N` samples. -/
theorem C69_coverage_partial (line : List ℝ) (hl : line ≠ []) (p : ℝ) (h0 : 0 ≤ p) (h1 : p ≤ 1 / 2) (lo hi : ℝ) (hlo : IsQuantile line p lo)
    (hhi : IsQuantile line (1 - p) hi) : (line.countP fun x => decide (x < lo ∨ hi < x)) ≤ 2 * ⌈p * ((line.length : ℝ) - 1)⌉₊ := by
  rw [quantile_iff hl h0 (by linarith)] at hlo
  rw [quantile_iff hl (by linarith) (by linarith)] at hhi
  subst hlo hhi
  have e1 := below_quantile hl h0 (by linarith)
  have e2 := above_quantile hl (p := 1 - p) (by linarith) (by linarith)
  rw [sub_sub_cancel] at e2
  have hsplit : (line.countP fun x => decide (x < quantile line p ∨ quantile line (1 - p) < x)) ≤
      (line.countP fun x => decide (x < quantile line p)) + (line.countP fun x => decide (quantile line (1 - p) < x)) := by
    clear e1 e2
    generalize quantile line p = a
    generalize quantile line (1 - p) = b
    induction line with
    | nil => simp
    | cons x t ih =>
      have ih' : (t.countP fun x => decide (x < a ∨ b < x)) ≤ (t.countP fun x => decide (x < a)) + (t.countP fun x => decide (b < x)) := by
        cases t with
        | nil => simp
        | cons y t => exact ih (by simp)
      simp only [List.countP_cons, decide_eq_true_eq]
      by_cases h1 : x < a <;> by_cases h2 : b < x <;> simp only [h1, h2, or_true, or_false, if_true, if_false] <;> omega
  omega

/-- **C69 (violated).**  "The 90% band contains 90% of the samples": of two different samples it contains none. -/
theorem C69_coverage_violated : ∃ (line : List ℝ) (lo hi : ℝ), line.length = 2 ∧ IsQuantile line 0.05 lo ∧ IsQuantile line 0.95 hi ∧
    ∀ x ∈ line, x < lo ∨ hi < x := by
  refine ⟨[0, 1], _, _, rfl, (quantile_iff (by simp) (by norm_num) (by norm_num) _).2 rfl, (quantile_iff (by simp) (by norm_num) (by norm_num) _).2 rfl, ?_⟩
  have hs : ([0, 1] : List ℝ).mergeSort = [0, 1] := List.mergeSort_of_pairwise (by simp)
  have hf1 : ⌊(1 / 20 : ℝ)⌋₊ = 0 := by rw [Nat.floor_eq_zero]; norm_num
  have hf2 : ⌊(19 / 20 : ℝ)⌋₊ = 0 := by rw [Nat.floor_eq_zero]; norm_num
  have h1 : quantile [0, 1] 0.05 = 0.05 := by
    unfold quantile
    simp only [hs]
    norm_num [hf1]
  have h2 : quantile [0, 1] 0.95 = 0.95 := by
    unfold quantile
    simp only [hs]
    norm_num [hf2]
  intro x hx
  rw [h1, h2]
  simp only [List.mem_cons, List.not_mem_nil, or_false] at hx
  rcases hx with rfl | rfl
  · left; norm_num
  · right; norm_num

theorem plotName_inj {dir pre h h' : String} {n i j : ℕ} (hn : 1 < n) (he : plotName dir pre h n i = plotName dir pre h' n j) : i = j := by
  unfold plotName at he
  rw [if_pos hn, if_pos hn] at he
  have key : ∀ (x : String) (k : ℕ), x ++ "_ppd_plot" ++ ("_" ++ toString k ++ ".pdf") = ((x ++ "_ppd_plot") ++ "_" ++ toString k) ++ ".pdf" := by
    intro x k; simp only [String.append_assoc]
  rw [key, key] at he
  have := (String.append_left_inj _).1 he
  exact (Hybrids.numbered_eq this).2

theorem drawFile_same {headers : List String} {axes : List Figure} {f : PlotFile} (hf : f.headers = headers) (ha : axes.length = headers.length) :
    drawFile axes f = .ok (axes.mapIdx fun i fig => fig ++ [(headers.getD i "", curves (f.marginals.getD i []))]) := by
  unfold drawFile
  rw [hf, if_pos ha.ge]
  congr 1
  refine List.ext_getElem (by simp) fun i h1 h2 => ?_
  simp only [List.getElem_mapIdx]
  rw [List.length_mapIdx, ha] at h1
  rw [List.getElem?_eq_getElem h1]
  simp [List.getD_eq_getElem?_getD, h1]

theorem drawFiles_same {headers : List String} : ∀ (files : List PlotFile), (∀ f ∈ files, f.headers = headers) → ∀ (axes : List Figure),
    axes.length = headers.length → headers ≠ [] →
    drawFiles files axes = .ok (axes.mapIdx fun i fig => fig ++ files.map fun f => (headers.getD i "", curves (f.marginals.getD i []))) := by
  intro files
  induction files with
  | nil =>
    intro _ axes _ _
    simp only [drawFiles, List.map_nil, List.append_nil]
    congr 1
    exact List.ext_getElem (by simp) fun i h1 h2 => by simp
  | cons f fs ih =>
    intro hall axes ha hne
    have hpos : 0 < headers.length := List.length_pos_iff.2 hne
    unfold drawFiles
    have hemp : axes.isEmpty = false := by cases axes <;> simp_all
    rw [hemp, if_neg (by simp), drawFile_same (hall f (by simp)) ha]
    simp only
    rw [ih (fun g hg => hall g (List.mem_cons_of_mem _ hg)) _ (by simpa using ha) hne]
    congr 1
    refine List.ext_getElem (by simp) fun i h1 h2 => ?_
    simp

/-- **C69 (partial).**  If all the files have the same headers, there is one figure per parameter; the `i`-th file name contains the name of the `i`-th parameter, no
two file names are equal, and the figure shows, for every file, the bands of exactly this parameter.  Missing: files with different headers, see
`C69_figures_violated`. -/
theorem C69_figures_partial (dir pre : String) (headers : List String) (hne : headers ≠ []) (files : List PlotFile) (hf : files ≠ [])
    (hall : ∀ f ∈ files, f.headers = headers) (hsam : ∀ f ∈ files, ∀ marginal ∈ f.marginals, ∀ line ∈ marginal, line ≠ []) :
    ∃ out, plotAll dir pre files = .ok out ∧ out.length = headers.length ∧ (out.map (·.1)).Nodup ∧
      ∀ (i : ℕ) (h : String), headers[i]? = some h → ∃ name fig, out[i]? = some (name, fig) ∧ (∃ rest, name = dir ++ "/" ++ pre ++ h ++ "_ppd_plot" ++ rest) ∧
        List.Forall₂ (fun (f : PlotFile) (drawn : String × List (List ℝ)) => drawn.1 = h ∧ ∀ marginal, f.marginals[i]? = some marginal → IsBands marginal drawn.2) files fig := by
  obtain ⟨f, fs, rfl⟩ := List.exists_cons_of_ne_nil hf
  have hdraw : drawFiles (f :: fs) [] = .ok ((headers.map fun _ => ([] : Figure)).mapIdx fun i fig =>
      fig ++ (f :: fs).map fun f => (headers.getD i "", curves (f.marginals.getD i []))) := by
    have h0 : drawFiles (f :: fs) [] = drawFiles (f :: fs) (headers.map fun _ => ([] : Figure)) := by
      have hemp : (headers.map fun _ => ([] : Figure)).isEmpty = false := by cases headers <;> simp_all
      simp only [drawFiles, hemp, List.isEmpty_nil, if_true, hall f (by simp), Bool.false_eq_true, if_false]
    rw [h0]
    exact drawFiles_same _ hall _ (by simp) hne
  have hlast : ∃ g, (f :: fs).getLast? = some g ∧ g.headers = headers := by
    refine ⟨(f :: fs).getLast (by simp), List.getLast?_eq_getLast_of_ne_nil (by simp), hall _ (List.getLast_mem _)⟩
  obtain ⟨g, hg, hgh⟩ := hlast
  have hall : plotAll dir pre (f :: fs) = .ok (((headers.map fun _ => ([] : Figure)).mapIdx fun i fig =>
      fig ++ (f :: fs).map fun f => (headers.getD i "", curves (f.marginals.getD i []))).mapIdx fun i fig =>
        (plotName dir pre (headers.getD i "") headers.length i, fig)) := by
    unfold plotAll
    rw [hdraw, hg]
    simp only [hgh]
    rw [if_neg (by simp)]
    simp only [List.length_mapIdx, List.length_map]
  refine ⟨_, hall, ?_, ?_, ?_⟩
  · simp
  · rw [List.nodup_iff_getElem?_ne_getElem?]
    intro i j hij hj
    simp only [List.length_map, List.length_mapIdx] at hj
    simp only [List.getElem?_map, List.getElem?_mapIdx]
    rw [List.getElem?_eq_getElem (show i < headers.length by omega), List.getElem?_eq_getElem (show j < headers.length by omega)]
    simp only [Option.map_some, ne_eq, Option.some.injEq]
    intro he
    exact absurd (plotName_inj (by omega) he) (by omega)
  · intro i h hi
    have hlt : i < headers.length := (List.getElem?_eq_some_iff.1 hi).1
    refine ⟨plotName dir pre h headers.length i, (f :: fs).map fun f => (h, curves (f.marginals.getD i [])), ?_, ⟨_, rfl⟩, ?_⟩
    · have hih : headers[i] = h := (List.getElem?_eq_some_iff.1 hi).2
      simp [List.getD_eq_getElem?_getD, hlt, hih]
    · rw [List.forall₂_map_right_iff, List.forall₂_same]
      refine fun g hg => ⟨rfl, fun marginal hm => ?_⟩
      simp only [List.getD_eq_getElem?_getD, hm, Option.getD_some]
      exact curves_bands (hsam g hg marginal (List.mem_of_getElem? hm))

/-- **C69 (violated).**  With two files whose headers are in different orders, each figure shows two different parameters, and the first parameter of the first file
is in a figure named after another one. -/
theorem C69_figures_violated (dir pre : String) : ∃ f g : PlotFile, List.Perm f.headers g.headers ∧
    plotAll dir pre [f, g] = .ok [(plotName dir pre "z" 2 0, [("a", curves []), ("z", curves [])]), (plotName dir pre "a" 2 1, [("z", curves []), ("a", curves [])])] := by
  refine ⟨⟨["a", "z"], [[], []]⟩, ⟨["z", "a"], [[], []]⟩, List.Perm.swap _ _ _, ?_⟩
  simp [plotAll, drawFiles, drawFile, List.mapIdx_cons]

/-- One file with two parameters, one grid point each and three samples. -/
example : ∀ f ∈ [(⟨["a", "z"], [[[1, 2, 3]], [[4, 5, 6]]]⟩ : PlotFile)], f.headers = ["a", "z"] ∧ ∀ marginal ∈ f.marginals, ∀ line ∈ marginal, line ≠ [] := by simp

end GW.Scripts
