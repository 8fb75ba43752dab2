import Verif.Model.Training
import Verif.Spec.Training
import Verif.Lemmas.XRMath
import Verif.Lemmas.XR

/-! Helper lemmas for C77–C79. -/

namespace GW.Training
open GW XR Tools TrainingSpec

noncomputable section
open Classical

/-- The batches the loop visits, as pairs. -/
def batchesOf (b : ℕ) (rows : List Pair) : List (List Pair) := (starts rows.length b).map fun i => slice rows i b

theorem starts_cons {len b : ℕ} (hb : 0 < b) (hl : 0 < len) : starts len b = 0 :: (starts (len - b) b).map (· + b) := by
  unfold starts
  have h : (len + b - 1) / b = (len - b + b - 1) / b + 1 := by
    rcases Nat.lt_or_ge len b with h | h
    · rw [Nat.sub_eq_zero_of_le h.le, zero_add, Nat.div_eq_of_lt (Nat.sub_lt hb one_pos)]
      rw [show len + b - 1 = (len - 1) + b by omega, Nat.add_div_right _ hb, Nat.div_eq_of_lt (by omega)]
    · rw [Nat.sub_add_cancel h, show len + b - 1 = (len - 1) + b by omega, Nat.add_div_right _ hb]
  rw [h, List.range_succ_eq_map, List.map_cons, List.map_map, List.map_map, zero_mul]
  congr 1
  refine List.map_congr_left fun i _ => ?_
  simp [Nat.succ_mul]

theorem starts_zero {b : ℕ} (hb : 0 < b) : starts 0 b = [] := by
  unfold starts
  rw [Nat.div_eq_of_lt (by omega)]
  rfl

theorem length_starts (len b : ℕ) : (starts len b).length = (len + b - 1) / b := by simp [starts]

theorem batchesOf_nil {b : ℕ} (hb : 0 < b) : batchesOf b [] = [] := by simp [batchesOf, starts_zero hb]

theorem batchesOf_cons {b : ℕ} (hb : 0 < b) {rows : List Pair} (h : rows ≠ []) : batchesOf b rows = rows.take b :: batchesOf b (rows.drop b) := by
  unfold batchesOf
  rw [starts_cons hb (List.length_pos_of_ne_nil h), List.map_cons, List.map_map, List.length_drop]
  congr 1
  refine List.map_congr_left fun i _ => ?_
  simp [slice, List.drop_drop, add_comm]

theorem batching {b : ℕ} (hb : 0 < b) : ∀ (n : ℕ) (rows : List Pair), rows.length ≤ n → Batching b rows (batchesOf b rows)
  | 0, rows, h => by
    have : rows = [] := List.length_eq_zero_iff.1 (Nat.le_zero.1 h)
    subst this
    rw [batchesOf_nil hb]
    exact ⟨rfl, by simp, by simp⟩
  | n + 1, rows, h => by
    by_cases h0 : rows = []
    · subst h0
      rw [batchesOf_nil hb]
      exact ⟨rfl, by simp, by simp⟩
    have hp := List.length_pos_of_ne_nil h0
    have ih := batching hb n (rows.drop b) (by rw [List.length_drop]; omega)
    rw [batchesOf_cons hb h0]
    refine ⟨by rw [List.flatten_cons, ih.all, List.take_append_drop], fun x hx => ?_, fun x hx => ?_⟩
    · by_cases h1 : rows.drop b = []
      · rw [h1, batchesOf_nil hb] at hx
        simp at hx
      · have hne : batchesOf b (rows.drop b) ≠ [] := by rw [batchesOf_cons hb h1]; simp
        rw [List.dropLast_cons_of_ne_nil hne, List.mem_cons] at hx
        rcases hx with rfl | hx
        · rw [List.length_take]
          have := List.length_pos_of_ne_nil h1
          rw [List.length_drop] at this
          omega
        · exact ih.full x hx
    · rcases List.mem_cons.1 hx with rfl | hx
      · rw [List.length_take]
        omega
      · exact ih.bounds x hx

theorem length_batchesOf (b : ℕ) (rows : List Pair) : (batchesOf b rows).length = (rows.length + b - 1) / b := by
  rw [batchesOf, List.length_map, length_starts]

theorem slice_zip {α β : Type} (X : List α) (Y : List β) (h : X.length = Y.length) (i b : ℕ) :
    (slice (X.zip Y) i b).map Prod.fst = slice X i b ∧ (slice (X.zip Y) i b).map Prod.snd = slice Y i b := by
  have h1 : (X.zip Y).map Prod.fst = X := List.map_fst_zip h.le
  have h2 : (X.zip Y).map Prod.snd = Y := List.map_snd_zip h.ge
  constructor
  · rw [slice, List.map_take, List.map_drop, h1, slice]
  · rw [slice, List.map_take, List.map_drop, h2, slice]

/-- One epoch is the specified sequence of steps, and the loss accumulated is the sum of the batch losses. -/
theorem epochPass_eq {M S : Type} (env : Env M S) (k : Loss) (lr : ℕ → ℝ) (b : ℕ) (trX trY : List Row) (h : trX.length = trY.length) (l : Loop M S) :
    epochPass env k lr b trX trY l = ((batchesOf b (trX.zip trY)).foldl (step (env.update k) lr) l,
      (batchLosses (env.update k) lr (lossFn env.eval k) l (batchesOf b (trX.zip trY))).foldl (· + ·) (fin 0)) := by
  have hz : (trX.zip trY).length = trX.length := by rw [List.length_zip, h, min_self]
  unfold epochPass batchesOf
  rw [hz]
  generalize starts trX.length b = is
  generalize fin 0 = a
  induction is generalizing l a with
  | nil => rfl
  | cons i is ih =>
    rw [List.foldl_cons, ih]
    obtain ⟨e1, e2⟩ := slice_zip trX trY h i b
    simp only [List.map_cons, List.foldl_cons, batchLosses, step, e1, e2, makeStep]

theorem epochLoop_eq {M S : Type} (env : Env M S) (k : Loss) (lr : ℕ → ℝ) (b : ℕ) (trX trY teX teY : List Row) (h : trX.length = trY.length) :
    ∀ (e : ℕ) (l : Loop M S), epochLoop env k lr b trX trY teX teY e l =
      ((List.replicate e (batchesOf b (trX.zip trY))).flatten.foldl (step (env.update k) lr) l,
        (List.range e).map (fun i => (batchLosses (env.update k) lr (lossFn env.eval k)
          ((List.replicate i (batchesOf b (trX.zip trY))).flatten.foldl (step (env.update k) lr) l) (batchesOf b (trX.zip trY))).foldl (· + ·) (fin 0)
            / fin ((Max.max 1 (trX.length / b) : ℕ) : ℝ)),
        (List.range e).map fun i => lossFn env.eval k
          ((List.replicate (i + 1) (batchesOf b (trX.zip trY))).flatten.foldl (step (env.update k) lr) l).1 teX teY)
  | 0, l => rfl
  | e + 1, l => by
    rw [epochLoop]
    simp only [epochPass_eq env k lr b trX trY h l, epochLoop_eq env k lr b trX trY teX teY h e]
    refine Prod.ext ?_ (Prod.ext ?_ ?_)
    · simp only [List.replicate_succ, List.flatten_cons, List.foldl_append]
    · simp only [List.range_succ_eq_map, List.map_cons, List.map_map]
      congr 1
      refine List.map_congr_left fun i _ => ?_
      simp only [Function.comp, List.replicate_succ, List.flatten_cons, List.foldl_append]
    · simp only [List.range_succ_eq_map, List.map_cons, List.map_map]
      congr 1
      · simp
      · refine List.map_congr_left fun i _ => ?_
        simp only [Function.comp, List.replicate_succ, List.flatten_cons, List.foldl_append]

theorem length_batchLosses {M S : Type} (update : ℝ → M → S → List (List XR) → List (List XR) → M × S) (lr : ℕ → ℝ)
    (loss : M → List (List XR) → List (List XR) → XR) : ∀ (bs : List (List Pair)) (l : M × S × ℕ), (batchLosses update lr loss l bs).length = bs.length
  | [], _ => rfl
  | _ :: bs, l => by rw [batchLosses, List.length_cons, List.length_cons, length_batchLosses update lr loss bs]

end

end GW.Training
