import Verif.Props.Jacobians
import Mathlib.Data.Matrix.Block
import Mathlib.LinearAlgebra.Matrix.Block

/-!
# C16, C17 for `BlockTransform`
-/

namespace GW.Transforms
open GW XR GW.Constraints Topology
open GW.Tools (Err)

/-! ## C16: round trip of a batch -/

theorem blockParts_ok (f : Sub → List XR → List XR) (x : List XR) : ∀ (ts : List Sub) (ss : List Slice), (∀ s ∈ ss, s.Inside x.length) →
    blockParts f ts ss x = .ok ((ts.zip ss).map fun p => f p.1 (p.2.block x)) := by
  intro ts ss h
  have : ∀ l : List (Sub × Slice), (∀ p ∈ l, p.2.Inside x.length) →
      (l.mapM fun (t, s) => (do let xs ← s.get x; return f t xs : Except Err (List XR))) = .ok (l.map fun p => f p.1 (p.2.block x)) := by
    intro l hl
    induction l with
    | nil => rfl
    | cons p l ih =>
      have h1 := get_inside x p.2 (hl p (by simp))
      have h2 := ih (fun q hq => hl q (by simp [hq]))
      rw [List.mapM_cons]
      simp only [bind, Except.bind, pure, Except.pure] at h2 ⊢
      rw [h1]
      simp only [h2, List.map_cons]
  exact this _ (fun p hp => h _ (List.of_mem_zip hp).2)

theorem consecutive_inside : ∀ (ss : List Slice) (k n : Nat), Consecutive k ss n → ∀ s ∈ ss, s.Inside n
  | [], _, _, _, _, h => by simp at h
  | .idx i :: rest, k, n, h, s, hs => by
    have := consecutive_le _ _ _ h.2
    rcases List.mem_cons.1 hs with rfl | hs
    · exact ⟨by have := h.1; omega, by have := h.1; omega⟩
    · exact consecutive_inside rest _ n h.2 s hs
  | .range a b :: rest, k, n, h, s, hs => by
    obtain ⟨h1, h2, h3⟩ := h
    have := consecutive_le _ _ _ h3
    rcases List.mem_cons.1 hs with rfl | hs
    · exact ⟨by omega, h2, by omega⟩
    · exact consecutive_inside rest _ n h3 s hs

/-- Consecutive slices cut an event into blocks whose concatenation is the event. -/
theorem flatten_blocks (x : List XR) : ∀ (ss : List Slice) (k : Nat), Consecutive k ss x.length →
    (ss.map fun s => s.block x).flatten = x.drop k
  | [], k, h => by
    simp only [Consecutive] at h
    simp [h]
  | .idx i :: rest, k, h => by
    obtain ⟨rfl, hr⟩ := h
    have hk : k < x.length := consecutive_le _ _ _ hr
    rw [List.map_cons, List.flatten_cons, flatten_blocks x rest _ hr, List.drop_eq_getElem_cons hk]
    simp [Slice.block, List.getElem?_eq_getElem hk]
  | .range a b :: rest, k, h => by
    obtain ⟨rfl, h2, hr⟩ := h
    rw [List.map_cons, List.flatten_cons, flatten_blocks x rest _ hr]
    simp only [Slice.block, Int.toNat_natCast]
    rw [show b.toNat = k + (b.toNat - k) by omega, ← List.drop_drop]
    simp

theorem block_length (x : List XR) (s : Slice) (h : s.Inside x.length) : (s.block x).length = s.size := by
  cases s with
  | idx i =>
    obtain ⟨h0, h1⟩ := h
    have hi : i.toNat < x.length := by omega
    simp [Slice.block, Slice.size, List.getElem?_eq_getElem hi]
  | range a b =>
    obtain ⟨h0, h1, h2⟩ := h
    simp only [Slice.block, Slice.size, List.length_take, List.length_drop]
    omega

/-- One event: for slices in order without gaps, and parts that keep the size of their block and invert on it, the image has the right length,
its blocks are the images of the blocks, and the inverse gives the event back. -/
theorem block_event (f g : Sub → List XR → List XR) (ts : List Sub) (ss : List Slice) (x : List XR) (hlen : ts.length = ss.length)
    (hcons : Consecutive 0 ss x.length)
    (hf : ∀ p ∈ ts.zip ss, (f p.1 (p.2.block x)).length = p.2.size ∧ g p.1 (f p.1 (p.2.block x)) = p.2.block x) :
    let y := ((ts.zip ss).map fun p => f p.1 (p.2.block x)).flatten
    y.length = x.length ∧ (∀ p ∈ ts.zip ss, p.2.block y = f p.1 (p.2.block x)) ∧
      ((ts.zip ss).map fun p => g p.1 (p.2.block y)).flatten = x := by
  intro y
  have hsnd : (ts.zip ss).map (·.2) = ss := List.map_snd_zip (by omega)
  have hb := consecutive_blocks (C := Sub) ⟨fun _ _ => .ok true, fun _ _ => .ok [], fun _ _ => true⟩ (ts.zip ss) 0 x.length
    ((ts.zip ss).map fun p => f p.1 (p.2.block x)) [] (by rw [hsnd]; exact hcons) (by simp) rfl
    (fun i h1 h2 => by
      simp only [List.getElem_map]
      exact (hf _ (List.getElem_mem h1)).1)
  simp only [List.nil_append] at hb
  have hblk : ∀ p ∈ ts.zip ss, p.2.block y = f p.1 (p.2.block x) := by
    intro p hp
    obtain ⟨i, hi, rfl⟩ := List.mem_iff_getElem.1 hp
    have := (hb i hi (by simpa using hi)).2.1
    simpa using this
  have hylen : y.length = x.length := by
    cases hz : ts.zip ss with
    | nil =>
      have : ss = [] := by rw [← hsnd, hz]; rfl
      subst this
      simp only [Consecutive] at hcons
      simp [y, ← hcons]
    | cons q l =>
      exact (hb 0 (by simp [hz]) (by simp [hz])).2.2
  refine ⟨hylen, hblk, ?_⟩
  have : ((ts.zip ss).map fun p => g p.1 (p.2.block y)) = ss.map fun s => s.block x := by
    rw [← hsnd, List.map_map]
    have hgen : ∀ l : List (Sub × Slice), (∀ p ∈ l, g p.1 (p.2.block y) = p.2.block x) →
        (l.map fun p => g p.1 (p.2.block y)) = l.map ((fun s => s.block x) ∘ fun p => p.2) := by
      intro l hl
      exact List.map_congr_left hl
    have e : (List.map (fun x => x.2) (ts.zip ss)) = ss := hsnd
    rw [e]
    exact hgen _ (fun p hp => by rw [hblk p hp]; exact (hf p hp).2)
  rw [this, flatten_blocks x ss 0 hcons]
  rfl

theorem mapM_rows (F : List XR → Except Err (List XR)) (G : List XR → List XR) : ∀ (rows : List (List XR)), (∀ r ∈ rows, F r = .ok (G r)) →
    rows.mapM F = .ok (rows.map G)
  | [], _ => rfl
  | r :: rows, h => by
    rw [List.mapM_cons, h r (by simp), mapM_rows F G rows (fun q hq => h q (by simp [hq]))]
    rfl

/-- **C16 (partial).**  A block transform of a batch of events: if the slices are listed in order and cover the event, and every part keeps the size of
its block and inverts on the blocks of the batch, then the inverse of the block transform recovers the batch — for any number of parts,
block sizes and batch size; the blocks of the image are the images of the blocks.  For a single event it fails: next theorems. -/
theorem C16_block_batch_partial (ts : List Sub) (ss : List Slice) (rows : List (List XR)) (n : Nat) (hlen : ts.length = ss.length)
    (hcons : Consecutive 0 ss n) (hrows : ∀ r ∈ rows, r.length = n)
    (hf : ∀ r ∈ rows, ∀ p ∈ ts.zip ss, (p.1.fwd (p.2.block r)).length = p.2.size ∧ p.1.inv (p.1.fwd (p.2.block r)) = p.2.block r) :
    ∃ out : List (List XR), blockApply (·.fwd) ts ss (.mat rows) = .ok (.mat out) ∧
      blockApply (·.inv) ts ss (.mat out) = .ok (.mat rows) ∧ out.length = rows.length ∧
      ∀ i : Nat, ∀ (h1 : i < rows.length) (h2 : i < out.length), out[i].length = n ∧
        ∀ p ∈ ts.zip ss, p.2.block out[i] = p.1.fwd (p.2.block rows[i]) := by
  have hins : ∀ r ∈ rows, ∀ s ∈ ss, s.Inside r.length := fun r hr => by
    rw [hrows r hr]
    exact consecutive_inside ss 0 n hcons
  have hev : ∀ r ∈ rows, _ := fun r hr => block_event (·.fwd) (·.inv) ts ss r hlen (by rw [hrows r hr]; exact hcons) (hf r hr)
  refine ⟨rows.map fun r => ((ts.zip ss).map fun p => p.1.fwd (p.2.block r)).flatten, ?_, ?_, by simp, ?_⟩
  · simp only [blockApply]
    rw [mapM_rows _ (fun r => ((ts.zip ss).map fun p => p.1.fwd (p.2.block r)).flatten) rows (fun r hr => by
      rw [blockParts_ok _ r ts ss (hins r hr)]
      rfl)]
    rfl
  · simp only [blockApply]
    rw [mapM_rows _ (fun r => ((ts.zip ss).map fun p => p.1.inv (p.2.block r)).flatten) _ (fun y hy => by
      obtain ⟨r, hr, rfl⟩ := List.mem_map.1 hy
      rw [blockParts_ok _ _ ts ss (by rw [(hev r hr).1]; exact hins r hr)]
      rfl)]
    simp only [List.map_map]
    have : rows.map ((fun r => ((ts.zip ss).map fun p => p.1.inv (p.2.block r)).flatten) ∘
        fun r => ((ts.zip ss).map fun p => p.1.fwd (p.2.block r)).flatten) = rows := by
      conv_rhs => rw [← List.map_id rows]
      exact List.map_congr_left fun r hr => (hev r hr).2.2
    rw [this]
    rfl
  · intro i h1 h2
    simp only [List.getElem_map]
    have hr := List.getElem_mem h1
    exact ⟨by rw [(hev _ hr).1, hrows _ hr], (hev _ hr).2.1⟩

/-- The identity as a part. -/
def idSub : Sub := ⟨id, id, fun _ _ => 0⟩

/-- **C16 (single event).**  On a single event the docstring's own layout, slices `(0, 3)` and `(3, 4)`, raises; and with one integer slice per
coordinate the result has shape `(1, n)` instead of `(n,)`. -/
theorem C16_block_single_violated (a b c d : XR) :
    blockApply (·.fwd) [idSub, idSub] [.range 0 3, .range 3 4] (.vec [a, b, c, d]) = .error .type ∧
    blockApply (·.fwd) [idSub, idSub] [.idx 0, .idx 1] (.vec [a, b]) = .ok (.mat [[a, b]]) := by
  constructor <;> rfl

/-- **C16 (slice order).**  With the slices listed out of order the blocks of the image are at other positions than the slices name, and the inverse
does not recover the batch. -/
theorem C16_block_order_violated (a b : ℝ) (hab : a ≠ b) : ∃ out : List (List XR),
    blockApply (·.fwd) [idSub, idSub, idSub] [.idx 1, .idx 2, .idx 0] (.mat [[fin a, fin b, fin a]]) = .ok (.mat out) ∧
    blockApply (·.inv) [idSub, idSub, idSub] [.idx 1, .idx 2, .idx 0] (.mat out) ≠ .ok (.mat [[fin a, fin b, fin a]]) := by
  refine ⟨[[fin b, fin a, fin a]], rfl, ?_⟩
  have : blockApply (·.inv) [idSub, idSub, idSub] [.idx 1, .idx 2, .idx 0] (.mat [[fin b, fin a, fin a]]) = .ok (.mat [[fin a, fin a, fin b]]) := rfl
  rw [this]
  simp [hab]

/-- Reflection of every coordinate as a part. -/
def negSub : Sub := ⟨List.map XR.neg, List.map XR.neg, fun _ _ => 0⟩

/-- A reflection of two coordinates beside an identity on the third meets the hypotheses of `C16_block_batch_partial`. -/
example : ∃ out : List (List XR), blockApply (·.fwd) [negSub, idSub] [.range 0 2, .idx 2] (.mat [[fin 1, fin 2, fin 3], [fin 4, fin 5, fin 6]]) = .ok (.mat out) ∧
    blockApply (·.inv) [negSub, idSub] [.range 0 2, .idx 2] (.mat out) = .ok (.mat [[fin 1, fin 2, fin 3], [fin 4, fin 5, fin 6]]) := by
  obtain ⟨out, h1, h2, _⟩ := C16_block_batch_partial [negSub, idSub] [.range 0 2, .idx 2] [[fin 1, fin 2, fin 3], [fin 4, fin 5, fin 6]] 3 rfl (by simp [Consecutive])
    (by simp) (by
      intro r hr p hp
      simp only [List.mem_cons, List.not_mem_nil, or_false] at hr
      simp only [List.zip_cons_cons, List.zip_nil_right, List.mem_cons, List.not_mem_nil, or_false] at hp
      rcases hr with rfl | rfl <;> rcases hp with rfl | rfl <;>
        simp [negSub, idSub, Slice.block, Slice.size, XR.neg])
  exact ⟨out, h1, h2⟩

/-! ## C17: the log-determinant of a block transform -/

theorem blockLogDet_sum (x y : List XR) : ∀ (l : List (Sub × Slice)) (acc : XR), (∀ p ∈ l, p.2.Inside x.length ∧ p.2.Inside y.length) →
    blockLogDet x y l acc = .ok (acc + XR.sum (l.map fun p => p.1.logDet (p.2.block x) (p.2.block y)))
  | [], acc, _ => by
    simp only [blockLogDet, List.map_nil, sum_nil]
    rw [← zero_def, add_zero']
  | (t, s) :: l, acc, h => by
    have h0 := h (t, s) (by simp)
    simp only [blockLogDet, get_inside x s h0.1, get_inside y s h0.2, bind, Except.bind]
    rw [blockLogDet_sum x y l _ (fun p hp => h p (by simp [hp])), List.map_cons, sum_cons, add_assoc']

/-- **C17.**  The block transform's log-determinant is the sum over the blocks of the parts' log-determinants, each at its own block. -/
theorem C17_block_sum (ts : List Sub) (ss : List Slice) (x y : List XR) (n : Nat) (hcons : Consecutive 0 ss n) (hx : x.length = n)
    (hy : y.length = n) :
    blockLogDet x y (ts.zip ss) 0 = .ok (XR.sum ((ts.zip ss).map fun p => p.1.logDet (p.2.block x) (p.2.block y))) := by
  rw [blockLogDet_sum x y _ _ (fun p hp => by
    have := consecutive_inside ss 0 n hcons _ (List.of_mem_zip hp).2
    rw [hx, hy]
    exact ⟨this, this⟩), zero_add']

theorem sum_log {ι : Type} (d : ι → ℝ) (l : List ι) : XR.sum (l.map fun i => XR.log (fin |d i|)) = XR.log (fin |(l.map d).prod|) := by
  induction l with
  | nil => simp
  | cons i l ih =>
    rw [List.map_cons, sum_cons, ih, List.map_cons, List.prod_cons, abs_mul]
    by_cases h1 : d i = 0
    · rw [h1]
      simp only [abs_zero, zero_mul, log_fin_zero]
      by_cases h2 : (l.map d).prod = 0
      · rw [h2]
        simp [log_fin_zero]
      · rw [log_fin_pos (abs_pos.2 h2)]
        rfl
    · by_cases h2 : (l.map d).prod = 0
      · rw [h2, log_fin_pos (abs_pos.2 h1)]
        simp [log_fin_zero]
      · rw [log_fin_pos (abs_pos.2 h1), log_fin_pos (abs_pos.2 h2), log_fin_pos (mul_pos (abs_pos.2 h1) (abs_pos.2 h2)), add_fin_fin,
          Real.log_mul (abs_pos.2 h1).ne' (abs_pos.2 h2).ne']

theorem det_blockDiagonal' {K : Nat} (k : Fin K → Nat) (J : (i : Fin K) → Matrix (Fin (k i)) (Fin (k i)) ℝ) :
    (Matrix.blockDiagonal' J).det = ∏ i, (J i).det := by
  have hbt : Matrix.BlockTriangular (Matrix.blockDiagonal' J) (Sigma.fst : ((i : Fin K) × Fin (k i)) → Fin K) := by
    intro p q hpq
    exact Matrix.blockDiagonal'_apply_ne _ _ _ (ne_of_gt hpq)
  rw [hbt.det_fintype]
  refine Finset.prod_congr rfl fun i _ => ?_
  let e : Fin (k i) ≃ {p : (i : Fin K) × Fin (k i) // p.1 = i} :=
    { toFun := fun j => ⟨⟨i, j⟩, rfl⟩
      invFun := fun p => p.2 ▸ p.1.2
      left_inv := fun j => rfl
      right_inv := by
        rintro ⟨⟨i', j⟩, rfl⟩
        rfl }
  rw [← Matrix.det_submatrix_equiv_self e]
  congr 1
  ext a b
  simp [Matrix.toSquareBlock, Matrix.toSquareBlockProp, e]

/-- **C17.**  That sum is the logarithm of the true determinant of the whole block map, for any number of blocks of any sizes: if each `v i` is the
log-determinant of part `i` at block `i` of `x`, their sum is the log-determinant of the block map at `x`. -/
theorem C17_block_det {K : Nat} (k : Fin K → Nat) (T : (i : Fin K) → (Fin (k i) → XR) → Fin (k i) → XR)
    (x : ((i : Fin K) × Fin (k i)) → ℝ) (v : Fin K → XR) (h : ∀ i, IsLogDetAt (T i) (fun j => x ⟨i, j⟩) (v i)) :
    IsLogDetAt (blockMap T) x (XR.sum ((List.finRange K).map v)) := by
  classical
  choose g g' hT hg hv using h
  let J : (i : Fin K) → Matrix (Fin (k i)) (Fin (k i)) ℝ := fun i => LinearMap.toMatrix' (g' i : (Fin (k i) → ℝ) →ₗ[ℝ] (Fin (k i) → ℝ))
  refine ⟨fun x p => g p.1 (fun j => x ⟨p.1, j⟩) p.2,
    LinearMap.toContinuousLinearMap (Matrix.toLin' (Matrix.blockDiagonal' J)), ?_, ?_, ?_⟩
  · have hcont : ∀ i : Fin K, Filter.Tendsto (fun x : ((i : Fin K) × Fin (k i)) → ℝ => fun j => x ⟨i, j⟩) (𝓝 x) (𝓝 fun j => x ⟨i, j⟩) := by
      intro i
      exact (continuous_pi fun j => continuous_apply _).continuousAt
    have : ∀ᶠ x' in 𝓝 x, ∀ i, T i (toXR fun j => x' ⟨i, j⟩) = toXR (g i fun j => x' ⟨i, j⟩) :=
      Filter.eventually_all.2 fun i => (hcont i).eventually (hT i)
    filter_upwards [this] with x' hx'
    funext p
    show T p.1 (toXR fun j => x' ⟨p.1, j⟩) p.2 = _
    rw [hx']
    rfl
  · rw [hasFDerivAt_pi']
    rintro ⟨i, j⟩
    have hproj : HasFDerivAt (fun x : ((i : Fin K) × Fin (k i)) → ℝ => fun j => x ⟨i, j⟩)
        (ContinuousLinearMap.pi fun j => ContinuousLinearMap.proj (R := ℝ) (φ := fun _ : (i : Fin K) × Fin (k i) => ℝ) ⟨i, j⟩) x := by
      rw [hasFDerivAt_pi']
      intro j
      exact hasFDerivAt_apply _ x
    have hcomp := (hg i).comp x hproj
    rw [hasFDerivAt_pi'] at hcomp
    refine (hcomp j).congr_fderiv ?_
    ext w
    simp only [ContinuousLinearMap.comp_apply, ContinuousLinearMap.proj_apply, LinearMap.coe_toContinuousLinearMap', Matrix.toLin'_apply]
    have e : (g' i : (Fin (k i) → ℝ) →ₗ[ℝ] (Fin (k i) → ℝ)) = Matrix.toLin' (J i) := (Matrix.toLin'_toMatrix' _).symm
    have e2 : ∀ u, g' i u = Matrix.mulVec (J i) u := fun u => by
      have := congrArg (fun L => L u) e
      simpa using this
    rw [e2]
    simp only [Matrix.mulVec, dotProduct, Fintype.sum_sigma]
    rw [Finset.sum_eq_single i]
    · simp
    · intro b _ hb
      apply Finset.sum_eq_zero
      intro c _
      rw [Matrix.blockDiagonal'_apply_ne _ _ _ (Ne.symm hb), zero_mul]
    · intro hi
      exact absurd (Finset.mem_univ i) hi
  · have hdet : LinearMap.det (LinearMap.toContinuousLinearMap (Matrix.toLin' (Matrix.blockDiagonal' J)) :
        (((i : Fin K) × Fin (k i)) → ℝ) →ₗ[ℝ] (((i : Fin K) × Fin (k i)) → ℝ)) = ((List.finRange K).map fun i => LinearMap.det (g' i : (Fin (k i) → ℝ) →ₗ[ℝ] (Fin (k i) → ℝ))).prod := by
      rw [LinearMap.coe_toContinuousLinearMap, LinearMap.det_toLin', det_blockDiagonal']
      rw [← Fin.prod_univ_def]
      exact Finset.prod_congr rfl fun i _ => LinearMap.det_toMatrix' (g' i : (Fin (k i) → ℝ) →ₗ[ℝ] (Fin (k i) → ℝ))
    rw [hdet, ← sum_log]
    congr 1
    exact List.map_congr_left fun i _ => hv i

/-- Two mass blocks side by side. -/
example : ∃ v, IsLogDetAt (blockMap (k := fun _ : Fin 2 => 2) fun _ => (componentsToChirpEta 1000).fwd) (fun p => ![![36, 29], ![10, 8]] p.1 p.2) v :=
  ⟨_, C17_block_det _ _ _ _ fun i => C17_chirp_eta 1000 (fun j => ![![36, 29], ![10, 8]] i j)
    (by fin_cases i <;> norm_num) (by fin_cases i <;> norm_num)⟩

end GW.Transforms
