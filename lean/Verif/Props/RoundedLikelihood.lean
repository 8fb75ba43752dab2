import Verif.Lemmas.RoundedPosterior
import Verif.Model.PoissonMean
import Verif.Model.Mixture

/-!
# C109: log likelihoods survive rounding

`f` is the floating-point format, `fl` a rounding to nearest of that format and `R` an order of the additions; all theorems hold for every one of them.
-/

namespace GW.RoundedLikelihood
open GW XR Rounding

variable {f : Format} {fl : ℝ → XR}

/-! ## No rounding: the model of `Model/Likelihood.lean` -/

theorem tree_exact (t : Tree) : t.sum fin = XR.sum t.leaves := by
  induction t with
  | leaf x => simp [Tree.sum, Tree.leaves, XR.add_zero']; cases x <;> simp
  | node l r ihl ihr =>
    rw [Tree.sum, ihl, ihr, Tree.leaves, sum_append, Rounding.add]
    cases (XR.sum l.leaves + XR.sum r.leaves) <;> rfl

theorem sum_exact (R : Reduction) (xs : List XR) : sum fin R xs = XR.sum xs := by
  obtain ⟨k, hk⟩ := R.uses xs
  have hz : ∀ k, XR.sum (List.replicate k (fin 0)) = fin 0 := by
    intro k
    induction k with
    | zero => rfl
    | succ k ih => rw [List.replicate_succ, sum_cons, ih]; simp
  rw [sum, tree_exact, sum_perm hk, sum_append, hz]
  cases XR.sum xs <;> simp

theorem rd_exact (x : XR) : rd fin x = x := by cases x <;> rfl

theorem logsumexp_exact (R : Reduction) (xs : List XR) : logsumexp fin R xs = XR.logsumexp xs := by
  simp only [logsumexp, XR.logsumexp, XR.logsumexpWhere, Rounding.add, Rounding.sub, rd_exact, sum_exact]
  have : (((xs.map fun x => (x, true)).filter (·.2)).map (·.1)) = xs := by
    induction xs with
    | nil => rfl
    | cons x xs ih => simpa using ih
  rw [this]

/-- Without rounding the rounded likelihoods are those of `Model/Likelihood.lean`, whatever the order of the additions. -/
theorem C109_exact {θ} (R : Reduction) (S : Likelihood.Setup θ) (x : List XR) (bs : List (Likelihood.Bucket θ)) :
    likelihoodFn fin R S x bs = S.likelihoodFn x bs ∧ numpyroCore fin R S x bs = S.numpyroCore x bs := by
  have hterm : ∀ (M : Likelihood.Model θ) fp i d r m, sampleTerm fin M fp i d r m = Likelihood.sampleTerm M fp i d r m := by
    intro M fp i d r m
    simp only [sampleTerm, Likelihood.sampleTerm, Rounding.sub, rd_exact]
  have hrow : ∀ (M : Likelihood.Model θ) fp ds i rs ms, rowTerms fin M fp i ds rs ms = Likelihood.rowTerms M fp i ds rs ms := by
    intro M fp ds
    induction ds with
    | nil => intro i rs ms; simp [rowTerms, Likelihood.rowTerms]
    | cons d ds ih =>
      intro i rs ms
      cases rs <;> cases ms <;> simp [rowTerms, Likelihood.rowTerms, hterm, ih]
  have hb : ∀ (M : Likelihood.Model θ) fp ds rs ms,
      (bucketRows fin M fp ds rs ms).map (logsumexp fin R) = Likelihood.bucketTerms M fp ds rs ms := by
    intro M fp ds
    induction ds with
    | nil => intro rs ms; simp [bucketRows, Likelihood.bucketTerms]
    | cons d ds ih =>
      intro rs ms
      cases rs <;> cases ms <;> simp [bucketRows, Likelihood.bucketTerms, hrow, ih, logsumexp_exact]
  have hs : ∀ (M : Likelihood.Model θ) b, bucketSum fin R M b = Likelihood.bucketSum M b := by
    intro M b
    rw [bucketSum, sum_exact, weights, hb]; rfl
  constructor
  · simp only [likelihoodFn, Likelihood.Setup.likelihoodFn, totalLogLikelihood, Likelihood.totalLogLikelihood, hs, Rounding.add, Rounding.sub, rd_exact]
  · simp only [numpyroCore, Likelihood.Setup.numpyroCore, totalLogLikelihood, Likelihood.totalLogLikelihood, hs, Rounding.add, Rounding.sub, rd_exact]

/-- Likewise the expected rate of the injections. -/
theorem C109_exact_rate (R : Reduction) (years total : ℝ) (modelLp logW : List XR) :
    injectionMean fin R years total modelLp logW = PoissonMean.injectionMean years total modelLp logW := by
  have e1 : ∀ l : List XR, ((l.map fun x => (x, true)).filter (·.2)).map (·.1) = l := by
    intro l
    induction l with
    | nil => rfl
    | cons x xs ih => simpa using ih
  have e2 : ∀ l : List XR, ((l.map fun a => (a, !a.isNegInf)).filter (·.2)).map (·.1) = l.filter fun x => !x.isNegInf := by
    intro l
    induction l with
    | nil => rfl
    | cons x xs ih => cases hx : x.isNegInf <;> simp [hx] at ih ⊢ <;> exact ih
  have gen : ∀ A B : List (XR × Bool), (A.filter (·.2)).map (·.1) = (B.filter (·.2)).map (·.1) → XR.logsumexpWhere A = XR.logsumexpWhere B := by
    intro A B h
    unfold XR.logsumexpWhere
    simp only [h]
  have e3 : ∀ l : List XR, XR.logsumexp (l.filter fun x => !x.isNegInf) = PoissonMean.lse1 l := by
    intro l
    apply gen
    rw [e1, e2]
  have e4 : injectionWeights fin modelLp logW = List.zipWith (fun m w => m - w) modelLp logW := by
    simp only [injectionWeights, Rounding.sub, rd_exact]
  simp only [injectionMean, PoissonMean.injectionMean, PoissonMean.safeLogProb, logsumexp_exact, e3, e4, Rounding.mul, Rounding.div, rd_exact]

/-- Likewise the log density of a mixture, for every mixture and every point. -/
theorem C109_exact_mixture {α : Type} (R : Reduction) (m : Mixture.Mix α) (scales : List ℝ) (hs : m.logScales = scales.map fin) (x : α) :
    mixtureLogProb fin R (scales.zip (m.comps.map fun d => Mixture.compTerm m.supp d x)) = m.logProb x := by
  have gen : ∀ A B : List (XR × Bool), (A.filter (·.2)).map (·.1) = (B.filter (·.2)).map (·.1) → XR.logsumexpWhere A = XR.logsumexpWhere B := by
    intro A B h
    unfold XR.logsumexpWhere
    simp only [h]
  have e1 : ∀ l : List XR, ((l.map fun x => (x, true)).filter (·.2)).map (·.1) = l := by
    intro l
    induction l with
    | nil => rfl
    | cons x xs ih => simpa using ih
  have e2 : ∀ l : List XR, (((l.map fun t => if t.isNegInf then ninf else t).zip (l.map fun t => !t.isNegInf)).filter (·.2)).map (·.1) = l.filter fun x => !x.isNegInf := by
    intro l
    induction l with
    | nil => rfl
    | cons x xs ih => cases hx : x.isNegInf <;> simp [hx] at ih ⊢ <;> exact ih
  have e3 : ∀ (ls : List ℝ) (ts : List XR), (ls.zip ts).map (fun c => fin c.1 + c.2) = List.zipWith (· + ·) (ls.map fin) ts := by
    intro ls
    induction ls with
    | nil => intro ts; rfl
    | cons l ls ih => intro ts; cases ts <;> simp [ih]
  rw [Mixture.Mix.logProb, Mixture.Mix.componentLogProbs, hs]
  simp only [mixtureLogProb, logsumexp_exact, Rounding.add, rd_exact, e3]
  apply gen
  rw [e1, e2]

/-! ## One event -/

/-- Log weights that are floats or `-inf`: their `logsumexp` is `-inf` exactly if all are, otherwise it lies between the largest and the largest plus the
(rounded) logarithm of the number of finite ones.  In particular it is never NaN. -/
theorem C109_logsumexp (hf : f.Usable) (h : Nearest f fl) (R : Reduction) (xs : List XR) (hx : ∀ x ∈ xs, Weight f x) (hn : finites xs < 2 ^ f.p) :
    ((∀ x ∈ xs, x = ninf) → logsumexp fl R xs = ninf) ∧
    ∀ M, Largest xs M → XR.le (fin M) (logsumexp fl R xs) ∧
      XR.le (logsumexp fl R xs) (Rounding.add fl (fin M) (rd fl (log (fin (finites xs))))) := by
  constructor
  · intro hall
    have e : xs.foldr XR.max ninf = ninf := foldr_max_of_all_ninf hall
    simp only [logsumexp, e, isFinite_ninf, Bool.false_eq_true, if_false]
    have et : (xs.map fun x => rd fl (exp (Rounding.sub fl x (fin 0)))) = List.replicate xs.length (fin 0) := by
      rw [List.eq_replicate_iff]
      refine ⟨by simp, ?_⟩
      intro y hy
      obtain ⟨x, hx', rfl⟩ := List.mem_map.1 hy
      rw [hall x hx']
      exact term_ninf hf h 0
    rw [et]
    obtain ⟨k, hk⟩ := R.uses (List.replicate xs.length (fin 0))
    have hm : ∀ x ∈ (R.tree (List.replicate xs.length (fin 0))).leaves, x = fin 0 := by
      intro x hx'
      rcases List.mem_append.1 (hk.subset hx') with h1 | h1 <;> exact List.eq_of_mem_replicate h1
    obtain ⟨s, es, -, s0, s1, -⟩ := tree_unit hf h (R.tree (List.replicate xs.length (fin 0)))
      (fun x hx' => ⟨0, hm x hx', mem_zero hf, le_rfl, by norm_num⟩) (by
        rw [nz_perm hk, nz_append, nz_zeros, nz_zeros]; positivity)
    rw [nz_perm hk, nz_append, nz_zeros, nz_zeros] at s1
    have : s = 0 := le_antisymm (by simpa using s1) s0
    have es' : sum fl R (List.replicate xs.length (fin 0)) = fin 0 := by rw [sum, es, this]
    rw [es', log_fin_zero]
    rfl
  · intro M hM
    have hMm : f.Mem M := by
      rcases hx _ hM.1 with e | ⟨a, e, ha⟩
      · cases e
      · injection e with e; rwa [e]
    obtain ⟨s, es, -, s1, s2⟩ := sum_bounds hf h R hx hM hn
    obtain ⟨l, L, el, eL, l0, lL, -⟩ := log_bounds hf h hn s1 s2
    rw [logsumexp_largest R hx hM, es, el, eL, add_def, add_def]
    constructor
    · have := h.mono (show M ≤ l + M by linarith)
      rwa [h.exact hMm] at this
    · exact h.mono (by linarith)

/-- … and within `(5 (n - 1) + |M|) 2^-p` of the exact `log Σ exp`, for `n` finite entries of which `M` is the largest; a single entry is off by the
rounding of itself at most. -/
theorem C109_logsumexp_accurate (hw : Wide f) (h : Nearest f fl) (R : Reduction) (xs : List XR) (M : ℝ) (hx : ∀ x ∈ xs, Weight f x) (hM : Largest xs M)
    (hn : (8 : ℝ) * finites xs ≤ 2 ^ f.p) (hb : |M| + finites xs ≤ (2 : ℝ) ^ f.emax) :
    ∃ r, logsumexp fl R xs = fin r ∧ f.Mem r ∧ |r - exactLog xs| ≤ (5 * ((finites xs : ℝ) - 1) + |M|) / 2 ^ f.p := by
  obtain ⟨r, h1, h2, -, h3⟩ := logsumexp_accurate hw h R hx hM hn hb
  exact ⟨r, h1, h2, h3⟩

/-- Padding does not add to the rounding: whatever is computed for a padded row is what some order of the additions gives without the padding. -/
theorem C109_padding (hf : f.Usable) (h : Nearest f fl) (R : Reduction) (xs : List XR) (k : ℕ) :
    ∃ R' : Reduction, logsumexp fl R (xs ++ List.replicate k ninf) = logsumexp fl R' xs := by
  classical
  set m : XR := if (xs.foldr XR.max ninf).isFinite then xs.foldr XR.max ninf else fin 0 with hm
  obtain ⟨a, ha⟩ : ∃ a, m = fin a := by
    rw [hm]; split_ifs with hc
    · exact (isFinite_iff _).1 hc
    · exact ⟨0, rfl⟩
  set e : XR → XR := fun x => rd fl (exp (Rounding.sub fl x m)) with he
  have e0 : e ninf = fin 0 := by rw [he, ha]; exact term_ninf hf h a
  have hpad : (xs ++ List.replicate k ninf).map e = xs.map e ++ List.replicate k (fin 0) := by
    rw [List.map_append, List.map_replicate, e0]
  refine ⟨⟨fun ys => if ys = xs.map e then R.tree (xs.map e ++ List.replicate k (fin 0)) else R.tree ys, ?_⟩, ?_⟩
  · intro ys
    split_ifs with hc
    · obtain ⟨j, hj⟩ := R.uses (xs.map e ++ List.replicate k (fin 0))
      exact ⟨k + j, by rw [hc, List.replicate_add, ← List.append_assoc]; exact hj⟩
    · exact R.uses ys
  · have hmax : (xs ++ List.replicate k ninf).foldr XR.max ninf = xs.foldr XR.max ninf := by
      rw [List.foldr_append, foldr_max_of_all_ninf (fun x hx => List.eq_of_mem_replicate hx)]
    simp only [logsumexp, hmax]
    rw [← hm]
    have : ((xs ++ List.replicate k ninf).map fun x => rd fl (exp (Rounding.sub fl x m))) = xs.map e ++ List.replicate k (fin 0) := hpad
    rw [this]
    simp only [sum, he, if_true]

/-! ## The posterior -/

/-- The log posterior of a run: with a finite prior, rate and constant, and for every event at least one finite log weight (`top w` is the largest of the
event with weights `w`) it is a finite number, not replaced by `-inf`, and differs from
`log prior - rate + constant + Σ log Σ exp w` by at most `Σ (5 (n - 1) + |top|) + 9/4 (J + 2) A` units `2^-p`, where `J` is the number of events and `A`
the sum of the magnitudes. -/
theorem C109_posterior {θ} (hw : Wide f) (h : Nearest f fl) (R : Reduction) (S : Likelihood.Setup θ) (x : List XR) (bs : List (Likelihood.Bucket θ))
    (pri rate con : ℝ) (top : List XR → ℝ) (rows : List (List XR))
    (hrows : rows = (bs.map (weights fl (S.distFn (S.constants ++ S.mapParams x)))).flatten)
    (hp : S.priorLogProb x = fin pri ∧ f.Mem pri) (hr : S.poissonMean (S.distFn (S.constants ++ S.mapParams x)) = fin rate ∧ f.Mem rate)
    (hc : S.logConstants = fin con ∧ f.Mem con)
    (hrow : ∀ w ∈ rows, (∀ y ∈ w, Weight f y) ∧ Largest w (top w) ∧ (8 : ℝ) * finites w ≤ 2 ^ f.p)
    (hJ : (8 : ℝ) * (rows.length + 3) ≤ 2 ^ f.p)
    (A : ℝ) (hA : A = |pri| + |rate| + |con| + (rows.map fun w => |top w| + (finites w : ℝ)).sum) (hA2 : 4 * A ≤ (2 : ℝ) ^ f.emax) :
    ∃ v, likelihoodFn fl R S x bs = fin v ∧
      |v - (pri - rate + con + (rows.map exactLog).sum)| ≤
        ((rows.map fun w => 5 * ((finites w : ℝ) - 1) + |top w|).sum + 9 / 4 * (rows.length + 2) * A) / 2 ^ f.p := by
  set model := S.distFn (S.constants ++ S.mapParams x) with hmodel
  obtain ⟨t', et, k, hk⟩ := total_tree (fl := fl) R model bs (.leaf S.logConstants)
  rw [← hrows, hc.1] at hk
  set T : Tree := .node (.leaf (fin pri)) (.node t' (.leaf (fin (-rate)))) with hT
  have hpost : Rounding.add fl (S.priorLogProb x) (Rounding.sub fl (totalLogLikelihood fl R model S.logConstants bs) (S.poissonMean model)) = T.sum fl := by
    rw [hp.1, hr.1, sub_eq_add, totalLogLikelihood]
    have : S.logConstants = (Tree.leaf S.logConstants).sum fl := rfl
    rw [this, et]
    rfl
  have hleaves : T.leaves.Perm ([pri, -rate, con].map fin ++ rows.map (logsumexp fl R) ++ List.replicate k (fin 0)) := by
    simp only [hT, Tree.leaves] at hk ⊢
    refine List.Perm.trans ((hk.append_right [fin (-rate)]).append_left [fin pri]) ?_
    refine (List.Perm.refl [fin pri]).append ?_
    refine List.perm_append_comm.trans ?_
    simp
  obtain ⟨v, ev, dv⟩ := sum_close hw h R rows top T [pri, -rate, con] k hleaves
    (by simp only [List.mem_cons, List.not_mem_nil, or_false, forall_eq_or_imp, forall_eq]; exact ⟨hp.2, hr.2.neg, hc.2⟩) hrow
    (by push_cast [List.length_cons, List.length_nil]; linarith) A (by rw [hA]; simp; ring) hA2
  refine ⟨v, ?_, ?_⟩
  · simp only [likelihoodFn]
    rw [← hmodel, hpost, ev]
    rfl
  · have e1 : [pri, -rate, con].sum = pri - rate + con := by simp; ring
    rw [e1] at dv
    push_cast [List.length_cons, List.length_nil] at dv
    rw [show (rows.length : ℝ) + 2 = rows.length + 3 - 1 by ring]
    exact dv

/-- … and the number given to numpyro, which leaves the prior to numpyro, likewise. -/
theorem C109_numpyro {θ} (hw : Wide f) (h : Nearest f fl) (R : Reduction) (S : Likelihood.Setup θ) (x : List XR) (bs : List (Likelihood.Bucket θ))
    (rate con : ℝ) (top : List XR → ℝ) (rows : List (List XR))
    (hrows : rows = (bs.map (weights fl (S.distFn (S.constants ++ S.mapParams x)))).flatten)
    (hr : S.poissonMean (S.distFn (S.constants ++ S.mapParams x)) = fin rate ∧ f.Mem rate) (hc : S.logConstants = fin con ∧ f.Mem con)
    (hrow : ∀ w ∈ rows, (∀ y ∈ w, Weight f y) ∧ Largest w (top w) ∧ (8 : ℝ) * finites w ≤ 2 ^ f.p)
    (hJ : (8 : ℝ) * (rows.length + 2) ≤ 2 ^ f.p)
    (A : ℝ) (hA : A = |rate| + |con| + (rows.map fun w => |top w| + (finites w : ℝ)).sum) (hA2 : 4 * A ≤ (2 : ℝ) ^ f.emax) :
    ∃ v, numpyroCore fl R S x bs = fin v ∧
      |v - (-rate + con + (rows.map exactLog).sum)| ≤
        ((rows.map fun w => 5 * ((finites w : ℝ) - 1) + |top w|).sum + 9 / 4 * (rows.length + 1) * A) / 2 ^ f.p := by
  set model := S.distFn (S.constants ++ S.mapParams x) with hmodel
  obtain ⟨t', et, k, hk⟩ := total_tree (fl := fl) R model bs (.leaf S.logConstants)
  rw [← hrows, hc.1] at hk
  set T : Tree := .node t' (.leaf (fin (-rate))) with hT
  have hpost : Rounding.sub fl (totalLogLikelihood fl R model S.logConstants bs) (S.poissonMean model) = T.sum fl := by
    rw [hr.1, sub_eq_add, totalLogLikelihood]
    have : S.logConstants = (Tree.leaf S.logConstants).sum fl := rfl
    rw [this, et]
    rfl
  have hleaves : T.leaves.Perm ([-rate, con].map fin ++ rows.map (logsumexp fl R) ++ List.replicate k (fin 0)) := by
    simp only [hT, Tree.leaves] at hk ⊢
    refine List.Perm.trans (hk.append_right [fin (-rate)]) ?_
    refine List.perm_append_comm.trans ?_
    simp
  obtain ⟨v, ev, dv⟩ := sum_close hw h R rows top T [-rate, con] k hleaves
    (by simp only [List.mem_cons, List.not_mem_nil, or_false, forall_eq_or_imp, forall_eq]; exact ⟨hr.2.neg, hc.2⟩) hrow
    (by push_cast [List.length_cons, List.length_nil]; linarith) A (by rw [hA]; simp) hA2
  refine ⟨v, ?_, ?_⟩
  · simp only [numpyroCore]
    rw [← hmodel, hpost, ev]
    rfl
  · have e1 : [-rate, con].sum = -rate + con := by simp
    rw [e1] at dv
    push_cast [List.length_cons, List.length_nil] at dv
    rw [show (rows.length : ℝ) + 1 = rows.length + 2 - 1 by ring]
    exact dv

/-- An event without any weight: the rounded log posterior is `-inf`, not NaN and not a float, whatever the other events give. -/
theorem C109_impossible {θ} (hf : f.Usable) (h : Nearest f fl) (R : Reduction) (S : Likelihood.Setup θ) (x : List XR) (bs : List (Likelihood.Bucket θ))
    (pri rate con : ℝ) (rows : List (List XR)) (hrows : rows = (bs.map (weights fl (S.distFn (S.constants ++ S.mapParams x)))).flatten)
    (hp : S.priorLogProb x = fin pri) (hr : S.poissonMean (S.distFn (S.constants ++ S.mapParams x)) = fin rate) (hc : S.logConstants = fin con)
    (w : List XR) (hw : w ∈ rows) (hall : ∀ y ∈ w, y = ninf) : likelihoodFn fl R S x bs = ninf := by
  set model := S.distFn (S.constants ++ S.mapParams x) with hmodel
  obtain ⟨t', et, k, hk⟩ := total_tree (fl := fl) R model bs (.leaf S.logConstants)
  rw [← hrows, hc] at hk
  have hl := (C109_logsumexp hf h R w (fun y hy => Or.inl (hall y hy)) (by
    have : finites w = 0 := by
      rw [finites, List.length_eq_zero_iff, List.filter_eq_nil_iff]
      intro y hy; rw [hall y hy]; simp
    rw [this]; positivity)).1 hall
  have hm : ninf ∈ t'.leaves := by
    rw [hk.mem_iff, List.mem_append, List.mem_append]
    exact Or.inl (Or.inr (List.mem_map.2 ⟨w, hw, hl⟩))
  have key : ∀ t : Tree, ninf ∈ t.leaves → t.sum fl = ninf ∨ t.sum fl = nan := by
    intro t
    induction t with
    | leaf y => intro hy; left; simpa [Tree.leaves, Tree.sum] using (List.mem_singleton.1 hy).symm
    | node l r ihl ihr =>
      intro hy
      have step : ∀ a b : XR, (a = ninf ∨ a = nan) → (Rounding.add fl a b = ninf ∨ Rounding.add fl a b = nan) ∧
          (Rounding.add fl b a = ninf ∨ Rounding.add fl b a = nan) := by
        rintro a b (rfl | rfl) <;> cases b <;> simp [Rounding.add, rd]
      rcases List.mem_append.1 hy with hy | hy
      · exact (step _ _ (ihl hy)).1
      · exact (step _ _ (ihr hy)).2
  have e : totalLogLikelihood fl R model S.logConstants bs = t'.sum fl := et
  simp only [likelihoodFn]
  rw [← hmodel, e, hp, hr]
  rcases key t' hm with e | e <;> rw [e] <;> simp [Rounding.add, Rounding.sub, rd, XR.nanToNum]

/-! ## The expected rate from injections -/

/-- The rounded expected rate of the injections is never NaN and never negative, whatever NaN or `-inf` the model gives; it is zero if no injection has a finite
weight. -/
theorem C109_rate (hf : f.Usable) (h : Nearest f fl) (R : Reduction) (years total : ℝ) (hy : 0 < years) (ht : 0 < total) (modelLp logW ws : List XR)
    (hws : ws = List.zipWith (fun m w => Rounding.sub fl m w) modelLp logW) (hx : ∀ x ∈ ws, x = nan ∨ Weight f x) (hn : finites ws < 2 ^ f.p) :
    XR.le (fin 0) (injectionMean fl R years total modelLp logW) ∧
      ((∀ x ∈ ws, x = nan ∨ x = ninf) → injectionMean fl R years total modelLp logW = fin 0) := by
  set kept := ws.filter XR.isFinite with hkept
  have hk : ∀ x ∈ kept, ∃ a, x = fin a ∧ f.Mem a := by
    intro x hx'
    obtain ⟨h1, h2⟩ := List.mem_filter.1 hx'
    rcases hx x h1 with rfl | rfl | ⟨a, rfl, ha⟩
    · simp at h2
    · simp at h2
    · exact ⟨a, rfl, ha⟩
  have hlen : finites kept < 2 ^ f.p := by rw [hkept, finites_filter]; exact hn
  have hwt : ∀ x ∈ kept, Weight f x := fun x hx' => Or.inr (hk x hx')
  have pos : ∀ y, (∃ b, y = fin b) ∨ y = pinf →
      XR.le (fin 0) (Rounding.div fl (Rounding.mul fl (fin years) (rd fl (exp y))) (fin total)) := by
    intro y hy'
    have step : ∀ z : ℝ, 0 ≤ z → (∃ b, fl z = fin b ∧ 0 ≤ b) ∨ fl z = pinf := by
      intro z hz
      rcases h.ge (mem_zero hf) hz with e | ⟨b, e, -, hb⟩
      · exact Or.inr e
      · exact Or.inl ⟨b, e, hb⟩
    have nn : ∀ z : XR, (∃ b, z = fin b ∧ 0 ≤ b) ∨ z = pinf → (∃ b, Rounding.div fl z (fin total) = fin b ∧ 0 ≤ b) ∨ Rounding.div fl z (fin total) = pinf := by
      rintro z (⟨b, rfl, hb⟩ | rfl)
      · rw [div_def _ _ ht.ne']; exact step _ (by positivity)
      · right
        have : (pinf / fin total : XR) = pinf := by show (if 0 ≤ total then pinf else ninf) = pinf; rw [if_pos ht.le]
        rw [Rounding.div, this]; rfl
    have mm : ∀ z : XR, (∃ b, z = fin b ∧ 0 ≤ b) ∨ z = pinf → (∃ b, Rounding.mul fl (fin years) z = fin b ∧ 0 ≤ b) ∨ Rounding.mul fl (fin years) z = pinf := by
      rintro z (⟨b, rfl, hb⟩ | rfl)
      · rw [mul_def]; exact step _ (by positivity)
      · right
        have : (fin years * pinf : XR) = pinf := by show mulInf years = pinf; rw [mulInf, if_pos hy]
        rw [Rounding.mul, this]; rfl
    have ee : (∃ b, rd fl (exp y) = fin b ∧ 0 ≤ b) ∨ rd fl (exp y) = pinf := by
      rcases hy' with ⟨b, rfl⟩ | rfl
      · rw [exp_fin, rd_fin]; exact step _ (Real.exp_pos b).le
      · right; rfl
    rcases nn _ (mm _ ee) with ⟨b, e, hb⟩ | e
    · rw [e]; exact hb
    · rw [e]; trivial
  have hinj : injectionMean fl R years total modelLp logW =
      Rounding.div fl (Rounding.mul fl (fin years) (rd fl (exp (logsumexp fl R kept)))) (fin total) := by
    rw [hkept, ← kept_finite ws hx, hws]; rfl
  have zero : kept = [] → injectionMean fl R years total modelLp logW = fin 0 := by
    intro e
    rw [hinj, e, (C109_logsumexp hf h R [] (by simp) (by simp [finites])).1 (by simp), exp_ninf, rd_fin, h.exact (mem_zero hf), mul_def, mul_zero,
      h.exact (mem_zero hf), div_def _ _ ht.ne', zero_div, h.exact (mem_zero hf)]
  constructor
  · by_cases hne : kept = []
    · rw [zero hne]; exact le_refl (0 : ℝ)
    · obtain ⟨M, hM⟩ := exists_largest kept hne fun x hx' => (hk x hx').imp fun _ h' => h'.1
      have h1 := ((C109_logsumexp hf h R kept hwt hlen).2 M hM).1
      rw [hinj]
      apply pos
      revert h1
      cases logsumexp fl R kept <;> simp [XR.le]
  · intro hall
    apply zero
    rw [hkept, List.filter_eq_nil_iff]
    intro x hx'
    rcases hall x hx' with rfl | rfl <;> simp

/-- … and accurate: with `n` injections of finite weight, the largest `M`, and results in the range of full precision it differs from
`years · Σ exp w / total` by at most `(2 (5 (n - 1) + |M|) + 4) 2^-p`, relatively. -/
theorem C109_rate_accurate (hw : Wide f) (h : Nearest f fl) (R : Reduction) (years total : ℝ) (hy : 0 < years) (ht : 0 < total)
    (modelLp logW ws : List XR) (hws : ws = List.zipWith (fun m w => Rounding.sub fl m w) modelLp logW) (hx : ∀ x ∈ ws, x = nan ∨ Weight f x)
    (M : ℝ) (hM : Largest (ws.filter XR.isFinite) M) (hn : (8 : ℝ) * finites ws ≤ 2 ^ f.p) (hb : |M| + finites ws ≤ (2 : ℝ) ^ f.emax)
    (δ : ℝ) (hδ : δ = (5 * ((finites ws : ℝ) - 1) + |M|) / 2 ^ f.p) (hδ8 : δ ≤ 1 / 8)
    (E : ℝ) (hE : E = ((ws.filter XR.isFinite).map expR).sum)
    (hrange : ∀ X ∈ [E, years * E, years * E / total], (2 : ℝ) ^ (f.emin + f.p) ≤ X ∧ X ≤ (2 : ℝ) ^ (f.emax - 1)) :
    ∃ v, injectionMean fl R years total modelLp logW = fin v ∧ |v - years * E / total| ≤ (2 * δ + 4 / 2 ^ f.p) * (years * E / total) := by
  have hf := hw.1
  have hp2 : 2 ≤ f.p := by have := hf.1; omega
  have h8 := pow_ge_eight hf
  set kept := ws.filter XR.isFinite with hkept
  have hk : ∀ x ∈ kept, Weight f x := by
    intro x hx'
    obtain ⟨h1, h2⟩ := List.mem_filter.1 hx'
    rcases hx x h1 with rfl | h3
    · simp at h2
    · exact h3
  have hfk : finites kept = finites ws := finites_filter ws
  have hinj : injectionMean fl R years total modelLp logW =
      Rounding.div fl (Rounding.mul fl (fin years) (rd fl (exp (logsumexp fl R kept)))) (fin total) := by
    rw [hkept, ← kept_finite ws hx, hws]; rfl
  obtain ⟨r, er, -, dr⟩ := C109_logsumexp_accurate hw h R kept M hk hM (by rw [hfk]; exact hn) (by rw [hfk]; exact hb)
  rw [hfk, ← hδ] at dr
  obtain ⟨g1, g2⟩ := hrange E (by simp)
  obtain ⟨g3, g4⟩ := hrange (years * E) (by simp)
  obtain ⟨g5, g6⟩ := hrange (years * E / total) (by simp)
  have hE0 : 0 < E := lt_of_lt_of_le (by positivity) g1
  have eE : Real.exp (exactLog kept) = E := by rw [exactLog, ← hE, Real.exp_log hE0]
  have hδ0 : 0 ≤ δ := le_trans (abs_nonneg _) dr
  have er2 : Real.exp r = Real.exp (r - exactLog kept) * E := by rw [← eE, ← Real.exp_add]; congr 1; ring
  have x1 : 1 - δ ≤ Real.exp (r - exactLog kept) := by
    have := Real.add_one_le_exp (r - exactLog kept)
    linarith [(abs_le.1 dr).1]
  have x2 : Real.exp (r - exactLog kept) ≤ 1 + 9 / 8 * δ := by
    have y1 : Real.exp (r - exactLog kept) ≤ Real.exp δ := Real.exp_le_exp.2 (abs_le.1 dr).2
    have y2 := (abs_le.1 (Real.abs_exp_sub_one_sub_id_le (x := δ) (by rw [abs_of_nonneg hδ0]; linarith))).2
    nlinarith
  set u : ℝ := 1 / 2 ^ f.p with hu
  have hu0 : 0 < u := by positivity
  have hu8 : u ≤ 1 / 8 := by rw [hu]; exact one_div_le_one_div_of_le (by norm_num) h8
  obtain ⟨e, ee, e1, e2⟩ := step_close hp2 h (x := Real.exp r) (a := 1 - δ) (b := 1 + 9 / 8 * δ) hE0 (by linarith) (by linarith)
    (by rw [er2]; exact mul_le_mul_of_nonneg_right x1 hE0.le) (by rw [er2]; exact mul_le_mul_of_nonneg_right x2 hE0.le) g1 g2
  rw [← hu] at e1 e2
  obtain ⟨m, em, m1, m2⟩ := step_close hp2 h (x := years * e) (a := (1 - δ) * (1 - u)) (b := (1 + 9 / 8 * δ) * (1 + u)) (X := years * E) (by positivity)
    (by nlinarith) (by nlinarith)
    (by calc (1 - δ) * (1 - u) * (years * E) = years * ((1 - δ) * (1 - u) * E) := by ring
          _ ≤ years * e := mul_le_mul_of_nonneg_left e1 hy.le)
    (by calc years * e ≤ years * ((1 + 9 / 8 * δ) * (1 + u) * E) := mul_le_mul_of_nonneg_left e2 hy.le
          _ = _ := by ring) g3 g4
  rw [← hu] at m1 m2
  obtain ⟨q1, q2, up, lo⟩ := factors hδ0 hδ8 hu0.le hu8
  obtain ⟨v, ev, v1, v2⟩ := step_close hp2 h (x := m / total) (a := (1 - δ) * (1 - u) * (1 - u)) (b := (1 + 9 / 8 * δ) * (1 + u) * (1 + u))
    (X := years * E / total) (by positivity) q1 q2
    (by rw [← mul_div_assoc]; exact div_le_div_of_nonneg_right m1 ht.le) (by rw [← mul_div_assoc]; exact div_le_div_of_nonneg_right m2 ht.le) g5 g6
  rw [← hu] at v1 v2
  refine ⟨v, ?_, ?_⟩
  · rw [hinj, er, exp_fin, rd_fin, ee, mul_def, em, div_def _ _ ht.ne', ev]
  · set Y := years * E / total with hY
    have hY0 : 0 < Y := by rw [hY]; positivity
    have e4 : 4 / (2 : ℝ) ^ f.p = 4 * u := by rw [hu]; ring
    rw [e4, abs_le]
    have u1 := mul_le_mul_of_nonneg_right up hY0.le
    have u2 := mul_le_mul_of_nonneg_right lo hY0.le
    constructor <;> linarith

/-! ## The log density of a mixture -/

/-- The rounded log density of a mixture at a point: `-inf` exactly if every component is `-inf` there; otherwise a number (possibly `+inf` by overflow, never NaN) between
the largest component and that plus the rounded logarithm of their number. -/
theorem C109_mixture (hf : f.Usable) (h : Nearest f fl) (R : Reduction) (cs : List (ℝ × XR)) (hc : ∀ c ∈ cs, Weight f (Rounding.add fl (fin c.1) c.2))
    (hn : cs.length < 2 ^ f.p) :
    (mixtureLogProb fl R cs = ninf ↔ ∀ c ∈ cs, Rounding.add fl (fin c.1) c.2 = ninf) ∧
    ∀ M, Largest (cs.map fun c => Rounding.add fl (fin c.1) c.2) M → XR.le (fin M) (mixtureLogProb fl R cs) ∧
      XR.le (mixtureLogProb fl R cs) (Rounding.add fl (fin M) (rd fl (log (fin (finites (cs.map fun c => Rounding.add fl (fin c.1) c.2)))))) := by
  set ws := cs.map fun c => Rounding.add fl (fin c.1) c.2 with hws
  have hW : ∀ x ∈ ws, Weight f x := by
    intro x hx
    obtain ⟨c, hc', rfl⟩ := List.mem_map.1 hx
    exact hc c hc'
  set kept := ws.filter fun x => !x.isNegInf with hkept
  have hK : ∀ x ∈ kept, Weight f x := fun x hx => hW x (List.mem_of_mem_filter hx)
  have hfin : ∀ x ∈ kept, ∃ a, x = fin a := by
    intro x hx
    obtain ⟨h1, h2⟩ := List.mem_filter.1 hx
    rcases hW x h1 with rfl | ⟨a, rfl, -⟩
    · simp at h2
    · exact ⟨a, rfl⟩
  have hlen : finites kept = finites ws := by
    rw [hkept, finites, finites, List.filter_filter]
    congr 1
    apply List.filter_congr
    intro x _
    cases x <;> simp
  have hle : finites ws < 2 ^ f.p := lt_of_le_of_lt (by
    rw [finites]; exact (List.length_filter_le _ _).trans (by rw [hws, List.length_map])) hn
  have hL : ∀ M, Largest ws M → Largest kept M := by
    intro M hM
    exact ⟨List.mem_filter.2 ⟨hM.1, rfl⟩, fun x hx => hM.2 x (List.mem_of_mem_filter hx)⟩
  have e : mixtureLogProb fl R cs = logsumexp fl R kept := by
    simp only [mixtureLogProb, hkept, hws]
  obtain ⟨m1, m2⟩ := C109_logsumexp hf h R kept hK (by rw [hlen]; exact hle)
  rw [e]
  refine ⟨⟨?_, ?_⟩, ?_⟩
  · intro hn' c hc'
    by_contra hcon
    have hne : kept ≠ [] := by
      apply List.ne_nil_of_mem (a := Rounding.add fl (fin c.1) c.2)
      rw [hkept, List.mem_filter]
      refine ⟨List.mem_map.2 ⟨c, hc', rfl⟩, ?_⟩
      rcases hc c hc' with e | ⟨a, e, -⟩
      · exact absurd e hcon
      · rw [e]; rfl
    obtain ⟨M, hM⟩ := exists_largest kept hne hfin
    have := (m2 M hM).1
    rw [hn'] at this
    exact this
  · intro hall
    apply m1
    intro x hx
    obtain ⟨h1, -⟩ := List.mem_filter.1 hx
    obtain ⟨c, hc', rfl⟩ := List.mem_map.1 h1
    exact hall c hc'
  · intro M hM
    have := m2 M (hL M hM)
    rwa [hlen] at this

/-- How accurate it is: with `n` components that are finite at the point and log scales plus log densities at most `B` in size, the rounded log density is off by at most
`(5 (n - 1) + 3 B) / 2^p` from the logarithm of the sum of the scaled densities. -/
theorem C109_mixture_accurate (hw : Wide f) (h : Nearest f fl) (R : Reduction) (cs : List (ℝ × XR)) (B : ℝ)
    (hc : ∀ c ∈ cs, f.Mem c.1 ∧ Weight f c.2 ∧ ∀ a, c.2 = fin a → |c.1 + a| ≤ B) (hne : ∃ c ∈ cs, c.2 ≠ ninf)
    (hn : (8 : ℝ) * finites (cs.map (·.2)) ≤ 2 ^ f.p) (hb : 2 * B + finites (cs.map (·.2)) ≤ (2 : ℝ) ^ f.emax) :
    ∃ r, mixtureLogProb fl R cs = fin r ∧
      |r - Real.log (cs.map fun c => Real.exp c.1 * expR c.2).sum| ≤ (5 * ((finites (cs.map (·.2)) : ℝ) - 1) + 3 * B) / 2 ^ f.p := by
  have hf := hw.1
  have hpp : (0 : ℝ) < 2 ^ f.p := by positivity
  have h8 := pow_ge_eight hf
  obtain ⟨c0, hc0, hn0⟩ := hne
  obtain ⟨a0, ha0⟩ : ∃ a, c0.2 = fin a := by
    rcases (hc c0 hc0).2.1 with e | ⟨a, e, -⟩
    · exact absurd e hn0
    · exact ⟨a, e⟩
  have hB0 : 0 ≤ B := (abs_nonneg _).trans ((hc c0 hc0).2.2 a0 ha0)
  have hnn : (0 : ℝ) ≤ finites (cs.map (·.2)) := by positivity
  obtain ⟨p1, p2, p3, p4⟩ := parts_close hf h (B := B) (by linarith) cs hc
  set ws := cs.map fun c => Rounding.add fl (fin c.1) c.2 with hws
  set kept := ws.filter fun x => !x.isNegInf with hkept
  have e : mixtureLogProb fl R cs = logsumexp fl R kept := by
    simp only [mixtureLogProb, hkept, hws]
  have hK : ∀ x ∈ kept, Weight f x := fun x hx => (p1 x (List.mem_of_mem_filter hx)).1
  have hfin : ∀ x ∈ kept, ∃ a, x = fin a := by
    intro x hx
    obtain ⟨h1, h2⟩ := List.mem_filter.1 hx
    rcases (p1 x h1).1 with rfl | ⟨a, rfl, -⟩
    · simp at h2
    · exact ⟨a, rfl⟩
  have hkne : kept ≠ [] := by
    apply List.ne_nil_of_mem (a := Rounding.add fl (fin c0.1) c0.2)
    rw [hkept, List.mem_filter]
    refine ⟨List.mem_map.2 ⟨c0, hc0, rfl⟩, ?_⟩
    obtain ⟨y, hy, -⟩ := Nearest.err_add hf h (hc c0 hc0).1 (by
      rcases (hc c0 hc0).2.1 with e | ⟨a, e, ha⟩
      · exact absurd e hn0
      · rw [ha0] at e; cases e; exact ha) (((hc c0 hc0).2.2 a0 ha0).trans (by linarith))
    rw [ha0, add_def, hy]
    rfl
  obtain ⟨M, hM⟩ := exists_largest kept hkne hfin
  have hMB : |M| ≤ B + B / 2 ^ f.p := (p1 _ (List.mem_of_mem_filter hM.1)).2 M rfl
  have hu : B / 2 ^ f.p ≤ B := div_le_self hB0 (by linarith)
  have hfk : finites kept = finites (cs.map (·.2)) := (finites_kept ws).trans p2
  obtain ⟨r, hr, -, -, he⟩ := logsumexp_accurate hw h R hK hM (by rw [hfk]; exact hn) (by rw [hfk]; linarith)
  refine ⟨r, e.trans hr, ?_⟩
  rw [hfk] at he
  have hS : 0 < (cs.map fun c => Real.exp c.1 * expR c.2).sum := by
    have hmem : Real.exp c0.1 * expR c0.2 ∈ cs.map fun c => Real.exp c.1 * expR c.2 := List.mem_map.2 ⟨c0, hc0, rfl⟩
    refine lt_of_lt_of_le ?_ (List.single_le_sum (fun x hx => ?_) _ hmem)
    · rw [ha0, expR_fin]; positivity
    · obtain ⟨c, -, rfl⟩ := List.mem_map.1 hx
      exact mul_nonneg (Real.exp_pos _).le (expR_nonneg _)
  have hsq := log_squeeze hS p3 p4
  rw [exactLog, hkept, expR_kept] at he
  have t := abs_sub_le r (Real.log (ws.map expR).sum) (Real.log (cs.map fun c => Real.exp c.1 * expR c.2).sum)
  have hM2 : |M| ≤ 2 * B := by linarith
  have : (5 * ((finites (cs.map (·.2)) : ℝ) - 1) + |M|) / 2 ^ f.p + B / 2 ^ f.p ≤ (5 * ((finites (cs.map (·.2)) : ℝ) - 1) + 3 * B) / 2 ^ f.p := by
    rw [← add_div]
    refine div_le_div_of_nonneg_right ?_ hpp.le
    linarith
  linarith

/-! ## Concrete cases -/

theorem wide_single : Wide single := by refine ⟨⟨?_, ?_, ?_⟩, ?_, ?_⟩ <;> decide
theorem wide_double : Wide double := by refine ⟨⟨?_, ?_, ?_⟩, ?_, ?_⟩ <;> decide

/-- From left to right, starting with zero. -/
def leftToRight : Reduction where
  tree xs := xs.foldl (fun t x => .node t (.leaf x)) (.leaf (fin 0))
  uses xs := by
    have key : ∀ (ys : List XR) (t : Tree), (ys.foldl (fun t x => Tree.node t (.leaf x)) t).leaves = t.leaves ++ ys := by
      intro ys
      induction ys with
      | nil => intro t; simp
      | cons y ys ih => intro t; rw [List.foldl_cons, ih]; simp [Tree.leaves]
    exact ⟨1, by rw [key]; exact List.perm_append_comm⟩

/-- From right to left, without a zero unless there is nothing to add. -/
def rightToLeft : Reduction where
  tree
    | [] => .leaf (fin 0)
    | x :: xs => xs.foldr (fun y t => .node t (.leaf y)) (.leaf x)
  uses xs := by
    cases xs with
    | nil => exact ⟨1, by simp [Tree.leaves]⟩
    | cons x xs =>
      refine ⟨0, ?_⟩
      have key : ∀ ys : List XR, (ys.foldr (fun y t => Tree.node t (.leaf y)) (.leaf x)).leaves.Perm (x :: ys) := by
        intro ys
        induction ys with
        | nil => simp [Tree.leaves]
        | cons y ys ih =>
          simp only [List.foldr_cons, Tree.leaves]
          refine (ih.append_right [y]).trans ?_
          refine List.Perm.cons x ?_
          exact List.perm_append_comm
      simpa using key xs

/-- Three samples, one of them outside the support, and padding. -/
def exampleRow : List XR := [fin 1, ninf, fin (-1), ninf]

theorem exampleRow_ok {f : Format} (hf : f.Usable) : (∀ x ∈ exampleRow, Weight f x) ∧ Largest exampleRow 1 ∧ finites exampleRow = 2 := by
  refine ⟨?_, ⟨by simp [exampleRow], ?_⟩, rfl⟩
  · intro x hx
    simp only [exampleRow, List.mem_cons, List.not_mem_nil, or_false] at hx
    rcases hx with rfl | rfl | rfl | rfl
    · exact Or.inr ⟨1, rfl, mem_one hf⟩
    · exact Or.inl rfl
    · exact Or.inr ⟨-1, rfl, (mem_one hf).neg⟩
    · exact Or.inl rfl
  · intro x hx
    simp only [exampleRow, List.mem_cons, List.not_mem_nil, or_false] at hx
    rcases hx with rfl | rfl | rfl | rfl
    · exact le_refl (1 : ℝ)
    · trivial
    · show (-1 : ℝ) ≤ 1; norm_num
    · trivial

/-- `C109_logsumexp`: in single precision the row above gives a float between 1 and the rounding of 1 + log 2. -/
example : ∃ fl, Nearest single fl ∧ XR.le (fin 1) (logsumexp fl leftToRight exampleRow) := by
  obtain ⟨fl, h⟩ := exists_nearest wide_single.1
  obtain ⟨a, b, c⟩ := exampleRow_ok wide_single.1
  exact ⟨fl, h, ((C109_logsumexp wide_single.1 h leftToRight exampleRow a (by rw [c]; norm_num [single])).2 1 b).1⟩

/-- … and a row with nothing in the support gives `-inf`. -/
example : ∃ fl, Nearest double fl ∧ logsumexp fl rightToLeft [ninf, ninf] = ninf := by
  obtain ⟨fl, h⟩ := exists_nearest wide_double.1
  exact ⟨fl, h, (C109_logsumexp wide_double.1 h rightToLeft [ninf, ninf] (by intro x hx; left; simpa using hx) (by simp [finites])).1 (by simp)⟩

/-- `C109_logsumexp_accurate`: in double precision the row above is off by at most `6 · 2^-53`. -/
example (R : Reduction) : ∃ fl r, Nearest double fl ∧ logsumexp fl R exampleRow = fin r ∧ |r - exactLog exampleRow| ≤ 6 / 2 ^ 53 := by
  obtain ⟨fl, h⟩ := exists_nearest wide_double.1
  obtain ⟨a, b, c⟩ := exampleRow_ok wide_double.1
  have he : (16 : ℝ) ≤ 2 ^ double.emax := by
    rw [show (16 : ℝ) = 2 ^ (4 : ℤ) by norm_num]
    exact zpow_le_zpow_right₀ (by norm_num) (by decide)
  obtain ⟨r, h1, -, h2⟩ := C109_logsumexp_accurate wide_double h R exampleRow 1 a b (by rw [c]; norm_num [double])
    (by rw [c]; norm_num; linarith)
  refine ⟨fl, r, h, h1, h2.trans ?_⟩
  rw [c]
  norm_num [double]

/-- `C109_padding`: two padded places. -/
example : ∃ fl, Nearest single fl ∧ ∃ R', logsumexp fl leftToRight [fin 1, fin (-1), ninf, ninf] = logsumexp fl R' [fin 1, fin (-1)] := by
  obtain ⟨fl, h⟩ := exists_nearest wide_single.1
  exact ⟨fl, h, C109_padding wide_single.1 h leftToRight [fin 1, fin (-1)] 2⟩

/-- One event with one sample in a population that is flat with log density zero. -/
noncomputable def exampleSetup : Likelihood.Setup Unit where
  distFn _ := ⟨fun _ => fin 0, fun _ _ => ()⟩
  priorLogProb _ := fin 1
  priorSupport _ := true
  variablesIndex := []
  logConstants := fin (-1)
  poissonMean _ := fin 3
  whereFns := none
  constants := []

/-- One event with one sample and one padded place. -/
def exampleBucket : Likelihood.Bucket Unit := ⟨[[(), ()]], [[fin 0, fin 0]], [[true, false]]⟩

theorem exampleRows {fl : ℝ → XR} (h : Nearest single fl) :
    [[fin 0, ninf]] = ([exampleBucket].map (weights fl (exampleSetup.distFn (exampleSetup.constants ++ exampleSetup.mapParams [])))).flatten := by
  have hf := wide_single.1
  have hrow : ∀ i, sampleTerm fl (exampleSetup.distFn []) (fun _ => ()) i () (fin 0) true = fin 0 := by
    intro i
    simp only [sampleTerm, exampleSetup, if_true, Rounding.sub_def, sub_zero]
    exact h.exact (mem_zero hf)
  have := hrow 0
  simp only [List.map_cons, List.map_nil, List.flatten_cons, List.flatten_nil, List.append_nil, weights, bucketRows, rowTerms, exampleBucket]
  simp only [exampleSetup] at this ⊢
  simp only [List.cons.injEq, and_true]
  exact ⟨this.symm, by simp [sampleTerm]⟩

theorem exampleRows_ok : ∀ w ∈ [[fin 0, ninf]], (∀ y ∈ w, Weight single y) ∧ Largest w 0 ∧ (8 : ℝ) * finites w ≤ 2 ^ single.p := by
  intro w hw
  rw [List.mem_singleton.1 hw]
  have ef : finites [fin 0, ninf] = 1 := rfl
  refine ⟨?_, ⟨by simp, ?_⟩, by rw [ef]; norm_num [single]⟩
  · intro y hy
    simp only [List.mem_cons, List.not_mem_nil, or_false] at hy
    rcases hy with rfl | rfl
    · exact Or.inr ⟨0, rfl, mem_zero wide_single.1⟩
    · exact Or.inl rfl
  · intro y hy
    simp only [List.mem_cons, List.not_mem_nil, or_false] at hy
    rcases hy with rfl | rfl
    · exact le_refl (0 : ℝ)
    · trivial

theorem single_emax : (64 : ℝ) ≤ 2 ^ single.emax := by
  rw [show (64 : ℝ) = 2 ^ (6 : ℤ) by norm_num]
  exact zpow_le_zpow_right₀ (by norm_num) (by decide)

/-- `C109_posterior`: log prior 1, rate 3, constant -1: the log posterior is a float near -3. -/
example (R : Reduction) : ∃ fl v, Nearest single fl ∧ likelihoodFn fl R exampleSetup [] [exampleBucket] = fin v ∧ |v - -3| ≤ 41 / 2 ^ 24 := by
  obtain ⟨fl, h⟩ := exists_nearest wide_single.1
  have hm : ∀ n : ℤ, |n| < 8 → single.Mem n := mem_int wide_single.1
  have ef : finites [fin 0, ninf] = 1 := rfl
  obtain ⟨v, h1, h2⟩ := C109_posterior wide_single h R exampleSetup [] [exampleBucket] 1 3 (-1) (fun _ => 0) [[fin 0, ninf]]
    (exampleRows h) ⟨rfl, by simpa using hm 1 (by norm_num)⟩ ⟨rfl, by simpa using hm 3 (by norm_num)⟩ ⟨rfl, by simpa using hm (-1) (by norm_num)⟩
    exampleRows_ok (by norm_num [single]) 6 (by norm_num [ef]) (by linarith [single_emax])
  refine ⟨fl, v, h, h1, ?_⟩
  have e0 : exactLog [fin 0, ninf] = 0 := by simp [exactLog]
  simp only [List.map_cons, List.map_nil, List.sum_cons, List.sum_nil, e0, ef, List.length_singleton] at h2
  norm_num [single] at h2 ⊢
  linarith

/-- `C109_numpyro`: the same without the prior is near -4. -/
example (R : Reduction) : ∃ fl v, Nearest single fl ∧ numpyroCore fl R exampleSetup [] [exampleBucket] = fin v ∧ |v - -4| ≤ 41 / 2 ^ 24 := by
  obtain ⟨fl, h⟩ := exists_nearest wide_single.1
  have hm : ∀ n : ℤ, |n| < 8 → single.Mem n := mem_int wide_single.1
  have ef : finites [fin 0, ninf] = 1 := rfl
  obtain ⟨v, h1, h2⟩ := C109_numpyro wide_single h R exampleSetup [] [exampleBucket] 3 (-1) (fun _ => 0) [[fin 0, ninf]]
    (exampleRows h) ⟨rfl, by simpa using hm 3 (by norm_num)⟩ ⟨rfl, by simpa using hm (-1) (by norm_num)⟩
    exampleRows_ok (by norm_num [single]) 5 (by norm_num [ef]) (by linarith [single_emax])
  refine ⟨fl, v, h, h1, ?_⟩
  have e0 : exactLog [fin 0, ninf] = 0 := by simp [exactLog]
  simp only [List.map_cons, List.map_nil, List.sum_cons, List.sum_nil, e0, ef, List.length_singleton] at h2
  norm_num [single] at h2 ⊢
  linarith

/-- `C109_impossible`: an event without a sample next to the one above. -/
example (R : Reduction) : ∃ fl, Nearest single fl ∧
    likelihoodFn fl R exampleSetup [] [exampleBucket, ⟨[[()]], [[fin 0]], [[false]]⟩] = ninf := by
  obtain ⟨fl, h⟩ := exists_nearest wide_single.1
  exact ⟨fl, h, C109_impossible wide_single.1 h R exampleSetup [] _ 1 3 (-1) _ rfl rfl rfl rfl [ninf] (by
    simp [weights, bucketRows, rowTerms, sampleTerm, exampleSetup]) (by simp)⟩

/-- `C109_mixture`: two components, one of them outside its support. -/
example : ∃ fl, Nearest single fl ∧ mixtureLogProb fl leftToRight [(1, fin 1), (2, ninf)] ≠ ninf ∧ mixtureLogProb fl leftToRight [(1, ninf), (2, ninf)] = ninf := by
  obtain ⟨fl, h⟩ := exists_nearest wide_single.1
  have hf := wide_single.1
  have e1 : Rounding.add fl (fin 1) (fin 1) = fin 2 := by
    rw [add_def, show (1 : ℝ) + 1 = 2 by norm_num]
    exact h.exact (by simpa using mem_int hf 2 (by norm_num))
  have e2 : ∀ a, Rounding.add fl (fin a) ninf = ninf := fun a => rfl
  refine ⟨fl, h, ?_, ?_⟩
  · intro hc
    have := (C109_mixture hf h leftToRight [(1, fin 1), (2, ninf)] (by
      intro c hc
      simp only [List.mem_cons, List.not_mem_nil, or_false] at hc
      rcases hc with rfl | rfl
      · exact Or.inr ⟨2, e1, by simpa using mem_int hf 2 (by norm_num)⟩
      · exact Or.inl rfl) (by norm_num [single])).1.1 hc (1, fin 1) (by simp)
    simp only [e1] at this
    cases this
  · refine (C109_mixture hf h leftToRight [(1, ninf), (2, ninf)] (by
      intro c hc
      simp only [List.mem_cons, List.not_mem_nil, or_false] at hc
      rcases hc with rfl | rfl <;> exact Or.inl rfl) (by norm_num [single])).1.2 ?_
    intro c hc
    simp only [List.mem_cons, List.not_mem_nil, or_false] at hc
    rcases hc with rfl | rfl <;> rfl

/-- `C109_mixture_accurate`: two components with log scales 1 and 2, the second outside its support. -/
example (R : Reduction) : ∃ fl r, Nearest single fl ∧ mixtureLogProb fl R [(1, fin 1), (2, ninf)] = fin r ∧ |r - 2| ≤ 6 / 2 ^ 24 := by
  obtain ⟨fl, h⟩ := exists_nearest wide_single.1
  have hf := wide_single.1
  have hfin : finites ([((1 : ℝ), fin 1), (2, ninf)].map (·.2)) = 1 := rfl
  obtain ⟨r, h1, h2⟩ := C109_mixture_accurate wide_single h R [(1, fin 1), (2, ninf)] 2 (by
    intro c hc
    simp only [List.mem_cons, List.not_mem_nil, or_false] at hc
    rcases hc with rfl | rfl
    · exact ⟨mem_one hf, Or.inr ⟨1, rfl, mem_one hf⟩, fun a ha => by cases ha; norm_num⟩
    · exact ⟨by simpa using mem_int hf 2 (by norm_num), Or.inl rfl, fun a ha => by cases ha⟩) ⟨(1, fin 1), by simp, by simp⟩
    (by rw [hfin]; norm_num [single]) (by
      rw [hfin]
      calc (2 : ℝ) * 2 + (1 : ℕ) ≤ 2 ^ (3 : ℤ) := by norm_num
        _ ≤ 2 ^ single.emax := zpow_le_zpow_right₀ (by norm_num) (by norm_num [single]))
  refine ⟨fl, r, h, h1, ?_⟩
  have e : ([((1 : ℝ), fin 1), (2, ninf)].map fun c => Real.exp c.1 * expR c.2).sum = Real.exp 2 := by
    simp only [List.map_cons, List.map_nil, List.sum_cons, List.sum_nil, expR_fin, expR_ninf, mul_zero, add_zero, ← Real.exp_add]
    norm_num
  rw [e, Real.log_exp, hfin] at h2
  refine h2.trans (le_of_eq ?_)
  norm_num [single]

/-- `C109_rate`: a NaN, a `-inf` and a finite weight. -/
example : ∃ fl, Nearest single fl ∧ XR.le (fin 0) (injectionMean fl leftToRight 1 3 [nan, ninf, fin 1] [fin 0, fin 0, fin 0]) ∧
    injectionMean fl leftToRight 1 3 [nan, ninf] [fin 0, fin 0] = fin 0 := by
  obtain ⟨fl, h⟩ := exists_nearest wide_single.1
  have e1 : Rounding.sub fl (fin 1) (fin 0) = fin 1 := by rw [Rounding.sub_def, sub_zero]; exact h.exact (mem_one wide_single.1)
  have ew : [nan, ninf, fin 1] = List.zipWith (fun m w => Rounding.sub fl m w) [nan, ninf, fin 1] [fin 0, fin 0, fin 0] := by
    simp only [List.zipWith, e1]; rfl
  have ew2 : [nan, ninf] = List.zipWith (fun m w => Rounding.sub fl m w) [nan, ninf] [fin 0, fin 0] := rfl
  refine ⟨fl, h, (C109_rate wide_single.1 h leftToRight 1 3 (by norm_num) (by norm_num) _ _ [nan, ninf, fin 1] ew ?_ (show 1 < 2 ^ 24 by norm_num)).1,
    (C109_rate wide_single.1 h leftToRight 1 3 (by norm_num) (by norm_num) _ _ [nan, ninf] ew2 ?_ (show 0 < 2 ^ 24 by norm_num)).2 (by simp)⟩
  · intro x hx
    simp only [List.mem_cons, List.not_mem_nil, or_false] at hx
    rcases hx with rfl | rfl | rfl
    · exact Or.inl rfl
    · exact Or.inr (Or.inl rfl)
    · exact Or.inr (Or.inr ⟨1, rfl, mem_one wide_single.1⟩)
  · intro x hx
    simp only [List.mem_cons, List.not_mem_nil, or_false] at hx
    rcases hx with rfl | rfl
    · exact Or.inl rfl
    · exact Or.inr (Or.inl rfl)

/-- `C109_rate_accurate`: two found injections of weight 1 among four, one year of data; the third has weight zero. -/
example (R : Reduction) : ∃ fl v, Nearest single fl ∧ injectionMean fl R 1 4 [fin 0, ninf, fin 0] [fin 0, fin 0, fin 0] = fin v ∧ |v - 1 / 2| ≤ 7 / 2 ^ 24 := by
  obtain ⟨fl, h⟩ := exists_nearest wide_single.1
  have hm0 := mem_zero wide_single.1
  have e1 : Rounding.sub fl (fin 0) (fin 0) = fin 0 := by rw [Rounding.sub_def, sub_zero]; exact h.exact hm0
  have ew : [fin 0, ninf, fin 0] = List.zipWith (fun m w => Rounding.sub fl m w) [fin 0, ninf, fin 0] [fin 0, fin 0, fin 0] := by
    simp only [List.zipWith, e1]; rfl
  have ef : finites [fin 0, ninf, fin 0] = 2 := rfl
  have ek : [fin 0, ninf, fin 0].filter XR.isFinite = [fin 0, fin 0] := rfl
  have hlo : (2 : ℝ) ^ (single.emin + single.p) ≤ 1 / 2 := by
    rw [show (1 / 2 : ℝ) = 2 ^ (-1 : ℤ) by norm_num]
    exact zpow_le_zpow_right₀ (by norm_num) (by decide)
  have hhi : (2 : ℝ) ≤ 2 ^ (single.emax - 1) := by
    rw [show (2 : ℝ) = 2 ^ (1 : ℤ) by norm_num, ← zpow_mul]
    exact zpow_le_zpow_right₀ (by norm_num) (by decide)
  obtain ⟨v, h1, h2⟩ := C109_rate_accurate wide_single h R 1 4 (by norm_num) (by norm_num) _ _ [fin 0, ninf, fin 0] ew
    (by
      intro x hx
      simp only [List.mem_cons, List.not_mem_nil, or_false] at hx
      rcases hx with rfl | rfl | rfl
      · exact Or.inr (Or.inr ⟨0, rfl, hm0⟩)
      · exact Or.inr (Or.inl rfl)
      · exact Or.inr (Or.inr ⟨0, rfl, hm0⟩))
    0 (by
      rw [ek]
      refine ⟨by simp, ?_⟩
      intro x hx
      simp only [List.mem_cons, List.not_mem_nil, or_false, or_self] at hx
      rw [hx]; exact le_refl (0 : ℝ))
    (by rw [ef]; norm_num [single]) (by rw [ef]; norm_num; linarith [single_emax]) (5 / 2 ^ 24) (by rw [ef]; norm_num [single]) (by norm_num)
    2 (by rw [ek]; norm_num)
    (by
      intro X hX
      simp only [List.mem_cons, List.not_mem_nil, or_false] at hX
      rcases hX with rfl | rfl | rfl <;> constructor <;> linarith)
  refine ⟨fl, v, h, h1, ?_⟩
  norm_num [single] at h2 ⊢
  linarith

end GW.RoundedLikelihood
