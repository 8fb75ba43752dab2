import Verif.Spec.Likelihood
import Verif.Lemmas.XR
import Verif.Lemmas.Jenks

namespace GW
namespace XR

theorem max_ninf (x : XR) : max x ninf = x := by cases x <;> rfl
theorem ninf_max (x : XR) : max ninf x = x := by cases x <;> rfl

theorem logsumexp_unfold (a : List XR) :
    logsumexp a = (let m := a.foldr max ninf
      let m := if m.isFinite then m else fin 0
      log (sum (a.map fun x => exp (x - m))) + m) := by
  unfold logsumexp logsumexpWhere
  have : ((a.map fun x => (x, true)).filter (·.2)).map (·.1) = a := by
    rw [List.filter_eq_self.2 (by simp), List.map_map]
    simp [Function.comp_def]
  rw [this]

theorem foldr_max_filter (a : List XR) :
    (a.filter fun x => !x.isNegInf).foldr max ninf = a.foldr max ninf := by
  induction a with
  | nil => rfl
  | cons x a ih =>
    cases x <;> simp [ih, ninf_max]

theorem sum_exp_filter (a : List XR) (m : ℝ) :
    sum ((a.filter fun x => !x.isNegInf).map fun x => exp (x - fin m)) = sum (a.map fun x => exp (x - fin m)) := by
  induction a with
  | nil => rfl
  | cons x a ih =>
    cases x
    case ninf =>
      simp only [isNegInf_ninf, Bool.not_true, Bool.false_eq_true, not_false_eq_true, List.filter_cons_of_neg,
        List.map_cons, sum_cons, ninf_sub_fin, exp_ninf, ih]
      exact (zero_add' _).symm
    all_goals simp [ih]

/-- Entries equal to `-inf` never matter for `logsumexp`, even in the presence of NaN or `+inf`. -/
theorem logsumexp_filter (a : List XR) : logsumexp (a.filter fun x => !x.isNegInf) = logsumexp a := by
  rw [logsumexp_unfold, logsumexp_unfold]
  simp only [foldr_max_filter]
  split_ifs with h
  · obtain ⟨m, hm⟩ := (isFinite_iff _).1 h
    rw [hm, sum_exp_filter]
  · rw [sum_exp_filter]

theorem foldr_max_perm {a b : List XR} (h : a.Perm b) : a.foldr max ninf = b.foldr max ninf := by
  induction h with
  | nil => rfl
  | cons x _ ih => simp [ih]
  | swap x y l => simp only [List.foldr_cons, ← max_assoc', max_comm' x y]
  | trans _ _ ih1 ih2 => exact ih1.trans ih2

theorem logsumexp_perm {a b : List XR} (h : a.Perm b) : logsumexp a = logsumexp b := by
  rw [logsumexp_unfold, logsumexp_unfold, foldr_max_perm h]
  simp only [sum_perm (h.map fun x => exp (x - _))]

end XR

namespace Likelihood

theorem rowTerms_filter {θ} (M : Model θ) (fp : Nat → θ) : ∀ (i : Nat) (d : List θ) (r : List XR) (m : List Bool),
    (rowTerms M fp i d r m).filter (fun x => !x.isNegInf) =
      ((rowSamples d r m).map fun p => M.logProb p.1 - p.2).filter (fun x => !x.isNegInf)
  | i, [], r, m => by simp [rowTerms, rowSamples]
  | i, d :: ds, [], m => by simp [rowTerms, rowSamples]
  | i, d :: ds, r :: rs, [] => by simp [rowTerms, rowSamples]
  | i, d :: ds, r :: rs, m :: ms => by
    have ih := rowTerms_filter M fp (i + 1) ds rs ms
    cases m
    · simpa [rowTerms, rowSamples, sampleTerm] using ih
    · simp only [rowTerms, sampleTerm, if_true]
      rw [List.filter_cons, ih]
      simp [rowSamples, List.filter_cons]

theorem rowTerms_lse {θ} (M : Model θ) (fp : Nat → θ) (i : Nat) (d : List θ) (r : List XR) (m : List Bool) :
    XR.logsumexp (rowTerms M fp i d r m) = eventTerm M.logProb (rowSamples d r m) := by
  unfold eventTerm
  rw [← XR.logsumexp_filter, rowTerms_filter, XR.logsumexp_filter]

theorem bucketTerms_eq {θ} (M : Model θ) (fp : Nat → θ) : ∀ (d : List (List θ)) (r : List (List XR))
    (m : List (List Bool)), bucketTerms M fp d r m =
      ((d.zip r).zip m).map fun p => eventTerm M.logProb (rowSamples p.1.1 p.1.2 p.2)
  | [], r, m => by simp [bucketTerms]
  | d :: ds, [], m => by simp [bucketTerms]
  | d :: ds, r :: rs, [] => by simp [bucketTerms]
  | d :: ds, r :: rs, m :: ms => by
    simp [bucketTerms, bucketTerms_eq M fp ds rs ms, rowTerms_lse]

theorem bucketSum_eq {θ} (M : Model θ) (b : Bucket θ) :
    bucketSum M b = XR.sum (b.events.map (eventTerm M.logProb)) := by
  unfold bucketSum Bucket.events
  rw [bucketTerms_eq, List.map_map]
  rfl

theorem total_eq {θ} (M : Model θ) : ∀ (bs : List (Bucket θ)) (c : XR),
    totalLogLikelihood M c bs = c + XR.sum ((allEvents bs).map (eventTerm M.logProb))
  | [], c => by simp [totalLogLikelihood, allEvents]; exact (XR.add_zero' c).symm
  | b :: bs, c => by
    have := total_eq M bs (c + bucketSum M b)
    unfold totalLogLikelihood at this ⊢
    rw [List.foldl_cons, this, bucketSum_eq, show allEvents (b :: bs) = b.events ++ allEvents bs from
      List.flatMap_cons, List.map_append, XR.sum_append, XR.add_assoc']

theorem sum_terms_same {θ} (logProb : θ → XR) {a b : List (List (θ × XR))} (h : SameEvents a b) :
    XR.sum (a.map (eventTerm logProb)) = XR.sum (b.map (eventTerm logProb)) := by
  obtain ⟨c, h1, h2⟩ := h
  rw [XR.sum_perm (h1.map _)]
  congr 1
  clear h1
  induction h2 with
  | nil => rfl
  | cons hp _ ih =>
    rw [List.map_cons, List.map_cons, ih]
    congr 1
    exact XR.logsumexp_perm (hp.map _)

theorem rowSamples_pad {θ} (rows : List θ) (refs : List XR) (padD : List θ) (padR : List XR) (k : Nat)
    (h : rows.length = refs.length) :
    rowSamples (rows ++ padD) (refs ++ padR) (List.replicate rows.length true ++ List.replicate k false) =
      rows.zip refs := by
  unfold rowSamples
  rw [List.zip_append h, List.zip_append (by simp [h])]
  rw [List.filter_append, List.map_append]
  have h1 : ((rows.zip refs).zip (List.replicate rows.length true)).filter (·.2) =
      (rows.zip refs).zip (List.replicate rows.length true) := by
    rw [List.filter_eq_self]
    intro p hp
    exact List.eq_of_mem_replicate (List.of_mem_zip hp).2
  have h2 : ((padD.zip padR).zip (List.replicate k false)).filter (·.2) = [] := by
    rw [List.filter_eq_nil_iff]
    intro p hp
    have := List.eq_of_mem_replicate (List.of_mem_zip hp).2
    simp [this]
  rw [h1, h2, List.map_nil, List.append_nil]
  exact List.map_fst_zip (by simp [h])

theorem foldl_and {β : Type} (fns : List (β → Bool)) (v : β) (b : Bool) :
    fns.foldl (fun p f => p && f v) b = (b && fns.all fun f => f v) := by
  induction fns generalizing b with
  | nil => simp
  | cons f fs ih => simp [ih, Bool.and_assoc]

/-- Sum of the event terms in real arithmetic. -/
theorem sum_eventTerm_fin {θ} (logProb : θ → XR) : ∀ (evs : List (List (θ × XR))),
    (∀ ev ∈ evs, ∀ p ∈ ev, (logProb p.1 - p.2).IsLog) →
    (∀ ev ∈ evs, 0 < (ev.map fun p => (logProb p.1 - p.2).expR).sum) →
    XR.sum (evs.map (eventTerm logProb)) =
      .fin (evs.map fun ev => Real.log (ev.map fun p => (logProb p.1 - p.2).expR).sum).sum
  | [], _, _ => by simp
  | ev :: evs, h1, h2 => by
    have ih := sum_eventTerm_fin logProb evs (fun e he => h1 e (by simp [he])) (fun e he => h2 e (by simp [he]))
    have h := h2 ev (by simp)
    rw [List.map_cons, XR.sum_cons, ih, eventTerm, XR.logsumexp_eq _ (by
      intro x hx
      obtain ⟨p, hp, rfl⟩ := List.mem_map.1 hx
      exact h1 ev (by simp) p hp), List.map_map]
    simp only [Function.comp_def]
    rw [XR.log_fin_pos h]
    simp

theorem eventTerm_ninf {θ} (logProb : θ → XR) (ev : List (θ × XR))
    (h1 : ∀ p ∈ ev, (logProb p.1 - p.2).IsLog)
    (h2 : (ev.map fun p => (logProb p.1 - p.2).expR).sum = 0) : eventTerm logProb ev = .ninf := by
  rw [eventTerm, XR.logsumexp_eq _ (by
      intro x hx
      obtain ⟨p, hp, rfl⟩ := List.mem_map.1 hx
      exact h1 p hp), List.map_map]
  simp only [Function.comp_def]
  rw [h2, XR.log_fin_zero]

theorem isLog_eventTerm {θ} (logProb : θ → XR) (ev : List (θ × XR))
    (h1 : ∀ p ∈ ev, (logProb p.1 - p.2).IsLog) : (eventTerm logProb ev).IsLog := by
  rw [eventTerm, XR.logsumexp_eq _ (by
      intro x hx
      obtain ⟨p, hp, rfl⟩ := List.mem_map.1 hx
      exact h1 p hp)]
  exact XR.isLog_log_sum (XR.sum_expR_nonneg _)

theorem sum_ninf : ∀ (xs : List XR), (∀ x ∈ xs, x.IsLog) → XR.ninf ∈ xs → XR.sum xs = .ninf
  | [], _, h => by simp at h
  | x :: xs, h1, h2 => by
    have hs : (XR.sum xs).IsLog := by
      clear h2
      have : ∀ y ∈ xs, y.IsLog := fun y hy => h1 y (by simp [hy])
      clear h1
      induction xs with
      | nil => exact XR.isLog_fin 0
      | cons y ys ih => exact (this y (by simp)).add (ih fun z hz => this z (by simp [hz]))
    rw [XR.sum_cons]
    rcases List.mem_cons.1 h2 with rfl | h2
    · rcases hs.cases with e | ⟨a, e⟩ <;> rw [e] <;> simp
    · rw [sum_ninf xs (fun y hy => h1 y (by simp [hy])) h2]
      rcases (h1 x (by simp)).cases with e | ⟨a, e⟩ <;> rw [e] <;> simp

theorem zipWith_map_same {α β γ δ : Type} (f : β → γ → δ) (a : α → β) (b : α → γ) (l : List α) :
    List.zipWith f (l.map a) (l.map b) = l.map fun x => f (a x) (b x) := by
  induction l with
  | nil => rfl
  | cons x l ih => simp [ih]

theorem zip_map_same {α β γ : Type} (a : α → β) (b : α → γ) (l : List α) :
    (l.map a).zip (l.map b) = l.map fun x => (a x, b x) := by
  induction l with
  | nil => rfl
  | cons x l ih => simp [ih]

theorem masked_refs (rows : List FRow) (n k : Nat) (hn : n = rows.length) (pad : List FRow) :
    ∃ tail : List XR, List.zipWith (fun (m : Bool) (r : FRow) => if m then r.headD 0 else 0)
      (List.replicate n true ++ List.replicate k false) (rows ++ pad) = rows.map (fun r => r.headD 0) ++ tail := by
  subst hn
  rw [List.zipWith_append (by simp)]
  refine ⟨_, congrArg (· ++ _) ?_⟩
  induction rows with
  | nil => rfl
  | cons r rows ih => simpa [List.replicate_succ] using ih

end Likelihood
end GW
