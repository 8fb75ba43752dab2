import Verif.Spec.RoundedEnd
import Verif.Lemmas.RoundedPosterior
import Verif.Lemmas.Robust
import Verif.Lemmas.Likelihood

/-! # From the rounded weights to the samples of the events -/

namespace GW.RoundedLikelihood
open GW XR Rounding
open GW.Robust (Within)
open GW.Likelihood (allEvents rowSamples)

variable {f : Format} {fl : ℝ → XR}

theorem within_trans {d e : ℝ} {x y z : XR} (h : Within d x y) (h' : Within e y z) : Within (d + e) x z := by
  rcases h with ⟨rfl, rfl⟩ | ⟨a, b, rfl, rfl, h⟩ <;> rcases h' with ⟨h1, rfl⟩ | ⟨b', c, h1, rfl, h'⟩
  · exact Or.inl ⟨rfl, rfl⟩
  · cases h1
  · cases h1
  · obtain rfl := fin.inj h1
    refine Or.inr ⟨a, c, rfl, rfl, ?_⟩
    have := abs_add_le (c - b) (b - a)
    rw [show c - b + (b - a) = c - a by ring] at this
    linarith

/-- The row `w` holds the weights of the samples of `ev`, in order, and `-inf` at the padded places. -/
def RowOf {θ} (fl : ℝ → XR) (M : Likelihood.Model θ) (w : List XR) (ev : List (θ × XR)) : Prop :=
  w.filter (fun x => !x.isNegInf) = (ev.map fun p => Rounding.sub fl (M.logProb p.1) p.2).filter (fun x => !x.isNegInf)

theorem rowOf_rowTerms {θ} (M : Likelihood.Model θ) (fp : Nat → θ) : ∀ (i : Nat) (d : List θ) (r : List XR) (m : List Bool),
    RowOf fl M (rowTerms fl M fp i d r m) (rowSamples d r m)
  | i, [], r, m => by simp [RowOf, rowTerms, rowSamples]
  | i, d :: ds, [], m => by simp [RowOf, rowTerms, rowSamples]
  | i, d :: ds, r :: rs, [] => by simp [RowOf, rowTerms, rowSamples]
  | i, d :: ds, r :: rs, m :: ms => by
    have ih := rowOf_rowTerms M fp (i + 1) ds rs ms
    unfold RowOf at ih ⊢
    cases m
    · simpa [rowTerms, rowSamples, sampleTerm] using ih
    · simp only [rowTerms, sampleTerm, if_true]
      rw [List.filter_cons, ih]
      simp [rowSamples, List.filter_cons]

theorem rowsOf_bucket {θ} (M : Likelihood.Model θ) (fp : Nat → θ) : ∀ (d : List (List θ)) (r : List (List XR)) (m : List (List Bool)),
    List.Forall₂ (RowOf fl M) (bucketRows fl M fp d r m) (((d.zip r).zip m).map fun p => rowSamples p.1.1 p.1.2 p.2)
  | [], r, m => by simp [bucketRows]
  | d :: ds, [], m => by simp [bucketRows]
  | d :: ds, r :: rs, [] => by simp [bucketRows]
  | d :: ds, r :: rs, m :: ms => by
    simp only [bucketRows, List.zip_cons_cons, List.map_cons]
    exact .cons (rowOf_rowTerms M fp 0 d r m) (rowsOf_bucket M fp ds rs ms)

/-- The rows of all buckets are those of the events, in order. -/
theorem rowsOf {θ} (M : Likelihood.Model θ) (bs : List (Likelihood.Bucket θ)) :
    List.Forall₂ (RowOf fl M) (bs.map (weights fl M)).flatten (allEvents bs) := by
  induction bs with
  | nil => exact .nil
  | cons b bs ih =>
    rw [List.map_cons, List.flatten_cons, show allEvents (b :: bs) = b.events ++ allEvents bs from List.flatMap_cons]
    exact List.rel_append (rowsOf_bucket M _ _ _ _) ih

theorem RowOf.mem {θ} {M : Likelihood.Model θ} {w : List XR} {ev : List (θ × XR)} (h : RowOf fl M w ev) {y : XR} (hy : y ∈ w) :
    y = ninf ∨ ∃ p ∈ ev, Rounding.sub fl (M.logProb p.1) p.2 = y := by
  by_cases hn : y.isNegInf
  · left; cases y <;> simp_all [XR.isNegInf]
  · right
    have : y ∈ w.filter fun x => !x.isNegInf := by simp [List.mem_filter, hy, hn]
    rw [h, List.mem_filter, List.mem_map] at this
    exact this.1

theorem sum_expR_filter (xs : List XR) : ((xs.filter fun x => !x.isNegInf).map expR).sum = (xs.map expR).sum := by
  induction xs with
  | nil => rfl
  | cons x xs ih => cases x <;> simp_all [XR.isNegInf, expR]

theorem RowOf.sum {θ} {M : Likelihood.Model θ} {w : List XR} {ev : List (θ × XR)} (h : RowOf fl M w ev) :
    (w.map expR).sum = (ev.map fun p => (Rounding.sub fl (M.logProb p.1) p.2).expR).sum := by
  rw [← sum_expR_filter, h, sum_expR_filter, List.map_map]
  rfl

theorem RowOf.finites {θ} {M : Likelihood.Model θ} {w : List XR} {ev : List (θ × XR)} (h : RowOf fl M w ev) : finites w ≤ ev.length := by
  have e : w.filter XR.isFinite = (w.filter fun x => !x.isNegInf).filter XR.isFinite := by
    rw [List.filter_filter]
    congr 1
    funext x
    cases x <;> rfl
  unfold RoundedLikelihood.finites
  rw [e, h]
  exact (List.length_filter_le _ _).trans ((List.length_filter_le _ _).trans (by simp))

/-- Among weights that are not all zero there is a largest. -/
theorem exists_largest_weight {w : List XR} (hw : ∀ y ∈ w, Weight f y) (hpos : 0 < (w.map expR).sum) : ∃ M, Largest w M := by
  have key : (∀ y ∈ w, y = ninf) ∨ ∃ M, Largest w M := by
    clear hpos
    induction w with
    | nil => left; simp
    | cons y w ih =>
      rcases hw y (by simp) with rfl | ⟨a, rfl, -⟩
      · rcases ih fun z hz => hw z (by simp [hz]) with h | ⟨M, h1, h2⟩
        · left; simpa using h
        · refine Or.inr ⟨M, by simp [h1], ?_⟩
          intro z hz
          rcases List.mem_cons.1 hz with rfl | hz
          · trivial
          · exact h2 z hz
      · right
        rcases ih fun z hz => hw z (by simp [hz]) with h | ⟨M, h1, h2⟩
        · refine ⟨a, by simp, ?_⟩
          intro z hz
          rcases List.mem_cons.1 hz with rfl | hz
          · exact le_refl a
          · rw [h z hz]; trivial
        · rcases le_total a M with hle | hle
          · refine ⟨M, by simp [h1], ?_⟩
            intro z hz
            rcases List.mem_cons.1 hz with rfl | hz
            · exact hle
            · exact h2 z hz
          · refine ⟨a, by simp, ?_⟩
            intro z hz
            rcases List.mem_cons.1 hz with rfl | hz
            · exact le_refl a
            · have h3 := h2 z hz
              rcases hw z (by simp [hz]) with rfl | ⟨b, rfl, -⟩
              · trivial
              · exact le_trans (show b ≤ M from h3) hle
  rcases key with h | h
  · exfalso
    have : w.map expR = List.replicate w.length 0 := by
      rw [List.eq_replicate_iff]
      refine ⟨by simp, ?_⟩
      intro b hb
      obtain ⟨y, hy, rfl⟩ := List.mem_map.1 hb
      rw [h y hy]; rfl
    rw [this] at hpos
    simp at hpos
  · exact h

theorem Sample.rounded (hf : f.Usable) (h : Nearest f fl) {B : ℝ} {lp ref : XR} (hs : Sample f B lp ref) (hB : B ≤ (2 : ℝ) ^ f.emax) :
    Weight f (Rounding.sub fl lp ref) ∧ Within (B / 2 ^ f.p) (lp - ref) (Rounding.sub fl lp ref) ∧ ∀ z, Rounding.sub fl lp ref = fin z → |z| ≤ 2 * B := by
  obtain ⟨r, rfl, hr⟩ := hs.reference
  rcases hs.density with rfl | ⟨a, rfl, ha⟩
  · have : Rounding.sub fl ninf (fin r) = ninf := rfl
    rw [this]
    exact ⟨Or.inl rfl, Or.inl ⟨rfl, rfl⟩, by intro z hz; cases hz⟩
  · have hb := hs.bound a r rfl rfl
    obtain ⟨y, ey, my, dy⟩ := Nearest.err_add hf h ha hr.neg (by rw [← sub_eq_add_neg]; exact hb.trans hB)
    rw [← sub_eq_add_neg] at ey dy
    rw [Rounding.sub_def, ey]
    have h2 : (0 : ℝ) < 2 ^ f.p := by positivity
    have h1 : |a - r| / 2 ^ f.p ≤ B / 2 ^ f.p := div_le_div_of_nonneg_right hb h2.le
    refine ⟨Or.inr ⟨y, rfl, my⟩, Or.inr ⟨a - r, y, by simp, rfl, dy.trans h1⟩, ?_⟩
    intro z hz
    obtain rfl := fin.inj hz
    have hp1 : (1 : ℝ) ≤ 2 ^ f.p := one_le_pow₀ (by norm_num)
    have hB0 : 0 ≤ B := (abs_nonneg _).trans hb
    have h3 : B / 2 ^ f.p ≤ B := div_le_self hB0 hp1
    have h4 := abs_add_le (y - (a - r)) (a - r)
    rw [sub_add_cancel] at h4
    linarith

theorem sum_le_of_forall₂ {α β} {g : α → ℝ} {k : β → ℝ} {xs : List α} {ys : List β} (h : List.Forall₂ (fun a b => g a ≤ k b) xs ys) : (xs.map g).sum ≤ (ys.map k).sum := by
  induction h with
  | nil => simp
  | cons h _ ih => simp only [List.map_cons, List.sum_cons]; linarith

theorem abs_sum_le_of_forall₂ {α β} {g : α → ℝ} {k : β → ℝ} {e : ℝ} {xs : List α} {ys : List β} (h : List.Forall₂ (fun a b => |g a - k b| ≤ e) xs ys) :
    |(xs.map g).sum - (ys.map k).sum| ≤ ys.length * e := by
  induction h with
  | nil => simp
  | cons h _ ih =>
    obtain ⟨a1, a2⟩ := abs_le.1 h
    obtain ⟨b1, b2⟩ := abs_le.1 ih
    simp only [List.map_cons, List.sum_cons, List.length_cons]
    push_cast
    rw [abs_le]; constructor <;> linarith

theorem forall₂_and_mem {α β} {r : α → β → Prop} {q : β → Prop} {xs : List α} {ys : List β} (h : List.Forall₂ r xs ys) (hq : ∀ y ∈ ys, q y) :
    List.Forall₂ (fun a b => r a b ∧ q b) xs ys := by
  induction h with
  | nil => exact .nil
  | cons h _ ih => exact .cons ⟨h, hq _ (by simp)⟩ (ih fun y hy => hq y (by simp [hy]))

theorem forall_of_forall₂ {α β} {r : α → β → Prop} {q : α → Prop} {xs : List α} {ys : List β} (h : List.Forall₂ r xs ys) (hq : ∀ a b, r a b → q a) : ∀ a ∈ xs, q a := by
  induction h with
  | nil => simp
  | cons h _ ih =>
    intro a ha
    rcases List.mem_cons.1 ha with rfl | ha
    exacts [hq _ _ h, ih a ha]

/-- What is needed of one event. -/
theorem row_facts (hw : Wide f) (h : Nearest f fl) {θ} {M M₀ : Likelihood.Model θ} {B ε : ℝ} {w : List XR} {ev : List (θ × XR)} (hrow : RowOf fl M w ev)
    (hB : B ≤ (2 : ℝ) ^ f.emax) (hs : ∀ p ∈ ev, Sample f B (M.logProb p.1) p.2) (hnear : ∀ p ∈ ev, Within ε (M₀.logProb p.1) (M.logProb p.1))
    (hpos : 0 < (ev.map fun p => (M₀.logProb p.1 - p.2).expR).sum) :
    (∀ y ∈ w, Weight f y) ∧ (∃ T, Largest w T) ∧ (∀ T, Largest w T → |T| ≤ 2 * B) ∧ (∀ p ∈ ev, (M₀.logProb p.1 - p.2).IsLog) ∧
      |exactLog w - Real.log (ev.map fun p => (M₀.logProb p.1 - p.2).expR).sum| ≤ ε + B / 2 ^ f.p := by
  have hwt : ∀ y ∈ w, Weight f y := by
    intro y hy
    rcases hrow.mem hy with rfl | ⟨p, hp, rfl⟩
    · exact Or.inl rfl
    · exact ((hs p hp).rounded hw.1 h hB).1
  have hin : ∀ p ∈ ev, Within (ε + B / 2 ^ f.p) (M₀.logProb p.1 - p.2) (Rounding.sub fl (M.logProb p.1) p.2) := by
    intro p hp
    obtain ⟨r, hr, -⟩ := (hs p hp).reference
    have h1 : M₀.logProb p.1 - p.2 ≠ pinf ∧ M₀.logProb p.1 - p.2 ≠ nan := by
      rw [hr]
      rcases hnear p hp with ⟨e, -⟩ | ⟨a, b, e, -⟩ <;> rw [e] <;> simp
    exact within_trans ((hnear p hp).sub h1.1 h1.2) ((hs p hp).rounded hw.1 h hB).2.1
  obtain ⟨s1, s2⟩ := Robust.sum_within (Robust.forall₂_map hin)
  simp only [List.map_map] at s1 s2
  change Real.exp (-(ε + B / 2 ^ f.p)) * (ev.map fun p => (M₀.logProb p.1 - p.2).expR).sum ≤ (ev.map fun p => (Rounding.sub fl (M.logProb p.1) p.2).expR).sum at s1
  change (ev.map fun p => (Rounding.sub fl (M.logProb p.1) p.2).expR).sum ≤ Real.exp (ε + B / 2 ^ f.p) * (ev.map fun p => (M₀.logProb p.1 - p.2).expR).sum at s2
  rw [← hrow.sum] at s1 s2
  have hpos' : 0 < (w.map expR).sum := lt_of_lt_of_le (by positivity) s1
  refine ⟨hwt, exists_largest_weight hwt hpos', ?_, fun p hp => (hin p hp).isLog.1, Robust.log_sum_within s1 s2 hpos⟩
  rintro T ⟨hT, -⟩
  rcases hrow.mem hT with hc | ⟨p, hp, e⟩
  · cases hc
  · exact ((hs p hp).rounded hw.1 h hB).2.2 T e

end GW.RoundedLikelihood
