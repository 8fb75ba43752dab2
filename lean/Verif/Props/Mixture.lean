import Verif.Model.Mixture
import Verif.Lemmas.XR

/-!
# C05: ScaledMixture
-/

namespace GW.Mixture
open GW

variable {α : Type}

theorem zip_map_self {β γ δ : Type} (l : List β) (f : β → γ) (g : β → δ) :
    (l.map f).zip (l.map g) = l.map fun t => (f t, g t) := by
  induction l with
  | nil => rfl
  | cons a l ih => simp [ih]

theorem logProb_eq (m : Mix α) (x : α) (h : ∀ t ∈ m.componentLogProbs x, t.IsLog) :
    m.logProb x = XR.log (.fin ((m.componentLogProbs x).map XR.expR).sum) := by
  unfold Mix.logProb
  simp only [zip_map_self]
  rw [XR.logsumexpWhere_eq]
  · congr 2
    generalize m.componentLogProbs x = l at h
    induction l with
    | nil => rfl
    | cons t l ih =>
      have ih := ih fun y hy => h y (by simp [hy])
      rcases (h t (by simp)).cases with rfl | ⟨a, rfl⟩
      · simpa using ih
      · simpa using ih
  · intro p hp hp2
    simp only [List.mem_map] at hp
    obtain ⟨t, ht, rfl⟩ := hp
    rcases (h t ht).cases with rfl | ⟨a, rfl⟩
    · simp at hp2
    · simpa using XR.isLog_fin a

/-- A component is *excluded* at `x` when its log density there is `-inf`, or when a mixture support is given,
the component does not validate its arguments and `x` is outside the component's support. -/
def Excluded (supp : Option (α → Bool)) (d : Comp α) (x : α) : Prop :=
  d.logProb x = .ninf ∨ (supp.isSome = true ∧ d.validateArgs = false ∧ d.support x = false)

theorem compTerm_cases (supp : Option (α → Bool)) (d : Comp α) (x : α) :
    (Excluded supp d x ∧ compTerm supp d x = .ninf) ∨
    (¬ Excluded supp d x ∧ compTerm supp d x = d.logProb x) := by
  unfold Excluded compTerm
  cases hs : supp.isSome <;> cases hv : d.validateArgs <;> cases hx : d.support x <;>
    by_cases hl : d.logProb x = .ninf <;> simp [hl]

open Classical in
/-- **C05.** For every scaled mixture with finite log-scales whose components never return NaN or `+inf`:
`log_prob(x)` is `log (Σ_k exp(log_scale_k) · p_k(x))` where `p_k(x)` is `exp` of the component's log density and excluded
components contribute nothing; it is `-inf` exactly when all components are excluded; it is never NaN or `+inf`. -/
theorem C05_logProb_is_log_of_scaled_sum (ls : List ℝ) (cs : List (Comp α)) (supp : Option (α → Bool))
    (m : Mix α) (hm : mkMix (ls.map XR.fin) cs supp = .ok m) (x : α)
    (hok : ∀ d ∈ cs, (d.logProb x).IsLog) :
    let S : ℝ := (List.zipWith (fun (l : ℝ) (d : Comp α) =>
      if Excluded supp d x then 0 else Real.exp l * (d.logProb x).expR) ls cs).sum
    (0 < S → m.logProb x = .fin (Real.log S)) ∧
    (m.logProb x = .ninf ↔ ∀ d ∈ cs, Excluded supp d x) ∧
    (S = 0 ↔ ∀ d ∈ cs, Excluded supp d x) ∧ 0 ≤ S ∧
    (m.logProb x).IsLog := by
  intro S
  have hlen : cs.length = ls.length := by
    unfold mkMix at hm
    by_contra h
    simp [h] at hm
  have hmeq : m = ⟨ls.map XR.fin, cs, supp⟩ := by
    unfold mkMix at hm
    rw [if_neg (by simp [hlen])] at hm
    cases cs with
    | nil => simp at hm
    | cons c cs =>
      simp only at hm
      split_ifs at hm
      simp only [Except.ok.injEq] at hm
      exact hm.symm
  subst hmeq
  have key : ∀ (ls : List ℝ) (cs : List (Comp α)), cs.length = ls.length → (∀ d ∈ cs, (d.logProb x).IsLog) →
      (∀ t ∈ List.zipWith (· + ·) (ls.map XR.fin) (cs.map fun d => compTerm supp d x), t.IsLog) ∧
      ((List.zipWith (· + ·) (ls.map XR.fin) (cs.map fun d => compTerm supp d x)).map XR.expR).sum =
        (List.zipWith (fun (l : ℝ) (d : Comp α) =>
      if Excluded supp d x then 0 else Real.exp l * (d.logProb x).expR) ls cs).sum ∧
      ((∀ t ∈ List.zipWith (· + ·) (ls.map XR.fin) (cs.map fun d => compTerm supp d x), t = .ninf) ↔
        ∀ d ∈ cs, Excluded supp d x) := by
    intro ls
    induction ls with
    | nil => intro cs h _; cases cs <;> simp_all
    | cons l ls ih =>
      intro cs h hok
      cases cs with
      | nil => simp at h
      | cons d cs =>
        obtain ⟨h1, h2, h3⟩ := ih cs (by simpa using h) (fun d hd => hok d (by simp [hd]))
        have hd := hok d (by simp)
        rcases compTerm_cases supp d x with ⟨he, ht⟩ | ⟨he, ht⟩
        · refine ⟨?_, ?_, ?_⟩
          · intro t ht'
            simp only [List.map_cons, List.zipWith_cons_cons, ht, List.mem_cons] at ht'
            rcases ht' with rfl | ht'
            · simp [XR.IsLog]
            · exact h1 t ht'
          · simp only [List.map_cons, List.zipWith_cons_cons, ht, List.sum_cons, he, if_true, h2]
            simp
          · simp only [List.map_cons, List.zipWith_cons_cons, ht, List.mem_cons, forall_eq_or_imp, h3, he]
            simp
        · have hne : d.logProb x ≠ .ninf := fun e => he (.inl e)
          obtain ⟨a, ha⟩ : ∃ a, d.logProb x = .fin a := hd.cases.resolve_left hne
          refine ⟨?_, ?_, ?_⟩
          · intro t ht'
            simp only [List.map_cons, List.zipWith_cons_cons, ht, ha, List.mem_cons] at ht'
            rcases ht' with rfl | ht'
            · simp [XR.IsLog]
            · exact h1 t ht'
          · simp only [List.map_cons, List.zipWith_cons_cons, ht, List.sum_cons, he, if_false, h2, ha]
            simp [Real.exp_add]
          · simp only [List.map_cons, List.zipWith_cons_cons, ht, ha, List.mem_cons, forall_eq_or_imp, h3, he]
            simp
  obtain ⟨h1, h2, h3⟩ := key ls cs hlen hok
  have hlp : Mix.logProb ⟨ls.map XR.fin, cs, supp⟩ x = XR.log (.fin S) := by
    rw [logProb_eq ⟨ls.map XR.fin, cs, supp⟩ x h1]
    simp only [S, ← h2]
    rfl
  have h0 : 0 ≤ S := by
    simp only [S, ← h2]; exact XR.sum_expR_nonneg _
  have hz : S = 0 ↔ ∀ d ∈ cs, Excluded supp d x := by
    rw [← h3, ← XR.sum_expR_eq_zero_iff h1, h2]
  refine ⟨fun hp => by rw [hlp, XR.log_fin_pos hp], ?_, hz, h0, by rw [hlp]; exact XR.isLog_log_sum h0⟩
  rw [← hz, hlp]
  rcases h0.lt_or_eq with h | h
  · rw [XR.log_fin_pos h]
    simp [h.ne']
  · rw [← h]; simp

/-- **C05.** `log_prob` and `cdf` do not depend on the order in which (scale, component) pairs are listed. -/
theorem C05_order_irrelevant (ps qs : List (XR × Comp α)) (hperm : ps.Perm qs) (supp : Option (α → Bool))
    (m m' : Mix α) (hm : mkMix (ps.map (·.1)) (ps.map (·.2)) supp = .ok m)
    (hm' : mkMix (qs.map (·.1)) (qs.map (·.2)) supp = .ok m') (x : α)
    (hok : ∀ p ∈ ps, p.1.IsLog ∧ (p.2.logProb x).IsLog) :
    m.logProb x = m'.logProb x ∧ m.cdf x = m'.cdf x := by
  have form : ∀ (ps : List (XR × Comp α)) (m : Mix α), mkMix (ps.map (·.1)) (ps.map (·.2)) supp = .ok m →
      m = ⟨ps.map (·.1), ps.map (·.2), supp⟩ := by
    intro ps m hm
    unfold mkMix at hm
    rw [if_neg (by simp)] at hm
    cases ps with
    | nil => simp at hm
    | cons c cs =>
      simp only [List.map_cons] at hm
      split_ifs at hm
      simp only [Except.ok.injEq] at hm
      exact hm.symm
  have hmap : ∀ ps : List (XR × Comp α),
      List.zipWith (· + ·) (ps.map (·.1)) ((ps.map (·.2)).map fun d => compTerm supp d x) =
        ps.map fun p => p.1 + compTerm supp p.2 x := by
    intro ps
    induction ps with
    | nil => rfl
    | cons p ps ih => simp
  have hmapc : ∀ ps : List (XR × Comp α),
      List.zipWith (· * ·) ((ps.map (·.2)).map fun d => d.cdf x) ((ps.map (·.1)).map XR.exp) =
        ps.map fun p => p.2.cdf x * p.1.exp := by
    intro ps
    induction ps with
    | nil => rfl
    | cons p ps ih => simp
  rw [form ps m hm, form qs m' hm']
  have hlog : ∀ p ∈ ps, (p.1 + compTerm supp p.2 x).IsLog := by
    intro p hp
    obtain ⟨h1, h2⟩ := hok p hp
    refine h1.add ?_
    rcases compTerm_cases supp p.2 x with ⟨_, h⟩ | ⟨_, h⟩ <;> rw [h]
    · exact XR.isLog_ninf
    · exact h2
  constructor
  · rw [logProb_eq, logProb_eq]
    · simp only [Mix.componentLogProbs, hmap]
      congr 2
      exact ((hperm.map _).map _).sum_eq
    · simp only [Mix.componentLogProbs, hmap]
      intro t ht
      obtain ⟨p, hp, rfl⟩ := List.mem_map.1 ht
      exact hlog p (hperm.mem_iff.2 hp)
    · simp only [Mix.componentLogProbs, hmap]
      intro t ht
      obtain ⟨p, hp, rfl⟩ := List.mem_map.1 ht
      exact hlog p hp
  · simp only [Mix.cdf, hmapc]
    exact XR.sum_perm (hperm.map _)

/-- **C05.** With finite scales and component cdf values, `cdf(x) = Σ_k exp(log_scale_k) · cdf_k(x)`. -/
theorem C05_cdf (ls cdfs : List ℝ) (cs : List (Comp α)) (supp : Option (α → Bool)) (m : Mix α)
    (hm : mkMix (ls.map XR.fin) cs supp = .ok m) (x : α) (hc : cs.map (fun d => d.cdf x) = cdfs.map XR.fin) :
    m.cdf x = .fin (List.zipWith (fun l c => Real.exp l * c) ls cdfs).sum := by
  have hmeq : m = ⟨ls.map XR.fin, cs, supp⟩ := by
    unfold mkMix at hm
    split_ifs at hm
    cases cs with
    | nil => simp at hm
    | cons c cs =>
      simp only at hm
      split_ifs at hm
      simp only [Except.ok.injEq] at hm
      exact hm.symm
  rw [hmeq]
  simp only [Mix.cdf, hc]
  rw [← XR.sum_map_fin]
  congr 1
  clear hc hm hmeq
  induction ls generalizing cdfs with
  | nil => simp
  | cons l ls ih =>
    cases cdfs with
    | nil => simp
    | cons c cdfs => simpa [mul_comm] using ih cdfs

/-- **C05.** The constructor accepts exactly: a non-empty list with as many components as scales, all of the same event
shape and, unless a support is given, of the same support type. -/
theorem C05_constructor_accepts_iff (ls : List XR) (cs : List (Comp α)) (supp : Option (α → Bool)) :
    (∃ m, mkMix ls cs supp = .ok m) ↔
      cs ≠ [] ∧ cs.length = ls.length ∧ (∀ c ∈ cs, ∀ d ∈ cs, c.eventShape = d.eventShape) ∧
      (supp = none → ∀ c ∈ cs, ∀ d ∈ cs, c.supportType = d.supportType) := by
  have pair : ∀ {β : Type} (g : Comp α → β) (c : Comp α) (cs : List (Comp α)),
      (∀ a ∈ c :: cs, ∀ b ∈ c :: cs, g a = g b) ↔ ∀ d ∈ cs, g d = g c := by
    intro β g c cs
    constructor
    · intro h d hd; exact h d (by simp [hd]) c (by simp)
    · intro h a ha b hb
      have : ∀ a ∈ c :: cs, g a = g c := by
        intro a ha
        rcases List.mem_cons.1 ha with rfl | ha
        · rfl
        · exact h a ha
      rw [this a ha, this b hb]
  unfold mkMix
  by_cases hl : cs.length = ls.length
  · rw [if_neg (by simp [hl])]
    cases cs with
    | nil => simp
    | cons c cs =>
      rw [pair (fun d => d.eventShape), pair (fun d => d.supportType)]
      simp only
      cases supp with
      | none =>
        split_ifs with h1 h2
        · simp only [Option.isNone_none, Bool.true_and, List.any_eq_true, bne_iff_ne] at h1
          obtain ⟨d, hd, hne⟩ := h1
          simp only [exists_false, false_iff, not_and]
          intro _ _ _ h
          exact hne (h trivial d hd)
        · simp only [List.any_eq_true, bne_iff_ne] at h2
          obtain ⟨d, hd, hne⟩ := h2
          simp only [exists_false, false_iff, not_and]
          intro _ _ h
          exact absurd (h d hd) hne
        · simp only [Except.ok.injEq, exists_eq', true_iff]
          refine ⟨by simp, hl, ?_, ?_⟩
          · intro d hd
            by_contra hne
            exact h2 (by simp only [List.any_eq_true, bne_iff_ne]; exact ⟨d, hd, hne⟩)
          · intro _ d hd
            by_contra hne
            exact h1 (by simp only [Option.isNone_none, Bool.true_and, List.any_eq_true, bne_iff_ne]; exact ⟨d, hd, hne⟩)
      | some f =>
        simp only [Option.isNone_some, Bool.false_and, Bool.false_eq_true, if_false]
        split_ifs with h2
        · simp only [List.any_eq_true, bne_iff_ne] at h2
          obtain ⟨d, hd, hne⟩ := h2
          simp only [exists_false, false_iff, not_and]
          intro _ _ h
          exact absurd (h d hd) hne
        · simp only [Except.ok.injEq, exists_eq', true_iff]
          refine ⟨by simp, hl, ?_, by simp⟩
          intro d hd
          by_contra hne
          exact h2 (by simp only [List.any_eq_true, bne_iff_ne]; exact ⟨d, hd, hne⟩)
  · simp [hl]

/-- A component that is `-inf` everywhere, and one that is standard, meet the hypotheses. -/
example : ∃ (cs : List (Comp ℝ)) (m : Mix ℝ), mkMix ([0, 1].map XR.fin) cs none = .ok m ∧
    (∀ d ∈ cs, (d.logProb 3).IsLog) ∧ ∃ d ∈ cs, Excluded none d 3 := by
  refine ⟨[⟨fun _ => .ninf, fun _ => true, "r", [], false, fun _ => 0⟩,
    ⟨fun x => .fin (-x), fun _ => true, "r", [], false, fun _ => 0⟩], _, rfl, ?_, ?_⟩
  · simp [XR.IsLog]
  · exact ⟨_, List.mem_cons_self, .inl rfl⟩

end GW.Mixture
