import Verif.Spec.Injections
import Verif.Lemmas.PyDict
import Verif.Lemmas.XRMath
import Verif.Props.Jacobians

/-!
# C46: which injections count as found, and what is loaded for them
-/

namespace GW.Injections
open GW XR GW.PyDict
open scoped Classical

/-! ## Helpers -/

theorem isIfar_iff (k : String) : isIfar k = true ↔ MentionsIfar k := by
  exact decide_eq_true_iff

theorem isFar_iff (k : String) : isFar k = true ↔ MentionsFar k := by
  rw [isFar, Bool.or_eq_true, Bool.or_eq_true, or_assoc]
  exact or_congr decide_eq_true_iff (or_congr decide_eq_true_iff decide_eq_true_iff)

theorem above_iff (c : XR) (t : ℝ) : above c t = true ↔ lt (fin t) c := by simp [above]

theorem replaceFar_skip (c : Char) (cs : List Char) (h : ¬ ['f', 'a', 'r'] <+: c :: cs) : replaceFar (c :: cs) = c :: replaceFar cs := by
  rw [replaceFar]
  rintro cs' rfl h2
  subst h2
  exact h ⟨cs', rfl⟩

theorem replaceFar_far (cs : List Char) : replaceFar ('f' :: 'a' :: 'r' :: cs) = 'i' :: 'f' :: 'a' :: 'r' :: replaceFar cs := by rw [replaceFar]

/-- The replacement turns an occurrence of "far" into one of "ifar". -/
theorem replaceFar_infix : ∀ s : List Char, ['f', 'a', 'r'] <:+: s → ['i', 'f', 'a', 'r'] <:+: replaceFar s := by
  intro s
  induction s with
  | nil => intro h; simp at h
  | cons c cs ih =>
    intro h
    by_cases hp : ['f', 'a', 'r'] <+: c :: cs
    · obtain ⟨t, ht⟩ := hp
      rw [← ht]
      show _ <:+: replaceFar ('f' :: 'a' :: 'r' :: t)
      rw [replaceFar_far]
      exact ⟨[], replaceFar t, rfl⟩
    · rw [replaceFar_skip c cs hp]
      rw [List.infix_cons_iff] at h ⊢
      exact Or.inr (ih (h.resolve_left hp))

/-- The other direction, used to recover a key from its replacement. -/
def restoreFar : List Char → List Char
  | 'i' :: 'f' :: 'a' :: 'r' :: cs => 'f' :: 'a' :: 'r' :: restoreFar cs
  | c :: cs => c :: restoreFar cs
  | [] => []

theorem restoreFar_skip (c : Char) (cs : List Char) (h : ¬ ['i', 'f', 'a', 'r'] <+: c :: cs) : restoreFar (c :: cs) = c :: restoreFar cs := by
  rw [restoreFar]
  rintro cs' rfl h2
  subst h2
  exact h ⟨cs', rfl⟩

theorem far_prefix_replaceFar (cs : List Char) : ¬ ['f', 'a', 'r'] <+: replaceFar cs := by
  intro h
  match cs with
  | [] => simp [replaceFar] at h
  | c :: cs =>
    by_cases hp : ['f', 'a', 'r'] <+: c :: cs
    · obtain ⟨t, ht⟩ := hp
      rw [← ht] at h
      change ['f', 'a', 'r'] <+: replaceFar ('f' :: 'a' :: 'r' :: t) at h
      rw [replaceFar_far] at h
      simp at h
    · rw [replaceFar_skip c cs hp] at h
      rw [List.cons_prefix_cons] at h
      obtain ⟨rfl, h⟩ := h
      match cs with
      | [] => simp [replaceFar] at h
      | c :: cs =>
        by_cases hp2 : ['f', 'a', 'r'] <+: c :: cs
        · obtain ⟨t, ht⟩ := hp2
          rw [← ht] at h
          change ['a', 'r'] <+: replaceFar ('f' :: 'a' :: 'r' :: t) at h
          rw [replaceFar_far] at h
          simp at h
        · rw [replaceFar_skip c cs hp2] at h
          rw [List.cons_prefix_cons] at h
          obtain ⟨rfl, h⟩ := h
          match cs with
          | [] => simp [replaceFar] at h
          | c :: cs =>
            by_cases hp3 : ['f', 'a', 'r'] <+: c :: cs
            · obtain ⟨t, ht⟩ := hp3
              rw [← ht] at h
              change ['r'] <+: replaceFar ('f' :: 'a' :: 'r' :: t) at h
              rw [replaceFar_far] at h
              simp at h
            · rw [replaceFar_skip c cs hp3] at h
              rw [List.cons_prefix_cons] at h
              obtain ⟨rfl, h⟩ := h
              exact hp ⟨cs, rfl⟩

theorem restore_replace : ∀ (m : ℕ) (s : List Char), s.length ≤ m → ¬ ['i', 'f', 'a', 'r'] <:+: s → restoreFar (replaceFar s) = s := by
  intro m
  induction m with
  | zero => intro s hs _; simp at hs; subst hs; rfl
  | succ m ih =>
    intro s hs h
    match s with
    | [] => rfl
    | c :: cs =>
      have hcs : ¬ ['i', 'f', 'a', 'r'] <:+: cs := fun hc => h (hc.trans (List.suffix_cons c cs).isInfix)
      by_cases hp : ['f', 'a', 'r'] <+: c :: cs
      · obtain ⟨t, ht⟩ := hp
        have ht' : c :: cs = 'f' :: 'a' :: 'r' :: t := ht.symm
        rw [ht', replaceFar_far]
        show 'f' :: 'a' :: 'r' :: restoreFar (replaceFar t) = _
        rw [ih t (by
          have := congrArg List.length ht'
          simp at this hs
          omega) (fun hc => h (by rw [ht']; exact hc.trans ⟨['f', 'a', 'r'], [], by simp⟩))]
      · rw [replaceFar_skip c cs hp, restoreFar_skip, ih cs (by simpa using hs) hcs]
        rw [List.cons_prefix_cons]
        rintro ⟨-, h2⟩
        exact far_prefix_replaceFar cs h2

theorem lower_infix {s : List Char} (h : ['i', 'f', 'a', 'r'] <:+: s) : "ifar".toList <:+: s.map Char.toLower := by
  have := h.map Char.toLower
  simpa using this

theorem replaceKey_inj {k k' : String} (h : ¬ MentionsIfar k) (h' : ¬ MentionsIfar k')
    (he : String.ofList (replaceFar k.toList) = String.ofList (replaceFar k'.toList)) : k = k' := by
  have e := congrArg String.toList he
  rw [String.toList_ofList, String.toList_ofList] at e
  have e2 := congrArg restoreFar e
  rw [restore_replace _ _ le_rfl fun hc => h (lower_infix hc), restore_replace _ _ le_rfl fun hc => h' (lower_infix hc)] at e2
  exact String.toList_inj.1 e2

theorem replaceKey_mentions {k : String} (h : "far".toList <:+: k.toList) : MentionsIfar (String.ofList (replaceFar k.toList)) := by
  have e : (String.ofList (replaceFar k.toList)).toList = replaceFar k.toList := String.toList_ofList
  unfold MentionsIfar
  rw [e]
  exact lower_infix (replaceFar_infix _ (by simpa using h))

/-- The dictionary after the loop over the FAR columns. -/
theorem get?_addIfar {n : ℕ} (cols : Dict String (Col n)) (hi : ∀ k ∈ keys cols, ¬ MentionsIfar k) :
    ∀ (L : List String) (d : Dict String (Col n)), L.Nodup → (∀ k ∈ L, k ∈ keys cols ∧ "far".toList <:+: k.toList) →
    (∀ k ∈ keys cols, get? d k = get? cols k) →
    ∀ k, get? (addIfar L d) k = if h : ∃ k' ∈ L, k = String.ofList (replaceFar k'.toList) then (get? cols h.choose).map fun c i => fin 1 / c i else get? d k := by
  intro L
  induction L with
  | nil => intro d _ _ _ k; simp [addIfar]
  | cons a L ih =>
    intro d hL hk hd k
    obtain ⟨haL, hL'⟩ := List.nodup_cons.1 hL
    obtain ⟨ha, hfar⟩ := hk a (by simp)
    obtain ⟨c, hc⟩ := Option.isSome_iff_exists.1 ((mem_keys_iff _ _).1 ha)
    have hstep : addIfar (a :: L) d = addIfar L (PyDict.set d (String.ofList (replaceFar a.toList)) fun i => fin 1 / c i) := by
      unfold addIfar
      rw [List.foldl_cons, hd a ha, hc]
    have hd' : ∀ k ∈ keys cols, get? (PyDict.set d (String.ofList (replaceFar a.toList)) fun i => fin 1 / c i) k = get? cols k := by
      intro k hk
      rw [get?_set_ne, hd k hk]
      rintro rfl
      exact hi _ hk (replaceKey_mentions hfar)
    rw [hstep, ih _ hL' (fun k h => hk k (List.mem_cons_of_mem _ h)) hd' k]
    by_cases h : ∃ k' ∈ L, k = String.ofList (replaceFar k'.toList)
    · have h2 : ∃ k' ∈ a :: L, k = String.ofList (replaceFar k'.toList) := by
        obtain ⟨k', h1, h2⟩ := h
        exact ⟨k', List.mem_cons_of_mem _ h1, h2⟩
      rw [dif_pos h, dif_pos h2]
      have := replaceKey_inj (hi _ (hk _ (List.mem_cons_of_mem _ h.choose_spec.1)).1) (hi _ (hk _ h2.choose_spec.1).1) (h.choose_spec.2.symm.trans h2.choose_spec.2)
      rw [this]
    · rw [dif_neg h, get?_set]
      by_cases hk1 : k = String.ofList (replaceFar a.toList)
      · have h2 : ∃ k' ∈ a :: L, k = String.ofList (replaceFar k'.toList) := ⟨a, by simp, hk1⟩
        rw [if_pos hk1, dif_pos h2]
        have := replaceKey_inj (hi _ ha) (hi _ (hk _ h2.choose_spec.1).1) (hk1.symm.trans h2.choose_spec.2)
        rw [← this, hc]
        rfl
      · rw [if_neg hk1, dif_neg]
        rintro ⟨k', hk', e⟩
        rcases List.mem_cons.1 hk' with rfl | hk'
        · exact hk1 e
        · exact h ⟨k', hk', e⟩

theorem nodup_addIfar {n : ℕ} (L : List String) : ∀ (d : Dict String (Col n)), (keys d).Nodup → (keys (addIfar L d)).Nodup := by
  induction L with
  | nil => exact fun d h => h
  | cons a L ih =>
    intro d h
    unfold addIfar at ih ⊢
    rw [List.foldl_cons]
    refine ih _ ?_
    split
    · exact nodup_keys_set h _ _
    · exact h

theorem recip_gt {x : XR} {t : ℝ} (ht : 0 < t) (h : x = nan ∨ x = pinf ∨ ∃ r : ℝ, 0 ≤ r ∧ x = fin r) : lt (fin t) (fin 1 / x) ↔ lt x (fin (1 / t)) := by
  rcases h with rfl | rfl | ⟨r, hr, rfl⟩
  · rw [show fin 1 / nan = nan from rfl]
    simp [lt]
  · rw [show fin 1 / pinf = fin 0 from rfl, lt_fin_fin]
    simp [lt, ht.le]
  · rcases hr.eq_or_lt with rfl | hr
    · rw [show fin 1 / fin 0 = pinf by simp [div_fin_fin, mulInf], lt_fin_fin]
      simp [lt, ht]
    · rw [div_fin_of_ne _ hr.ne', lt_fin_fin, lt_fin_fin, lt_div_iff₀ hr, lt_div_iff₀ ht, mul_comm]

theorem exceeds_iff {n : ℕ} {d : Data n} (hn : (keys d.cols).Nodup) (key : String) (s : ℝ) (i : Fin n) :
    Exceeds d key s i ↔ (match get? d.cols key with | some c => above (c i) s | none => false) = true := by
  unfold Exceeds
  cases h : get? d.cols key with
  | none =>
    simp only [Bool.false_eq_true, iff_false]
    rintro ⟨c, hc, -⟩
    rw [get?_of_mem hn hc] at h
    cases h
  | some c =>
    simp only [above_iff]
    constructor
    · rintro ⟨c', hc, hl⟩
      rw [get?_of_mem hn hc] at h
      cases h
      exact hl
    · exact fun hl => ⟨c, mem_of_get? h, hl⟩

theorem early_iff {n : ℕ} {d : Data n} (hn : (keys d.cols).Nodup) (s : ℝ) (i : Fin n) :
    EarlyRun d s i ↔ gwtc1 d.name (get? d.cols "optimal_snr_net") s i = true := by
  unfold EarlyRun gwtc1
  simp only [exceeds_iff hn]
  cases d.name <;> cases get? d.cols "optimal_snr_net" <;> simp [above_iff]

theorem any_ifar_iff {n : ℕ} (cols : Dict String (Col n)) : (cols.any fun p => isIfar p.1) = true ↔ ∃ k ∈ keys cols, MentionsIfar k := by
  simp only [List.any_eq_true, isIfar_iff, keys, List.mem_map]
  constructor
  · rintro ⟨p, hp, h⟩
    exact ⟨p.1, ⟨p, hp, rfl⟩, h⟩
  · rintro ⟨k, ⟨p, hp, rfl⟩, h⟩
    exact ⟨p, hp, h⟩

theorem far_nonempty_iff {n : ℕ} (cols : Dict String (Col n)) : (!((keys cols).filter isFar).isEmpty) = true ↔ ∃ k ∈ keys cols, MentionsFar k := by
  simp only [Bool.not_eq_true', List.isEmpty_eq_false_iff_exists_mem, List.mem_filter, isFar_iff]

/-! ## C46: found injections -/

/-- **C46.**  With IFAR columns: an injection is found iff some IFAR column exceeds the threshold, or it belongs to the first two runs and its optimal
SNR exceeds the SNR threshold, or its semi-analytic SNR does.  FAR columns play no part. -/
theorem C46_found_ifar {n : ℕ} (d : Data n) (hn : (keys d.cols).Nodup) (h : ∃ k ∈ keys d.cols, MentionsIfar k) (t s : ℝ)
    (hname : d.name.isSome → "optimal_snr_net" ∈ keys d.cols) :
    ∃ f, getFound d (some t) (some s) = .ok f ∧ ∀ i, f i = true ↔
      (∃ k, MentionsIfar k ∧ Exceeds d k t i) ∨ EarlyRun d s i ∨ Exceeds d "semianalytic_observed_phase_maximized_snr_net" s i := by
  have h1 := (any_ifar_iff d.cols).2 h
  have h2 : (d.name.isSome && (get? d.cols "optimal_snr_net").isNone) = false := by
    cases hd : d.name with
    | none => rfl
    | some _ =>
      have := (mem_keys_iff _ _).1 (hname (by rw [hd]; rfl))
      cases hg : get? d.cols "optimal_snr_net" with
      | none => rw [hg] at this; cases this
      | some _ => rfl
  refine ⟨_, by
    unfold getFound
    simp only [h1, Bool.not_true, Bool.false_and, Bool.false_eq_true, if_false, Bool.true_or, if_true, h2, Option.isNone_some, Bool.and_false]
    rfl, ?_⟩
  intro i
  simp only [Bool.or_eq_true, Option.getD_some, or_assoc, early_iff hn, exceeds_iff hn "semianalytic_observed_phase_maximized_snr_net"]
  refine or_congr ?_ Iff.rfl
  simp only [List.any_eq_true, Bool.and_eq_true, isIfar_iff, above_iff, Exceeds]
  constructor
  · rintro ⟨p, hp, hk, hl⟩
    exact ⟨p.1, hk, p.2, hp, hl⟩
  · rintro ⟨k, hk, c, hc, hl⟩
    exact ⟨(k, c), hc, hk, hl⟩

/-- **C46.**  Without IFAR columns but with FAR columns whose names contain "far" in lower case: an injection is found iff some FAR is below the
inverse of the IFAR threshold, or one of the SNR rules applies. -/
theorem C46_found_far {n : ℕ} (d : Data n) (hn : (keys d.cols).Nodup) (hw : d.readOnly = false) (hi : ∀ k ∈ keys d.cols, ¬ MentionsIfar k)
    (h : ∃ k ∈ keys d.cols, MentionsFar k) (hlow : ∀ k ∈ keys d.cols, MentionsFar k → "far".toList <:+: k.toList) {t : ℝ} (ht : 0 < t) (s : ℝ)
    (hname : d.name.isSome → "optimal_snr_net" ∈ keys d.cols)
    (hval : ∀ k c, (k, c) ∈ d.cols → MentionsFar k → ∀ i, c i = nan ∨ c i = pinf ∨ ∃ r : ℝ, 0 ≤ r ∧ c i = fin r) :
    ∃ f, getFound d (some t) (some s) = .ok f ∧ ∀ i, f i = true ↔
      (∃ k c, MentionsFar k ∧ (k, c) ∈ d.cols ∧ lt (c i) (fin (1 / t))) ∨ EarlyRun d s i ∨
        Exceeds d "semianalytic_observed_phase_maximized_snr_net" s i := by
  have h1 : (d.cols.any fun p => isIfar p.1) = false := by
    rw [Bool.eq_false_iff]
    intro hc
    obtain ⟨k, hk, hm⟩ := (any_ifar_iff d.cols).1 hc
    exact hi k hk hm
  have h3 := (far_nonempty_iff d.cols).2 h
  have hL : ((keys d.cols).filter isFar).Nodup := hn.filter _
  have hLk : ∀ k ∈ (keys d.cols).filter isFar, k ∈ keys d.cols ∧ "far".toList <:+: k.toList := by
    intro k hk
    obtain ⟨hk, hf⟩ := List.mem_filter.1 hk
    exact ⟨hk, hlow k hk ((isFar_iff k).1 hf)⟩
  have hget := get?_addIfar d.cols hi _ d.cols hL hLk fun _ _ => rfl
  have hsame : ∀ k, ¬ MentionsIfar k → get? (addIfar ((keys d.cols).filter isFar) d.cols) k = get? d.cols k := by
    intro k hk
    rw [hget, dif_neg]
    rintro ⟨k', hk', rfl⟩
    exact hk (replaceKey_mentions (hLk k' hk').2)
  have s1 := hsame "optimal_snr_net" (by unfold MentionsIfar; decide +kernel)
  have s2 := hsame "semianalytic_observed_phase_maximized_snr_net" (by unfold MentionsIfar; decide +kernel)
  have h2 : (d.name.isSome && (get? d.cols "optimal_snr_net").isNone) = false := by
    cases hd : d.name with
    | none => rfl
    | some _ =>
      have := (mem_keys_iff _ _).1 (hname (by rw [hd]; rfl))
      cases hg : get? d.cols "optimal_snr_net" with
      | none => rw [hg] at this; cases this
      | some _ => rfl
  refine ⟨_, by
    unfold getFound
    simp only [h1, h3, hw, Bool.not_false, Bool.true_and, Bool.and_false, Bool.false_eq_true, if_false, Bool.false_or, if_true, s1, s2, h2,
      Option.isNone_some]
    rfl, ?_⟩
  intro i
  simp only [Bool.or_eq_true, Option.getD_some, or_assoc, early_iff hn, exceeds_iff hn "semianalytic_observed_phase_maximized_snr_net"]
  refine or_congr ?_ Iff.rfl
  have hnd := nodup_addIfar ((keys d.cols).filter isFar) d.cols hn
  simp only [List.any_eq_true, Bool.and_eq_true, isIfar_iff, above_iff]
  constructor
  · rintro ⟨p, hp, hk, hl⟩
    have hg := get?_of_mem hnd (k := p.1) (v := p.2) hp
    rw [hget] at hg
    split_ifs at hg with hex
    · obtain ⟨hm, -⟩ := hex.choose_spec
      obtain ⟨hkeys, hfar⟩ := List.mem_filter.1 hm
      cases hc : get? d.cols hex.choose with
      | none => rw [hc] at hg; cases hg
      | some c =>
        rw [hc] at hg
        have hg' : (fun i => fin 1 / c i) = p.2 := Option.some.inj hg
        rw [← hg'] at hl
        have hmem := mem_of_get? hc
        exact ⟨_, c, (isFar_iff _).1 hfar, hmem, (recip_gt ht (hval _ c hmem ((isFar_iff _).1 hfar) i)).1 hl⟩
    · exact absurd hk (hi _ ((mem_keys_iff _ _).2 (by rw [hg]; rfl)))
  · rintro ⟨k, c, hf, hc, hl⟩
    have hkeys : k ∈ keys d.cols := (mem_keys_iff _ _).2 (by rw [get?_of_mem hn hc]; rfl)
    have hex : ∃ k' ∈ (keys d.cols).filter isFar, String.ofList (replaceFar k.toList) = String.ofList (replaceFar k'.toList) :=
      ⟨k, List.mem_filter.2 ⟨hkeys, (isFar_iff k).2 hf⟩, rfl⟩
    have hch : hex.choose = k := (replaceKey_inj (hi k hkeys) (hi _ (hLk _ hex.choose_spec.1).1) hex.choose_spec.2).symm
    refine ⟨(String.ofList (replaceFar k.toList), fun i => fin 1 / c i), mem_of_get? ?_, replaceKey_mentions (hlow k hkeys hf), ?_⟩
    · rw [hget, dif_pos hex, hch, get?_of_mem hn hc]
      rfl
    · exact (recip_gt ht (hval k c hc hf i)).2 hl

/-- **C46.**  Without rate columns: the observed SNR columns decide, the phase-maximised one first, and nothing is found when neither exists. -/
theorem C46_found_snr {n : ℕ} (d : Data n) (hn : (keys d.cols).Nodup) (hi : ∀ k ∈ keys d.cols, ¬ MentionsIfar k) (hf : ∀ k ∈ keys d.cols, ¬ MentionsFar k)
    (ifar : Option ℝ) (s : ℝ) :
    ∃ f, getFound d ifar (some s) = .ok f ∧ ∀ i, f i = true ↔
      Exceeds d "observed_phase_maximized_snr_net" s i ∨
        ("observed_phase_maximized_snr_net" ∉ keys d.cols ∧ Exceeds d "observed_snr_net" s i) := by
  have h1 : (d.cols.any fun p => isIfar p.1) = false := by
    rw [Bool.eq_false_iff]
    intro hc
    obtain ⟨k, hk, hm⟩ := (any_ifar_iff d.cols).1 hc
    exact hi k hk hm
  have h3 : (!((keys d.cols).filter isFar).isEmpty) = false := by
    rw [Bool.eq_false_iff]
    intro hc
    obtain ⟨k, hk, hm⟩ := (far_nonempty_iff d.cols).1 hc
    exact hf k hk hm
  refine ⟨_, by
    unfold getFound
    simp only [h1, h3, Bool.and_false, Bool.false_and, Bool.false_eq_true, if_false, Bool.false_or]
    rfl, ?_⟩
  intro i
  rw [exceeds_iff hn, exceeds_iff hn]
  cases hg : get? d.cols "observed_phase_maximized_snr_net" with
  | none =>
    simp only [(get?_eq_none_iff _ _).1 hg, not_false_eq_true, true_and, Bool.false_eq_true, false_or]
    cases get? d.cols "observed_snr_net" <;> rfl
  | some c =>
    have : "observed_phase_maximized_snr_net" ∈ keys d.cols := (mem_keys_iff _ _).2 (by rw [hg]; rfl)
    simp [this]

/-- **C46.**  Without anything to select on an exception is raised, and so it is when the SNR column of the early runs is missing or no SNR threshold
is given for it. -/
theorem C46_found_raises {n : ℕ} (d : Data n) (ifar snr : Option ℝ) :
    ((∀ k ∈ keys d.cols, ¬ MentionsIfar k) → (∀ k ∈ keys d.cols, ¬ MentionsFar k) → snr = none → getFound d ifar snr = .error .noKeys) ∧
    ((∃ k ∈ keys d.cols, MentionsIfar k) → d.name.isSome → "optimal_snr_net" ∉ keys d.cols → getFound d ifar snr = .error .keyError) ∧
    ((∃ k ∈ keys d.cols, MentionsIfar k) → d.name.isSome → "optimal_snr_net" ∈ keys d.cols → snr = none → getFound d ifar snr = .error .typeError) := by
  refine ⟨?_, ?_, ?_⟩
  · rintro hi hf rfl
    have h1 : (d.cols.any fun p => isIfar p.1) = false := by
      rw [Bool.eq_false_iff]
      intro hc
      obtain ⟨k, hk, hm⟩ := (any_ifar_iff d.cols).1 hc
      exact hi k hk hm
    have h3 : (!((keys d.cols).filter isFar).isEmpty) = false := by
      rw [Bool.eq_false_iff]
      intro hc
      obtain ⟨k, hk, hm⟩ := (far_nonempty_iff d.cols).1 hc
      exact hf k hk hm
    unfold getFound
    simp [h1, h3]
  · intro h hd hk
    have h1 := (any_ifar_iff d.cols).2 h
    have h2 := (get?_eq_none_iff _ _).2 hk
    unfold getFound
    simp [h1, h2, hd]
  · rintro h hd hk rfl
    have h1 := (any_ifar_iff d.cols).2 h
    have h2 := (mem_keys_iff _ _).1 hk
    obtain ⟨c, hc⟩ := Option.isSome_iff_exists.1 h2
    unfold getFound
    simp [h1, hc, hd]

theorem found_unreplaced (K : String) (hrep : String.ofList (replaceFar K.toList) = K) (hi : isIfar K = false) (hf : isFar K = true)
    (h1 : K ≠ "optimal_snr_net") (h2 : K ≠ "semianalytic_observed_phase_maximized_snr_net") (c : Col 1) :
    getFound (n := 1) ⟨[(K, c)], none, false⟩ (some 1) (some 10) = .ok fun _ => false := by
  unfold getFound
  simp [hi, hf, keys, addIfar, get?, hrep, PyDict.set, gwtc1, h1, h2]

/-- **C46 fails** for FAR columns with an upper-case name: the search is ignored.  One injection with FAR 0, which passes every threshold, is not
found. -/
theorem C46_uppercase_violated :
    MentionsFar "FAR_gstlal" ∧ getFound (n := 1) ⟨[("FAR_gstlal", fun _ => fin 0)], none, false⟩ (some 1) (some 10) = .ok fun _ => false := by
  have hrep : String.ofList (replaceFar "FAR_gstlal".toList) = "FAR_gstlal" := by decide +kernel
  have hi : isIfar "FAR_gstlal" = false := by decide +kernel
  have hf : isFar "FAR_gstlal" = true := by decide +kernel
  exact ⟨(isFar_iff _).1 hf, found_unreplaced _ hrep hi hf (by decide) (by decide) _⟩

/-- **C46 fails** for files in the "injections" layout that give FARs and no IFARs: the added column cannot be written to the read-only group. -/
theorem C46_group_far_violated {n : ℕ} (d : Data n) (hr : d.readOnly = true) (hi : ∀ k ∈ keys d.cols, ¬ MentionsIfar k) (h : ∃ k ∈ keys d.cols, MentionsFar k)
    (ifar snr : Option ℝ) : getFound d ifar snr = .error .readOnly := by
  have h1 : (d.cols.any fun p => isIfar p.1) = false := by
    rw [Bool.eq_false_iff]
    intro hc
    obtain ⟨k, hk, hm⟩ := (any_ifar_iff d.cols).1 hc
    exact hi k hk hm
  have h3 := (far_nonempty_iff d.cols).2 h
  unfold getFound
  simp only [h1, h3, hr, Bool.not_false, Bool.and_self, if_true]

/-! ## C46: loading -/

theorem bind_ok {α β : Type} {x : Except Err α} {g : α → Except Err β} {y : β} (h : x.bind g = .ok y) : ∃ a, x = .ok a ∧ g a = .ok y := by
  cases x with
  | error e => cases h
  | ok a => exact ⟨a, rfl, h⟩

theorem column_ok {n : ℕ} {d : Data n} {key : String} {c : Col n} (h : column d key = .ok c) : (key, c) ∈ d.cols := by
  unfold column at h
  cases hg : get? d.cols key with
  | none => rw [hg] at h; cases h
  | some c' =>
    rw [hg] at h
    cases h
    exact mem_of_get? hg

/-- A transverse spin column: the file's, or zeros when the file has none. -/
def SpinColumn {n : ℕ} (d : Data n) (key : String) (c : Col n) : Prop := (key, c) ∈ d.cols ∨ (key ∉ keys d.cols ∧ c = fun _ => fin 0)

theorem columnOrZeros_ok {n m : ℕ} {d : Data n} {key : String} {c : Col n} (h : columnOrZeros d m key = .ok c) : SpinColumn d key c := by
  unfold columnOrZeros at h
  cases hg : get? d.cols key with
  | none =>
    rw [hg] at h
    simp only at h
    split_ifs at h
    cases h
    exact Or.inr ⟨(get?_eq_none_iff _ _).1 hg, rfl⟩
  | some c' =>
    rw [hg] at h
    cases h
    exact Or.inl (mem_of_get? hg)

/-- **C46.**  Loading: whatever is returned consists, column by column, of the values of the file in the rows that `get_found_injections` selects, in
file order; at least one row is found; spin magnitudes and tilts are those of the spin vectors. -/
theorem C46_load {n : ℕ} (f : File n) (ifar snr : Option ℝ) (out : Loaded) (h : load f ifar snr = .ok out) :
    ∃ d found, openFile f = .ok (d, out.total, out.years) ∧ getFound d ifar snr = .ok found ∧
      ∃ rows, rows = (List.finRange n).filter found ∧ rows ≠ [] ∧
      (∃ m1 m2, ((("mass1_source", m1) ∈ d.cols ∧ ("mass2_source", m2) ∈ d.cols) ∨ (("mass_1_source", m1) ∈ d.cols ∧ ("mass_2_source", m2) ∈ d.cols)) ∧
        out.mass1 = rows.map m1 ∧ out.mass2 = rows.map m2) ∧
      (∃ z, (("redshift", z) ∈ d.cols ∨ ("z", z) ∈ d.cols) ∧ out.redshift = rows.map z) ∧
      ∃ x1 y1 z1 x2 y2 z2 p w,
        SpinColumn d "spin1x" x1 ∧ SpinColumn d "spin1y" y1 ∧ ("spin1z", z1) ∈ d.cols ∧
        SpinColumn d "spin2x" x2 ∧ SpinColumn d "spin2y" y2 ∧ ("spin2z", z2) ∈ d.cols ∧
        out.a1 = rows.map (fun i => spinMagnitude (x1 i) (y1 i) (z1 i)) ∧ out.a2 = rows.map (fun i => spinMagnitude (x2 i) (y2 i) (z2 i)) ∧
        out.cosTilt1 = rows.map (fun i => z1 i / spinMagnitude (x1 i) (y1 i) (z1 i)) ∧
        out.cosTilt2 = rows.map (fun i => z2 i / spinMagnitude (x2 i) (y2 i) (z2 i)) ∧
        rawPrior d (fun i => spinMagnitude (x1 i) (y1 i) (z1 i)) (fun i => spinMagnitude (x2 i) (y2 i) (z2 i))
          (fun i => z1 i / spinMagnitude (x1 i) (y1 i) (z1 i)) (fun i => z2 i / spinMagnitude (x2 i) (y2 i) (z2 i)) = .ok p ∧
        weights f d = .ok w ∧ out.prior = rows.map fun i => p i / w i := by
  unfold load at h
  simp only [bind] at h
  obtain ⟨⟨d, total, years⟩, ho, h⟩ := bind_ok h
  simp only at h
  obtain ⟨m1, hm1, h⟩ := bind_ok h
  obtain ⟨found, hf, h⟩ := bind_ok h
  by_cases h0 : ((List.finRange n).filter found).length = 0
  · rw [if_pos h0] at h
    cases h
  rw [if_neg h0] at h
  obtain ⟨m2, hm2, h⟩ := bind_ok h
  obtain ⟨z, hz, h⟩ := bind_ok h
  obtain ⟨x1, hx1, h⟩ := bind_ok h
  obtain ⟨y1, hy1, h⟩ := bind_ok h
  obtain ⟨z1, hz1, h⟩ := bind_ok h
  obtain ⟨x2, hx2, h⟩ := bind_ok h
  obtain ⟨y2, hy2, h⟩ := bind_ok h
  obtain ⟨z2, hz2, h⟩ := bind_ok h
  obtain ⟨p, hp, h⟩ := bind_ok h
  obtain ⟨w, hw, h⟩ := bind_ok h
  cases h
  refine ⟨d, found, ho, hf, _, rfl, fun e => h0 (by rw [e]; rfl), ⟨m1, m2, ?_, rfl, rfl⟩, ⟨z, ?_, rfl⟩, x1, y1, z1, x2, y2, z2, p, w,
    columnOrZeros_ok hx1, columnOrZeros_ok hy1, column_ok hz1, columnOrZeros_ok hx2, columnOrZeros_ok hy2, column_ok hz2, rfl, rfl, rfl, rfl, hp, hw, rfl⟩
  · by_cases hk : (get? d.cols "mass1_source").isSome = true
    · rw [if_pos hk] at hm1 hm2
      exact Or.inl ⟨column_ok hm1, column_ok hm2⟩
    · rw [if_neg hk] at hm1 hm2
      exact Or.inr ⟨column_ok hm1, column_ok hm2⟩
  · by_cases hk : (get? d.cols "redshift").isSome = true
    · rw [if_pos hk] at hz
      exact Or.inl (column_ok hz)
    · rw [if_neg hk] at hz
      exact Or.inr (column_ok hz)

/-- **C46.**  A file in which nothing passes the thresholds is rejected, and so is one of an unknown layout or without analysis time. -/
theorem C46_load_raises {n : ℕ} (f : File n) (ifar snr : Option ℝ) :
    (∀ d total years m1, openFile f = .ok (d, total, years) → (get? d.cols "mass1_source" = some m1 ∨ (get? d.cols "mass1_source" = none ∧ get? d.cols "mass_1_source" = some m1)) →
      (getFound d ifar snr = .ok fun _ => false) → load f ifar snr = .error .noneFound) ∧
    (f.layout = .unknown → load f ifar snr = .error .keyError) ∧
    (f.layout = .events → "total_generated" ∈ keys f.attrs → (∀ k ∈ ["total_analysis_time", "analysis_time", "total_analysis_time_1ifo"], k ∉ keys f.attrs) →
      load f ifar snr = .error .noTime) := by
  refine ⟨?_, ?_, ?_⟩
  · intro d total years m1 ho hm hf
    unfold load
    rw [ho]
    simp only [bind, Except.bind]
    rcases hm with hm | ⟨hm, hm'⟩
    · simp [column, hm, hf]
    · simp [column, hm, hm', hf]
  · intro h
    unfold load openFile
    rw [h]
    rfl
  · intro h ht hk
    obtain ⟨t, ht⟩ := Option.isSome_iff_exists.1 ((mem_keys_iff _ _).1 ht)
    have h1 := (get?_eq_none_iff _ _).2 (hk "total_analysis_time" (by simp))
    have h2 := (get?_eq_none_iff _ _).2 (hk "analysis_time" (by simp))
    have h3 := (get?_eq_none_iff _ _).2 (hk "total_analysis_time_1ifo" (by simp))
    unfold load openFile
    rw [h]
    simp [ht, h1, h2, h3, bind, Except.bind]

/-- **C46 fails** for files with aligned spins only: although a missing transverse spin column is meant to count as zero, loading raises unless every
row is found. -/
theorem C46_aligned_violated {n : ℕ} (f : File n) (ifar snr : Option ℝ) (d : Data n) (total : ℤ) (years : ℝ) (found : Fin n → Bool)
    (ho : openFile f = .ok (d, total, years)) (hm1 : "mass1_source" ∈ keys d.cols) (hm2 : "mass2_source" ∈ keys d.cols) (hz : "redshift" ∈ keys d.cols)
    (hx : "spin1x" ∉ keys d.cols) (hf : getFound d ifar snr = .ok found) (i j : Fin n) (hi : found i = true) (hj : found j = false) :
    load f ifar snr = .error .indexError := by
  obtain ⟨m1, hm1⟩ := Option.isSome_iff_exists.1 ((mem_keys_iff _ _).1 hm1)
  obtain ⟨m2, hm2⟩ := Option.isSome_iff_exists.1 ((mem_keys_iff _ _).1 hm2)
  obtain ⟨z, hz⟩ := Option.isSome_iff_exists.1 ((mem_keys_iff _ _).1 hz)
  have hx := (get?_eq_none_iff _ _).2 hx
  have h0 : ((List.finRange n).filter found).length ≠ 0 := by
    intro e
    have : i ∈ (List.finRange n).filter found := List.mem_filter.2 ⟨List.mem_finRange i, hi⟩
    rw [List.length_eq_zero_iff.1 e] at this
    cases this
  have h1 : ((List.finRange n).filter found).length ≠ n := by
    intro e
    have e2 : ((List.finRange n).filter found).length = (List.finRange n).length := by rw [e, List.length_finRange]
    have := List.length_filter_eq_length_iff.1 e2 j (List.mem_finRange j)
    rw [hj] at this
    cases this
  unfold load
  rw [ho]
  simp only [bind, Except.bind, hm1, Option.isSome_some, if_true, hz, column, hf, if_neg h0, hm2, columnOrZeros, hx, if_neg h1]

/-! ### The density of the injections -/

/-- Cartesian spin from magnitude, cosine of the tilt and azimuth. -/
noncomputable def spinVector (x : Fin 3 → ℝ) : Fin 3 → ℝ :=
  ![x 0 * Real.sqrt (1 - x 1 ^ 2) * Real.cos (x 2), x 0 * Real.sqrt (1 - x 1 ^ 2) * Real.sin (x 2), x 0 * x 1]

/-- The volume element behind the factor `2 π a²`: a density `p` over spin vectors is the density `p a²` over magnitude, cosine of the tilt and
azimuth; the azimuth ranges over `2 π`. -/
theorem C46_spin_volume (x : Fin 3 → ℝ) (ha : 0 < x 0) (hc : |x 1| < 1) (p : ℝ) : DensityAfter spinVector x (p * x 0 ^ 2) p := by
  have hc2 : 0 < 1 - x 1 ^ 2 := by
    have := sq_lt_one_iff_abs_lt_one (x 1) |>.2 hc
    linarith
  have hs := Real.sqrt_pos.2 hc2
  have hss : Real.sqrt (1 - x 1 ^ 2) ^ 2 = 1 - x 1 ^ 2 := Real.sq_sqrt hc2.le
  have hsq : HasFDerivAt (fun x : Fin 3 → ℝ => Real.sqrt (1 - x 1 ^ 2))
      ((-(x 1) / Real.sqrt (1 - x 1 ^ 2)) • ContinuousLinearMap.proj (R := ℝ) (φ := fun _ : Fin 3 => ℝ) 1) x := by
    have h1 : HasDerivAt (fun t : ℝ => Real.sqrt (1 - t ^ 2)) (-(x 1) / Real.sqrt (1 - x 1 ^ 2)) (x 1) := by
      have := ((hasDerivAt_pow 2 (x 1)).const_sub 1).sqrt hc2.ne'
      convert this using 1
      field_simp
      norm_num
      ring
    exact HasDerivAt.comp_hasFDerivAt (h₂ := fun t : ℝ => Real.sqrt (1 - t ^ 2)) x h1 (Transforms.hasFDerivAt_coord 1 x)
  have hcos : HasFDerivAt (fun x : Fin 3 → ℝ => Real.cos (x 2)) ((-Real.sin (x 2)) • ContinuousLinearMap.proj (R := ℝ) (φ := fun _ : Fin 3 => ℝ) 2) x :=
    HasDerivAt.comp_hasFDerivAt (h₂ := Real.cos) x (Real.hasDerivAt_cos (x 2)) (Transforms.hasFDerivAt_coord 2 x)
  have hsin : HasFDerivAt (fun x : Fin 3 → ℝ => Real.sin (x 2)) ((Real.cos (x 2)) • ContinuousLinearMap.proj (R := ℝ) (φ := fun _ : Fin 3 => ℝ) 2) x :=
    HasDerivAt.comp_hasFDerivAt (h₂ := Real.sin) x (Real.hasDerivAt_sin (x 2)) (Transforms.hasFDerivAt_coord 2 x)
  set S := Real.sqrt (1 - x 1 ^ 2) with hS
  let M : Matrix (Fin 3) (Fin 3) ℝ := !![S * Real.cos (x 2), x 0 * (-(x 1) / S) * Real.cos (x 2), -(x 0 * S * Real.sin (x 2));
    S * Real.sin (x 2), x 0 * (-(x 1) / S) * Real.sin (x 2), x 0 * S * Real.cos (x 2); x 1, x 0, 0]
  have hM : HasFDerivAt spinVector (Transforms.matMap M) x := by
    refine Transforms.hasFDerivAt_matMap _ _ _ ?_
    intro i
    fin_cases i
    · refine ⟨_, ((Transforms.hasFDerivAt_coord 0 x).mul hsq).mul hcos, ?_⟩
      intro v
      simp [M, Fin.sum_univ_three]
      ring
    · refine ⟨_, ((Transforms.hasFDerivAt_coord 0 x).mul hsq).mul hsin, ?_⟩
      intro v
      simp [M, Fin.sum_univ_three]
      ring
    · refine ⟨_, (Transforms.hasFDerivAt_coord 0 x).mul (Transforms.hasFDerivAt_coord 1 x), ?_⟩
      intro v
      simp [M, Fin.sum_univ_three]
      ring
  have hdet : M.det = -(x 0 ^ 2) := by
    simp only [M, Matrix.det_fin_three, Matrix.of_apply, Matrix.cons_val', Matrix.cons_val_zero, Matrix.cons_val_one, Matrix.cons_val_fin_one, Matrix.cons_val]
    have hcs := Real.sin_sq_add_cos_sq (x 2)
    have h1 : x 1 ^ 2 = 1 - S ^ 2 := by rw [hss]; ring
    field_simp
    linear_combination (-(x 0) * (S ^ 2 + x 1 ^ 2)) * hcs - x 0 * h1
  refine ⟨_, hM, ?_, ?_⟩
  · rw [Transforms.det_matMap, hdet]
    exact neg_ne_zero.2 (by positivity)
  · rw [Transforms.det_matMap, hdet, abs_neg, abs_of_pos (by positivity)]
    field_simp

/-- **C46.**  The density returned before weighting, for rows with positive spin magnitudes: for a density over spin vectors it is multiplied by
`2 π a²` for each spin, whether the file gives it or its logarithm; for densities of the tilt angles it is divided by the sines of both tilts. -/
theorem C46_density {n : ℕ} (d : Data n) (a1 a2 c1 c2 : Col n) (i : Fin n) (r1 r2 k1 k2 : ℝ) (h1 : a1 i = fin r1) (h2 : a2 i = fin r2) (hr1 : 0 < r1) (hr2 : 0 < r2)
    (hc1 : c1 i = fin k1) (hc2 : c2 i = fin k2) (hk1 : |k1| < 1) (hk2 : |k2| < 1) :
    (∀ c p, get? d.cols "sampling_pdf" = some c → c i = fin p →
      ∃ out, rawPrior d a1 a2 c1 c2 = .ok out ∧ out i = fin (p * (2 * Real.pi * r1 ^ 2) * (2 * Real.pi * r2 ^ 2))) ∧
    (∀ c l, get? d.cols "sampling_pdf" = none →
      get? d.cols "lnpdraw_mass1_source_mass2_source_redshift_spin1x_spin1y_spin1z_spin2x_spin2y_spin2z" = some c → c i = fin l →
      ∃ out, rawPrior d a1 a2 c1 c2 = .ok out ∧ out i = fin (Real.exp l * (2 * Real.pi * r1 ^ 2) * (2 * Real.pi * r2 ^ 2))) ∧
    (∀ cm1 cm2 cz ca1 ca2 ct1 ct2 lm1 lm2 lz la1 la2 lt1 lt2, get? d.cols "sampling_pdf" = none →
      get? d.cols "lnpdraw_mass1_source_mass2_source_redshift_spin1x_spin1y_spin1z_spin2x_spin2y_spin2z" = none →
      get? d.cols "lnpdraw_mass1_source" = some cm1 → get? d.cols "lnpdraw_mass2_source_GIVEN_mass1_source" = some cm2 → get? d.cols "lnpdraw_z" = some cz →
      get? d.cols "lnpdraw_spin1_magnitude" = some ca1 → get? d.cols "lnpdraw_spin2_magnitude" = some ca2 →
      get? d.cols "lnpdraw_spin1_polar_angle" = some ct1 → get? d.cols "lnpdraw_spin2_polar_angle" = some ct2 →
      cm1 i = fin lm1 → cm2 i = fin lm2 → cz i = fin lz → ca1 i = fin la1 → ca2 i = fin la2 → ct1 i = fin lt1 → ct2 i = fin lt2 →
      ∃ out, rawPrior d a1 a2 c1 c2 = .ok out ∧
        out i = fin (Real.exp lm1 * Real.exp lm2 * Real.exp lz * Real.exp la1 * Real.exp la2 * (Real.exp lt1 / Real.sin (Real.arccos k1)) *
          (Real.exp lt2 / Real.sin (Real.arccos k2)))) := by
  refine ⟨?_, ?_, ?_⟩
  · intro c p hc hp
    refine ⟨_, by unfold rawPrior; rw [hc], ?_⟩
    simp only [h1, h2, hp, square, mul_fin_fin]
    congr 1
    ring
  · intro c l hn hc hl
    refine ⟨_, by unfold rawPrior; rw [hn]; simp only; rw [hc], ?_⟩
    have hpos : 0 < 2 * Real.pi * r1 * r2 := by positivity
    simp only [h1, h2, hl, mul_fin_fin, log_fin_pos hpos, add_fin_fin, exp_fin]
    rw [Real.exp_add, show 2 * Real.log (2 * Real.pi * r1 * r2) = Real.log (2 * Real.pi * r1 * r2) + Real.log (2 * Real.pi * r1 * r2) by ring, Real.exp_add,
      Real.exp_log hpos]
    congr 1
    ring
  · intro cm1 cm2 cz ca1 ca2 ct1 ct2 lm1 lm2 lz la1 la2 lt1 lt2 hn hn2 g1 g2 g3 g4 g5 g6 g7 e1 e2 e3 e4 e5 e6 e7
    have hs : ∀ k : ℝ, |k| < 1 → Real.sin (Real.arccos k) ≠ 0 := by
      intro k hk
      rw [Real.sin_arccos]
      have := sq_lt_one_iff_abs_lt_one k |>.2 hk
      exact (Real.sqrt_pos.2 (by linarith)).ne'
    have hac : ∀ k : ℝ, |k| < 1 → arccos (fin k) = fin (Real.arccos k) := by
      intro k hk
      have := abs_lt.1 hk
      simp [arccos, this.1.le, this.2.le]
    refine ⟨_, by
      unfold rawPrior
      rw [hn]
      simp only
      rw [hn2]
      simp only [List.mapM_cons, List.mapM_nil, column, g1, g2, g3, g4, g5, g6, g7, bind, Except.bind, pure, Except.pure]
      rfl, ?_⟩
    simp only [List.map_cons, List.map_nil, e1, e2, e3, e4, e5, e6, e7, hc1, hc2, hac _ hk1, hac _ hk2, sum_cons, sum_nil, add_fin_fin, exp_fin, sin]
    simp only [div_fin_of_ne _ (hs _ hk1), div_fin_of_ne _ (hs _ hk2), Real.exp_add, Real.exp_zero]
    congr 1
    ring

/-! ## Concrete cases -/

/-- Two injections, the first found by a search with IFAR 2 at threshold 1, the second missed. -/
noncomputable def exampleFile : File 2 where
  layout := .injections
  cols := [("mass1_source", ![fin 30, fin 40]), ("mass2_source", ![fin 20, fin 30]), ("redshift", ![fin (1 / 2), fin 1]),
    ("spin1x", ![fin 0, fin 0]), ("spin1y", ![fin 0, fin 0]), ("spin1z", ![fin 1, fin 1]),
    ("spin2x", ![fin 0, fin 0]), ("spin2y", ![fin 0, fin 0]), ("spin2z", ![fin 1, fin 1]),
    ("sampling_pdf", ![fin 1, fin 1]), ("ifar_gstlal", ![fin 2, fin (1 / 2)])]
  name := none
  attrs := [("total_generated", 10), ("analysis_time_s", 100)]
  oneIfo := false

theorem exampleFile_get (k : String) (c : Col 2) (i : ℕ) (h : (exampleFile.cols[i]?).map (·.2) = some c) (hk : ((keys exampleFile.cols)[i]?) = some k)  :
  get? exampleFile.cols k = some c := by
  have hn : (keys exampleFile.cols).Nodup := by
    simp only [keys, exampleFile, List.map_cons, List.map_nil]
    decide +kernel
  refine get?_of_mem hn ?_
  simp only [keys, List.getElem?_map] at hk
  cases hp : exampleFile.cols[i]? with
  | none => simp [hp] at h
  | some p =>
    rw [hp] at h hk
    simp at h hk
    subst h hk
    exact List.mem_of_getElem? hp

example : ∃ out, load exampleFile (some 1) (some 10) = .ok out ∧ out.mass1 = [fin 30] := by
  have ho : openFile exampleFile = .ok (⟨exampleFile.cols, none, true⟩, pyInt 10, 100 / secondsPerYear) := by
    unfold openFile
    rfl
  have hn : (keys exampleFile.cols).Nodup := by
    simp only [keys, exampleFile, List.map_cons, List.map_nil]
    decide +kernel
  obtain ⟨f, hf, hfi⟩ := C46_found_ifar (n := 2) ⟨exampleFile.cols, none, true⟩ hn ⟨"ifar_gstlal", by
    simp [keys, exampleFile], by unfold MentionsIfar; decide +kernel⟩ 1 10 (by simp)
  have h0 : f 0 = true := (hfi 0).2 (Or.inl ⟨"ifar_gstlal", by unfold MentionsIfar; decide +kernel, ![fin 2, fin (1 / 2)], by simp [exampleFile], by
    simp only [Matrix.cons_val_zero, lt_fin_fin]; norm_num⟩)
  have h1 : f 1 = false := by
    rw [Bool.eq_false_iff]
    intro h
    rcases (hfi 1).1 h with ⟨k, hk, c, hc, hl⟩ | ⟨nm, hnm, -⟩ | ⟨c, hc, -⟩
    · simp only [exampleFile, List.mem_cons, Prod.mk.injEq, List.not_mem_nil, or_false] at hc
      rcases hc with ⟨rfl, rfl⟩ | ⟨rfl, rfl⟩ | ⟨rfl, rfl⟩ | ⟨rfl, rfl⟩ | ⟨rfl, rfl⟩ | ⟨rfl, rfl⟩ | ⟨rfl, rfl⟩ | ⟨rfl, rfl⟩ | ⟨rfl, rfl⟩ | ⟨rfl, rfl⟩ | ⟨rfl, rfl⟩
      on_goal 11 => simp only [Matrix.cons_val_one, Matrix.cons_val_fin_one, lt_fin_fin] at hl; norm_num at hl
      all_goals exact absurd hk (by unfold MentionsIfar; decide +kernel)
    · cases hnm
    · have : "semianalytic_observed_phase_maximized_snr_net" ∈ keys exampleFile.cols := List.mem_map.2 ⟨_, hc, rfl⟩
      exact absurd this (by
        simp only [keys, exampleFile, List.map_cons, List.map_nil]
        decide +kernel)
  have hr : (List.finRange 2).filter f = [0] := by
    simp [List.finRange_succ, h0, h1]
  have g1 := exampleFile_get "mass1_source" _ 0 rfl rfl
  have g2 := exampleFile_get "mass2_source" _ 1 rfl rfl
  have g3 := exampleFile_get "redshift" _ 2 rfl rfl
  have g4 := exampleFile_get "spin1x" _ 3 rfl rfl
  have g5 := exampleFile_get "spin1y" _ 4 rfl rfl
  have g6 := exampleFile_get "spin1z" _ 5 rfl rfl
  have g7 := exampleFile_get "spin2x" _ 6 rfl rfl
  have g8 := exampleFile_get "spin2y" _ 7 rfl rfl
  have g9 := exampleFile_get "spin2z" _ 8 rfl rfl
  have g10 := exampleFile_get "sampling_pdf" _ 9 rfl rfl
  have g11 : get? exampleFile.cols "weights" = none := by
    rw [get?_eq_none_iff]
    simp only [keys, exampleFile, List.map_cons, List.map_nil]
    decide +kernel
  refine ⟨_, by
    unfold load
    rw [ho]
    simp only [bind, Except.bind, g1, Option.isSome_some, if_true, g3, column, hf, hr, g2, columnOrZeros, g4, g5, g6, g7, g8, g9, rawPrior, g10, weights, g11,
      show exampleFile.oneIfo = false from rfl, List.length_cons, List.length_nil, Bool.false_eq_true, if_false]
    rfl, ?_⟩
  simp

/-- The hypotheses of `C46_found_far` are met. -/
example : ∃ f, getFound (n := 2) ⟨[("far_gstlal", ![fin 0, fin 3])], none, false⟩ (some (1 / 2)) (some 10) = .ok f ∧ f 0 = true ∧ f 1 = false := by
  obtain ⟨f, hf, h⟩ := C46_found_far (n := 2) ⟨[("far_gstlal", ![fin 0, fin 3])], none, false⟩ (by simp [keys]) rfl
    (by simp only [keys, List.map_cons, List.map_nil, List.mem_singleton, forall_eq]; unfold MentionsIfar; decide +kernel)
    ⟨"far_gstlal", by simp [keys], (isFar_iff _).1 (by decide +kernel)⟩
    (by simp only [keys, List.map_cons, List.map_nil, List.mem_singleton, forall_eq]; intro _; decide +kernel) (t := 1 / 2) (by norm_num) 10 (by simp)
    (by
      intro k c hc _ i
      simp only [List.mem_singleton, Prod.mk.injEq] at hc
      obtain ⟨rfl, rfl⟩ := hc
      fin_cases i
      · exact Or.inr (Or.inr ⟨0, le_rfl, rfl⟩)
      · exact Or.inr (Or.inr ⟨3, by norm_num, rfl⟩))
  refine ⟨f, hf, (h 0).2 (Or.inl ⟨"far_gstlal", ![fin 0, fin 3], (isFar_iff _).1 (by decide +kernel), by simp, by
    simp only [Matrix.cons_val_zero, lt_fin_fin]; norm_num⟩), ?_⟩
  rw [Bool.eq_false_iff]
  intro h1
  rcases (h 1).1 h1 with ⟨k, c, -, hc, hl⟩ | ⟨nm, hnm, -⟩ | ⟨c, hc, -⟩
  · simp only [List.mem_singleton, Prod.mk.injEq] at hc
    obtain ⟨rfl, rfl⟩ := hc
    simp only [Matrix.cons_val_one, Matrix.cons_val_fin_one, lt_fin_fin] at hl
    norm_num at hl
  · cases hnm
  · simp at hc

end GW.Injections
