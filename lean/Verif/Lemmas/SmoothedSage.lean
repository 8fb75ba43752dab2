import Verif.Spec.SmoothedSage
import Verif.Lemmas.EndToEnd
import Verif.Lemmas.RatioBound

/-! Helper lemmas for the smoothed analyses as a whole. -/

namespace GW.EndToEnd
open GW XR MeasureTheory ProbabilityTheory GW.PyDict GW.Hybrids
open GW.Likelihood (FRow)

noncomputable section
open Classical

/-! ## The keyword arguments -/

theorem smoothed_block_head : (((o3Blocks ++ o4Blocks).flatMap (·.2)).all fun p => p.1.toList.head?.isSome && p.1.toList.head? != some 'u') = true := by decide +kernel

theorem smoothed_flag_not_declared {a : Smoother} {o : Flag → Bool} {Nb Ng : Nat} (f : Flag) : flagName f ∉ a.parameters o Nb Ng := by
  have key : ∀ blocks : List (Option Flag × List (String × Count)), (∀ b ∈ blocks, b ∈ o3Blocks ++ o4Blocks) → flagName f ∉ expandAll (allParams blocks o) Nb Ng := by
    intro blocks hb hm
    obtain ⟨p, hp, i, -, he⟩ := mem_expandAll_iff.1 hm
    have hp' : p ∈ (o3Blocks ++ o4Blocks).flatMap (·.2) := by
      unfold allParams at hp
      obtain ⟨bl, hbl, h⟩ := List.mem_flatMap.1 hp
      refine List.mem_flatMap.2 ⟨bl, hb bl hbl, ?_⟩
      split_ifs at h with hu
      · exact h
      · simp at h
    have h1 := List.all_eq_true.1 smoothed_block_head p hp'
    have h2 := flag_head f
    rw [he] at h2
    simp only [String.toList_append] at h2
    cases hh : p.1.toList with
    | nil => simp [hh] at h1
    | cons c cs =>
      simp only [hh, List.cons_append, List.head?_cons, Option.some.injEq] at h1 h2
      simp [h2] at h1
  intro h
  cases a with
  | o3 =>
    rcases List.mem_append.1 h with h | h
    · revert h
      cases f <;> decide +kernel
    · exact key o3Blocks (fun b hb => List.mem_append_left _ hb) h
  | o4 =>
    rcases List.mem_append.1 h with h | h
    · revert h
      cases f <;> decide +kernel
    · exact key o4Blocks (fun b hb => List.mem_append_right _ hb) h

theorem smoothedExtra_keys (a : Smoother) (o : Flag → Bool) (Nb Ng : Nat) : keys (smoothedExtra a o Nb Ng) = [a.bodyKey, "N_g"] ++ smoothedConstants.map (·.2) := by
  simp [keys, smoothedExtra, Function.comp_def]

theorem smoothedExtra_nodup (a : Smoother) (o : Flag → Bool) (Nb Ng : Nat) : (keys (smoothedExtra a o Nb Ng)).Nodup := by
  rw [smoothedExtra_keys]
  cases a <;> decide +kernel

theorem smoothedFlagOf_eq {a : Smoother} {params : Dict String (Guru.PVal XR)} {o : Flag → Bool} {Nb Ng : Nat} (hk : ∀ n ∈ keys params, n ∈ a.parameters o Nb Ng)
    (hf : ∀ f, ¬ Offered f → o f = false) (value : String → XR) : smoothedFlagOf (Sage.meaning params (smoothedExtra a o Nb Ng) value) = o := by
  funext f
  have hn : get? params (flagName f) = none := get?_none fun h => smoothed_flag_not_declared f (hk _ h)
  have hf := hf f
  unfold smoothedFlagOf flagOf Sage.meaning
  rw [hn]
  cases a <;> cases f <;> simp [smoothedExtra, smoothedFlags, smoothedConstants, Offered, flagName, get?, Smoother.bodyKey] at hf ⊢
  all_goals first | exact hf | exact hf.symm | (split_ifs <;> simp_all)

theorem smoothed_countOf_body {a : Smoother} {params : Dict String (Guru.PVal XR)} {o : Flag → Bool} {Nb Ng : Nat} (value : String → XR) :
    countOf (Sage.meaning params (smoothedExtra a o Nb Ng) value) a.body = Nb := by
  cases a <;> simp [countOf, Sage.meaning, smoothedExtra, get?, Smoother.body, Smoother.bodyKey]

theorem smoothed_countOf_g {a : Smoother} {params : Dict String (Guru.PVal XR)} {o : Flag → Bool} {Nb Ng : Nat} (value : String → XR) :
    countOf (Sage.meaning params (smoothedExtra a o Nb Ng) value) "N_g" = Ng := by
  cases a <;> simp [countOf, Sage.meaning, smoothedExtra, get?, Smoother.body, Smoother.bodyKey]

/-! ## The columns -/

theorem smoothedColumns_nodup (o : Flag → Bool) : (smoothedColumns o).Nodup := by
  have h : (smoothedColumns o).Sublist (["mass_1_source"] ++ ["a_1", "a_2"] ++ ["chi_eff"] ++ ["chi_p"] ++ ["cos_tilt_1", "cos_tilt_2"] ++ ["eccentricity"] ++
      ["redshift"] ++ ["mass_ratio"]) := by
    have key : ∀ (b : Bool) (l : List String), (if b = true then l else []).Sublist l := by
      intro b l
      cases b
      · exact List.nil_sublist _
      · exact List.Sublist.refl _
    unfold smoothedColumns
    exact ((((((((List.Sublist.refl _).append (key _ _)).append (key _ _)).append (key _ _)).append (key _ _)).append (key _ _)).append (key _ _)).append
      (List.Sublist.refl _))
  exact h.nodup (by decide +kernel)

theorem quantity_measurable {columns : List String} (name : String) : Measurable fun x : Event columns => quantity x name := by
  unfold quantity
  split_ifs with h
  · exact measurable_pi_apply _
  · exact measurable_const

variable {a : Smoother} {o : Flag → Bool} {Nb Ng : Nat} {params : Dict String ℝ} {m : Smoothed} {S : Smoothing} {laws : List (List Law)} {dV : ℝ → ℝ}

theorem Describes.or (h : Describes a o Nb Ng params m S) :
    nSmoothedPowerlawMSmoothedGaussian o Nb Ng params = .ok m ∨ nBrokenPowerlawMGaussian o Nb Ng params = .ok m := by
  cases a
  · exact .inl h.1
  · exact .inr h.1

/-! ## Beta laws -/

theorem forall₂_mem_left {α β : Type} {R : α → β → Prop} {l : List α} {l' : List β} (h : List.Forall₂ R l l') {b : α} (hb : b ∈ l) : ∃ a ∈ l', R b a := by
  obtain ⟨a, ha, hR⟩ := forall₂_mem_right (R := fun x y => R y x) h.flip hb
  exact ⟨a, ha, hR⟩

theorem regular_of_peaked {ls : List Law} (h : ∀ L ∈ ls, Peaked L) (x : List ℝ) : AllRegular ls x := by
  induction ls generalizing x with
  | nil => trivial
  | cons L ls ih =>
    refine ⟨?_, ih (fun L hL => h L (by simp [hL])) _⟩
    have hL := h L (by simp)
    cases L with
    | beta a b =>
      simp only [Peaked] at hL
      rcases x.take (Law.beta a b).dim with _ | ⟨y, _ | ⟨z, l⟩⟩
      · trivial
      · exact ⟨fun _ => hL.1, fun _ => hL.2⟩
      · trivial
    | _ => simp [Law.Regular]

theorem check_of_peaked {mean variance : ℝ} (hv : 0 < variance) : Beta.check mean variance 1 1 = true ↔ Peaked (.beta mean variance) := by
  have e1 : mean * (mean * (1 - mean) / variance - 1) = (mean ^ 2 * (1 - mean) - mean * variance) / variance := by field_simp
  have e2 : (1 - mean) * (mean * (1 - mean) / variance - 1) = (mean * (1 - mean) ^ 2 - (1 - mean) * variance) / variance := by field_simp
  simp only [Beta.check, Peaked, e1, e2, lt_div_iff₀ hv, square_fin, add_fin_fin, sub_fin_fin, mul_fin_fin, lt_fin_fin, Bool.and_eq_true, decide_eq_true_eq]
  refine and_congr ⟨fun h => by nlinarith, fun h => by nlinarith⟩ ⟨fun h => by nlinarith, fun h => by nlinarith⟩

theorem lawOf_mass_quantities {f : Factor} {L : Law} (hc : f.cls ∈ massClasses ∨ f.cls = "BetaFromMeanVar") (h : lawOf f = some L) : ∃ q, f.quantities = [q] := by
  unfold lawOf at h
  simp only [massClasses, List.mem_cons, List.not_mem_nil, or_false] at hc
  rcases hq : f.quantities with _ | ⟨q, _ | ⟨q', l⟩⟩
  · rcases hc with (hc | hc | hc) | hc <;> simp [hc, hq] at h
  · exact ⟨q, rfl⟩
  · rcases hc with (hc | hc | hc) | hc <;> simp [hc, hq] at h

theorem args_beta {f : Factor} (h : f.args.map (fun a => (a.coord, a.kwarg)) = [(some 0, "mean"), (some 0, "variance")]) :
    ∃ u v, f.args = [⟨some 0, "mean", u⟩, ⟨some 0, "variance", v⟩] := by
  rcases hf : f.args with _ | ⟨⟨a1, a2, a3⟩, _ | ⟨⟨b1, b2, b3⟩, _ | ⟨c, l⟩⟩⟩ <;> rw [hf] at h <;> simp at h
  obtain ⟨⟨rfl, rfl⟩, rfl, rfl⟩ := h
  exact ⟨a3, b3, rfl⟩

/-- The law of the primary spin of a component with beta spins. -/
theorem primary_beta {told : Dict String ℝ} {ct cls : String} {i : Nat} {c : List Factor} {ls : List Law} {r1 r2 : List String}
    (hcls : cls ∈ massClasses) (hw : WellConfigured told ct i c) (hfam : families c = cls :: "BetaFromMeanVar" :: r1)
    (hco : coordinates c = "mass_1_source" :: "a_1" :: r2) (hl : List.Forall₂ (fun f L => lawOf f = some L) c ls)
    (hm : get? told ("a_1_mean_" ++ ct) = none) (hv : get? told ("a_1_variance_" ++ ct) = none) :
    ∃ mean variance, Law.beta mean variance ∈ ls ∧ get? told ("a_1_mean_" ++ ct ++ "_" ++ toString i) = some mean ∧
      get? told ("a_1_variance_" ++ ct ++ "_" ++ toString i) = some variance := by
  rcases c with _ | ⟨f0, _ | ⟨f1, c⟩⟩
  · simp [families] at hfam
  · simp [families] at hfam
  simp only [families, List.map_cons, List.cons.injEq] at hfam
  obtain ⟨k0, k1, -⟩ := hfam
  cases hl with
  | cons l0 hl =>
  cases hl with
  | @cons _ L1 _ ls l1 hl =>
  obtain ⟨q0, hq0⟩ := lawOf_mass_quantities (.inl (k0 ▸ hcls)) l0
  obtain ⟨q1, hq1⟩ := lawOf_mass_quantities (.inr k1) l1
  simp only [coordinates, List.flatMap_cons, hq0, hq1, List.cons_append, List.nil_append, List.cons.injEq] at hco
  obtain ⟨-, rfl, -⟩ := hco
  obtain ⟨-, hargs, hconf⟩ := hw f1 (by simp)
  rw [k1] at hargs
  obtain ⟨u, v, huv⟩ := args_beta (by simpa [signature] using hargs)
  have c1 := hconf ⟨some 0, "mean", u⟩ (by simp [huv])
  have c2 := hconf ⟨some 0, "variance", v⟩ (by simp [huv])
  have n1 : hyperName f1.cls f1.quantities ct (some 0) "mean" = "a_1_mean_" ++ ct := by
    rw [hq1]
    show "a_1" ++ "_" ++ "mean" ++ "_" ++ ct = _
    rfl
  have n2 : hyperName f1.cls f1.quantities ct (some 0) "variance" = "a_1_variance_" ++ ct := by
    rw [hq1]
    rfl
  have hfb : ∀ w ∈ ["mean", "variance"], fallback f1.cls w = none ∧ flips f1.cls w = false := by
    rw [k1]
    decide
  simp only [Configured, n1, n2, hm, hv, (hfb _ (by simp : "mean" ∈ _)).1, (hfb _ (by simp : "mean" ∈ _)).2, (hfb _ (by simp : "variance" ∈ _)).1,
    (hfb _ (by simp : "variance" ∈ _)).2, Bool.false_eq_true, if_false] at c1 c2
  cases g1 : get? told ("a_1_mean_" ++ ct ++ "_" ++ toString i) with
  | none => rw [g1] at c1; simp at c1
  | some mean =>
    cases g2 : get? told ("a_1_variance_" ++ ct ++ "_" ++ toString i) with
    | none => rw [g2] at c2; simp at c2
    | some variance =>
      rw [g1] at c1
      rw [g2] at c2
      refine ⟨mean, variance, ?_, rfl, rfl⟩
      have hL : L1 = Law.beta mean variance := by
        unfold lawOf at l1
        rw [k1, hq1] at l1
        injection l1 with l1
        rw [← l1]
        simp only at c1 c2
        simp [argOf, huv, c1, c2]
      simp [hL]

theorem shared_not_declared {a : Smoother} {o : Flag → Bool} {Nb Ng : Nat} {n : String} (h : notNumbered n = true)
    (h3 : n ∉ ["beta", "delta_m", "log_rate", "mmax", "mmin"]) (h4 : n ∉ ["beta", "delta_m1", "delta_m2", "log_rate", "m1max", "m1min", "m2min"]) :
    n ∉ a.parameters o Nb Ng := by
  have key : ∀ blocks, n ∉ expandAll (allParams blocks o) Nb Ng := by
    intro blocks hm
    obtain ⟨p, -, i, -, he⟩ := mem_expandAll_iff.1 hm
    exact numbered_ne h he.symm
  intro hn
  cases a
  · rcases List.mem_append.1 hn with hn | hn
    · exact h3 hn
    · exact key _ hn
  · rcases List.mem_append.1 hn with hn | hn
    · exact h4 hn
    · exact key _ hn

theorem shared_spin_none {a : Smoother} {o : Flag → Bool} {Nb Ng : Nat} (kw : Sage.Kwargs) {n : String}
    (hn : n ∈ ["a_1_mean_pl", "a_1_mean_bpl", "a_1_mean_g", "a_1_variance_pl", "a_1_variance_bpl", "a_1_variance_g"]) :
    get? (hyperParameters (a.parameters o Nb Ng) kw) n = none := by
  cases hg : get? (hyperParameters (a.parameters o Nb Ng) kw) n with
  | none => rfl
  | some x =>
    have h1 := ((get?_hyperParameters _ _ n x).1 hg).1
    refine absurd h1 (shared_not_declared ?_ ?_ ?_)
    all_goals (clear h1 hg; revert n; decide +kernel)

theorem concentrationReads_ok {ct : String} {N : Nat} {told : Dict String ℝ}
    (h : ∀ i < N, ∃ m v, get? told ("a_1_mean_" ++ ct ++ "_" ++ toString i) = some m ∧ get? told ("a_1_variance_" ++ ct ++ "_" ++ toString i) = some v ∧
      Beta.check m v 1 1 = true) : ∃ l, concentrationReads ct N told = .ok l ∧ ∀ p ∈ l, Beta.check p.1 p.2 1 1 = true := by
  obtain ⟨l, hl⟩ := mapM_exists (fun n : Nat =>
    match get? told ("a_1_mean_" ++ ct ++ "_" ++ toString n), get? told ("a_1_variance_" ++ ct ++ "_" ++ toString n) with
    | some m, some v => (.ok (m, v) : Except Err (ℝ × ℝ))
    | _, _ => .error .typeError) (List.range N) (by
      intro i hi
      obtain ⟨m, v, h1, h2, -⟩ := h i (by simpa using hi)
      rw [h1, h2]
      exact ⟨_, rfl⟩)
  refine ⟨l, hl, fun p hp => ?_⟩
  obtain ⟨e, hh⟩ := mapM_range _ _ _ hl
  obtain ⟨i, hi, rfl⟩ := List.getElem_of_mem hp
  obtain ⟨p, hp, hq⟩ := hh i (by omega)
  obtain ⟨m, v, h1, h2, h3⟩ := h i (by omega)
  rw [h1, h2] at hq
  simp only [Except.ok.injEq] at hq
  rw [List.getElem?_eq_getElem hi, Option.some.injEq] at hp
  rw [hp, ← hq]
  exact h3

/-- The check passes. -/
theorem check_passes {table : Dict String (Guru.PVal XR)} {value : String → ℝ} (hb : o .betaSpin = true)
    (h : Describes a o Nb Ng (smoothedTold a table o Nb Ng value) m S)
    (hl : HaveLaws m.components laws) (hp : ∀ ls ∈ laws, ∀ L ∈ ls, L.Proper) (hpk : ∀ ls ∈ laws, ∀ L ∈ ls, Peaked L) :
    positiveConcentration a (a.parameters o Nb Ng) (Sage.meaning table (smoothedExtra a o Nb Ng) fun n => fin (value n)) = true := by
  have key : ∀ (ct cls : String), ct ∈ ["pl", "bpl", "g"] → cls ∈ massClasses → ∀ c ∈ m.components, ∀ i,
      WellConfigured (smoothedTold a table o Nb Ng value) ct i c →
      coordinates c = ["mass_1_source"] ++ ((smoothedInfoCollection ct).filter fun e => o e.1).flatMap (fun e => e.2.quantities) →
      families c = [cls] ++ ((smoothedInfoCollection ct).filter fun e => o e.1).map (fun e => e.2.cls) →
      ∃ mn v, get? (smoothedTold a table o Nb Ng value) ("a_1_mean_" ++ ct ++ "_" ++ toString i) = some mn ∧
        get? (smoothedTold a table o Nb Ng value) ("a_1_variance_" ++ ct ++ "_" ++ toString i) = some v ∧ Beta.check mn v 1 1 = true := by
    intro ct cls hct hcls c hc i hw hco hfam
    obtain ⟨ls, hls, hL⟩ := forall₂_mem_left hl hc
    have hs : (smoothedInfoCollection ct).filter (fun e => o e.1) = (.betaSpin, beta "a_1" ct) :: (.betaSpin, beta "a_2" ct) ::
        ((smoothedInfoCollection ct).drop 2).filter fun e => o e.1 := by
      simp [smoothedInfoCollection, List.filter_cons, hb]
    rw [hs] at hco hfam
    obtain ⟨mn, v, h1, h2, h3⟩ := primary_beta hcls hw (r1 := _) (by rw [hfam]; rfl) (r2 := _) (by rw [hco]; rfl) hL
      (shared_spin_none _ (by simp at hct; rcases hct with rfl | rfl | rfl <;> decide)) (shared_spin_none _ (by simp at hct; rcases hct with rfl | rfl | rfl <;> decide))
    refine ⟨mn, v, h2, h3, (check_of_peaked ?_).2 (hpk ls hls _ h1)⟩
    exact (hp ls hls _ h1).2.2.1
  have fin : ∀ ct, ct = a.kind → (∀ i < Nb, ∃ mn v, get? (smoothedTold a table o Nb Ng value) ("a_1_mean_" ++ ct ++ "_" ++ toString i) = some mn ∧
        get? (smoothedTold a table o Nb Ng value) ("a_1_variance_" ++ ct ++ "_" ++ toString i) = some v ∧ Beta.check mn v 1 1 = true) →
      (∀ i < Ng, ∃ mn v, get? (smoothedTold a table o Nb Ng value) ("a_1_mean_" ++ "g" ++ "_" ++ toString i) = some mn ∧
        get? (smoothedTold a table o Nb Ng value) ("a_1_variance_" ++ "g" ++ "_" ++ toString i) = some v ∧ Beta.check mn v 1 1 = true) →
      positiveConcentration a (a.parameters o Nb Ng) (Sage.meaning table (smoothedExtra a o Nb Ng) fun n => fin (value n)) = true := by
    rintro ct rfl h1 h2
    obtain ⟨l1, e1, p1⟩ := concentrationReads_ok h1
    obtain ⟨l2, e2, p2⟩ := concentrationReads_ok h2
    unfold positiveConcentration positiveConcentrationReads
    rw [smoothed_countOf_body, smoothed_countOf_g]
    unfold smoothedTold at e1 e2
    rw [e1, e2]
    show (l1 ++ l2).all _ = true
    rw [List.all_append, Bool.and_eq_true, List.all_eq_true, List.all_eq_true]
    exact ⟨p1, p2⟩
  cases a
  · obtain ⟨-, -, -, -, -, -, -, hlen, hb, hg⟩ := smoothedModel_ok o3_tables h.1
    refine fin "pl" rfl (fun i hi => ?_) fun i hi => ?_
    · obtain ⟨f, c, -, h1, h2, -, h3, h4, -⟩ := hb i hi
      exact key "pl" _ (by simp) (by decide) c (List.mem_of_getElem? h1) i h2 h3 h4
    · obtain ⟨f, c, -, h1, h2, -, h3, h4, -⟩ := hg i hi
      exact key "g" _ (by simp) (by decide) c (List.mem_of_getElem? h1) i h2 h3 h4
  · obtain ⟨-, -, -, -, -, -, -, hlen, hb, hg⟩ := smoothedModel_ok o4_tables h.1
    refine fin "bpl" rfl (fun i hi => ?_) fun i hi => ?_
    · obtain ⟨f, c, -, h1, h2, -, h3, h4, -⟩ := hb i hi
      exact key "bpl" _ (by simp) (by decide) c (List.mem_of_getElem? h1) i h2 h3 h4
    · obtain ⟨f, c, -, h1, h2, -, h3, h4, -⟩ := hg i hi
      exact key "g" _ (by simp) (by decide) c (List.mem_of_getElem? h1) i h2 h3 h4

/-- The check fails. -/
theorem check_fails {ct : String} {kw : Sage.Kwargs} {i N : Nat} {mean variance : ℝ} (hct : ct = a.kind ∧ N = countOf kw a.body ∨ ct = "g" ∧ N = countOf kw "N_g") (hi : i < N)
    (hm : get? (hyperParameters (a.parameters o Nb Ng) kw) ("a_1_mean_" ++ ct ++ "_" ++ toString i) = some mean)
    (hv : get? (hyperParameters (a.parameters o Nb Ng) kw) ("a_1_variance_" ++ ct ++ "_" ++ toString i) = some variance)
    (hc : Beta.check mean variance 1 1 = false) : positiveConcentration a (a.parameters o Nb Ng) kw = false := by
  unfold positiveConcentration
  cases hr : positiveConcentrationReads a.kind (countOf kw a.body) (countOf kw "N_g") (hyperParameters (a.parameters o Nb Ng) kw) with
  | error e => rfl
  | ok l =>
    have hmem : (mean, variance) ∈ l := by
      unfold positiveConcentrationReads at hr
      cases h1 : concentrationReads a.kind (countOf kw a.body) (hyperParameters (a.parameters o Nb Ng) kw) with
      | error e => rw [h1] at hr; simp [bind, Except.bind] at hr
      | ok l1 =>
        cases h2 : concentrationReads "g" (countOf kw "N_g") (hyperParameters (a.parameters o Nb Ng) kw) with
        | error e => rw [h1, h2] at hr; simp [bind, Except.bind] at hr
        | ok l2 =>
          rw [h1, h2] at hr
          simp only [bind, Except.bind, pure, Except.pure, Except.ok.injEq] at hr
          have key : ∀ ct N l, ct = ct → concentrationReads ct N (hyperParameters (a.parameters o Nb Ng) kw) = .ok l → i < N →
              get? (hyperParameters (a.parameters o Nb Ng) kw) ("a_1_mean_" ++ ct ++ "_" ++ toString i) = some mean →
              get? (hyperParameters (a.parameters o Nb Ng) kw) ("a_1_variance_" ++ ct ++ "_" ++ toString i) = some variance → (mean, variance) ∈ l := by
            intro ct N l _ hl hi hm hv
            obtain ⟨p, hp, hq⟩ := (mapM_range _ _ _ hl).2 i hi
            rw [hm, hv] at hq
            simp only [Except.ok.injEq] at hq
            rw [hq]
            exact List.mem_of_getElem? hp
          rw [← hr]
          rcases hct with ⟨rfl, rfl⟩ | ⟨rfl, rfl⟩
          · exact List.mem_append_left _ (key _ _ _ rfl h1 hi hm hv)
          · exact List.mem_append_right _ (key _ _ _ rfl h2 hi hm hv)
    rw [List.all_eq_false]
    exact ⟨_, hmem, by simp [hc]⟩

/-- The mixture in terms of the coordinates: the columns without the last one. -/
theorem smoothed_rest (ho : Exclusive o) (h : Describes a o Nb Ng params m S) (hl : HaveLaws m.components laws) :
    ∃ others, smoothedColumns o = "mass_1_source" :: others ++ ["mass_ratio"] ∧ (∀ event : String → ℝ,
      restMixture dV m.weights laws (("mass_1_source" :: others).map event) = weighted m.weights (List.zipWith (namedDensity dV event) m.components laws)) ∧
      ∀ ls ∈ laws, lawsDim ls = ("mass_1_source" :: others).length := by
  obtain ⟨others, hcols⟩ := smoothedColumns_split o
  refine ⟨others, hcols, ?_⟩
  have key : ∀ event : String → ℝ, restMixture dV m.weights laws (("mass_1_source" :: others).map event) = weighted m.weights (List.zipWith (namedDensity dV event) m.components laws) ∧
      ∀ ls ∈ laws, (("mass_1_source" :: others).map event).length = lawsDim ls := by
    cases a
    · exact named_mixture (dV := dV) (begins_o3 h.1) hl (columns_dropLast hcols (C49_o3_columns_are_coordinates ho h.1).2.2)
    · exact named_mixture (dV := dV) (begins_o4 h.1) hl (columns_dropLast hcols (C49_o4_columns_are_coordinates ho h.1).2.2)
  exact ⟨fun event => (key event).1, fun ls hls => by rw [← (key fun _ => 0).2 ls hls, List.length_map]⟩

/-! ## The model -/

theorem smoothed_value {c : Cosmo.Cosmology} {big : ℝ} {validation : Bool} {feasible : List FRow → Nat → FRow} {table : Dict String (Guru.PVal XR)} {value : String → ℝ}
    (hc : c.Proper) (hV : IsVolume c dV) (ho : Exclusive o) (hf : ∀ f, ¬ Offered f → o f = false) (hpk : ∀ ls ∈ laws, ∀ L ∈ ls, Peaked L)
    (hk : ∀ n ∈ keys table, n ∈ a.parameters o Nb Ng) (h : Describes a o Nb Ng (smoothedTold a table o Nb Ng value) m S) (hw : ∀ w ∈ m.weights, 0 ≤ w)
    (hl : HaveLaws m.components laws) (hp : ∀ ls ∈ laws, ∀ L ∈ ls, L.Proper) (hSp : S.Proper) (hpos : 0 < S.massTotal (massMixture dV m.weights laws)) {Z : ℝ → ℝ}
    (hZ : S.IsRatioTotal Z) (v : Option Bool) (x : Event (smoothedColumns o)) :
    IsLog ((smoothedSageModel a c big validation (a.parameters o Nb Ng) feasible v (Sage.meaning table (smoothedExtra a o Nb Ng) fun n => fin (value n))).logProb (row x)) ∧
    expR ((smoothedSageModel a c big validation (a.parameters o Nb Ng) feasible v (Sage.meaning table (smoothedExtra a o Nb Ng) fun n => fin (value n))).logProb (row x)) =
      smoothedRate dV S Z m laws x := by
  obtain ⟨others, hcols, hbuilt⟩ := C96_named_columns (Nb := Nb) (Ng := Ng) (params := smoothedTold a table o Nb Ng value) hc hV big (v.getD validation) ho hw hl hp hSp hpos
  obtain ⟨d, Z', hd, hZ', hat⟩ := hbuilt (a.population c big (v.getD validation) o Nb Ng (smoothedTold a table o Nb Ng value)) (by
    cases a
    · exact .inl ⟨h.1, h.2, rfl⟩
    · exact .inr ⟨h.1, h.2, rfl⟩)
  have hat := hat (quantity x) (fun ls hls => regular_of_peaked (hpk ls hls) _)
  have hrow : row x = (("mass_1_source" :: others).map (quantity x)).map fin ++ [fin (quantity x "mass_ratio")] := by
    unfold row
    rw [← quantity_columns (smoothedColumns_nodup o) x, congrArg (List.map (quantity x)) hcols]
    simp
  have e : (smoothedSageModel a c big validation (a.parameters o Nb Ng) feasible v (Sage.meaning table (smoothedExtra a o Nb Ng) fun n => fin (value n))).logProb (row x) =
      d.logProb ((("mass_1_source" :: others).map (quantity x)).map fin) (fin (quantity x "mass_ratio")) := by
    simp only [smoothedSageModel]
    rw [smoothedFlagOf_eq hk hf, smoothed_countOf_body, smoothed_countOf_g]
    unfold smoothedTold at hd
    rw [hd, hrow]
    simp only [List.dropLast_concat, List.getLastD_concat]
  rw [e]
  refine ⟨hat.1, hat.2.trans ?_⟩
  unfold smoothedRate
  rw [Smoothing.density_congr hSp hZ', Smoothing.density_congr hSp hZ]

/-! ## Integrability -/

theorem productDensity_append {ls : List Law} {L : Law} {x : List ℝ} {q : ℝ} (hd : lawsDim ls = x.length) (h1 : L.dim = 1) :
    productDensity dV (ls ++ [L]) (x ++ [q]) = productDensity dV ls x * L.density dV [q] := by
  induction ls generalizing x with
  | nil =>
    have : x = [] := by
      simp [lawsDim] at hd
      exact List.eq_nil_of_length_eq_zero hd.symm
    subst this
    simp [productDensity, h1]
  | cons K ls ih =>
    have hd' : lawsDim ls + K.dim = x.length := by
      rw [← hd]
      simp [lawsDim, add_comm]
    have hle : K.dim ≤ x.length := by omega
    rw [List.cons_append, productDensity, productDensity, List.take_append_of_le_length hle, List.drop_append_of_le_length hle,
      ih (by rw [List.length_drop]; omega), mul_assoc]

theorem measurable_planckTaper : Measurable planckTaper := planck_mono.measurable

theorem integrable_smoothedRate {c : Cosmo.Cosmology} (hc : c.Proper) (hV : IsVolume c dV) (ho : Exclusive o) (h : Describes a o Nb Ng params m S)
    (hw : ∀ w ∈ m.weights, 0 ≤ w) (hl : HaveLaws m.components laws) (hp : ∀ ls ∈ laws, ∀ L ∈ ls, L.Proper) (hSp : S.Proper)
    (hpos : 0 < S.massTotal (massMixture dV m.weights laws)) {Z : ℝ → ℝ} (hZ : S.IsRatioTotal Z) :
    Measurable (smoothedRate dV S Z m laws : Event (smoothedColumns o) → ℝ) ∧ Integrable (smoothedRate dV S Z m laws : Event (smoothedColumns o) → ℝ) ∧
      ∀ x : Event (smoothedColumns o), 0 ≤ smoothedRate dV S Z m laws x := by
  obtain ⟨others, hcols, hrest, hdim⟩ := smoothed_rest (dV := dV) ho h hl
  obtain ⟨C, hC0, hC⟩ := Smoothing.ratio_bounded hSp
  obtain ⟨cols, hcolsdef⟩ : ∃ cols, cols = "mass_1_source" :: others := ⟨_, rfl⟩
  rw [← hcolsdef] at hcols hrest hdim
  obtain ⟨total, htotal⟩ : ∃ t, t = S.massTotal (massMixture dV m.weights laws) := ⟨_, rfl⟩
  rw [← htotal] at hpos
  -- the mixture
  have hmix : ∀ (ws : List ℝ) (lss : List (List Law)), (∀ w ∈ ws, 0 ≤ w) → (∀ ls ∈ lss, ∀ L ∈ ls, L.Proper) → (∀ ls ∈ lss, lawsDim ls = cols.length) →
      Measurable (fun x : Event (smoothedColumns o) => restMixture dV ws lss (cols.map (quantity x))) ∧
      (∀ x : Event (smoothedColumns o), 0 ≤ restMixture dV ws lss (cols.map (quantity x))) ∧
      Integrable (fun x : Event (smoothedColumns o) => restMixture dV ws lss (cols.map (quantity x)) * Spin.uniformDensity 0 1 (quantity x "mass_ratio")) := by
    intro ws
    induction ws with
    | nil => intro lss _ _ _; exact ⟨by simp [restMixture, weighted], by simp [restMixture, weighted], by simp [restMixture, weighted]⟩
    | cons w ws ih =>
      intro lss hws hps hds
      cases lss with
      | nil => exact ⟨by simp [restMixture, weighted], by simp [restMixture, weighted], by simp [restMixture, weighted]⟩
      | cons ls lss =>
        obtain ⟨i1, i2, i3⟩ := ih lss (fun w h => hws w (by simp [h])) (fun l h => hps l (by simp [h])) fun l h => hds l (by simp [h])
        have e : ∀ y, restMixture dV (w :: ws) (ls :: lss) y = w * productDensity dV ls y + restMixture dV ws lss y := by
          intro y
          simp [restMixture, weighted]
        simp only [e]
        have hpls := hps ls (by simp)
        have hw0 := hws w (by simp)
        refine ⟨?_, fun x => add_nonneg (mul_nonneg hw0 (productDensity_nonneg hc hV hpls _)) (i2 x), ?_⟩
        · refine Measurable.add (Measurable.const_mul ?_ _) i1
          have := measurable_productDensity (β := Event (smoothedColumns o)) hc hV hpls (gs := cols.map fun n x => quantity x n) (by
            intro g hg
            obtain ⟨n, -, rfl⟩ := List.mem_map.1 hg
            exact quantity_measurable n)
          simpa [List.map_map, Function.comp_def] using this
        · simp only [add_mul, mul_assoc]
          refine Integrable.add (Integrable.const_mul ?_ _) i3
          have hpu : ∀ L ∈ ls ++ [Law.uniform 0 1], L.Proper := by
            intro L hL
            rcases List.mem_append.1 hL with hL | hL
            · exact hpls L hL
            · rw [List.mem_singleton.1 hL]
              exact zero_lt_one
          have := integrable_productDensity hc hV hpu (n := (smoothedColumns o).length) (by
            rw [hcols, List.length_append, ← hds ls (by simp)]
            simp [lawsDim, Law.dim])
          refine this.congr (Filter.Eventually.of_forall fun x => ?_)
          simp only
          rw [← quantity_columns (smoothedColumns_nodup o) x]
          have e2 : (smoothedColumns o).map (quantity x) = cols.map (quantity x) ++ [quantity x "mass_ratio"] := by
            rw [congrArg (List.map (quantity x)) hcols]
            simp
          rw [e2, productDensity_append (by rw [List.length_map]; exact hds ls (by simp)) rfl]
          rfl
  obtain ⟨m1, m2, m3⟩ := hmix m.weights laws hw hp hdim
  have e : (smoothedRate dV S Z m laws : Event (smoothedColumns o) → ℝ) = fun x =>
      S.density total S.gridRatioTotal (restMixture dV m.weights laws (cols.map (quantity x))) (quantity x "mass_1_source") (quantity x "mass_ratio") := by
    funext x
    unfold smoothedRate
    rw [Smoothing.density_congr hSp hZ, ← hrest, ← htotal]
  have hnn : ∀ x : Event (smoothedColumns o), 0 ≤ smoothedRate dV S Z m laws x := by
    intro x
    unfold smoothedRate
    rw [← hrest, ← htotal]
    unfold Smoothing.density
    split_ifs with hx
    · exact mul_nonneg (mul_nonneg (Real.exp_pos _).le (div_nonneg (mul_nonneg (m2 x) (planck_ge_zero _)) hpos.le))
        (div_nonneg (S.ratioCurve_nonneg hx.2.1) (hZ.1 _).le)
    · exact le_rfl
  have hmeas : Measurable (smoothedRate dV S Z m laws : Event (smoothedColumns o) → ℝ) := by
    rw [e]
    have q1 := quantity_measurable (columns := smoothedColumns o) "mass_1_source"
    have q2 := quantity_measurable (columns := smoothedColumns o) "mass_ratio"
    unfold Smoothing.density
    refine Measurable.ite ?_ ?_ measurable_const
    · exact ((measurableSet_le measurable_const q1).inter (measurableSet_le q1 measurable_const)).inter
        ((measurableSet_le measurable_const q2).inter (measurableSet_le q2 measurable_const))
    · refine ((((m1.mul (measurable_planckTaper.comp ((q1.sub_const _).div_const _))).div_const _)).const_mul _).mul ?_
      exact ((q2.pow_const _).mul (measurable_planckTaper.comp (((q1.mul q2).sub_const _).div_const _))).div (S.measurable_gridRatioTotal.comp q1)
  refine ⟨hmeas, ?_, hnn⟩
  refine Integrable.mono' (m3.const_mul (Real.exp S.logRate / total * C)) hmeas.aestronglyMeasurable (Filter.Eventually.of_forall fun x => ?_)
  rw [Real.norm_eq_abs, abs_of_nonneg (hnn x)]
  unfold smoothedRate
  rw [← hrest, ← htotal]
  unfold Smoothing.density
  split_ifs with hx
  · have hu : Spin.uniformDensity 0 1 (quantity x "mass_ratio") = 1 := by simp [Spin.uniformDensity, hx.2.1, hx.2.2]
    rw [hu, mul_one]
    have k1 := hC Z hZ _ _ hx.1.1 hx.1.2 hx.2.1 hx.2.2
    have k2 : restMixture dV m.weights laws (cols.map (quantity x)) * S.window (quantity x "mass_1_source") / total ≤
        restMixture dV m.weights laws (cols.map (quantity x)) / total :=
      div_le_div_of_nonneg_right (mul_le_of_le_one_right (m2 x) (planck_le_one _)) hpos.le
    have k3 : 0 ≤ S.ratioCurve (quantity x "mass_1_source") (quantity x "mass_ratio") / Z (quantity x "mass_1_source") :=
      div_nonneg (S.ratioCurve_nonneg hx.2.1) (hZ.1 _).le
    calc _ ≤ Real.exp S.logRate * (restMixture dV m.weights laws (cols.map (quantity x)) / total) * C :=
          mul_le_mul (mul_le_mul_of_nonneg_left k2 (Real.exp_pos _).le) k1 k3 (mul_nonneg (Real.exp_pos _).le (div_nonneg (m2 x) hpos.le))
      _ = _ := by ring
  · refine mul_nonneg (mul_nonneg (div_nonneg (Real.exp_pos _).le hpos.le) hC0) (mul_nonneg (m2 x) ?_)
    unfold Spin.uniformDensity
    split_ifs <;> norm_num

end
end GW.EndToEnd
