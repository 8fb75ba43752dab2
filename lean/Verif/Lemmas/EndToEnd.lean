import Verif.Spec.EndToEnd
import Verif.Lemmas.LawMeasurable
import Verif.Props.HybridNames
import Verif.Props.Hierarchy
import Verif.Props.MonkLimit

/-! Helper lemmas for the `n_pls_m_gs` analysis as a whole. -/

namespace GW.EndToEnd
open GW XR MeasureTheory ProbabilityTheory GW.PyDict GW.Hybrids
open GW.Likelihood (FRow)

noncomputable section
open Classical

/-! ## The keyword arguments -/

theorem flag_head (f : Flag) : (flagName f).toList.head? = some 'u' := by cases f <;> decide +kernel

theorem block_head : ((sageBlocks.flatMap (·.2)).all fun p => p.1.toList.head?.isSome && p.1.toList.head? != some 'u') = true := by decide +kernel

/-- No declared parameter is called like a flag. -/
theorem get?_hyperParameters (names : List String) (kw : Sage.Kwargs) (n : String) (x : ℝ) :
    get? (hyperParameters names kw) n = some x ↔ n ∈ names ∧ kw n = some (some (fin x)) := by
  unfold hyperParameters
  induction names with
  | nil => simp [get?]
  | cons a l ih =>
    rw [List.filterMap_cons]
    by_cases ha : a = n
    · subst ha
      rcases hk : kw a with _ | _ | v
      · simp only [hk] at ih ⊢
        simp [ih]
      · simp only [hk] at ih ⊢
        simp [ih]
      · cases v with
        | fin y => simp [get?]
        | _ => simp only [hk] at ih ⊢; simp [ih]
    · have hmem : n ∈ a :: l ↔ n ∈ l := by simp [Ne.symm ha]
      rw [hmem]
      rcases hk : kw a with _ | _ | v
      · simpa using ih
      · simpa using ih
      · cases v with
        | fin y => simpa [get?, ha] using ih
        | _ => simpa using ih

theorem flag_not_declared {o : Flag → Bool} {Npl Ng : Nat} (f : Flag) : flagName f ∉ sageModelParameters o Npl Ng := by
  intro hm
  obtain ⟨p, hp, i, -, he⟩ := mem_expandAll_iff.1 hm
  have hp' : p ∈ sageBlocks.flatMap (·.2) := by
    unfold allParams at hp
    obtain ⟨bl, hbl, h⟩ := List.mem_flatMap.1 hp
    refine List.mem_flatMap.2 ⟨bl, hbl, ?_⟩
    split_ifs at h with hu
    · exact h
    · simp at h
  have h1 := List.all_eq_true.1 block_head p hp'
  have h2 := flag_head f
  rw [he] at h2
  simp only [String.toList_append] at h2
  cases hh : p.1.toList with
  | nil => simp [hh] at h1
  | cons c cs =>
    simp only [hh, List.cons_append, List.head?_cons, Option.some.injEq] at h1 h2
    simp [h2] at h1

theorem get?_none {V : Type} {d : Dict String V} {k : String} (h : k ∉ keys d) : get? d k = none := by
  induction d with
  | nil => rfl
  | cons p d ih =>
    simp only [keys, List.map_cons, List.mem_cons, not_or] at h
    rw [get?, if_neg (fun e => h.1 e.symm)]
    exact ih h.2

theorem flagOf_eq {params : Dict String (Guru.PVal XR)} {o : Flag → Bool} {Npl Ng : Nat} (hk : ∀ n ∈ keys params, n ∈ sageModelParameters o Npl Ng)
    (value : String → XR) : flagOf (Sage.meaning params (sageExtra o Npl Ng) value) = sageConstants o := by
  funext f
  have hn : get? params (flagName f) = none := get?_none fun h => flag_not_declared f (hk _ h)
  unfold flagOf Sage.meaning
  rw [hn]
  cases f <;> simp [sageExtra, constantFlags, flagName, get?, sageConstants]
  all_goals (split_ifs <;> simp_all)

theorem countOf_pl {params : Dict String (Guru.PVal XR)} {o : Flag → Bool} {Npl Ng : Nat} (value : String → XR) :
    countOf (Sage.meaning params (sageExtra o Npl Ng) value) "N_pl" = Npl := by
  simp [countOf, Sage.meaning, sageExtra, get?]

theorem countOf_g {params : Dict String (Guru.PVal XR)} {o : Flag → Bool} {Npl Ng : Nat} (value : String → XR) :
    countOf (Sage.meaning params (sageExtra o Npl Ng) value) "N_g" = Ng := by
  simp [countOf, Sage.meaning, sageExtra, get?]

theorem extra_keys (o : Flag → Bool) (Npl Ng : Nat) : keys (sageExtra o Npl Ng) = ["N_pl", "N_g"] ++ constantFlags.map (·.2) := by
  simp [keys, sageExtra, Function.comp_def]

theorem extra_nodup (o : Flag → Bool) (Npl Ng : Nat) : (keys (sageExtra o Npl Ng)).Nodup := by
  rw [extra_keys]
  decide +kernel

/-! ## The columns -/

theorem columns_nodup (o : Flag → Bool) : (sageColumns o).Nodup := by
  have h : (sageColumns o).Sublist (["mass_1_source", "mass_2_source"] ++ ["a_1", "a_2"] ++ ["spin_1x", "spin_2x"] ++ ["spin_1y", "spin_2y"] ++
      ["spin_1z", "spin_2z"] ++ ["chi_eff"] ++ ["chi_p"] ++ ["cos_tilt_1", "cos_tilt_2"] ++ ["phi_12"] ++ ["eccentricity"] ++ ["redshift"] ++ ["ra"] ++ ["dec"] ++
      ["detection_time"] ++ ["cos_iota"] ++ ["psi"]) := by
    have key : ∀ (b : Bool) (l : List String), (if b = true then l else []).Sublist l := by
      intro b l
      cases b
      · exact List.nil_sublist _
      · exact List.Sublist.refl _
    unfold sageColumns
    exact (((((((((((((((((List.Sublist.refl _).append (key _ _)).append (key _ _)).append (key _ _)).append (key _ _)).append (key _ _)).append (key _ _)).append
      (key _ _)).append (key _ _)).append (key _ _)).append (key _ _)).append (key _ _)).append (key _ _)).append (key _ _)).append (key _ _)).append (key _ _)))
  exact h.nodup (by decide +kernel)

theorem quantity_columns {columns : List String} (hn : columns.Nodup) (x : Event columns) : columns.map (quantity x) = List.ofFn x := by
  refine List.ext_getElem (by simp) fun i h1 h2 => ?_
  have hi : i < columns.length := by simpa using h1
  have e : columns.idxOf columns[i] = i := hn.idxOf_getElem i hi
  simp only [List.getElem_map, List.getElem_ofFn]
  rw [quantity, dif_pos (by rw [e]; exact hi)]
  congr 1
  exact Fin.ext e

/-! ## No beta laws -/

theorem no_beta_pl : (infoCollection "pl").all (fun e => decide (e.2.cls ≠ "BetaFromMeanVar") || decide (e.1 = .betaSpin)) = true := by decide +kernel
theorem no_beta_g : (infoCollection "g").all (fun e => decide (e.2.cls ≠ "BetaFromMeanVar") || decide (e.1 = .betaSpin)) = true := by decide +kernel

theorem families_no_beta {use : Flag → Bool} (hb : use .betaSpin = false) {Npl Ng : Nat} {params : Dict String ℝ} {m : Mixture}
    (h : nPowerlawMGaussian use Npl Ng params = .ok m) : ∀ c ∈ m.components, ∀ f ∈ c, f.cls ≠ "BetaFromMeanVar" := by
  obtain ⟨hlen, hp, hg⟩ := nPowerlawMGaussian_components h
  have key : ∀ (ct : String), (infoCollection ct).all (fun e => decide (e.2.cls ≠ "BetaFromMeanVar") || decide (e.1 = .betaSpin)) = true →
      ∀ n ∈ ((infoCollection ct).filter fun e => use e.1).map fun e => e.2.cls, n ≠ "BetaFromMeanVar" := by
    intro ct hall n hn
    obtain ⟨e, he, rfl⟩ := List.mem_map.1 hn
    obtain ⟨he, hu⟩ := List.mem_filter.1 he
    have := List.all_eq_true.1 hall e he
    simp only [Bool.or_eq_true, decide_eq_true_eq] at this
    rcases this with h | h
    · exact h
    · rw [h, hb] at hu
      exact absurd hu (by simp)
  intro c hc f hf
  obtain ⟨i, hi, rfl⟩ := List.getElem_of_mem hc
  have hmem : f.cls ∈ families m.components[i] := List.mem_map.2 ⟨f, hf, rfl⟩
  rcases lt_or_ge i Npl with k | k
  · obtain ⟨c, h1, -, -, h2, -⟩ := hp i k
    rw [List.getElem?_eq_getElem hi] at h1
    injection h1 with h1
    rw [h1, h2] at hmem
    rcases List.mem_append.1 hmem with h | h
    · rw [List.mem_singleton.1 h]; decide
    · exact key "pl" no_beta_pl _ h
  · obtain ⟨c, h1, -, -, h2, -⟩ := hg (i - Npl) (by omega)
    rw [Nat.add_sub_cancel' k, List.getElem?_eq_getElem hi] at h1
    injection h1 with h1
    rw [h1, h2] at hmem
    rcases List.mem_append.1 hmem with h | h
    · simp at h
      rw [h]; decide
    · exact key "g" no_beta_g _ h

theorem lawOf_beta {f : Factor} {a b : ℝ} (h : lawOf f = some (.beta a b)) : f.cls = "BetaFromMeanVar" := by
  unfold lawOf at h
  simp only at h
  split at h <;> first | assumption | simp at h

theorem regular_of_no_beta {ls : List Law} (h : ∀ a b, Law.beta a b ∉ ls) (x : List ℝ) : AllRegular ls x := by
  induction ls generalizing x with
  | nil => trivial
  | cons L ls ih =>
    refine ⟨?_, ih (fun a b hm => h a b (by simp [hm])) _⟩
    cases L with
    | beta a b => exact absurd (List.mem_cons_self) (h a b)
    | _ => simp [Law.Regular]

theorem forall₂_mem_right {α β : Type} {R : α → β → Prop} {l : List α} {l' : List β} (h : List.Forall₂ R l l') {b : β} (hb : b ∈ l') : ∃ a ∈ l, R a b := by
  induction h with
  | nil => simp at hb
  | cons h _ ih =>
    rcases List.mem_cons.1 hb with rfl | hb
    · exact ⟨_, by simp, h⟩
    · obtain ⟨a, ha, hR⟩ := ih hb
      exact ⟨a, by simp [ha], hR⟩

theorem laws_regular {use : Flag → Bool} (hb : use .betaSpin = false) {Npl Ng : Nat} {params : Dict String ℝ} {m : Mixture}
    (h : nPowerlawMGaussian use Npl Ng params = .ok m) {laws : List (List Law)} (hl : HaveLaws m.components laws) (x : List ℝ) :
    ∀ ls ∈ laws, AllRegular ls x := by
  intro ls hls
  refine regular_of_no_beta (fun a b hm => ?_) x
  obtain ⟨c, hc, hL⟩ := forall₂_mem_right hl hls
  obtain ⟨f, hf, hfL⟩ := forall₂_mem_right hL hm
  exact families_no_beta hb h c hc f hf (lawOf_beta hfL)

/-! ## The model -/

theorem expR_injective {x y : XR} (hx : IsLog x) (hy : IsLog y) (h : expR x = expR y) : x = y := by
  rcases hx.cases with rfl | ⟨a, rfl⟩ <;> rcases hy.cases with rfl | ⟨b, rfl⟩
  · rfl
  · simp [(Real.exp_pos b).ne] at h
  · simp at h
  · simp only [expR_fin] at h
    rw [Real.exp_injective h]

/-- The model of the analysis, for any settings. -/
theorem sageModel_value {c : Cosmo.Cosmology} {big : ℝ} {validation : Bool} {feasible : List FRow → Nat → FRow} {params : Dict String (Guru.PVal XR)}
    {o : Flag → Bool} {Npl Ng : Nat} {dV : ℝ → ℝ} {value : String → ℝ} {m : Mixture} {laws : List (List Law)}
    (rate_eq : ∀ x : Event (sageColumns o), rate dV m laws x = (List.zipWith (fun r ls => Real.exp r * productDensity dV ls (List.ofFn x)) m.logRates laws).sum)
    (hdim : ∀ ls ∈ laws, lawsDim ls = (sageColumns o).length)
    (hc : c.Proper) (hV : IsVolume c dV) (hb : o .betaSpin = false)
    (hk : ∀ n ∈ keys params, n ∈ sageModelParameters o Npl Ng) (h : nPowerlawMGaussian (sageConstants o) Npl Ng (told params o Npl Ng value) = .ok m)
    (hl : HaveLaws m.components laws) (hp : ∀ ls ∈ laws, ∀ L ∈ ls, L.Proper) (v : Option Bool) (x : Event (sageColumns o)) :
    IsLog ((sageModel c big validation (sageModelParameters o Npl Ng) feasible v (Sage.meaning params (sageExtra o Npl Ng) fun n => fin (value n))).logProb (row x)) ∧
    expR ((sageModel c big validation (sageModelParameters o Npl Ng) feasible v (Sage.meaning params (sageExtra o Npl Ng) fun n => fin (value n))).logProb (row x)) =
      rate dV m laws x := by
  obtain ⟨M, hM, h1, h2⟩ := populationModel_at hc hV big (v.getD validation) (v.getD validation) h hl hp (x := List.ofFn x)
    (fun ls hls => by rw [List.length_ofFn, hdim ls hls]) (laws_regular (use := sageConstants o) hb h hl _)
  have e : (sageModel c big validation (sageModelParameters o Npl Ng) feasible v (Sage.meaning params (sageExtra o Npl Ng) fun n => fin (value n))).logProb (row x) =
      M.logProbChecked (v.getD validation) (.many ((List.ofFn x).map fin)) := by
    simp only [sageModel, row]
    rw [flagOf_eq hk, countOf_pl, countOf_g]
    unfold told at hM
    rw [hM]
  rw [e, rate_eq]
  exact ⟨h1, h2⟩

variable {s : Settings} {o : Flag → Bool} {Npl Ng : Nat} {dV : ℝ → ℝ} {value : String → ℝ} {m : Mixture} {laws : List (List Law)}

/-- The rate in terms of the product of the laws. -/
theorem rate_eq (ho : Exclusive o) {params : Dict String ℝ} (h : nPowerlawMGaussian (sageConstants o) Npl Ng params = .ok m) (hl : HaveLaws m.components laws)
    (x : Event (sageColumns o)) :
    rate dV m laws x = (List.zipWith (fun r ls => Real.exp r * productDensity dV ls (List.ofFn x)) m.logRates laws).sum := by
  have hcols := (C49_columns_are_coordinates ho h).2.2
  have hcl := component_laws h
  have e : List.zipWith (namedDensity dV (quantity x)) m.components laws = laws.map fun ls => productDensity dV ls (List.ofFn x) := by
    have := haveLaws_of_mem hl (P := fun cm ls => productDensity dV ls (List.ofFn x) = namedDensity dV (quantity x) cm ls) fun cm hcm ls _ hL => by
      have e := productDensity_named dV (quantity x) (hcl cm hcm).2 hL
      have e2 : (coordinates cm).map (quantity x) = List.ofFn x := by
        rw [hcols cm hcm]
        exact quantity_columns (columns_nodup o) x
      rw [e2] at e
      exact e
    exact (map_eq_zipWith this).symm
  rw [rate, e, List.zipWith_map_right]

theorem lawsDim_columns (ho : Exclusive o) {params : Dict String ℝ} (h : nPowerlawMGaussian (sageConstants o) Npl Ng params = .ok m)
    (hl : HaveLaws m.components laws) : ∀ ls ∈ laws, lawsDim ls = (sageColumns o).length := by
  intro ls hls
  obtain ⟨c, hcm, hL⟩ := forall₂_mem_right hl hls
  rw [lawsDim_eq (component_laws h c hcm).2 hL, (C49_columns_are_coordinates ho h).2.2 c hcm]

theorem model_value (hc : s.cosmology.Proper) (hV : IsVolume s.cosmology dV) (ho : Exclusive o) (hb : o .betaSpin = false)
    (hk : ∀ n ∈ keys s.params, n ∈ sageModelParameters o Npl Ng) (h : nPowerlawMGaussian (sageConstants o) Npl Ng (told s.params o Npl Ng value) = .ok m)
    (hl : HaveLaws m.components laws) (hp : ∀ ls ∈ laws, ∀ L ∈ ls, L.Proper) (v : Option Bool) (x : Event (sageColumns o)) :
    IsLog (((sageInputs s o Npl Ng).model v (Sage.meaning s.params (sageExtra o Npl Ng) fun n => fin (value n))).logProb (row x)) ∧
    expR (((sageInputs s o Npl Ng).model v (Sage.meaning s.params (sageExtra o Npl Ng) fun n => fin (value n))).logProb (row x)) = rate dV m laws x :=
  sageModel_value (rate_eq ho h hl) (lawsDim_columns ho h hl) hc hV hb hk h hl hp v x

/-- The same for the analysis of Gaussian events. -/
theorem monk_value {s : MonkSettings (sageColumns o).length} (hc : s.cosmology.Proper) (hV : IsVolume s.cosmology dV) (ho : Exclusive o) (hb : o .betaSpin = false)
    (hk : ∀ n ∈ keys s.params, n ∈ sageModelParameters o Npl Ng) (h : nPowerlawMGaussian (sageConstants o) Npl Ng (told s.params o Npl Ng value) = .ok m)
    (hl : HaveLaws m.components laws) (hp : ∀ ls ∈ laws, ∀ L ∈ ls, L.Proper) (x : Event (sageColumns o)) :
    IsLog (Monk.population (monkInputs s o Npl Ng) value x) ∧ expR (Monk.population (monkInputs s o Npl Ng) value x) = rate dV m laws x :=
  sageModel_value (feasible := s.feasible) (rate_eq ho h hl) (lawsDim_columns ho h hl) hc hV hb hk h hl hp none x

theorem gauss_measurable {d : ℕ} (μ : Fin d → ℝ) (S : Matrix (Fin d) (Fin d) ℝ) : Measurable (gauss μ S) := by
  refine Continuous.measurable ?_
  unfold gauss
  fun_prop

theorem gauss_bounds {d : ℕ} (μ : Fin d → ℝ) {S : Matrix (Fin d) (Fin d) ℝ} (hS : S.PosDef) (x : Fin d → ℝ) :
    0 ≤ gauss μ S x ∧ gauss μ S x ≤ 1 / (Real.sqrt (2 * Real.pi) ^ d * Real.sqrt S.det) := by
  have hd : 0 < Real.sqrt (2 * Real.pi) ^ d * Real.sqrt S.det := mul_pos (pow_pos (Real.sqrt_pos.2 (by positivity)) _) (Real.sqrt_pos.2 hS.det_pos)
  refine ⟨div_nonneg (Real.exp_pos _).le hd.le, div_le_div_of_nonneg_right ?_ hd.le⟩
  rw [Real.exp_le_one_iff]
  have := hS.inv.posSemidef.dotProduct_mulVec_nonneg (x - μ)
  simp only [star_trivial] at this
  nlinarith

theorem integrable_rate {c : Cosmo.Cosmology} (hc : c.Proper) (hV : IsVolume c dV) (ho : Exclusive o) {params : Dict String ℝ}
    (h : nPowerlawMGaussian (sageConstants o) Npl Ng params = .ok m) (hl : HaveLaws m.components laws) (hp : ∀ ls ∈ laws, ∀ L ∈ ls, L.Proper) :
    Measurable (rate dV m laws : Event (sageColumns o) → ℝ) ∧ Integrable (rate dV m laws : Event (sageColumns o) → ℝ) ∧
      ∀ x : Event (sageColumns o), 0 ≤ rate dV m laws x := by
  have hd := lawsDim_columns ho h hl
  have e : (rate dV m laws : Event (sageColumns o) → ℝ) =
      fun x => (List.zipWith (fun r ls => Real.exp r * productDensity dV ls (List.ofFn x)) m.logRates laws).sum := funext fun x => rate_eq ho h hl x
  rw [e]
  generalize m.logRates = rs
  clear e h hl
  induction rs generalizing laws with
  | nil => exact ⟨by simp, by simp, by simp⟩
  | cons r rs ih =>
    cases laws with
    | nil => exact ⟨by simp, by simp, by simp⟩
    | cons ls laws =>
      obtain ⟨i1, i2, i3⟩ := ih (laws := laws) (fun l hl => hp l (by simp [hl])) fun l hl => hd l (by simp [hl])
      have hp0 := hp ls (by simp)
      refine ⟨?_, ?_, ?_⟩
      · simp only [List.zipWith_cons_cons, List.sum_cons]
        exact ((measurable_productDensity_ofFn hc hV hp0 _).const_mul _).add i1
      · simp only [List.zipWith_cons_cons, List.sum_cons]
        exact ((integrable_productDensity hc hV hp0 (hd ls (by simp))).const_mul _).add i2
      · intro x
        simp only [List.zipWith_cons_cons, List.sum_cons]
        exact add_nonneg (mul_nonneg (Real.exp_pos _).le (productDensity_nonneg hc hV hp0 _)) (i3 x)

end
end GW.EndToEnd
