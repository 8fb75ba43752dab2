import Verif.Spec.PpdModel
import Verif.Props.Ppd
import Verif.Props.Mixture
import Verif.Props.HybridNames

/-! # Lemmas on predictive densities -/

namespace GW.Ppd
open PyDict (Dict get?)
open GW.Tools (Err)
open GW.Mixture (Comp Mix mkMix)
open GW.Hybrids

/-- The names the wiping removes. -/
abbrev Rate (n : String) : Prop := "log_rate".toList <+: n.toList

/-- Two dictionaries that agree on everything but rates. -/
def Agree (d d' : Dict String ℝ) : Prop := ∀ n, ¬ Rate n → get? d n = get? d' n

/-- A base name that never completes to a rate. -/
def safeBase (b : String) : Bool := !("log_rate".toList.isPrefixOf b.toList) && !(b.toList.isPrefixOf "log_rate".toList)

theorem not_rate_of_safe {b : String} (h : safeBase b = true) (t : String) : ¬ Rate (b ++ t) := by
  simp only [safeBase, Bool.and_eq_true, Bool.not_eq_true', ← Bool.not_eq_true, List.isPrefixOf_iff_prefix] at h
  intro hr
  rw [Rate, String.toList_append] at hr
  rcases List.prefix_or_prefix_of_prefix hr (List.prefix_append b.toList t.toList) with h1 | h1
  · exact h.1 h1
  · exact h.2 h1

theorem readArg_congr {d d' : Dict String ℝ} (h : Agree d d') (i : Nat) (r : Read) (hr : safeBase r.base = true) :
    readArg d i r = readArg d' i r := by
  have h1 := h (r.base ++ "_" ++ toString i) (by rw [String.append_assoc]; exact not_rate_of_safe hr _)
  have h2 := h r.base (by have := not_rate_of_safe hr ""; simpa using this)
  simp only [readArg, getParameter, fetchFirst, h1, h2]

theorem mapM_congr {α β ε : Type} (f g : α → Except ε β) (l : List α) (h : ∀ a ∈ l, f a = g a) : l.mapM f = l.mapM g := by
  induction l with
  | nil => rfl
  | cons a l ih => rw [List.mapM_cons, List.mapM_cons, h a (by simp), ih fun b hb => h b (List.mem_cons_of_mem _ hb)]

def safeMaker (mk : Maker) : Bool := mk.reads.all fun r => safeBase r.base

theorem create_congr {d d' : Dict String ℝ} (h : Agree d d') (N : Nat) (mk : Maker) (hm : safeMaker mk = true) :
    create N d mk = create N d' mk := by
  apply mapM_congr
  intro i _
  have : mk.reads.mapM (readArg d i) = mk.reads.mapM (readArg d' i) := by
    apply mapM_congr
    intro r hr
    exact readArg_congr h i r (List.all_eq_true.1 hm r hr)
  simp only [makeFactor, this]

theorem buildLoop_congr {d d' : Dict String ℝ} (h : Agree d d') (use : Flag → Bool) (N : Nat) (l : List (Flag × Maker))
    (hl : (l.all fun p => safeMaker p.2) = true) (acc : List (List Factor)) : buildLoop use N d l acc = buildLoop use N d' l acc := by
  induction l generalizing acc with
  | nil => rfl
  | cons p l ih =>
    rw [List.all_cons, Bool.and_eq_true] at hl
    simp only [buildLoop, create_congr h N p.2 hl.1, ih hl.2]

theorem safe_infoCollection : (((infoCollection "pl") ++ (infoCollection "g")).all fun p => safeMaker p.2) = true := by decide +kernel

theorem buildPl_congr {d d' : Dict String ℝ} (h : Agree d d') (use : Flag → Bool) (N : Nat) : buildPl use N d = buildPl use N d' := by
  have hs := safe_infoCollection
  rw [List.all_append, Bool.and_eq_true] at hs
  simp only [buildPl, create_congr h N powerlawPrimaryMassRatio (by decide +kernel), buildLoop_congr h use N _ hs.1]

theorem buildG_congr {d d' : Dict String ℝ} (h : Agree d d') (use : Flag → Bool) (N : Nat) : buildG use N d = buildG use N d' := by
  have hs := safe_infoCollection
  rw [List.all_append, Bool.and_eq_true] at hs
  simp only [buildG, create_congr h N (truncatedNormal "mass_1_source" "m1" "g") (by decide +kernel),
    create_congr h N (truncatedNormal "mass_2_source" "m2" "g") (by decide +kernel), buildLoop_congr h use N _ hs.2]

/-- The components do not depend on the rates. -/
theorem nPowerlawMGaussian_agree {d d' : Dict String ℝ} (h : Agree d d') {use : Flag → Bool} {Npl Ng : Nat} {m : Hybrids.Mixture}
    (hm : nPowerlawMGaussian use Npl Ng d = .ok m) (rates : List ℝ)
    (hr : ((List.range (Npl + Ng)).mapM fun i => item d' ("log_rate_" ++ toString i)) = .ok rates) :
    nPowerlawMGaussian use Npl Ng d' = .ok ⟨rates, m.components⟩ := by
  unfold nPowerlawMGaussian at hm ⊢
  rw [← buildPl_congr h, ← buildG_congr h]
  cases h1 : (if 0 < Npl then (buildPl use Npl d).map some else .ok none : Except Hybrids.Err (Option (List (List Factor)))) with
  | error e => rw [h1] at hm; simp at hm
  | ok pl =>
    rw [h1] at hm
    simp only at hm ⊢
    cases h2 : (if 0 < Ng then (buildG use Ng d).map some else .ok none : Except Hybrids.Err (Option (List (List Factor)))) with
    | error e => rw [h2] at hm; simp at hm
    | ok g =>
      rw [h2] at hm
      simp only at hm ⊢
      split at hm
      · simp at hm
      · rename_i comps hc
        simp only [hr]
        split at hm
        · simp at hm
        · simp only [Except.ok.injEq] at hm
          rw [← hm]

open Classical in
/-- The density of the mixture, validated, is the differential rate. -/
theorem mixture_density {den : List Factor → Comp (List ℝ)} {m : Hybrids.Mixture} (hp : Proper den m)
    (hlen : m.components.length = m.logRates.length) (hne : m.components ≠ []) :
    ∃ mix, mixture den m = .ok mix ∧ ∀ x, (mix.logProbChecked true x).expR = differentialRate den m x := by
  have hmk : mixture den m = .ok ⟨m.logRates.map XR.fin, m.components.map den, some fun x => (m.components.map den).any fun d => d.support x⟩ := by
    unfold mixture mkMix
    rw [if_neg (by simp [hlen])]
    cases hc : m.components with
    | nil => exact absurd hc hne
    | cons c cs =>
      simp only [List.map_cons, Option.isNone_some, Bool.false_and, Bool.false_eq_true, if_false]
      rw [if_neg]
      simp only [List.any_map, List.any_eq_true, Function.comp, bne_iff_ne, ne_eq, not_exists, not_and, not_not]
      intro d hd
      exact hp.shape d (by rw [hc]; simp [hd]) c (by rw [hc]; simp)
  refine ⟨_, hmk, fun x => ?_⟩
  have hall : ∀ d ∈ m.components.map den, (d.logProb x).IsLog := by
    intro d hd
    obtain ⟨c, hc, rfl⟩ := List.mem_map.1 hd
    exact hp.isLog c hc x
  obtain ⟨h1, h2, h3, h4, h5⟩ := GW.Mixture.C05_logProb_is_log_of_scaled_sum m.logRates (m.components.map den) _ _ hmk x hall
  have hS : (List.zipWith (fun (l : ℝ) (d : Comp (List ℝ)) =>
      if GW.Mixture.Excluded (some fun x => (m.components.map den).any fun d => d.support x) d x then 0 else Real.exp l * (d.logProb x).expR)
      m.logRates (m.components.map den)).sum = differentialRate den m x := by
    unfold differentialRate
    rw [List.zipWith_map_right]
    congr 1
    have : ∀ (rs : List ℝ) (cs : List (List Factor)), (∀ c ∈ cs, (den c).validateArgs = true) →
        List.zipWith (fun r c => if GW.Mixture.Excluded (some fun x => (m.components.map den).any fun d => d.support x) (den c) x then 0
          else Real.exp r * ((den c).logProb x).expR) rs cs = List.zipWith (fun r c => Real.exp r * ((den c).logProb x).expR) rs cs := by
      intro rs
      induction rs with
      | nil => intro cs _; rfl
      | cons r rs ih =>
        intro cs hcs
        cases cs with
        | nil => rfl
        | cons c cs =>
          simp only [List.zipWith_cons_cons]
          rw [ih cs fun c hc => hcs c (by simp [hc])]
          congr 1
          split_ifs with hex
          · rcases hex with hex | ⟨_, hex, _⟩
            · simp [hex]
            · rw [hcs c (by simp)] at hex; simp at hex
          · rfl
    exact this _ _ hp.validates
  rw [hS] at h1 h3 h4
  generalize hM : (⟨m.logRates.map XR.fin, m.components.map den, some fun x => (m.components.map den).any fun d => d.support x⟩ :
    Mix (List ℝ)) = M at h1 h2 h3 h5 ⊢
  have hMs : M.support x = (m.components.map den).any fun d => d.support x := by rw [← hM]; rfl
  unfold GW.Mixture.Mix.logProbChecked
  rw [if_pos rfl]
  by_cases hsup : M.support x = true
  · rw [if_pos hsup]
    rcases h4.lt_or_eq with h | h
    · rw [h1 h, XR.expR_fin, Real.exp_log h]
    · rw [h2.2 (h3.1 h.symm), XR.expR_ninf, h]
  · rw [if_neg hsup, XR.expR_ninf]
    refine (h3.2 ?_).symm
    intro d hd
    obtain ⟨c, hc, rfl⟩ := List.mem_map.1 hd
    refine Or.inl (hp.outside c hc x ?_)
    rw [hMs, Bool.not_eq_true, List.any_eq_false] at hsup
    simpa using hsup (den c) hd

/-- The keyword arguments of one sample. -/
theorem sampled_ok {row : List ℝ} (mapping : Dict String Nat) (hb : ∀ p ∈ mapping, p.2 < row.length) :
    ∃ d, sampled row mapping = .ok d ∧ PyDict.keys d = PyDict.keys mapping ∧ ∀ n, get? d n = (get? mapping n).bind fun x => row[x]? := by
  induction mapping with
  | nil => exact ⟨[], rfl, rfl, fun n => rfl⟩
  | cons p mapping ih =>
    obtain ⟨k, v⟩ := p
    obtain ⟨d, h1, h2, h3⟩ := ih fun p hp => hb p (by simp [hp])
    have hv : v < row.length := hb (k, v) (by simp)
    refine ⟨(k, row[v]) :: d, ?_, ?_, ?_⟩
    · have : row[min v (row.length - 1)]? = some row[v] := by
        rw [min_eq_left (by omega)]
        exact List.getElem?_eq_getElem hv
      simp only [sampled, entry, this, h1]
    · simp only [PyDict.keys, List.map_cons] at h2 ⊢
      rw [h2]
    · intro n
      simp only [get?]
      by_cases hn : k = n
      · simp [hn, List.getElem?_eq_getElem hv]
      · simp [hn, h3]

theorem get?_append (a b : Dict String ℝ) (n : String) : get? (a ++ b) n = (get? a n).or (get? b n) := by
  induction a with
  | nil => simp [get?]
  | cons p a ih =>
    simp only [List.cons_append, get?]
    split <;> simp_all

theorem arguments_ok {constants : Dict String ℝ} {mapping : Dict String Nat} {row : List ℝ} (hb : ∀ p ∈ mapping, p.2 < row.length)
    (hd : ∀ n ∈ PyDict.keys mapping, n ∉ PyDict.keys constants) :
    ∃ d, arguments constants mapping row = .ok d ∧ ∀ n, get? d n = hyperparameters constants mapping row n := by
  obtain ⟨d, h1, h2, h3⟩ := sampled_ok (row := row) mapping hb
  refine ⟨constants ++ d, ?_, ?_⟩
  · simp only [arguments, h1]
    rw [if_neg]
    simp only [h2, List.any_eq_true, List.contains_iff_mem, not_exists, not_and]
    exact hd
  · intro n
    rw [get?_append, h3, hyperparameters]
    cases hm : get? mapping n with
    | none => simp
    | some x =>
      have : get? constants n = none := (PyDict.get?_eq_none_iff _ _).2 (hd n ((PyDict.mem_keys_iff _ _).2 (by rw [hm]; rfl)))
      simp [this]

end GW.Ppd
