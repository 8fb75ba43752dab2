import Verif.Props.HybridNames
import Verif.Spec.HyperParameterUse

/-!
# C50: the declared hyper-parameters are the ones the models use
-/

namespace GW.Hybrids
open GW.PyDict GW.Common

/-! ### Names by table -/

/-- The stems of the hyper-parameters of a component, with the switch that includes them. -/
def usedStems (ct : String) (masses : List (String × List String)) (coll : List (Flag × Maker)) : List (Option Flag × String) :=
  (masses.flatMap fun m => (signature m.1).map fun s => (none, hyperName m.1 m.2 ct s.1 s.2)) ++
    coll.flatMap fun e => (signature e.2.cls).map fun s => (some e.1, hyperName e.2.cls e.2.quantities ct s.1 s.2)

/-- The stems declared in a given number of copies, with the switch of their block. -/
def declaredStems (blocks : List (Option Flag × List (String × Count))) (cnt : Count) : List (Option Flag × String) :=
  blocks.flatMap fun b => (b.2.filter fun p => decide (p.2 = cnt)).map fun p => (b.1, p.1)

theorem feeds_iff {params : Dict String ℝ} {ct : String} {i : Nat} {c : List Factor} {masses : List (String × List String)}
    {coll : List (Flag × Maker)} {use : Flag → Bool} (hw : WellConfigured params ct i c)
    (hs : shapes c = masses ++ (coll.filter fun e => use e.1).map fun e => (e.2.cls, e.2.quantities)) {n : String} :
    Feeds n ct i c ↔ ∃ x ∈ usedStems ct masses coll, x.1.elim true use = true ∧ n = x.2 ++ "_" ++ toString i := by
  have h1 : Feeds n ct i c ↔ ∃ sh ∈ shapes c, ∃ s ∈ signature sh.1, n = hyperName sh.1 sh.2 ct s.1 s.2 ++ "_" ++ toString i := by
    constructor
    · rintro ⟨f, hf, a, ha, rfl⟩
      refine ⟨(f.cls, f.quantities), List.mem_map.2 ⟨f, hf, rfl⟩, (a.coord, a.kwarg), ?_, rfl⟩
      rw [← (hw f hf).2.1]
      exact List.mem_map.2 ⟨a, ha, rfl⟩
    · rintro ⟨sh, hsh, s, hss, rfl⟩
      obtain ⟨f, hf, rfl⟩ := List.mem_map.1 hsh
      rw [← (hw f hf).2.1] at hss
      obtain ⟨a, ha, rfl⟩ := List.mem_map.1 hss
      exact ⟨f, hf, a, ha, rfl⟩
  rw [h1, hs]
  constructor
  · rintro ⟨sh, hsh, s, hss, rfl⟩
    rcases List.mem_append.1 hsh with hm | hm
    · exact ⟨(none, _), List.mem_append_left _ (List.mem_flatMap.2 ⟨sh, hm, List.mem_map.2 ⟨s, hss, rfl⟩⟩), rfl, rfl⟩
    · obtain ⟨e, he, rfl⟩ := List.mem_map.1 hm
      obtain ⟨he, hu⟩ := List.mem_filter.1 he
      exact ⟨(some e.1, _), List.mem_append_right _ (List.mem_flatMap.2 ⟨e, he, List.mem_map.2 ⟨s, hss, rfl⟩⟩), hu, rfl⟩
  · rintro ⟨x, hx, hu, rfl⟩
    rcases List.mem_append.1 hx with hm | hm
    · obtain ⟨sh, hsh, hm⟩ := List.mem_flatMap.1 hm
      obtain ⟨s, hss, rfl⟩ := List.mem_map.1 hm
      exact ⟨sh, List.mem_append_left _ hsh, s, hss, rfl⟩
    · obtain ⟨e, he, hm⟩ := List.mem_flatMap.1 hm
      obtain ⟨s, hss, rfl⟩ := List.mem_map.1 hm
      exact ⟨(e.2.cls, e.2.quantities), List.mem_append_right _ (List.mem_map.2 ⟨e, List.mem_filter.2 ⟨he, hu⟩, rfl⟩), s, hss, rfl⟩

theorem declared_iff {blocks : List (Option Flag × List (String × Count))} {o : Flag → Bool} {nb ng : Nat} {n : String} :
    n ∈ expandAll (allParams blocks o) nb ng ↔
      ∃ cnt : Count, ∃ x ∈ declaredStems blocks cnt, x.1.elim true o = true ∧ ∃ i < cnt.eval nb ng, n = x.2 ++ "_" ++ toString i := by
  rw [mem_expandAll_iff]
  constructor
  · rintro ⟨p, hp, i, hi, rfl⟩
    obtain ⟨b, hb, hp⟩ := List.mem_flatMap.1 hp
    split at hp
    · rename_i hu
      exact ⟨p.2, (b.1, p.1), List.mem_flatMap.2 ⟨b, hb, List.mem_map.2 ⟨p, List.mem_filter.2 ⟨hp, by simp⟩, rfl⟩⟩, hu, i, hi, rfl⟩
    · simp at hp
  · rintro ⟨cnt, x, hx, hu, i, hi, rfl⟩
    obtain ⟨b, hb, hx⟩ := List.mem_flatMap.1 hx
    obtain ⟨p, hp, rfl⟩ := List.mem_map.1 hx
    obtain ⟨hp', hc⟩ := List.mem_filter.1 hp
    obtain rfl : p.2 = cnt := by simpa using hc
    exact ⟨p, List.mem_flatMap.2 ⟨b, hb, by rw [if_pos hu]; exact hp'⟩, i, hi, rfl⟩

/-- Two lists have the same members. -/
def sameMembers (l l' : List (Option Flag × String)) : Bool := l.all (l'.contains ·) && l'.all (l.contains ·)

theorem sameMembers_iff {l l' : List (Option Flag × String)} (h : sameMembers l l' = true) {x : Option Flag × String} : x ∈ l ↔ x ∈ l' := by
  simp only [sameMembers, Bool.and_eq_true, List.all_eq_true, List.contains_eq_mem, decide_eq_true_eq] at h
  exact ⟨h.1 x, h.2 x⟩

theorem o3_same : (sameMembers (declaredStems o3Blocks .body) (usedStems "pl" [("DoublyTruncatedPowerLaw", ["mass_1_source"])] (smoothedInfoCollection "pl")) &&
    sameMembers (declaredStems o3Blocks .gauss) (usedStems "g" [("TruncatedNormal", ["mass_1_source"])] (smoothedInfoCollection "g")) &&
    sameMembers (declaredStems o3Blocks .totalLessOne) [(none, "lambda")] && sameMembers (declaredStems o3Blocks .total) []) = true := by decide +kernel

theorem o4_same : (sameMembers (declaredStems o4Blocks .body) (usedStems "bpl" [("BrokenPowerlaw", ["mass_1_source"])] (smoothedInfoCollection "bpl")) &&
    sameMembers (declaredStems o4Blocks .gauss) (usedStems "g" [("TruncatedNormal", ["mass_1_source"])] (smoothedInfoCollection "g")) &&
    sameMembers (declaredStems o4Blocks .totalLessOne) [(none, "lambda")] && sameMembers (declaredStems o4Blocks .total) []) = true := by decide +kernel

/-- The stems of the unused names. -/
def angleStems (ct : String) : List (Option Flag × String) :=
  unusedAngles.flatMap fun a => ["loc", "scale"].map fun w => (some a.1, a.2 ++ "_" ++ w ++ "_" ++ ct)

def precessionStems (ct : String) : List (Option Flag × String) :=
  ["loc", "scale", "low", "high"].map fun w => (some .chiP, "chi_p_" ++ w ++ "_" ++ ct)

theorem sage_same :
    (sameMembers (declaredStems sageBlocks .body) (usedStems "pl" [("PowerlawPrimaryMassRatio", ["mass_1_source", "mass_2_source"])]
      ((infoCollection "pl").filter fun e => !sageOff e.1) ++ angleStems "pl") &&
    sameMembers (declaredStems sageBlocks .gauss) (usedStems "g" [("TruncatedNormal", ["mass_1_source"]), ("TruncatedNormal", ["mass_2_source"])]
      ((infoCollection "g").filter fun e => !sageOff e.1) ++ angleStems "g") &&
    sameMembers (declaredStems sageBlocks .totalLessOne) [] && sameMembers (declaredStems sageBlocks .total) [(none, "log_rate")]) = true := by decide +kernel

theorem genie_same :
    (sameMembers (declaredStems genieBlocks .body) (usedStems "pl" [("PowerlawPrimaryMassRatio", ["mass_1_source", "mass_2_source"])]
      ((infoCollection "pl").filter fun e => !genieOff e.1) ++ precessionStems "pl") &&
    sameMembers (declaredStems genieBlocks .gauss) (usedStems "g" [("TruncatedNormal", ["mass_1_source"]), ("TruncatedNormal", ["mass_2_source"])]
      ((infoCollection "g").filter fun e => !genieOff e.1) ++ precessionStems "g") &&
    sameMembers (declaredStems genieBlocks .totalLessOne) [] && sameMembers (declaredStems genieBlocks .total) [(none, "log_rate")]) = true := by decide +kernel

/-! ### The theorems -/

theorem count_cases {P : Count → Prop} : (∃ c, P c) ↔ P .body ∨ P .gauss ∨ P .total ∨ P .totalLessOne := by
  constructor
  · rintro ⟨c, h⟩
    cases c <;> simp [h]
  · rintro (h | h | h | h) <;> exact ⟨_, h⟩

theorem or_shuffle {p b g l : Prop} : (p ∨ b ∨ g ∨ l) ↔ p ∨ l ∨ b ∨ g := by tauto

theorem or_shuffle' {a b c d t : Prop} : ((a ∨ b) ∨ (c ∨ d) ∨ t) ↔ t ∨ a ∨ c ∨ b ∨ d := by tauto

theorem smoothed_used {names : List String} {body : Maker} {ct : String} (ht : smoothedTables names body ct = true)
    {blocks : List (Option Flag × List (String × Count))}
    (hsame : (sameMembers (declaredStems blocks .body) (usedStems ct [(body.cls, body.quantities)] (smoothedInfoCollection ct)) &&
      sameMembers (declaredStems blocks .gauss) (usedStems "g" [("TruncatedNormal", ["mass_1_source"])] (smoothedInfoCollection "g")) &&
      sameMembers (declaredStems blocks .totalLessOne) [(none, "lambda")] && sameMembers (declaredStems blocks .total) []) = true)
    {o : Flag → Bool} {Nb Ng : Nat} {params : Dict String ℝ} {m : Smoothed} (h : smoothedModel names body ct o Nb Ng params = .ok m) (n : String) :
    n ∈ names ++ expandAll (allParams blocks o) Nb Ng ↔ n ∈ names ∨ (∃ i, i + 1 < Nb + Ng ∧ n = "lambda_" ++ toString i) ∨
      (∃ i < Nb, ∃ c, m.components[i]? = some c ∧ Feeds n ct i c) ∨ ∃ i < Ng, ∃ c, m.components[Nb + i]? = some c ∧ Feeds n "g" i c := by
  simp only [Bool.and_eq_true] at hsame
  obtain ⟨⟨⟨s1, s2⟩, s3⟩, s4⟩ := hsame
  obtain ⟨-, -, -, -, -, -, -, -, hb, hg⟩ := smoothedModel_ok ht h
  have eB : (∃ i < Nb, ∃ c, m.components[i]? = some c ∧ Feeds n ct i c) ↔
      ∃ x ∈ declaredStems blocks .body, x.1.elim true o = true ∧ ∃ i < Nb, n = x.2 ++ "_" ++ toString i := by
    constructor
    · rintro ⟨i, hi, c, hc, hf⟩
      obtain ⟨_, c', _, a2, a3, _, _, _, a6⟩ := hb i hi
      obtain rfl : c = c' := Option.some.inj (hc.symm.trans a2)
      obtain ⟨x, hx, hu, e⟩ := (feeds_iff a3 a6).1 hf
      exact ⟨x, (sameMembers_iff s1).2 hx, hu, i, hi, e⟩
    · rintro ⟨x, hx, hu, i, hi, e⟩
      obtain ⟨_, c, _, a2, a3, _, _, _, a6⟩ := hb i hi
      exact ⟨i, hi, c, a2, (feeds_iff a3 a6).2 ⟨x, (sameMembers_iff s1).1 hx, hu, e⟩⟩
  have eG : (∃ i < Ng, ∃ c, m.components[Nb + i]? = some c ∧ Feeds n "g" i c) ↔
      ∃ x ∈ declaredStems blocks .gauss, x.1.elim true o = true ∧ ∃ i < Ng, n = x.2 ++ "_" ++ toString i := by
    constructor
    · rintro ⟨i, hi, c, hc, hf⟩
      obtain ⟨_, c', _, a2, a3, _, _, _, a6⟩ := hg i hi
      obtain rfl : c = c' := Option.some.inj (hc.symm.trans a2)
      obtain ⟨x, hx, hu, e⟩ := (feeds_iff a3 a6).1 hf
      exact ⟨x, (sameMembers_iff s2).2 hx, hu, i, hi, e⟩
    · rintro ⟨x, hx, hu, i, hi, e⟩
      obtain ⟨_, c, _, a2, a3, _, _, _, a6⟩ := hg i hi
      exact ⟨i, hi, c, a2, (feeds_iff a3 a6).2 ⟨x, (sameMembers_iff s2).1 hx, hu, e⟩⟩
  rw [List.mem_append, declared_iff, count_cases, eB, eG]
  simp only [sameMembers_iff s3, sameMembers_iff s4, List.not_mem_nil, false_and, exists_false, false_or, List.mem_singleton, exists_eq_left,
    Option.elim_none, true_and, Count.eval]
  have hl : (∃ i < Nb + Ng - 1, n = "lambda" ++ "_" ++ toString i) ↔ ∃ i, i + 1 < Nb + Ng ∧ n = "lambda_" ++ toString i := by
    refine exists_congr fun i => ?_
    rw [lambda_name]
    exact and_congr_left fun _ => by omega
  rw [hl]
  exact or_shuffle

/-- **C50** (`o3_n_pls_m_gs`: declared is used).  For every combination of options, numbers of components and hyper-parameters for which the model
is built, the declared hyper-parameters are exactly the shared ones, the mixing weights but the last, and those that are the value of an argument
of a factor of a component: no optional name is forgotten, and none is declared for nothing. -/
theorem C50_o3_declared_iff_used {o : Flag → Bool} {Npl Ng : Nat} {params : Dict String ℝ} {m : Smoothed}
    (h : nSmoothedPowerlawMSmoothedGaussian o Npl Ng params = .ok m) (n : String) :
    n ∈ o3ModelParameters o Npl Ng ↔
      n ∈ ["beta", "delta_m", "log_rate", "mmax", "mmin"] ∨ (∃ i, i + 1 < Npl + Ng ∧ n = "lambda_" ++ toString i) ∨
      (∃ i < Npl, ∃ c, m.components[i]? = some c ∧ Feeds n "pl" i c) ∨ ∃ i < Ng, ∃ c, m.components[Npl + i]? = some c ∧ Feeds n "g" i c :=
  smoothed_used o3_tables o3_same h n

/-- **C50** (`o4_n_bpls_m_gs`: declared is used). -/
theorem C50_o4_declared_iff_used {o : Flag → Bool} {Nbpl Ng : Nat} {params : Dict String ℝ} {m : Smoothed}
    (h : nBrokenPowerlawMGaussian o Nbpl Ng params = .ok m) (n : String) :
    n ∈ o4ModelParameters o Nbpl Ng ↔
      n ∈ ["beta", "delta_m1", "delta_m2", "log_rate", "m1max", "m1min", "m2min"] ∨ (∃ i, i + 1 < Nbpl + Ng ∧ n = "lambda_" ++ toString i) ∨
      (∃ i < Nbpl, ∃ c, m.components[i]? = some c ∧ Feeds n "bpl" i c) ∨ ∃ i < Ng, ∃ c, m.components[Nbpl + i]? = some c ∧ Feeds n "g" i c :=
  smoothed_used o4_tables o4_same h n

/-- The names declared beyond the used ones. -/
def extraNames (extra : String → List (Option Flag × String)) (o : Flag → Bool) (Npl Ng : Nat) (n : String) : Prop :=
  (∃ x ∈ extra "pl", x.1.elim true o = true ∧ ∃ i < Npl, n = x.2 ++ "_" ++ toString i) ∨
    ∃ x ∈ extra "g", x.1.elim true o = true ∧ ∃ i < Ng, n = x.2 ++ "_" ++ toString i

theorem used_off {ct : String} {masses : List (String × List String)} {coll : List (Flag × Maker)} {off o use : Flag → Bool}
    (hoff : ∀ f, off f = true → use f = false) (hon : ∀ f, off f = false → use f = o f) {P : String → Prop} :
    (∃ x ∈ usedStems ct masses (coll.filter fun e => !off e.1), x.1.elim true o = true ∧ P x.2) ↔
      ∃ x ∈ usedStems ct masses coll, x.1.elim true use = true ∧ P x.2 := by
  constructor
  · rintro ⟨x, hx, hu, hp⟩
    rcases List.mem_append.1 hx with hm | hm
    · refine ⟨x, List.mem_append_left _ hm, ?_, hp⟩
      obtain ⟨sh, _, hm⟩ := List.mem_flatMap.1 hm
      obtain ⟨s, _, rfl⟩ := List.mem_map.1 hm
      rfl
    · obtain ⟨e, he, hm⟩ := List.mem_flatMap.1 hm
      obtain ⟨s, hs, rfl⟩ := List.mem_map.1 hm
      obtain ⟨he, hof⟩ := List.mem_filter.1 he
      refine ⟨_, List.mem_append_right _ (List.mem_flatMap.2 ⟨e, he, List.mem_map.2 ⟨s, hs, rfl⟩⟩), ?_, hp⟩
      have := hon e.1 (by simpa using hof)
      simpa [this] using hu
  · rintro ⟨x, hx, hu, hp⟩
    rcases List.mem_append.1 hx with hm | hm
    · refine ⟨x, List.mem_append_left _ hm, ?_, hp⟩
      obtain ⟨sh, _, hm⟩ := List.mem_flatMap.1 hm
      obtain ⟨s, _, rfl⟩ := List.mem_map.1 hm
      rfl
    · obtain ⟨e, he, hm⟩ := List.mem_flatMap.1 hm
      obtain ⟨s, hs, rfl⟩ := List.mem_map.1 hm
      have hu' : use e.1 = true := hu
      have hof : off e.1 = false := by
        cases hh : off e.1 with
        | false => rfl
        | true => rw [hoff _ hh] at hu'; simp at hu'
      refine ⟨_, List.mem_append_right _ (List.mem_flatMap.2 ⟨e, List.mem_filter.2 ⟨he, by simp [hof]⟩, List.mem_map.2 ⟨s, hs, rfl⟩⟩), ?_, hp⟩
      simpa [← hon e.1 hof] using hu'

theorem exists_mem_append {α : Type} {l l' : List α} {P : α → Prop} : (∃ x ∈ l ++ l', P x) ↔ (∃ x ∈ l, P x) ∨ ∃ x ∈ l', P x := by
  simp only [List.mem_append, or_and_right, exists_or]

theorem plain_used {blocks : List (Option Flag × List (String × Count))} {off o use : Flag → Bool} {extra : String → List (Option Flag × String)}
    (hoff : ∀ f, off f = true → use f = false) (hon : ∀ f, off f = false → use f = o f)
    (hsame : (sameMembers (declaredStems blocks .body) (usedStems "pl" [("PowerlawPrimaryMassRatio", ["mass_1_source", "mass_2_source"])]
        ((infoCollection "pl").filter fun e => !off e.1) ++ extra "pl") &&
      sameMembers (declaredStems blocks .gauss) (usedStems "g" [("TruncatedNormal", ["mass_1_source"]), ("TruncatedNormal", ["mass_2_source"])]
        ((infoCollection "g").filter fun e => !off e.1) ++ extra "g") &&
      sameMembers (declaredStems blocks .totalLessOne) [] && sameMembers (declaredStems blocks .total) [(none, "log_rate")]) = true)
    {Npl Ng : Nat} {params : Dict String ℝ} {m : Mixture} (h : nPowerlawMGaussian use Npl Ng params = .ok m) (n : String) :
    n ∈ expandAll (allParams blocks o) Npl Ng ↔ (∃ i < Npl + Ng, n = "log_rate_" ++ toString i) ∨
      (∃ i < Npl, ∃ c, m.components[i]? = some c ∧ Feeds n "pl" i c) ∨ (∃ i < Ng, ∃ c, m.components[Npl + i]? = some c ∧ Feeds n "g" i c) ∨
      extraNames extra o Npl Ng n := by
  simp only [Bool.and_eq_true] at hsame
  obtain ⟨⟨⟨s1, s2⟩, s3⟩, s4⟩ := hsame
  obtain ⟨-, hb, hg⟩ := nPowerlawMGaussian_components h
  have eB : (∃ i < Npl, ∃ c, m.components[i]? = some c ∧ Feeds n "pl" i c) ↔
      ∃ x ∈ usedStems "pl" [("PowerlawPrimaryMassRatio", ["mass_1_source", "mass_2_source"])] (infoCollection "pl"),
        x.1.elim true use = true ∧ ∃ i < Npl, n = x.2 ++ "_" ++ toString i := by
    constructor
    · rintro ⟨i, hi, c, hc, hf⟩
      obtain ⟨c', a2, a3, _, _, a6⟩ := hb i hi
      obtain rfl : c = c' := Option.some.inj (hc.symm.trans a2)
      obtain ⟨x, hx, hu, e⟩ := (feeds_iff a3 a6).1 hf
      exact ⟨x, hx, hu, i, hi, e⟩
    · rintro ⟨x, hx, hu, i, hi, e⟩
      obtain ⟨c, a2, a3, _, _, a6⟩ := hb i hi
      exact ⟨i, hi, c, a2, (feeds_iff a3 a6).2 ⟨x, hx, hu, e⟩⟩
  have eG : (∃ i < Ng, ∃ c, m.components[Npl + i]? = some c ∧ Feeds n "g" i c) ↔
      ∃ x ∈ usedStems "g" [("TruncatedNormal", ["mass_1_source"]), ("TruncatedNormal", ["mass_2_source"])] (infoCollection "g"),
        x.1.elim true use = true ∧ ∃ i < Ng, n = x.2 ++ "_" ++ toString i := by
    constructor
    · rintro ⟨i, hi, c, hc, hf⟩
      obtain ⟨c', a2, a3, _, _, a6⟩ := hg i hi
      obtain rfl : c = c' := Option.some.inj (hc.symm.trans a2)
      obtain ⟨x, hx, hu, e⟩ := (feeds_iff a3 a6).1 hf
      exact ⟨x, hx, hu, i, hi, e⟩
    · rintro ⟨x, hx, hu, i, hi, e⟩
      obtain ⟨c, a2, a3, _, _, a6⟩ := hg i hi
      exact ⟨i, hi, c, a2, (feeds_iff a3 a6).2 ⟨x, hx, hu, e⟩⟩
  rw [declared_iff, count_cases, eB, eG]
  simp only [sameMembers_iff s1, sameMembers_iff s2, sameMembers_iff s3, sameMembers_iff s4, List.not_mem_nil, false_and, exists_false, or_false,
    exists_mem_append, List.mem_singleton, exists_eq_left, Option.elim_none, true_and, Count.eval]
  rw [used_off hoff hon (P := fun s => ∃ i < Npl, n = s ++ "_" ++ toString i), used_off hoff hon (P := fun s => ∃ i < Ng, n = s ++ "_" ++ toString i),
    show ("log_rate" : String) ++ "_" = "log_rate_" by decide]
  exact or_shuffle'

theorem sage_off (o : Flag → Bool) : (∀ f, sageOff f = true → sageConstants o f = false) ∧ ∀ f, sageOff f = false → sageConstants o f = o f :=
  ⟨fun f hf => by cases f <;> first | rfl | simp [sageOff] at hf, fun f hf => by cases f <;> first | rfl | simp [sageOff] at hf⟩

theorem genie_off (o : Flag → Bool) : (∀ f, genieOff f = true → genieConstants o f = false) ∧ ∀ f, genieOff f = false → genieConstants o f = o f :=
  ⟨fun f hf => by cases f <;> first | rfl | simp [genieOff] at hf, fun f hf => by cases f <;> first | rfl | simp [genieOff] at hf⟩

theorem angle_iff {o : Flag → Bool} {Npl Ng : Nat} {n : String} : extraNames angleStems o Npl Ng n ↔ UnusedAngle o Npl Ng n := by
  simp only [extraNames, UnusedAngle, angleStems, List.mem_flatMap, List.mem_map]
  constructor
  · rintro (⟨x, ⟨a, ha, w, hw, rfl⟩, hu, i, hi, rfl⟩ | ⟨x, ⟨a, ha, w, hw, rfl⟩, hu, i, hi, rfl⟩)
    · exact ⟨a, ha, hu, w, hw, .inl ⟨i, hi, by simp [String.append_assoc]⟩⟩
    · exact ⟨a, ha, hu, w, hw, .inr ⟨i, hi, by simp [String.append_assoc]⟩⟩
  · rintro ⟨a, ha, hu, w, hw, ⟨i, hi, rfl⟩ | ⟨i, hi, rfl⟩⟩
    · exact .inl ⟨_, ⟨a, ha, w, hw, rfl⟩, hu, i, hi, by simp [String.append_assoc]⟩
    · exact .inr ⟨_, ⟨a, ha, w, hw, rfl⟩, hu, i, hi, by simp [String.append_assoc]⟩

theorem precession_iff {o : Flag → Bool} {Npl Ng : Nat} {n : String} : extraNames precessionStems o Npl Ng n ↔ UnusedPrecession o Npl Ng n := by
  simp only [extraNames, UnusedPrecession, precessionStems, List.mem_map]
  constructor
  · rintro (⟨x, ⟨w, hw, rfl⟩, hu, i, hi, rfl⟩ | ⟨x, ⟨w, hw, rfl⟩, hu, i, hi, rfl⟩)
    · exact ⟨hu, w, hw, .inl ⟨i, hi, by simp [String.append_assoc]⟩⟩
    · exact ⟨hu, w, hw, .inr ⟨i, hi, by simp [String.append_assoc]⟩⟩
  · rintro ⟨hu, w, hw, ⟨i, hi, rfl⟩ | ⟨i, hi, rfl⟩⟩
    · exact .inl ⟨_, ⟨w, hw, rfl⟩, hu, i, hi, by simp [String.append_assoc]⟩
    · exact .inr ⟨_, ⟨w, hw, rfl⟩, hu, i, hi, by simp [String.append_assoc]⟩

/-- **C50** (`n_pls_m_gs`: what is declared).  For every combination of options, numbers of components and hyper-parameters for which the model is
built, the declared hyper-parameters are the rates, those that are the value of an argument of a factor of a component, and the locations and
scales of the angles that are switched on (which the model does not use: `C50_unused_angles_violated`). -/
theorem C50_declared_iff_used_partial {o : Flag → Bool} {Npl Ng : Nat} {params : Dict String ℝ} {m : Mixture}
    (h : nPowerlawMGaussian (sageConstants o) Npl Ng params = .ok m) (n : String) :
    n ∈ sageModelParameters o Npl Ng ↔ (∃ i < Npl + Ng, n = "log_rate_" ++ toString i) ∨
      (∃ i < Npl, ∃ c, m.components[i]? = some c ∧ Feeds n "pl" i c) ∨ (∃ i < Ng, ∃ c, m.components[Npl + i]? = some c ∧ Feeds n "g" i c) ∨
      UnusedAngle o Npl Ng n := by
  rw [← angle_iff]
  exact plain_used (sage_off o).1 (sage_off o).2 sage_same h n

/-- **C50** (synthetic populations: what is declared).  The same, where the hyper-parameters declared for nothing are those of the precessing spin
(`C50_unused_precession_violated`). -/
theorem C50_genie_declared_iff_used_partial {o : Flag → Bool} {Npl Ng : Nat} {params : Dict String ℝ} {m : Mixture}
    (h : nPowerlawMGaussian (genieConstants o) Npl Ng params = .ok m) (n : String) :
    n ∈ genieModelParameters o Npl Ng ↔ (∃ i < Npl + Ng, n = "log_rate_" ++ toString i) ∨
      (∃ i < Npl, ∃ c, m.components[i]? = some c ∧ Feeds n "pl" i c) ∨ (∃ i < Ng, ∃ c, m.components[Npl + i]? = some c ∧ Feeds n "g" i c) ∨
      UnusedPrecession o Npl Ng n := by
  rw [← precession_iff]
  exact plain_used (genie_off o).1 (genie_off o).2 genie_same h n

/-! ### Names without effect -/

theorem buildLoop_congr_used {d d' : Dict String ℝ} {coll : List (Flag × Maker)} {use : Flag → Bool}
    (h : ∀ e ∈ coll, use e.1 = true → SameFor d d' e.2) (N : Nat) (acc : List (List Factor)) :
    buildLoop use N d coll acc = buildLoop use N d' coll acc := by
  induction coll generalizing acc with
  | nil => rfl
  | cons c coll ih =>
    obtain ⟨fl, mk⟩ := c
    have ih' := fun acc => ih (fun e he => h e (by simp [he])) acc
    unfold buildLoop
    by_cases hu : use fl = true
    · rw [create_congr (h (fl, mk) (by simp) hu) N]
      simp only [ih']
    · simp only [ih', if_neg hu]

/-- No look-up of the builder is for the stem. -/
def avoids (stem : String) (mk : Maker) : Bool := mk.reads.all fun r => notNumbered r.base && decide (r.base ≠ stem)

theorem sameFor_set {stem : String} {i : Nat} {mk : Maker} (h : avoids stem mk = true) (params : Dict String ℝ) (v : ℝ) :
    SameFor (set params (stem ++ "_" ++ toString i) v) params mk := by
  intro r hr
  have := List.all_eq_true.1 h r hr
  simp only [Bool.and_eq_true, decide_eq_true_eq] at this
  refine ⟨get?_set_ne _ _ fun e => numbered_ne this.1 e.symm, fun j => get?_set_ne _ _ fun e => this.2 (numbered_eq e).1⟩

theorem set_unused {use : Flag → Bool} {stem : String} (hm : (avoids stem powerlawPrimaryMassRatio &&
      avoids stem (truncatedNormal "mass_1_source" "m1" "g") && avoids stem (truncatedNormal "mass_2_source" "m2" "g") && decide (stem ≠ "log_rate")) = true)
    (hpl : ∀ e ∈ infoCollection "pl", use e.1 = true → avoids stem e.2 = true) (hg : ∀ e ∈ infoCollection "g", use e.1 = true → avoids stem e.2 = true)
    (i Npl Ng : Nat) (params : Dict String ℝ) (v : ℝ) :
    nPowerlawMGaussian use Npl Ng (set params (stem ++ "_" ++ toString i) v) = nPowerlawMGaussian use Npl Ng params := by
  simp only [Bool.and_eq_true, decide_eq_true_eq] at hm
  obtain ⟨⟨⟨m1, m2⟩, m3⟩, m4⟩ := hm
  have e1 : buildPl use Npl (set params (stem ++ "_" ++ toString i) v) = buildPl use Npl params := by
    unfold buildPl
    rw [create_congr (sameFor_set m1 params v)]
    simp only [buildLoop_congr_used fun e he hu => sameFor_set (i := i) (hpl e he hu) params v]
  have e2 : buildG use Ng (set params (stem ++ "_" ++ toString i) v) = buildG use Ng params := by
    unfold buildG
    rw [create_congr (sameFor_set m2 params v), create_congr (sameFor_set m3 params v)]
    simp only [buildLoop_congr_used fun e he hu => sameFor_set (i := i) (hg e he hu) params v]
  have e3 : ∀ j : Nat, item (set params (stem ++ "_" ++ toString i) v) ("log_rate_" ++ toString j) = item params ("log_rate_" ++ toString j) := by
    intro j
    unfold item
    rw [get?_set_ne]
    rw [show ("log_rate_" : String) = "log_rate" ++ "_" by decide]
    intro e
    exact m4 (numbered_eq e).1.symm
  unfold nPowerlawMGaussian
  rw [e1, e2]
  simp only [e3]

theorem angles_avoid : (["pl", "g"].all fun ct => (angleStems ct).all fun x => (infoCollection "pl").all (fun e => avoids x.2 e.2) &&
    (infoCollection "g").all (fun e => avoids x.2 e.2) && avoids x.2 powerlawPrimaryMassRatio &&
    avoids x.2 (truncatedNormal "mass_1_source" "m1" "g") && avoids x.2 (truncatedNormal "mass_2_source" "m2" "g") && decide (x.2 ≠ "log_rate")) = true := by
  decide +kernel

theorem precession_avoid : (["pl", "g"].all fun ct => (precessionStems ct).all fun x =>
    (infoCollection "pl").all (fun e => decide (e.1 = .chiP) || avoids x.2 e.2) &&
    (infoCollection "g").all (fun e => decide (e.1 = .chiP) || avoids x.2 e.2) && avoids x.2 powerlawPrimaryMassRatio &&
    avoids x.2 (truncatedNormal "mass_1_source" "m1" "g") && avoids x.2 (truncatedNormal "mass_2_source" "m2" "g") && decide (x.2 ≠ "log_rate")) = true := by
  decide +kernel

theorem extra_cases {extra : String → List (Option Flag × String)} {o : Flag → Bool} {Npl Ng : Nat} {n : String} (h : extraNames extra o Npl Ng n) :
    ∃ ct ∈ ["pl", "g"], ∃ x ∈ extra ct, ∃ i : Nat, n = x.2 ++ "_" ++ toString i := by
  rcases h with ⟨x, hx, _, i, _, rfl⟩ | ⟨x, hx, _, i, _, rfl⟩
  · exact ⟨"pl", by simp, x, hx, i, rfl⟩
  · exact ⟨"g", by simp, x, hx, i, rfl⟩

/-- **C50** (violated: the angles of `n_pls_m_gs`).  With the azimuth between the spins, the inclination, the polarization or the sky position
switched on, the analysis declares a location and a scale per component for it, and asks for their priors, although they have no effect: whatever
value one is given, the model is the same. -/
theorem C50_unused_angles_violated {o : Flag → Bool} {Npl Ng : Nat} {n : String} (h : UnusedAngle o Npl Ng n) :
    n ∈ sageModelParameters o Npl Ng ∧ ∀ (params : Dict String ℝ) (v : ℝ),
      nPowerlawMGaussian (sageConstants o) Npl Ng (set params n v) = nPowerlawMGaussian (sageConstants o) Npl Ng params := by
  rw [← angle_iff] at h
  constructor
  · have ss := sage_same
    simp only [Bool.and_eq_true] at ss
    refine declared_iff.2 ?_
    rcases h with ⟨x, hx, hu, hh⟩ | ⟨x, hx, hu, hh⟩
    · exact ⟨.body, x, (sameMembers_iff ss.1.1.1).2 (List.mem_append_right _ hx), hu, hh⟩
    · exact ⟨.gauss, x, (sameMembers_iff ss.1.1.2).2 (List.mem_append_right _ hx), hu, hh⟩
  · intro params v
    obtain ⟨ct, hct, x, hx, i, rfl⟩ := extra_cases h
    have := List.all_eq_true.1 (List.all_eq_true.1 angles_avoid ct hct) x hx
    simp only [Bool.and_eq_true] at this
    obtain ⟨⟨⟨⟨⟨a1, a2⟩, a3⟩, a4⟩, a5⟩, a6⟩ := this
    exact set_unused (by simp only [Bool.and_eq_true]; exact ⟨⟨⟨a3, a4⟩, a5⟩, a6⟩) (fun e he _ => List.all_eq_true.1 a1 e he)
      (fun e he _ => List.all_eq_true.1 a2 e he) _ _ _ _ _

/-- **C50** (violated: the precessing spin of synthetic populations).  Its hyper-parameters must be in the model file but have no effect. -/
theorem C50_unused_precession_violated {o : Flag → Bool} {Npl Ng : Nat} {n : String} (h : UnusedPrecession o Npl Ng n) :
    n ∈ genieModelParameters o Npl Ng ∧ ∀ (params : Dict String ℝ) (v : ℝ),
      nPowerlawMGaussian (genieConstants o) Npl Ng (set params n v) = nPowerlawMGaussian (genieConstants o) Npl Ng params := by
  rw [← precession_iff] at h
  constructor
  · have ss := genie_same
    simp only [Bool.and_eq_true] at ss
    refine declared_iff.2 ?_
    rcases h with ⟨x, hx, hu, hh⟩ | ⟨x, hx, hu, hh⟩
    · exact ⟨.body, x, (sameMembers_iff ss.1.1.1).2 (List.mem_append_right _ hx), hu, hh⟩
    · exact ⟨.gauss, x, (sameMembers_iff ss.1.1.2).2 (List.mem_append_right _ hx), hu, hh⟩
  · intro params v
    obtain ⟨ct, hct, x, hx, i, rfl⟩ := extra_cases h
    have := List.all_eq_true.1 (List.all_eq_true.1 precession_avoid ct hct) x hx
    simp only [Bool.and_eq_true] at this
    obtain ⟨⟨⟨⟨⟨a1, a2⟩, a3⟩, a4⟩, a5⟩, a6⟩ := this
    have key : ∀ {coll : List (Flag × Maker)}, coll.all (fun e => decide (e.1 = .chiP) || avoids x.2 e.2) = true → ∀ e ∈ coll,
        genieConstants o e.1 = true → avoids x.2 e.2 = true := by
      intro coll hc e he hu
      have := List.all_eq_true.1 hc e he
      simp only [Bool.or_eq_true, decide_eq_true_eq] at this
      rcases this with this | this
      · rw [this] at hu; simp [genieConstants] at hu
      · exact this
    exact set_unused (by simp only [Bool.and_eq_true]; exact ⟨⟨⟨a3, a4⟩, a5⟩, a6⟩) (key a1) (key a2) _ _ _ _ _

/-! ### The hypotheses are met -/

/-- An optional bound of the effective-spin mixture is declared because it is used. -/
example : "chi_eff_comp1_low_pl_1" ∈ o3ModelParameters (fun f => decide (f = .chiEffMixture)) 2 1 ∧
    ∃ m c, nSmoothedPowerlawMSmoothedGaussian (fun f => decide (f = .chiEffMixture)) 2 1 (ones (o3ModelParameters (fun f => decide (f = .chiEffMixture)) 2 1)) = .ok m ∧
      m.components[1]? = some c ∧ Feeds "chi_eff_comp1_low_pl_1" "pl" 1 c := by
  have hd : "chi_eff_comp1_low_pl_1" ∈ o3ModelParameters (fun f => decide (f = .chiEffMixture)) 2 1 := by decide +kernel
  obtain ⟨m, hm⟩ := (C50_complete_priors_suffice (fun f => decide (f = .chiEffMixture)) (Nb := 2) (Ng := 1) (by norm_num) _).2.2.1 (by
    intro n hn; rw [keys_ones]; exact hn)
  obtain ⟨-, -, -, -, -, -, -, -, hb, -⟩ := smoothedModel_ok o3_tables hm
  obtain ⟨f, c, a1, a2, a3, a4, a5, a6, a7⟩ := hb 1 (by norm_num)
  refine ⟨hd, m, c, hm, a2, (feeds_iff (masses := [(powerlaw.cls, powerlaw.quantities)]) (coll := smoothedInfoCollection "pl")
    (use := fun f => decide (f = .chiEffMixture)) a3 a7).2 ⟨(some .chiEffMixture, "chi_eff_comp1_low_pl"), by decide +kernel, rfl, by decide⟩⟩

example : UnusedAngle (fun f => decide (f = .rightAscension)) 1 1 "ra_loc_g_0" :=
  ⟨(.rightAscension, "ra"), by simp [unusedAngles], rfl, "loc", by simp, .inr ⟨0, by norm_num, by decide⟩⟩

example : UnusedPrecession (fun f => decide (f = .chiP)) 1 0 "chi_p_high_pl_0" :=
  ⟨rfl, "high", by simp, .inl ⟨0, by norm_num, by decide⟩⟩

end GW.Hybrids
