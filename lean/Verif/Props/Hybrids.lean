import Verif.Spec.Hybrids
import Verif.Lemmas.Hybrids

/-!
# C49, C50: hybrid models and the analyses built on them
-/

namespace GW.Hybrids
open GW.PyDict

/-! ### From the look-up tables to the constructed factors -/

/-- Class and coordinates of each factor. -/
def shapes (c : List Factor) : List (String × List String) := c.map fun f => (f.cls, f.quantities)

/-- The look-ups of a builder follow the naming convention. -/
def goodMaker (ct : String) (mk : Maker) : Bool :=
  decide (signature mk.cls ≠ []) && decide (mk.reads.map (fun r => (r.coord, r.kwarg)) = signature mk.cls) &&
    mk.reads.all fun r => decide (r.base = hyperName mk.cls mk.quantities ct r.coord r.kwarg) && (r.negated == flips mk.cls r.kwarg) &&
      (match r.mode with
        | .necessary => decide (fallback mk.cls r.kwarg = none)
        | .optional => decide (fallback mk.cls r.kwarg = some none)
        | .default k => decide (fallback mk.cls r.kwarg = some (some k)) && !r.negated)

theorem good_info_pl : (infoCollection "pl").all (fun e => goodMaker "pl" e.2) = true := by decide +kernel
theorem good_info_g : (infoCollection "g").all (fun e => goodMaker "g" e.2) = true := by decide +kernel
theorem good_smoothed_pl : (smoothedInfoCollection "pl").all (fun e => goodMaker "pl" e.2) = true := by decide +kernel
theorem good_smoothed_bpl : (smoothedInfoCollection "bpl").all (fun e => goodMaker "bpl" e.2) = true := by decide +kernel
theorem good_smoothed_g : (smoothedInfoCollection "g").all (fun e => goodMaker "g" e.2) = true := by decide +kernel
theorem good_mass_pl : goodMaker "pl" powerlawPrimaryMassRatio = true := by decide +kernel
theorem good_mass_m1 : goodMaker "g" (truncatedNormal "mass_1_source" "m1" "g") = true := by decide +kernel
theorem good_mass_m2 : goodMaker "g" (truncatedNormal "mass_2_source" "m2" "g") = true := by decide +kernel
theorem good_powerlaw : goodMaker "pl" powerlaw = true := by decide +kernel
theorem good_brokenPowerlaw : goodMaker "bpl" brokenPowerlaw = true := by decide +kernel

theorem makeFactor_configured {params : Dict String ℝ} {ct : String} {mk : Maker} {i : Nat} {f : Factor} (hg : goodMaker ct mk = true)
    (h : makeFactor params mk i = .ok f) : WellConfigured params ct i [f] := by
  obtain ⟨h1, h2, h3⟩ := makeFactor_ok h
  unfold goodMaker at hg
  simp only [Bool.and_eq_true, decide_eq_true_eq, List.all_eq_true] at hg
  obtain ⟨⟨g1, g2⟩, g3⟩ := hg
  have hread : ∀ r a, readArg params i r = .ok a → a.coord = r.coord ∧ a.kwarg = r.kwarg := by
    intro r a hr
    unfold readArg at hr
    split at hr
    · simp at hr
    · simp only [Except.ok.injEq] at hr; subst hr; exact ⟨rfl, rfl⟩
  intro f' hf'
  obtain rfl : f' = f := by simpa using hf'
  rw [h1]
  refine ⟨g1, ?_, ?_⟩
  · rw [← g2]
    clear g3 g2 g1
    generalize mk.reads = rs at h3
    generalize f'.args = as at h3
    induction h3 with
    | nil => rfl
    | cons hd _ ih =>
      obtain ⟨e1, e2⟩ := hread _ _ hd
      simp only [List.map_cons, e1, e2, ih]
  · intro a ha
    obtain ⟨n, hn, rfl⟩ := List.getElem_of_mem ha
    have hlen := h3.length_eq
    have hr := (List.forall₂_iff_get.1 h3).2 n (by omega) hn
    simp only [List.get_eq_getElem] at hr
    set r := mk.reads[n]'(by omega) with hrdef
    set a := f'.args[n] with hadef
    obtain ⟨⟨b1, b2⟩, b3⟩ := g3 r (List.getElem_mem _)
    obtain ⟨e1, e2⟩ := hread _ _ hr
    unfold Configured
    simp only [e1, e2, h1, h2]
    rw [← b1]
    unfold readArg at hr
    cases hp : getParameter params [r.base ++ "_" ++ toString i, r.base] r.mode with
    | error e => rw [hp] at hr; simp at hr
    | ok v =>
      rw [hp] at hr
      simp only [Except.ok.injEq] at hr
      obtain ⟨c1, c2⟩ := getParameter_ok hp
      have hv : a.value = if r.negated then v.map (-·) else v := by rw [← hr]
      have hneg : r.negated = flips mk.cls r.kwarg := by simpa using b2
      rw [hneg] at hv
      cases h5 : get? params (r.base ++ "_" ++ toString i) with
      | some x =>
        rw [h5] at c1
        simp only at c1 ⊢
        rw [hv, c1]
        cases flips mk.cls r.kwarg <;> rfl
      | none =>
        rw [h5] at c1
        cases h6 : get? params r.base with
        | some x =>
          rw [h6] at c1
          simp only at c1 ⊢
          rw [hv, c1]
          cases flips mk.cls r.kwarg <;> rfl
        | none =>
          rw [h6] at c1
          simp only at c1 ⊢
          cases hm : r.mode with
          | necessary =>
            obtain ⟨x, hx⟩ := c2 hm
            rw [hm] at c1; rw [hx] at c1; simp at c1
          | optional =>
            rw [hm] at c1 b3
            simp only [decide_eq_true_eq] at b3
            refine ⟨none, b3, ?_⟩
            rw [hv, c1]
            cases flips mk.cls r.kwarg <;> rfl
          | default k =>
            rw [hm] at c1 b3
            simp only [Bool.and_eq_true, decide_eq_true_eq, Bool.not_eq_true'] at b3
            refine ⟨some k, b3.1, ?_⟩
            rw [hv, c1, ← hneg, b3.2]
            rfl

theorem WellConfigured.append {params : Dict String ℝ} {ct : String} {i : Nat} {c d : List Factor} (hc : WellConfigured params ct i c)
    (hd : WellConfigured params ct i d) : WellConfigured params ct i (c ++ d) := by
  intro f hf
  rcases List.mem_append.1 hf with h | h
  · exact hc f h
  · exact hd f h

theorem forall₂_configured {params : Dict String ℝ} {ct : String} {i : Nat} {coll : List (Flag × Maker)} {fs : List Factor}
    (hg : coll.all (fun e => goodMaker ct e.2) = true)
    (h : List.Forall₂ (fun (e : Flag × Maker) f => makeFactor params e.2 i = .ok f) coll fs) :
    WellConfigured params ct i fs ∧ coordinates fs = coll.flatMap (fun e => e.2.quantities) ∧ families fs = coll.map (fun e => e.2.cls) ∧
      shapes fs = coll.map fun e => (e.2.cls, e.2.quantities) := by
  induction h with
  | nil => exact ⟨by intro f hf; simp at hf, rfl, rfl, rfl⟩
  | cons hd _ ih =>
    simp only [List.all_cons, Bool.and_eq_true] at hg
    obtain ⟨i1, i2, i3, i4⟩ := ih hg.2
    obtain ⟨m1, m2, _⟩ := makeFactor_ok hd
    refine ⟨(makeFactor_configured hg.1 hd).append i1, ?_, ?_, ?_⟩
    · simp only [coordinates, List.flatMap_cons, m2] at i2 ⊢
      rw [i2]
    · simp only [families, List.map_cons, m1] at i3 ⊢
      rw [i3]
    · simp only [shapes, List.map_cons, m1, m2] at i4 ⊢
      rw [i4]

/-- What the loop over the optional factors makes of well configured mass factors. -/
theorem buildLoop_components {use : Flag → Bool} {N : Nat} {params : Dict String ℝ} {ct : String} {coll : List (Flag × Maker)}
    {acc res : List (List Factor)} (hg : coll.all (fun e => goodMaker ct e.2) = true) (hacc : acc.length = N)
    (h : buildLoop use N params coll acc = .ok res) {mass cls : List String} {sh : List (String × List String)}
    (hm : ∀ i, i < N → ∃ a, acc[i]? = some a ∧ WellConfigured params ct i a ∧ coordinates a = mass ∧ families a = cls ∧ shapes a = sh) :
    res.length = N ∧ ∀ i, i < N → ∃ c, res[i]? = some c ∧ WellConfigured params ct i c ∧
      coordinates c = mass ++ (coll.filter fun e => use e.1).flatMap (fun e => e.2.quantities) ∧
      families c = cls ++ (coll.filter fun e => use e.1).map (fun e => e.2.cls) ∧
      shapes c = sh ++ (coll.filter fun e => use e.1).map fun e => (e.2.cls, e.2.quantities) := by
  obtain ⟨h1, h2⟩ := buildLoop_ok hacc h
  refine ⟨h1, fun i hi => ?_⟩
  obtain ⟨a, ha, hw, hq, hf, hs⟩ := hm i hi
  obtain ⟨fs, hfs, hall⟩ := h2 i hi a ha
  obtain ⟨w, q, fam, shp⟩ := forall₂_configured (ct := ct) (by
    rw [List.all_eq_true] at hg ⊢
    exact fun e he => hg e (List.mem_of_mem_filter he)) hall
  refine ⟨a ++ fs, hfs, hw.append w, ?_, ?_, ?_⟩
  · rw [← hq, ← q]; simp [coordinates]
  · rw [← hf, ← fam]; simp [families]
  · rw [← hs, ← shp]; simp [shapes]

theorem buildPl_components {use : Flag → Bool} {N : Nat} {params : Dict String ℝ} {res : List (List Factor)}
    (h : buildPl use N params = .ok res) :
    res.length = N ∧ ∀ i, i < N → ∃ c, res[i]? = some c ∧ WellConfigured params "pl" i c ∧
      coordinates c = ["mass_1_source", "mass_2_source"] ++ ((infoCollection "pl").filter fun e => use e.1).flatMap (fun e => e.2.quantities) ∧
      families c = ["PowerlawPrimaryMassRatio"] ++ ((infoCollection "pl").filter fun e => use e.1).map (fun e => e.2.cls) ∧
      shapes c = [("PowerlawPrimaryMassRatio", ["mass_1_source", "mass_2_source"])] ++ ((infoCollection "pl").filter fun e => use e.1).map fun e => (e.2.cls, e.2.quantities) := by
  unfold buildPl at h
  cases hc : create N params powerlawPrimaryMassRatio with
  | error e => rw [hc] at h; simp at h
  | ok ms =>
    rw [hc] at h
    obtain ⟨hl, hms⟩ := create_ok hc
    refine buildLoop_components good_info_pl (by simpa using hl) h fun i hi => ?_
    obtain ⟨f, hf, hmf⟩ := hms i hi
    obtain ⟨m1, m2, _⟩ := makeFactor_ok hmf
    refine ⟨[f], by simp [hf], makeFactor_configured good_mass_pl hmf, by simp [coordinates, m2, powerlawPrimaryMassRatio],
      by simp [families, m1, powerlawPrimaryMassRatio], by simp [shapes, m1, m2, powerlawPrimaryMassRatio]⟩

theorem buildG_components {use : Flag → Bool} {N : Nat} {params : Dict String ℝ} {res : List (List Factor)}
    (h : buildG use N params = .ok res) :
    res.length = N ∧ ∀ i, i < N → ∃ c, res[i]? = some c ∧ WellConfigured params "g" i c ∧
      coordinates c = ["mass_1_source", "mass_2_source"] ++ ((infoCollection "g").filter fun e => use e.1).flatMap (fun e => e.2.quantities) ∧
      families c = ["TruncatedNormal", "TruncatedNormal"] ++ ((infoCollection "g").filter fun e => use e.1).map (fun e => e.2.cls) ∧
      shapes c = [("TruncatedNormal", ["mass_1_source"]), ("TruncatedNormal", ["mass_2_source"])] ++ ((infoCollection "g").filter fun e => use e.1).map fun e => (e.2.cls, e.2.quantities) := by
  unfold buildG at h
  cases hc : create N params (truncatedNormal "mass_1_source" "m1" "g") with
  | error e => rw [hc] at h; simp at h
  | ok ms =>
    rw [hc] at h
    simp only at h
    cases hc' : create N params (truncatedNormal "mass_2_source" "m2" "g") with
    | error e => rw [hc'] at h; simp at h
    | ok ms' =>
      rw [hc'] at h
      obtain ⟨hl, hms⟩ := create_ok hc
      obtain ⟨hl', hms'⟩ := create_ok hc'
      refine buildLoop_components good_info_g (by simp [hl, hl']) h fun i hi => ?_
      obtain ⟨f, hf, hmf⟩ := hms i hi
      obtain ⟨f', hf', hmf'⟩ := hms' i hi
      obtain ⟨m1, m2, _⟩ := makeFactor_ok hmf
      obtain ⟨m1', m2', _⟩ := makeFactor_ok hmf'
      refine ⟨[f, f'], by simp [List.getElem?_zipWith, hf, hf'],
        (makeFactor_configured good_mass_m1 hmf).append (makeFactor_configured good_mass_m2 hmf'), ?_, ?_, ?_⟩
      · simp [coordinates, m2, m2', truncatedNormal]
      · simp [families, m1, m1', truncatedNormal]
      · simp [shapes, m1, m1', m2, m2', truncatedNormal]

theorem item_ok {params : Dict String ℝ} {n : String} {v : ℝ} (h : item params n = .ok v) : get? params n = some v := by
  unfold item at h
  split at h
  · rename_i w hw; simp only [Except.ok.injEq] at h; rw [hw, h]
  · simp at h

theorem map_some_ok {α ε : Type} {x : Except ε α} {y : Option α} (h : x.map some = .ok y) : ∃ a, x = .ok a ∧ y = some a := by
  cases x with
  | error e => simp [Except.map] at h
  | ok a => simp only [Except.map, Except.ok.injEq] at h; exact ⟨a, rfl, h.symm⟩

/-- What a successful call of the model returns. -/
theorem nPowerlawMGaussian_ok {use : Flag → Bool} {Npl Ng : Nat} {params : Dict String ℝ} {m : Mixture}
    (h : nPowerlawMGaussian use Npl Ng params = .ok m) :
    ∃ a b, m.components = a ++ b ∧ a.length = Npl ∧ b.length = Ng ∧ (0 < Npl → buildPl use Npl params = .ok a) ∧
      (0 < Ng → buildG use Ng params = .ok b) ∧ 0 < Npl + Ng ∧ m.logRates.length = Npl + Ng ∧
      ∀ i, i < Npl + Ng → ∃ v, m.logRates[i]? = some v ∧ get? params ("log_rate_" ++ toString i) = some v := by
  unfold nPowerlawMGaussian at h
  have hrate : ∀ (comps : List (List Factor)), (match (List.range (Npl + Ng)).mapM fun i => item params ("log_rate_" ++ toString i) with
        | .error e => .error e
        | .ok rates => .ok ⟨rates, comps⟩ : Except Err Mixture) = .ok m →
      m.components = comps ∧ m.logRates.length = Npl + Ng ∧
      ∀ i, i < Npl + Ng → ∃ v, m.logRates[i]? = some v ∧ get? params ("log_rate_" ++ toString i) = some v := by
    intro comps hh
    cases hr : (List.range (Npl + Ng)).mapM fun i => item params ("log_rate_" ++ toString i) with
    | error e => rw [hr] at hh; simp at hh
    | ok rates =>
      rw [hr] at hh
      simp only [Except.ok.injEq] at hh
      subst hh
      obtain ⟨h1, h2⟩ := mapM_range _ _ _ hr
      refine ⟨rfl, h1, fun i hi => ?_⟩
      obtain ⟨v, hv, hi⟩ := h2 i hi
      exact ⟨v, hv, item_ok hi⟩
  by_cases hp : 0 < Npl
  · rw [if_pos hp] at h
    cases hpl : (buildPl use Npl params).map some with
    | error e => rw [hpl] at h; simp at h
    | ok pl =>
      rw [hpl] at h
      obtain ⟨a, ha, rfl⟩ := map_some_ok hpl
      have hal := (buildPl_components ha).1
      by_cases hg : 0 < Ng
      · rw [if_pos hg] at h
        cases hgg : (buildG use Ng params).map some with
        | error e => rw [hgg] at h; simp at h
        | ok g =>
          rw [hgg] at h
          obtain ⟨b, hb, rfl⟩ := map_some_ok hgg
          have hbl := (buildG_components hb).1
          simp only at h
          rw [if_neg (by omega), if_neg (by omega)] at h
          obtain ⟨c1, c2, c3⟩ := hrate _ h
          exact ⟨a, b, c1, hal, hbl, fun _ => ha, fun _ => hb, by omega, c2, c3⟩
      · rw [if_neg hg] at h
        simp only at h
        rw [if_neg (by omega), if_pos (by omega)] at h
        obtain ⟨c1, c2, c3⟩ := hrate _ h
        exact ⟨a, [], by simpa using c1, hal, by simp; omega, fun _ => ha, fun hh => absurd hh hg, by omega, c2, c3⟩
  · rw [if_neg hp] at h
    by_cases hg : 0 < Ng
    · rw [if_pos hg] at h
      simp only at h
      cases hgg : (buildG use Ng params).map some with
      | error e => rw [hgg] at h; simp at h
      | ok g =>
        rw [hgg] at h
        obtain ⟨b, hb, rfl⟩ := map_some_ok hgg
        have hbl := (buildG_components hb).1
        simp only at h
        rw [if_pos (by omega)] at h
        obtain ⟨c1, c2, c3⟩ := hrate _ h
        exact ⟨[], b, by simpa using c1, by simp; omega, hbl, fun hh => absurd hh hp, fun _ => hb, by omega, c2, c3⟩
    · rw [if_neg hg] at h
      simp only at h
      rw [if_neg (by omega), if_neg (by omega)] at h
      simp at h

/-- Components by position. -/
theorem nPowerlawMGaussian_components {use : Flag → Bool} {Npl Ng : Nat} {params : Dict String ℝ} {m : Mixture}
    (h : nPowerlawMGaussian use Npl Ng params = .ok m) :
    m.components.length = Npl + Ng ∧
    (∀ i, i < Npl → ∃ c, m.components[i]? = some c ∧ WellConfigured params "pl" i c ∧
      coordinates c = ["mass_1_source", "mass_2_source"] ++ ((infoCollection "pl").filter fun e => use e.1).flatMap (fun e => e.2.quantities) ∧
      families c = ["PowerlawPrimaryMassRatio"] ++ ((infoCollection "pl").filter fun e => use e.1).map (fun e => e.2.cls) ∧
      shapes c = [("PowerlawPrimaryMassRatio", ["mass_1_source", "mass_2_source"])] ++ ((infoCollection "pl").filter fun e => use e.1).map fun e => (e.2.cls, e.2.quantities)) ∧
    (∀ i, i < Ng → ∃ c, m.components[Npl + i]? = some c ∧ WellConfigured params "g" i c ∧
      coordinates c = ["mass_1_source", "mass_2_source"] ++ ((infoCollection "g").filter fun e => use e.1).flatMap (fun e => e.2.quantities) ∧
      families c = ["TruncatedNormal", "TruncatedNormal"] ++ ((infoCollection "g").filter fun e => use e.1).map (fun e => e.2.cls) ∧
      shapes c = [("TruncatedNormal", ["mass_1_source"]), ("TruncatedNormal", ["mass_2_source"])] ++ ((infoCollection "g").filter fun e => use e.1).map fun e => (e.2.cls, e.2.quantities)) := by
  obtain ⟨a, b, hc, ha, hb, hpl, hg, _⟩ := nPowerlawMGaussian_ok h
  refine ⟨by rw [hc]; simp [ha, hb], fun i hi => ?_, fun i hi => ?_⟩
  · obtain ⟨c, h1, h2⟩ := (buildPl_components (hpl (by omega))).2 i hi
    exact ⟨c, by rw [hc, List.getElem?_append_left (by omega), h1], h2⟩
  · obtain ⟨c, h1, h2⟩ := (buildG_components (hg (by omega))).2 i hi
    exact ⟨c, by rw [hc, List.getElem?_append_right (by omega), ha, Nat.add_sub_cancel_left, h1], h2⟩

/-! ### C49 -/

/-- A list, if a switch is on. -/
def opt (b : Bool) (l : List String) : List String := if b then l else []

theorem opt_eq (b : Bool) (l : List String) (inst : Decidable (b = true)) : @ite _ (b = true) inst l [] = opt b l := by
  cases b <;> simp [opt]

theorem opt_false (l : List String) : opt false l = [] := rfl

theorem filter_flatMap_eq (l : List (Flag × Maker)) (use : Flag → Bool) :
    ((l.filter fun e => use e.1).flatMap fun e => e.2.quantities) = l.flatMap fun e => opt (use e.1) e.2.quantities := by
  induction l with
  | nil => rfl
  | cons e l ih =>
    by_cases h : use e.1
    · simp [h, ih, opt]
    · simp [h, ih, opt]

theorem _root_.Bool.toNat_or_le (a b : Bool) : (a || b).toNat ≤ a.toNat + b.toNat := by cases a <;> cases b <;> simp

theorem opt_pair (b : Bool) (x y : String) (r : List String) : opt b [x] ++ (opt b [y] ++ r) = opt b [x, y] ++ r := by
  cases b <;> rfl

theorem opt_or {a b : Bool} (h : ¬ (a = true ∧ b = true)) (l r : List String) : opt a l ++ (opt b l ++ r) = opt (a || b) l ++ r := by
  cases a <;> cases b <;> simp [opt] at h ⊢

theorem sageColumns_eq (o : Flag → Bool) (ho : Exclusive o) (ct : String) :
    ["mass_1_source", "mass_2_source"] ++ ((infoCollection ct).filter fun e => sageConstants o e.1).flatMap (fun e => e.2.quantities) =
      sageColumns o := by
  rw [filter_flatMap_eq]
  simp only [infoCollection, List.flatMap_cons, List.flatMap_nil, beta, spinMagnitudeMixture, truncatedNormal, twoTruncatedNormalMixture,
    skewNormal, spinOrientation, uniform, powerlawRedshift, sageConstants, sageColumns, opt_eq, opt_pair, opt_or ho.1, opt_or ho.2,
    opt_false, List.nil_append, List.append_nil, List.append_assoc]

theorem genieColumns_eq (o : Flag → Bool) (ho : o .chiP = false) (ct : String) :
    ["mass_1_source", "mass_2_source"] ++ ((infoCollection ct).filter fun e => genieConstants o e.1).flatMap (fun e => e.2.quantities) =
      genieColumns o := by
  rw [filter_flatMap_eq, show genieConstants o = o from funext fun f => by cases f <;> first | rfl | exact ho.symm]
  simp only [infoCollection, List.flatMap_cons, List.flatMap_nil, beta, spinMagnitudeMixture, truncatedNormal, twoTruncatedNormalMixture,
    skewNormal, spinOrientation, uniform, powerlawRedshift, genieColumns, List.flatten_cons, List.flatten_nil, opt_eq, opt_pair, ho,
    opt_false, List.nil_append, List.append_nil]

theorem smoothedColumns_eq (o : Flag → Bool) (ho : Exclusive o) (ct : String) :
    ["mass_1_source"] ++ ((smoothedInfoCollection ct).filter fun e => o e.1).flatMap (fun e => e.2.quantities) ++ ["mass_ratio"] =
      smoothedColumns o := by
  rw [filter_flatMap_eq]
  simp only [smoothedInfoCollection, List.flatMap_cons, List.flatMap_nil, beta, spinMagnitudeMixture, truncatedNormal,
    twoTruncatedNormalMixture, skewNormal, minimumTilt, powerlawRedshift, smoothedColumns, opt_eq, opt_pair, opt_or ho.1, opt_or ho.2,
    List.append_nil, List.append_assoc]

/-- Every component of the model has the same coordinates. -/
theorem nPowerlawMGaussian_coordinates {use : Flag → Bool} {Npl Ng : Nat} {params : Dict String ℝ} {m : Mixture}
    (h : nPowerlawMGaussian use Npl Ng params = .ok m) {c : List Factor} (hc : c ∈ m.components) :
    ∃ ct, coordinates c = ["mass_1_source", "mass_2_source"] ++ ((infoCollection ct).filter fun e => use e.1).flatMap (fun e => e.2.quantities) := by
  obtain ⟨hl, hp, hg⟩ := nPowerlawMGaussian_components h
  obtain ⟨i, hi, rfl⟩ := List.getElem_of_mem hc
  by_cases hip : i < Npl
  · obtain ⟨c, h1, _, h2, _⟩ := hp i hip
    rw [List.getElem?_eq_getElem hi, Option.some.injEq] at h1
    exact ⟨"pl", by rw [h1, h2]⟩
  · obtain ⟨c, h1, _, h2, _⟩ := hg (i - Npl) (by omega)
    rw [show Npl + (i - Npl) = i by omega, List.getElem?_eq_getElem hi, Option.some.injEq] at h1
    exact ⟨"g", by rw [h1, h2]⟩

/-- **C49** (`n_pls_m_gs`).  For every combination of options the command line accepts (it makes the two spin-magnitude models exclusive and
the two effective-spin models exclusive), every number of components and every hyper-parameters for which the model is built: it has exactly
`N_pl + N_g` components, at least one, and the coordinates of each are the data columns the analysis requests, in the same order. -/
theorem C49_columns_are_coordinates {o : Flag → Bool} (ho : Exclusive o) {Npl Ng : Nat} {params : Dict String ℝ} {m : Mixture}
    (h : nPowerlawMGaussian (sageConstants o) Npl Ng params = .ok m) :
    m.components.length = Npl + Ng ∧ 0 < Npl + Ng ∧ ∀ c ∈ m.components, coordinates c = sageColumns o := by
  obtain ⟨_, _, _, _, _, _, _, hpos, _⟩ := nPowerlawMGaussian_ok h
  refine ⟨(nPowerlawMGaussian_components h).1, hpos, fun c hc => ?_⟩
  obtain ⟨ct, hq⟩ := nPowerlawMGaussian_coordinates h hc
  rw [hq, sageColumns_eq o ho]

/-- **C49** (synthetic populations).  Without the precessing spin the generated columns are the coordinates of the model, for all other options. -/
theorem C49_generated_columns_are_coordinates_partial {o : Flag → Bool} (ho : o .chiP = false) {Npl Ng : Nat} {params : Dict String ℝ}
    {m : Mixture} (h : nPowerlawMGaussian (genieConstants o) Npl Ng params = .ok m) :
    m.components.length = Npl + Ng ∧ 0 < Npl + Ng ∧ ∀ c ∈ m.components, coordinates c = genieColumns o := by
  obtain ⟨_, _, _, _, _, _, _, hpos, _⟩ := nPowerlawMGaussian_ok h
  refine ⟨(nPowerlawMGaussian_components h).1, hpos, fun c hc => ?_⟩
  obtain ⟨ct, hq⟩ := nPowerlawMGaussian_coordinates h hc
  rw [hq, genieColumns_eq o ho]

/-- **C49** (violated: synthetic populations with a precessing spin).  The column `chi_p` is requested, but no component of the model has
that coordinate: the switch is not handed to the model. -/
theorem C49_generated_precessing_spin_violated {o : Flag → Bool} (ho : o .chiP = true) {Npl Ng : Nat} {params : Dict String ℝ}
    {m : Mixture} (h : nPowerlawMGaussian (genieConstants o) Npl Ng params = .ok m) :
    "chi_p" ∈ genieColumns o ∧ ∀ c ∈ m.components, "chi_p" ∉ coordinates c := by
  refine ⟨?_, fun c hc => ?_⟩
  · unfold genieColumns
    exact List.mem_flatten.2 ⟨["chi_p"], by simp [ho], by simp⟩
  obtain ⟨ct, hq⟩ := nPowerlawMGaussian_coordinates h hc
  rw [hq]
  intro hm
  rcases List.mem_append.1 hm with hm | hm
  · simp at hm
  · obtain ⟨e, he, hm⟩ := List.mem_flatMap.1 hm
    obtain ⟨he, hu⟩ := List.mem_filter.1 he
    have hall : (infoCollection ct).all (fun e => !(e.2.quantities.contains "chi_p") || decide (e.1 = .chiP)) = true := rfl
    have := List.all_eq_true.1 hall e he
    have hc : e.2.quantities.contains "chi_p" = true := by simpa using hm
    rw [hc] at this
    simp only [Bool.not_true, Bool.false_or, decide_eq_true_eq] at this
    rw [this] at hu
    simp [genieConstants] at hu

/-- **C49** (violated: both spin-magnitude models).  Used directly, without the command line's exclusion, an analysis with both spin-magnitude
models requests fewer columns than the model has coordinates. -/
theorem C49_both_spin_models_violated {o : Flag → Bool} (h1 : o .betaSpin = true) (h2 : o .spinMixture = true) {Npl Ng : Nat}
    {params : Dict String ℝ} {m : Mixture} (h : nPowerlawMGaussian (sageConstants o) Npl Ng params = .ok m) :
    ∀ c ∈ m.components, (sageColumns o).length + 2 ≤ (coordinates c).length := by
  intro c hc
  obtain ⟨ct, hq⟩ := nPowerlawMGaussian_coordinates h hc
  rw [hq, filter_flatMap_eq]
  have e1 : ∀ (b : Bool) (x : String), (opt b [x]).length = b.toNat := by intro b x; cases b <;> rfl
  have e2 : ∀ (b : Bool) (x y : String), (opt b [x, y]).length = 2 * b.toNat := by intro b x y; cases b <;> rfl
  have hor := Bool.toNat_or_le (o .chiEffMixture) (o .chiEffSkew)
  simp only [infoCollection, List.flatMap_cons, List.flatMap_nil, beta, spinMagnitudeMixture, truncatedNormal, twoTruncatedNormalMixture,
    skewNormal, spinOrientation, uniform, powerlawRedshift, sageConstants, sageColumns, List.length_append, opt_eq, e1, e2, List.length_cons,
    List.length_nil, h1, h2, opt_false, Bool.or_true, Bool.toNat_true, if_true]
  omega

end GW.Hybrids
