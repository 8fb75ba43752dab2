import Verif.Props.Hybrids
import Verif.Model.HybridAnalyses

/-!
# C49 (smoothed models) and C50
-/

namespace GW.Hybrids
open GW.PyDict GW.Common

/-! ### The smoothed models -/

theorem get?_filter_ne {d : Dict String ℝ} {n k : String} (h : k ≠ n) : get? (d.filter (·.1 ≠ n)) k = get? d k := by
  induction d with
  | nil => rfl
  | cons p d ih =>
    obtain ⟨a, b⟩ := p
    by_cases ha : a = n
    · rw [List.filter_cons_of_neg (by simp [ha]), ih]
      simp [get?, ha, Ne.symm h]
    · rw [List.filter_cons_of_pos (by simp [ha])]
      simp only [get?, ih]

theorem forall₂_imp_mem {α β : Type} {R S : α → β → Prop} {l : List α} {l' : List β} (h : ∀ a b, a ∈ l → b ∈ l' → R a b → S a b)
    (hl : List.Forall₂ R l l') : List.Forall₂ S l l' := by
  induction hl with
  | nil => exact .nil
  | cons hd _ ih => exact .cons (h _ _ (by simp) (by simp) hd) (ih fun a b ha hb => h a b (by simp [ha]) (by simp [hb]))

theorem popAll_ok {ns : List String} {d d' : Dict String ℝ} {vs : List ℝ} (h : popAll ns d = .ok (vs, d')) (hn : ns.Nodup) :
    List.Forall₂ (fun n v => get? d n = some v) ns vs ∧ ∀ k, k ∉ ns → get? d' k = get? d k := by
  induction ns generalizing d vs with
  | nil =>
    simp only [popAll, Except.ok.injEq, Prod.mk.injEq] at h
    obtain ⟨rfl, rfl⟩ := h
    exact ⟨.nil, fun _ _ => rfl⟩
  | cons n ns ih =>
    rw [List.nodup_cons] at hn
    unfold popAll at h
    cases hp : pop d n with
    | error e => rw [hp] at h; simp at h
    | ok w =>
      obtain ⟨v, d1⟩ := w
      rw [hp] at h
      simp only at h
      have hv : get? d n = some v ∧ d1 = d.filter (·.1 ≠ n) := by
        unfold pop at hp
        split at hp
        · rename_i x hx
          simp only [Except.ok.injEq, Prod.mk.injEq] at hp
          exact ⟨by rw [hx, hp.1], hp.2.symm⟩
        · simp at hp
      cases hr : popAll ns d1 with
      | error e => rw [hr] at h; simp at h
      | ok w =>
        obtain ⟨vs1, d2⟩ := w
        rw [hr] at h
        simp only [Except.ok.injEq, Prod.mk.injEq] at h
        obtain ⟨rfl, rfl⟩ := h
        obtain ⟨i1, i2⟩ := ih hr hn.2
        refine ⟨.cons hv.1 ?_, fun k hk => ?_⟩
        · refine forall₂_imp_mem ?_ i1
          intro a b ha hb hab
          rw [← hab, hv.2, get?_filter_ne]
          rintro rfl
          exact hn.1 ha
        · rw [List.mem_cons, not_or] at hk
          rw [i2 k hk.2, hv.2, get?_filter_ne hk.1]

theorem popAll_error {ns : List String} {d : Dict String ℝ} {e : Err} (h : popAll ns d = .error e) (hn : ns.Nodup) :
    ∃ n ∈ ns, e = .keyError n ∧ get? d n = none := by
  induction ns generalizing d with
  | nil => simp [popAll] at h
  | cons n ns ih =>
    rw [List.nodup_cons] at hn
    unfold popAll at h
    cases hp : pop d n with
    | error e' =>
      rw [hp] at h
      simp only [Except.error.injEq] at h
      subst h
      unfold pop at hp
      split at hp
      · simp at hp
      · rename_i hx
        simp only [Except.error.injEq] at hp
        exact ⟨n, by simp, hp.symm, hx⟩
    | ok w =>
      obtain ⟨v, d1⟩ := w
      rw [hp] at h
      simp only at h
      have hd : d1 = d.filter (·.1 ≠ n) := by
        unfold pop at hp
        split at hp
        · simp only [Except.ok.injEq, Prod.mk.injEq] at hp
          exact hp.2.symm
        · simp at hp
      cases hr : popAll ns d1 with
      | ok w => rw [hr] at h; simp at h
      | error e' =>
        rw [hr] at h
        simp only [Except.error.injEq] at h
        subst h
        obtain ⟨k, hk, he, hg⟩ := ih hr hn.2
        refine ⟨k, by simp [hk], he, ?_⟩
        rw [hd, get?_filter_ne] at hg
        · exact hg
        · rintro rfl; exact hn.1 hk

/-- Two dictionaries look the same to a builder. -/
def SameFor (d d' : Dict String ℝ) (mk : Maker) : Prop :=
  ∀ r ∈ mk.reads, get? d r.base = get? d' r.base ∧ ∀ i : Nat, get? d (r.base ++ "_" ++ toString i) = get? d' (r.base ++ "_" ++ toString i)

theorem mapM_congr_mem {α β ε : Type} (f g : α → Except ε β) (xs : List α) (h : ∀ x ∈ xs, f x = g x) : xs.mapM f = xs.mapM g := by
  induction xs with
  | nil => rfl
  | cons x xs ih =>
    rw [List.mapM_cons, List.mapM_cons, h x (by simp), ih fun y hy => h y (by simp [hy])]

theorem create_congr {d d' : Dict String ℝ} {mk : Maker} (h : SameFor d d' mk) (N : Nat) : create N d mk = create N d' mk := by
  unfold create
  refine mapM_congr_mem _ _ _ fun i _ => ?_
  unfold makeFactor
  rw [mapM_congr_mem (readArg d i) (readArg d' i) mk.reads]
  intro r hr
  obtain ⟨h1, h2⟩ := h r hr
  unfold readArg getParameter fetchFirst fetchFirst
  rw [h1, h2]
  rfl

theorem buildLoop_congr {d d' : Dict String ℝ} {coll : List (Flag × Maker)} (h : ∀ e ∈ coll, SameFor d d' e.2) (use : Flag → Bool) (N : Nat)
    (acc : List (List Factor)) : buildLoop use N d coll acc = buildLoop use N d' coll acc := by
  induction coll generalizing acc with
  | nil => rfl
  | cons c coll ih =>
    obtain ⟨fl, mk⟩ := c
    have ih' := fun acc => ih (fun e he => h e (by simp [he])) acc
    unfold buildLoop
    rw [create_congr (h (fl, mk) (by simp)) N]
    simp only [ih']

theorem buildSmoothed_congr {d d' : Dict String ℝ} {mass : Maker} {ct : String} (hm : SameFor d d' mass)
    (h : ∀ e ∈ smoothedInfoCollection ct, SameFor d d' e.2) (use : Flag → Bool) (N : Nat) :
    buildSmoothed mass ct use N d = buildSmoothed mass ct use N d' := by
  unfold buildSmoothed
  rw [create_congr hm N]
  simp only [buildLoop_congr h]

/-- The `lambda_i` of the mixing weights. -/
def lambdaNames (n : Nat) : List String := (List.range n).map fun i => "lambda_" ++ toString i

theorem lambda_name (i : Nat) : "lambda_" ++ toString i = "lambda" ++ "_" ++ toString i := by
  rw [show ("lambda_" : String) = "lambda" ++ "_" by decide]

theorem lambdaNames_nodup (n : Nat) : (lambdaNames n).Nodup := by
  refine List.Nodup.map ?_ List.nodup_range
  intro i j h
  simp only [lambda_name] at h
  exact (numbered_eq h).2

/-- The names a builder looks up are none of the popped ones. -/
def clearOf (names : List String) (mk : Maker) : Bool :=
  mk.reads.all fun r => notNumbered r.base && !(names.contains r.base) && decide (r.base ≠ "lambda")

theorem sameFor_of_clear {names : List String} {n : Nat} {d d' : Dict String ℝ} {mk : Maker} (hnames : names.all notNumbered = true)
    (hc : clearOf names mk = true) (h : ∀ k, k ∉ names → k ∉ lambdaNames n → get? d' k = get? d k) : SameFor d' d mk := by
  intro r hr
  have := List.all_eq_true.1 hc r hr
  simp only [Bool.and_eq_true, Bool.not_eq_true', decide_eq_true_eq] at this
  obtain ⟨⟨h1, h2⟩, h3⟩ := this
  refine ⟨h _ (by simpa using h2) ?_, fun i => h _ ?_ ?_⟩
  · intro hm
    obtain ⟨j, _, hj⟩ := List.mem_map.1 hm
    rw [lambda_name] at hj
    exact numbered_ne h1 hj
  · intro hm
    exact numbered_ne (List.all_eq_true.1 hnames _ hm) rfl
  · intro hm
    obtain ⟨j, _, hj⟩ := List.mem_map.1 hm
    rw [lambda_name] at hj
    exact h3 (numbered_eq hj).1.symm

/-- The closed facts about a smoothed model's tables. -/
def smoothedTables (names : List String) (body : Maker) (ct : String) : Bool :=
  names.all notNumbered && decide names.Nodup && clearOf names body && (smoothedInfoCollection ct).all (fun e => clearOf names e.2) &&
    goodMaker ct body && (smoothedInfoCollection ct).all (fun e => goodMaker ct e.2) && decide (body.quantities = ["mass_1_source"]) &&
    clearOf names (truncatedNormal "mass_1_source" "m1" "g") && (smoothedInfoCollection "g").all (fun e => clearOf names e.2)

theorem o3_tables : smoothedTables ["beta", "delta_m", "log_rate", "mmax", "mmin"] powerlaw "pl" = true := by decide +kernel
theorem o4_tables :
    smoothedTables ["beta", "delta_m1", "delta_m2", "log_rate", "m1max", "m1min", "m2min"] brokenPowerlaw "bpl" = true := by decide +kernel

theorem lambda_not_mem {names : List String} (h : names.all notNumbered = true) (i : Nat) : "lambda_" ++ toString i ∉ names := by
  rw [lambda_name]
  intro hm
  exact numbered_ne (List.all_eq_true.1 h _ hm) rfl

/-- The result of the two runs of `pop`s. -/
theorem smoothed_after_pops {names : List String} {body : Maker} {ct : String} (ht : smoothedTables names body ct = true) {n : Nat}
    {d d1 d2 : Dict String ℝ} {vs ls : List ℝ} (h1 : popAll names d = .ok (vs, d1)) (h2 : popAll (lambdaNames n) d1 = .ok (ls, d2)) :
    List.Forall₂ (fun n v => get? d n = some v) names vs ∧ List.Forall₂ (fun n v => get? d n = some v) (lambdaNames n) ls ∧
    (∀ use N, buildSmoothed body ct use N d2 = buildSmoothed body ct use N d) ∧
    ∀ use N, buildSmoothed (truncatedNormal "mass_1_source" "m1" "g") "g" use N d2 =
      buildSmoothed (truncatedNormal "mass_1_source" "m1" "g") "g" use N d := by
  simp only [smoothedTables, Bool.and_eq_true, decide_eq_true_eq] at ht
  obtain ⟨⟨⟨⟨⟨⟨⟨⟨t1, t2⟩, t3⟩, t4⟩, _⟩, _⟩, _⟩, t5⟩, t6⟩ := ht
  obtain ⟨a1, a2⟩ := popAll_ok h1 t2
  obtain ⟨b1, b2⟩ := popAll_ok h2 (lambdaNames_nodup n)
  have hsame : ∀ k, k ∉ names → k ∉ lambdaNames n → get? d2 k = get? d k := fun k hk hl => by rw [b2 k hl, a2 k hk]
  refine ⟨a1, ?_, fun use N => ?_, fun use N => ?_⟩
  · refine forall₂_imp_mem ?_ b1
    intro a b ha _ hab
    obtain ⟨i, _, rfl⟩ := List.mem_map.1 ha
    rw [← hab, a2 _ (lambda_not_mem t1 i)]
  · exact buildSmoothed_congr (sameFor_of_clear t1 t3 hsame) (fun e he => sameFor_of_clear t1 (List.all_eq_true.1 t4 e he) hsame) use N
  · exact buildSmoothed_congr (sameFor_of_clear t1 t5 hsame) (fun e he => sameFor_of_clear t1 (List.all_eq_true.1 t6 e he) hsame) use N

theorem buildSmoothed_components {mass : Maker} {ct : String} (hg : goodMaker ct mass = true)
    (hc : (smoothedInfoCollection ct).all (fun e => goodMaker ct e.2) = true) (hq : mass.quantities = ["mass_1_source"])
    {use : Flag → Bool} {N : Nat} {params : Dict String ℝ} {ms : List Factor} {res : List (List Factor)}
    (h : buildSmoothed mass ct use N params = .ok (ms, res)) :
    ms.length = N ∧ res.length = N ∧ ∀ i, i < N → ∃ f c, ms[i]? = some f ∧ res[i]? = some c ∧ WellConfigured params ct i c ∧
      c.head? = some f ∧
      coordinates c = ["mass_1_source"] ++ ((smoothedInfoCollection ct).filter fun e => use e.1).flatMap (fun e => e.2.quantities) ∧
      families c = [mass.cls] ++ ((smoothedInfoCollection ct).filter fun e => use e.1).map (fun e => e.2.cls) ∧
      shapes c = [(mass.cls, mass.quantities)] ++ ((smoothedInfoCollection ct).filter fun e => use e.1).map fun e => (e.2.cls, e.2.quantities) := by
  unfold buildSmoothed at h
  cases hcr : create N params mass with
  | error e => rw [hcr] at h; simp at h
  | ok ms' =>
    rw [hcr] at h
    simp only at h
    cases hb : buildLoop use N params (smoothedInfoCollection ct) (ms'.map fun m => [m]) with
    | error e => rw [hb] at h; simp [Except.map] at h
    | ok res' =>
      rw [hb] at h
      simp only [Except.map, Except.ok.injEq, Prod.mk.injEq] at h
      obtain ⟨rfl, rfl⟩ := h
      obtain ⟨hl, hms⟩ := create_ok hcr
      obtain ⟨hl2, hh⟩ := buildLoop_components (mass := ["mass_1_source"]) (cls := [mass.cls]) (sh := [(mass.cls, mass.quantities)]) hc (by simpa using hl) hb (by
        intro i hi
        obtain ⟨f, hf, hmf⟩ := hms i hi
        obtain ⟨m1, m2, _⟩ := makeFactor_ok hmf
        exact ⟨[f], by simp [hf], makeFactor_configured hg hmf, by simp [coordinates, m2, hq], by simp [families, m1], by simp [shapes, m1, m2]⟩)
      refine ⟨hl, hl2, fun i hi => ?_⟩
      obtain ⟨f, hf, _⟩ := hms i hi
      obtain ⟨c, hc1, hc2⟩ := hh i hi
      refine ⟨f, c, hf, hc1, hc2.1, ?_, hc2.2⟩
      obtain ⟨fs, hfs, _⟩ := (buildLoop_ok (by simpa using hl) hb).2 i hi [f] (by simp [hf])
      rw [hc1, Option.some.injEq] at hfs
      rw [hfs]; rfl

/-- What a successful call of a smoothed model returns. -/
theorem smoothedModel_ok {names : List String} {body : Maker} {ct : String} (ht : smoothedTables names body ct = true)
    {use : Flag → Bool} {Nb Ng : Nat} {params : Dict String ℝ} {m : Smoothed} (h : smoothedModel names body ct use Nb Ng params = .ok m) :
    0 < Nb + Ng ∧ m.shared.map (·.1) = names ∧ (∀ p ∈ m.shared, get? params p.1 = some p.2) ∧
    m.weights.length = Nb + Ng ∧ m.weights.sum = 1 ∧
    (∀ i, i + 1 < Nb + Ng → ∃ w, m.weights[i]? = some w ∧ get? params ("lambda_" ++ toString i) = some w) ∧
    m.masses.length = Nb + Ng ∧ m.components.length = Nb + Ng ∧
    (∀ i, i < Nb → ∃ f c, m.masses[i]? = some f ∧ m.components[i]? = some c ∧ WellConfigured params ct i c ∧ c.head? = some f ∧
      coordinates c = ["mass_1_source"] ++ ((smoothedInfoCollection ct).filter fun e => use e.1).flatMap (fun e => e.2.quantities) ∧
      families c = [body.cls] ++ ((smoothedInfoCollection ct).filter fun e => use e.1).map (fun e => e.2.cls) ∧
      shapes c = [(body.cls, body.quantities)] ++ ((smoothedInfoCollection ct).filter fun e => use e.1).map fun e => (e.2.cls, e.2.quantities)) ∧
    (∀ i, i < Ng → ∃ f c, m.masses[Nb + i]? = some f ∧ m.components[Nb + i]? = some c ∧ WellConfigured params "g" i c ∧ c.head? = some f ∧
      coordinates c = ["mass_1_source"] ++ ((smoothedInfoCollection "g").filter fun e => use e.1).flatMap (fun e => e.2.quantities) ∧
      families c = ["TruncatedNormal"] ++ ((smoothedInfoCollection "g").filter fun e => use e.1).map (fun e => e.2.cls) ∧
      shapes c = [("TruncatedNormal", ["mass_1_source"])] ++ ((smoothedInfoCollection "g").filter fun e => use e.1).map fun e => (e.2.cls, e.2.quantities)) := by
  unfold smoothedModel at h
  cases h1 : popAll names params with
  | error e => rw [h1] at h; simp at h
  | ok w =>
    obtain ⟨vs, d1⟩ := w
    rw [h1] at h
    simp only at h
    cases h2 : popAll (lambdaNames (Nb + Ng - 1)) d1 with
    | error e => unfold lambdaNames at h2; rw [h2] at h; simp at h
    | ok w =>
      obtain ⟨ls, d2⟩ := w
      obtain ⟨p1, p2, p3, p4⟩ := smoothed_after_pops ht h1 h2
      unfold lambdaNames at h2
      rw [h2] at h
      simp only [p3, p4] at h
      simp only [smoothedTables, Bool.and_eq_true, decide_eq_true_eq] at ht
      obtain ⟨⟨⟨⟨⟨⟨⟨⟨_, _⟩, _⟩, _⟩, t1⟩, t2⟩, t3⟩, _⟩, _⟩ := ht
      have hb : ∃ bm bc, (if 0 < Nb then buildSmoothed body ct use Nb params else .ok ([], [])) = .ok (bm, bc) := by
        cases hx : (if 0 < Nb then buildSmoothed body ct use Nb params else .ok ([], [])) with
        | error e => rw [hx] at h; simp at h
        | ok w => exact ⟨w.1, w.2, rfl⟩
      obtain ⟨bm, bc, hb⟩ := hb
      rw [hb] at h
      simp only at h
      have hgx : ∃ gm gc, (if 0 < Ng then buildSmoothed (truncatedNormal "mass_1_source" "m1" "g") "g" use Ng params else .ok ([], [])) =
          .ok (gm, gc) := by
        cases hx : (if 0 < Ng then buildSmoothed (truncatedNormal "mass_1_source" "m1" "g") "g" use Ng params else .ok ([], [])) with
        | error e => rw [hx] at h; simp at h
        | ok w => exact ⟨w.1, w.2, rfl⟩
      obtain ⟨gm, gc, hgx⟩ := hgx
      rw [hgx] at h
      simp only at h
      have hlb : bm.length = Nb ∧ bc.length = Nb := by
        by_cases hN : 0 < Nb
        · rw [if_pos hN] at hb
          obtain ⟨a, b, _⟩ := buildSmoothed_components t1 t2 t3 hb
          exact ⟨a, b⟩
        · rw [if_neg hN] at hb
          simp only [Except.ok.injEq, Prod.mk.injEq] at hb
          obtain ⟨rfl, rfl⟩ := hb
          simp; omega
      have hlg : gm.length = Ng ∧ gc.length = Ng := by
        by_cases hN : 0 < Ng
        · rw [if_pos hN] at hgx
          obtain ⟨a, b, _⟩ := buildSmoothed_components good_mass_m1 good_smoothed_g rfl hgx
          exact ⟨a, b⟩
        · rw [if_neg hN] at hgx
          simp only [Except.ok.injEq, Prod.mk.injEq] at hgx
          obtain ⟨rfl, rfl⟩ := hgx
          simp; omega
      have hll : ls.length = Nb + Ng - 1 := by rw [← p2.length_eq]; simp [lambdaNames]
      by_cases hlen : (closeWeights ls).length = (bc ++ gc).length
      · rw [if_pos hlen] at h
        simp only [Except.ok.injEq] at h
        subst h
        simp only [closeWeights, List.length_append, List.length_singleton] at hlen
        have hpos : 0 < Nb + Ng := by omega
        refine ⟨hpos, ?_, ?_, ?_, ?_, ?_, ?_, ?_, ?_, ?_⟩
        · exact List.map_fst_zip (by rw [p1.length_eq])
        · intro p hp
          obtain ⟨i, hi, rfl⟩ := List.getElem_of_mem hp
          simp only [List.length_zip] at hi
          have := (List.forall₂_iff_get.1 p1).2 i (by omega) (by omega)
          simpa using this
        · simp [closeWeights, hll]; omega
        · simp [closeWeights]
        · intro i hi
          have := (List.forall₂_iff_get.1 p2).2 i (by simp [lambdaNames]; omega) (by omega)
          simp only [lambdaNames, List.get_eq_getElem, List.getElem_map, List.getElem_range] at this
          exact ⟨ls[i]'(by omega), by simp [closeWeights, List.getElem?_append_left (by omega : i < ls.length)], this⟩
        · simp [hlb.1, hlg.1]
        · simp [hlb.2, hlg.2]
        · intro i hi
          rw [if_pos (by omega)] at hb
          obtain ⟨f, c, c1, c2, c3⟩ := (buildSmoothed_components t1 t2 t3 hb).2.2 i hi
          exact ⟨f, c, by rw [List.getElem?_append_left (by omega), c1], by rw [List.getElem?_append_left (by omega), c2], c3⟩
        · intro i hi
          rw [if_pos (by omega)] at hgx
          obtain ⟨f, c, c1, c2, c3⟩ := (buildSmoothed_components good_mass_m1 good_smoothed_g rfl hgx).2.2 i hi
          exact ⟨f, c, by rw [List.getElem?_append_right (by omega), hlb.1, Nat.add_sub_cancel_left, c1],
            by rw [List.getElem?_append_right (by omega), hlb.2, Nat.add_sub_cancel_left, c2], c3⟩
      · rw [if_neg hlen] at h
        simp at h

/-- **C49** (`o3_n_pls_m_gs`).  For every admissible combination of options, number of components and hyper-parameters for which the model
is built, every component's coordinates, with the mass ratio after them, are the requested data columns in order. -/
theorem C49_o3_columns_are_coordinates {o : Flag → Bool} (ho : Exclusive o) {Npl Ng : Nat} {params : Dict String ℝ} {m : Smoothed}
    (h : nSmoothedPowerlawMSmoothedGaussian o Npl Ng params = .ok m) :
    m.components.length = Npl + Ng ∧ 0 < Npl + Ng ∧ ∀ c ∈ m.components, Smoothed.coordinates c = smoothedColumns o := by
  obtain ⟨h0, _, _, _, _, _, _, hl, hb, hg⟩ := smoothedModel_ok o3_tables h
  refine ⟨hl, h0, fun c hc => ?_⟩
  obtain ⟨i, hi, rfl⟩ := List.getElem_of_mem hc
  by_cases hip : i < Npl
  · obtain ⟨f, c, _, h1, _, _, h2, _⟩ := hb i hip
    rw [List.getElem?_eq_getElem hi, Option.some.injEq] at h1
    rw [h1, ← smoothedColumns_eq o ho "pl", ← h2]; rfl
  · obtain ⟨f, c, _, h1, _, _, h2, _⟩ := hg (i - Npl) (by omega)
    rw [show Npl + (i - Npl) = i by omega, List.getElem?_eq_getElem hi, Option.some.injEq] at h1
    rw [h1, ← smoothedColumns_eq o ho "g", ← h2]; rfl

/-- **C49** (`o4_n_bpls_m_gs`).  The same for the broken power laws. -/
theorem C49_o4_columns_are_coordinates {o : Flag → Bool} (ho : Exclusive o) {Nbpl Ng : Nat} {params : Dict String ℝ} {m : Smoothed}
    (h : nBrokenPowerlawMGaussian o Nbpl Ng params = .ok m) :
    m.components.length = Nbpl + Ng ∧ 0 < Nbpl + Ng ∧ ∀ c ∈ m.components, Smoothed.coordinates c = smoothedColumns o := by
  obtain ⟨h0, _, _, _, _, _, _, hl, hb, hg⟩ := smoothedModel_ok o4_tables h
  refine ⟨hl, h0, fun c hc => ?_⟩
  obtain ⟨i, hi, rfl⟩ := List.getElem_of_mem hc
  by_cases hip : i < Nbpl
  · obtain ⟨f, c, _, h1, _, _, h2, _⟩ := hb i hip
    rw [List.getElem?_eq_getElem hi, Option.some.injEq] at h1
    rw [h1, ← smoothedColumns_eq o ho "bpl", ← h2]; rfl
  · obtain ⟨f, c, _, h1, _, _, h2, _⟩ := hg (i - Nbpl) (by omega)
    rw [show Nbpl + (i - Nbpl) = i by omega, List.getElem?_eq_getElem hi, Option.some.injEq] at h1
    rw [h1, ← smoothedColumns_eq o ho "g", ← h2]; rfl

/-! ### C50 -/

/-- **C50** (the values, `NPowerlawMGaussian`).  Every component's every factor receives every argument its class takes, with the value of the
component's own hyper-parameter if given, otherwise of the shared one, otherwise the documented default; the first `N_pl` components read the
`_pl` names and the rest the `_g` names, numbered from zero; and the rate of component `i` is `log_rate_i`. -/
theorem C50_values {use : Flag → Bool} {Npl Ng : Nat} {params : Dict String ℝ} {m : Mixture}
    (h : nPowerlawMGaussian use Npl Ng params = .ok m) :
    (∀ i, i < Npl → ∃ c, m.components[i]? = some c ∧ WellConfigured params "pl" i c ∧ (families c).head? = some "PowerlawPrimaryMassRatio") ∧
    (∀ i, i < Ng → ∃ c, m.components[Npl + i]? = some c ∧ WellConfigured params "g" i c ∧
      (families c).take 2 = ["TruncatedNormal", "TruncatedNormal"]) ∧
    m.logRates.length = Npl + Ng ∧
    ∀ i, i < Npl + Ng → ∃ v, m.logRates[i]? = some v ∧ get? params ("log_rate_" ++ toString i) = some v := by
  obtain ⟨_, hp, hg⟩ := nPowerlawMGaussian_components h
  obtain ⟨_, _, _, _, _, _, _, _, hl, hr⟩ := nPowerlawMGaussian_ok h
  refine ⟨fun i hi => ?_, fun i hi => ?_, hl, hr⟩
  · obtain ⟨c, h1, h2, _, h3, _⟩ := hp i hi
    exact ⟨c, h1, h2, by rw [h3]; rfl⟩
  · obtain ⟨c, h1, h2, _, h3, _⟩ := hg i hi
    exact ⟨c, h1, h2, by rw [h3]; rfl⟩

/-- **C50** (the values, `NSmoothedPowerlawMSmoothedGaussian`).  The same, with the mixing weights `lambda_0, …` completed so that they sum to one
and the mass factor of every component also being the component of the mass mixture. -/
theorem C50_o3_values {use : Flag → Bool} {Npl Ng : Nat} {params : Dict String ℝ} {m : Smoothed}
    (h : nSmoothedPowerlawMSmoothedGaussian use Npl Ng params = .ok m) :
    m.shared.map (·.1) = ["beta", "delta_m", "log_rate", "mmax", "mmin"] ∧ (∀ p ∈ m.shared, get? params p.1 = some p.2) ∧
    m.weights.length = Npl + Ng ∧ m.weights.sum = 1 ∧
    (∀ i, i + 1 < Npl + Ng → ∃ w, m.weights[i]? = some w ∧ get? params ("lambda_" ++ toString i) = some w) ∧
    (∀ i, i < Npl → ∃ f c, m.masses[i]? = some f ∧ m.components[i]? = some c ∧ WellConfigured params "pl" i c ∧ c.head? = some f ∧
      (families c).head? = some "DoublyTruncatedPowerLaw") ∧
    (∀ i, i < Ng → ∃ f c, m.masses[Npl + i]? = some f ∧ m.components[Npl + i]? = some c ∧ WellConfigured params "g" i c ∧ c.head? = some f ∧
      (families c).head? = some "TruncatedNormal") := by
  obtain ⟨_, h1, h2, h3, h4, h5, _, _, hb, hg⟩ := smoothedModel_ok o3_tables h
  refine ⟨h1, h2, h3, h4, h5, fun i hi => ?_, fun i hi => ?_⟩
  · obtain ⟨f, c, a1, a2, a3, a4, _, a5, _⟩ := hb i hi
    exact ⟨f, c, a1, a2, a3, a4, by rw [a5]; rfl⟩
  · obtain ⟨f, c, a1, a2, a3, a4, _, a5, _⟩ := hg i hi
    exact ⟨f, c, a1, a2, a3, a4, by rw [a5]; rfl⟩

/-- **C50** (the values, `NBrokenPowerlawMGaussian`). -/
theorem C50_o4_values {use : Flag → Bool} {Nbpl Ng : Nat} {params : Dict String ℝ} {m : Smoothed}
    (h : nBrokenPowerlawMGaussian use Nbpl Ng params = .ok m) :
    m.shared.map (·.1) = ["beta", "delta_m1", "delta_m2", "log_rate", "m1max", "m1min", "m2min"] ∧
    (∀ p ∈ m.shared, get? params p.1 = some p.2) ∧
    m.weights.length = Nbpl + Ng ∧ m.weights.sum = 1 ∧
    (∀ i, i + 1 < Nbpl + Ng → ∃ w, m.weights[i]? = some w ∧ get? params ("lambda_" ++ toString i) = some w) ∧
    (∀ i, i < Nbpl → ∃ f c, m.masses[i]? = some f ∧ m.components[i]? = some c ∧ WellConfigured params "bpl" i c ∧ c.head? = some f ∧
      (families c).head? = some "BrokenPowerlaw") ∧
    (∀ i, i < Ng → ∃ f c, m.masses[Nbpl + i]? = some f ∧ m.components[Nbpl + i]? = some c ∧ WellConfigured params "g" i c ∧ c.head? = some f ∧
      (families c).head? = some "TruncatedNormal") := by
  obtain ⟨_, h1, h2, h3, h4, h5, _, _, hb, hg⟩ := smoothedModel_ok o4_tables h
  refine ⟨h1, h2, h3, h4, h5, fun i hi => ?_, fun i hi => ?_⟩
  · obtain ⟨f, c, a1, a2, a3, a4, _, a5, _⟩ := hb i hi
    exact ⟨f, c, a1, a2, a3, a4, by rw [a5]; rfl⟩
  · obtain ⟨f, c, a1, a2, a3, a4, _, a5, _⟩ := hg i hi
    exact ⟨f, c, a1, a2, a3, a4, by rw [a5]; rfl⟩

/-! #### Failures -/

/-- Every name a builder needs is declared in the given number of copies, always or under the builder's own switch. -/
def needsDeclared (blocks : List (Option Flag × List (String × Count))) (cnt : Count) (fl : Option Flag) (mk : Maker) : Bool :=
  mk.reads.all fun r => decide (r.mode ≠ .necessary) ||
    blocks.any fun b => (decide (b.1 = none) || decide (b.1 = fl)) && b.2.contains (r.base, cnt)

theorem mem_expandAll {blocks : List (Option Flag × List (String × Count))} {o : Flag → Bool} {b : Option Flag × List (String × Count)}
    (hb : b ∈ blocks) (hu : b.1.elim true o = true) {n : String} {c : Count} (hn : (n, c) ∈ b.2) {nb ng i : Nat} (hi : i < c.eval nb ng) :
    n ++ "_" ++ toString i ∈ expandAll (allParams blocks o) nb ng := by
  unfold expandAll allParams
  refine List.mem_flatMap.2 ⟨(n, c), List.mem_flatMap.2 ⟨b, hb, by rw [if_pos hu]; exact hn⟩, ?_⟩
  unfold expandArguments
  exact List.mem_map.2 ⟨i, by simpa using hi, rfl⟩

theorem needsDeclared_mem {blocks : List (Option Flag × List (String × Count))} {cnt : Count} {fl : Option Flag} {mk : Maker}
    (h : needsDeclared blocks cnt fl mk = true) {o : Flag → Bool} (hfl : fl.elim true o = true) {r : Read} (hr : r ∈ mk.reads)
    (hm : r.mode = .necessary) {nb ng i : Nat} (hi : i < cnt.eval nb ng) :
    r.base ++ "_" ++ toString i ∈ expandAll (allParams blocks o) nb ng := by
  have := List.all_eq_true.1 h r hr
  rw [hm] at this
  simp only [ne_eq, not_true_eq_false, decide_false, Bool.false_or] at this
  obtain ⟨b, hb, hh⟩ := List.any_eq_true.1 this
  simp only [Bool.and_eq_true, Bool.or_eq_true, decide_eq_true_eq] at hh
  obtain ⟨h1, h2⟩ := hh
  refine mem_expandAll hb ?_ (by simpa using h2) hi
  rcases h1 with h1 | h1
  · rw [h1]; rfl
  · rw [h1]; exact hfl

/-- The switches an analysis never hands on. -/
def sageOff : Flag → Bool
  | .phi1 | .phi2 | .phiOrb | .meanAnomaly => true
  | _ => false

def genieOff : Flag → Bool
  | .chiP => true
  | _ => false

theorem sage_declares_pl : ((infoCollection "pl").all fun e => sageOff e.1 || needsDeclared sageBlocks .body (some e.1) e.2) = true := by
  decide +kernel
theorem sage_declares_g : ((infoCollection "g").all fun e => sageOff e.1 || needsDeclared sageBlocks .gauss (some e.1) e.2) = true := by
  decide +kernel
theorem sage_declares_masses : (needsDeclared sageBlocks .body none powerlawPrimaryMassRatio &&
    needsDeclared sageBlocks .gauss none (truncatedNormal "mass_1_source" "m1" "g") &&
    needsDeclared sageBlocks .gauss none (truncatedNormal "mass_2_source" "m2" "g") &&
    sageBlocks.any fun b => decide (b.1 = none) && b.2.contains ("log_rate", .total)) = true := by decide +kernel
theorem genie_declares_pl : ((infoCollection "pl").all fun e => genieOff e.1 || needsDeclared genieBlocks .body (some e.1) e.2) = true := by
  decide +kernel
theorem genie_declares_g : ((infoCollection "g").all fun e => genieOff e.1 || needsDeclared genieBlocks .gauss (some e.1) e.2) = true := by
  decide +kernel
theorem genie_declares_masses : (needsDeclared genieBlocks .body none powerlawPrimaryMassRatio &&
    needsDeclared genieBlocks .gauss none (truncatedNormal "mass_1_source" "m1" "g") &&
    needsDeclared genieBlocks .gauss none (truncatedNormal "mass_2_source" "m2" "g") &&
    genieBlocks.any fun b => decide (b.1 = none) && b.2.contains ("log_rate", .total)) = true := by decide +kernel
theorem o3_declares : ((smoothedInfoCollection "pl").all (fun e => needsDeclared o3Blocks .body (some e.1) e.2) &&
    (smoothedInfoCollection "g").all (fun e => needsDeclared o3Blocks .gauss (some e.1) e.2) &&
    needsDeclared o3Blocks .body none powerlaw && needsDeclared o3Blocks .gauss none (truncatedNormal "mass_1_source" "m1" "g") &&
    o3Blocks.any fun b => decide (b.1 = none) && b.2.contains ("lambda", .totalLessOne)) = true := by decide +kernel
theorem o4_declares : ((smoothedInfoCollection "bpl").all (fun e => needsDeclared o4Blocks .body (some e.1) e.2) &&
    (smoothedInfoCollection "g").all (fun e => needsDeclared o4Blocks .gauss (some e.1) e.2) &&
    needsDeclared o4Blocks .body none brokenPowerlaw && needsDeclared o4Blocks .gauss none (truncatedNormal "mass_1_source" "m1" "g") &&
    o4Blocks.any fun b => decide (b.1 = none) && b.2.contains ("lambda", .totalLessOne)) = true := by decide +kernel

/-- The exception names a hyper-parameter of the list that is not given. -/
def MissingFrom (declared : List String) (params : Dict String ℝ) (e : Err) : Prop :=
  ∃ n ∈ declared, n ∉ keys params ∧ (e = .valueError n ∨ e = .keyError n)

theorem missing_create {blocks : List (Option Flag × List (String × Count))} {o : Flag → Bool} {cnt : Count} {fl : Option Flag} {mk : Maker}
    {nb ng N : Nat} {params : Dict String ℝ} {e : Err} (hN : cnt.eval nb ng = N) (hd : needsDeclared blocks cnt fl mk = true)
    (hfl : fl.elim true o = true) (h : create N params mk = .error e) : MissingFrom (expandAll (allParams blocks o) nb ng) params e := by
  obtain ⟨r, hr, i, hi, hm, he, hg, _⟩ := create_error h
  exact ⟨_, needsDeclared_mem hd hfl hr hm (by rw [hN]; exact hi), (get?_eq_none_iff _ _).1 hg, .inl he⟩

theorem missing_buildLoop {blocks : List (Option Flag × List (String × Count))} {o use : Flag → Bool} {cnt : Count}
    {coll : List (Flag × Maker)} {nb ng N : Nat} {params : Dict String ℝ} {e : Err} {acc : List (List Factor)} (hN : cnt.eval nb ng = N)
    (hd : ∀ c ∈ coll, use c.1 = true → o c.1 = true ∧ needsDeclared blocks cnt (some c.1) c.2 = true)
    (h : buildLoop use N params coll acc = .error e) : MissingFrom (expandAll (allParams blocks o) nb ng) params e := by
  obtain ⟨c, hc, hu, r, hr, i, hi, hm, he, hg, _⟩ := buildLoop_error h
  obtain ⟨h1, h2⟩ := hd c hc hu
  exact ⟨_, needsDeclared_mem h2 (by simpa using h1) hr hm (by rw [hN]; exact hi), (get?_eq_none_iff _ _).1 hg, .inl he⟩

theorem missing_nPowerlawMGaussian {blocks : List (Option Flag × List (String × Count))} {o use : Flag → Bool} {Npl Ng : Nat}
    {params : Dict String ℝ} {e : Err} (hpos : 0 < Npl + Ng)
    (hpl : ∀ c ∈ infoCollection "pl", use c.1 = true → o c.1 = true ∧ needsDeclared blocks .body (some c.1) c.2 = true)
    (hg : ∀ c ∈ infoCollection "g", use c.1 = true → o c.1 = true ∧ needsDeclared blocks .gauss (some c.1) c.2 = true)
    (hmass : (needsDeclared blocks .body none powerlawPrimaryMassRatio &&
      needsDeclared blocks .gauss none (truncatedNormal "mass_1_source" "m1" "g") &&
      needsDeclared blocks .gauss none (truncatedNormal "mass_2_source" "m2" "g") &&
      blocks.any fun b => decide (b.1 = none) && b.2.contains ("log_rate", .total)) = true)
    (h : nPowerlawMGaussian use Npl Ng params = .error e) : MissingFrom (expandAll (allParams blocks o) Npl Ng) params e := by
  simp only [Bool.and_eq_true] at hmass
  obtain ⟨⟨⟨m1, m2⟩, m3⟩, m4⟩ := hmass
  have eP : ∀ e', buildPl use Npl params = .error e' → MissingFrom (expandAll (allParams blocks o) Npl Ng) params e' := by
    intro e' h'
    unfold buildPl at h'
    cases hc : create Npl params powerlawPrimaryMassRatio with
    | error e'' =>
      rw [hc] at h'
      simp only [Except.error.injEq] at h'
      subst h'
      exact missing_create rfl m1 rfl hc
    | ok ms => rw [hc] at h'; exact missing_buildLoop rfl hpl h'
  have eG : ∀ e', buildG use Ng params = .error e' → MissingFrom (expandAll (allParams blocks o) Npl Ng) params e' := by
    intro e' h'
    unfold buildG at h'
    cases hc : create Ng params (truncatedNormal "mass_1_source" "m1" "g") with
    | error e'' =>
      rw [hc] at h'
      simp only [Except.error.injEq] at h'
      subst h'
      exact missing_create rfl m2 rfl hc
    | ok ms =>
      rw [hc] at h'
      simp only at h'
      cases hc2 : create Ng params (truncatedNormal "mass_2_source" "m2" "g") with
      | error e'' =>
        rw [hc2] at h'
        simp only [Except.error.injEq] at h'
        subst h'
        exact missing_create rfl m3 rfl hc2
      | ok ms' => rw [hc2] at h'; exact missing_buildLoop rfl hg h'
  have eR : ∀ (comps : List (List Factor)), (match (List.range (Npl + Ng)).mapM fun i => item params ("log_rate_" ++ toString i) with
        | .error e => .error e
        | .ok rates => .ok ⟨rates, comps⟩ : Except Err Mixture) = .error e → MissingFrom (expandAll (allParams blocks o) Npl Ng) params e := by
    intro comps hh
    cases hr : (List.range (Npl + Ng)).mapM fun i => item params ("log_rate_" ++ toString i) with
    | ok rates => rw [hr] at hh; simp at hh
    | error e' =>
      rw [hr] at hh
      simp only [Except.error.injEq] at hh
      subst hh
      obtain ⟨i, hi, hx⟩ := mapM_error _ _ _ hr
      unfold item at hx
      split at hx
      · simp at hx
      · rename_i hn
        simp only [Except.error.injEq] at hx
        obtain ⟨b, hb, hh⟩ := List.any_eq_true.1 m4
        simp only [Bool.and_eq_true, decide_eq_true_eq] at hh
        refine ⟨_, ?_, (get?_eq_none_iff _ _).1 hn, .inr hx.symm⟩
        have := mem_expandAll (o := o) (nb := Npl) (ng := Ng) (i := i) hb (by rw [hh.1]; rfl) (by simpa using hh.2) (by simpa [Count.eval] using hi)
        rwa [show ("log_rate" : String) ++ "_" = "log_rate_" by decide] at this
  unfold nPowerlawMGaussian at h
  by_cases hp : 0 < Npl
  · rw [if_pos hp] at h
    cases hpl : buildPl use Npl params with
    | error e' => rw [hpl] at h; simp only [Except.map, Except.error.injEq] at h; subst h; exact eP _ hpl
    | ok a =>
      rw [hpl] at h
      simp only [Except.map] at h
      by_cases hgp : 0 < Ng
      · rw [if_pos hgp] at h
        cases hgg : buildG use Ng params with
        | error e' => rw [hgg] at h; simp only [Except.error.injEq] at h; subst h; exact eG _ hgg
        | ok g =>
          rw [hgg] at h
          simp only at h
          rw [if_neg (by omega), if_neg (by omega)] at h
          exact eR _ h
      · rw [if_neg hgp] at h
        simp only at h
        rw [if_neg (by omega), if_pos (by omega)] at h
        exact eR _ h
  · rw [if_neg hp] at h
    rw [if_pos (by omega : 0 < Ng)] at h
    simp only at h
    cases hgg : buildG use Ng params with
    | error e' => rw [hgg] at h; simp only [Except.map, Except.error.injEq] at h; subst h; exact eG _ hgg
    | ok g =>
      rw [hgg] at h
      simp only [Except.map] at h
      rw [if_pos (by omega)] at h
      exact eR _ h

theorem sageConstants_on {o : Flag → Bool} {f : Flag} (h : sageConstants o f = true) : sageOff f = false ∧ o f = true := by
  cases f <;> first | exact ⟨rfl, h⟩ | (exact absurd h (by simp [sageConstants]))

theorem genieConstants_on {o : Flag → Bool} {f : Flag} (h : genieConstants o f = true) : genieOff f = false ∧ o f = true := by
  cases f <;> first | exact ⟨rfl, h⟩ | (exact absurd h (by simp [genieConstants]))

theorem on_of_all {off : Flag → Bool} {blocks : List (Option Flag × List (String × Count))} {cnt : Count} {coll : List (Flag × Maker)}
    (h : (coll.all fun e => off e.1 || needsDeclared blocks cnt (some e.1) e.2) = true) {c : Flag × Maker} (hc : c ∈ coll)
    (ho : off c.1 = false) : needsDeclared blocks cnt (some c.1) c.2 = true := by
  have := List.all_eq_true.1 h c hc
  rwa [ho, Bool.false_or] at this

/-- **C50** (`n_pls_m_gs`).  For every combination of options and every positive number of components: if building the model fails, the
exception names a hyper-parameter the analysis declares and the caller did not give.  So no undeclared name is ever required. -/
theorem C50_only_declared_names_required {o : Flag → Bool} {Npl Ng : Nat} (hpos : 0 < Npl + Ng) {params : Dict String ℝ} {e : Err}
    (h : nPowerlawMGaussian (sageConstants o) Npl Ng params = .error e) : MissingFrom (sageModelParameters o Npl Ng) params e :=
  missing_nPowerlawMGaussian hpos
    (fun _ hc hu => ⟨(sageConstants_on hu).2, on_of_all sage_declares_pl hc (sageConstants_on hu).1⟩)
    (fun _ hc hu => ⟨(sageConstants_on hu).2, on_of_all sage_declares_g hc (sageConstants_on hu).1⟩) sage_declares_masses h

/-- **C50** (synthetic populations). -/
theorem C50_genie_only_declared_names_required {o : Flag → Bool} {Npl Ng : Nat} (hpos : 0 < Npl + Ng) {params : Dict String ℝ} {e : Err}
    (h : nPowerlawMGaussian (genieConstants o) Npl Ng params = .error e) : MissingFrom (genieModelParameters o Npl Ng) params e :=
  missing_nPowerlawMGaussian hpos
    (fun _ hc hu => ⟨(genieConstants_on hu).2, on_of_all genie_declares_pl hc (genieConstants_on hu).1⟩)
    (fun _ hc hu => ⟨(genieConstants_on hu).2, on_of_all genie_declares_g hc (genieConstants_on hu).1⟩) genie_declares_masses h

theorem missing_smoothed {names : List String} {body : Maker} {ct : String} (ht : smoothedTables names body ct = true)
    {blocks : List (Option Flag × List (String × Count))} {o : Flag → Bool} {Nb Ng : Nat} (hpos : 0 < Nb + Ng)
    {params : Dict String ℝ} {e : Err}
    (hd : ((smoothedInfoCollection ct).all (fun e => needsDeclared blocks .body (some e.1) e.2) &&
      (smoothedInfoCollection "g").all (fun e => needsDeclared blocks .gauss (some e.1) e.2) &&
      needsDeclared blocks .body none body && needsDeclared blocks .gauss none (truncatedNormal "mass_1_source" "m1" "g") &&
      blocks.any fun b => decide (b.1 = none) && b.2.contains ("lambda", .totalLessOne)) = true)
    (h : smoothedModel names body ct o Nb Ng params = .error e) :
    MissingFrom (names ++ expandAll (allParams blocks o) Nb Ng) params e := by
  simp only [Bool.and_eq_true] at hd
  obtain ⟨⟨⟨⟨d1, d2⟩, d3⟩, d4⟩, d5⟩ := hd
  have up : ∀ {e'}, MissingFrom (expandAll (allParams blocks o) Nb Ng) params e' →
      MissingFrom (names ++ expandAll (allParams blocks o) Nb Ng) params e' :=
    fun ⟨n, hn, hh⟩ => ⟨n, by simp [hn], hh⟩
  have eB : ∀ {mass ct' cnt N e'}, cnt.eval Nb Ng = N → needsDeclared blocks cnt none mass = true →
      (smoothedInfoCollection ct').all (fun e => needsDeclared blocks cnt (some e.1) e.2) = true →
      buildSmoothed mass ct' o N params = .error e' → MissingFrom (expandAll (allParams blocks o) Nb Ng) params e' := by
    intro mass ct' cnt N e' hN h1 h2 h'
    unfold buildSmoothed at h'
    cases hc : create N params mass with
    | error e'' =>
      rw [hc] at h'
      simp only [Except.error.injEq] at h'
      subst h'
      exact missing_create hN h1 rfl hc
    | ok ms =>
      rw [hc] at h'
      simp only at h'
      cases hb : buildLoop o N params (smoothedInfoCollection ct') (ms.map fun m => [m]) with
      | ok w => rw [hb] at h'; simp [Except.map] at h'
      | error e'' =>
        rw [hb] at h'
        simp only [Except.map, Except.error.injEq] at h'
        subst h'
        exact missing_buildLoop hN (fun c hc hu => ⟨hu, List.all_eq_true.1 h2 c hc⟩) hb
  have tt := ht
  simp only [smoothedTables, Bool.and_eq_true, decide_eq_true_eq] at tt
  obtain ⟨⟨⟨⟨⟨⟨⟨⟨t1, t2⟩, _⟩, _⟩, g1⟩, g2⟩, g3⟩, _⟩, _⟩ := tt
  unfold smoothedModel at h
  cases h1 : popAll names params with
  | error e' =>
    rw [h1] at h
    simp only [Except.error.injEq] at h
    subst h
    obtain ⟨n, hn, he, hg⟩ := popAll_error h1 t2
    exact ⟨n, by simp [hn], (get?_eq_none_iff _ _).1 hg, .inr he⟩
  | ok w =>
    obtain ⟨vs, d1'⟩ := w
    rw [h1] at h
    simp only at h
    cases h2 : popAll (lambdaNames (Nb + Ng - 1)) d1' with
    | error e' =>
      have h2' := h2
      unfold lambdaNames at h2
      rw [h2] at h
      simp only [Except.error.injEq] at h
      subst h
      obtain ⟨n, hn, he, hg⟩ := popAll_error h2' (lambdaNames_nodup _)
      obtain ⟨i, hi, rfl⟩ := List.mem_map.1 hn
      rw [(popAll_ok h1 t2).2 _ (lambda_not_mem t1 i)] at hg
      obtain ⟨b, hb, hh⟩ := List.any_eq_true.1 d5
      simp only [Bool.and_eq_true, decide_eq_true_eq] at hh
      refine up ⟨_, ?_, (get?_eq_none_iff _ _).1 hg, .inr he⟩
      rw [lambda_name]
      exact mem_expandAll (o := o) hb (by rw [hh.1]; rfl) (by simpa using hh.2) (by simpa [Count.eval] using hi)
    | ok w =>
      obtain ⟨ls, d2'⟩ := w
      obtain ⟨p1, p2, p3, p4⟩ := smoothed_after_pops ht h1 h2
      unfold lambdaNames at h2
      rw [h2] at h
      simp only [p3, p4] at h
      cases hb : (if 0 < Nb then buildSmoothed body ct o Nb params else .ok ([], [])) with
      | error e' =>
        rw [hb] at h
        simp only [Except.error.injEq] at h
        subst h
        by_cases hN : 0 < Nb
        · rw [if_pos hN] at hb; exact up (eB (cnt := .body) rfl d3 d1 hb)
        · rw [if_neg hN] at hb; simp at hb
      | ok w =>
        obtain ⟨bm, bc⟩ := w
        rw [hb] at h
        simp only at h
        cases hgx : (if 0 < Ng then buildSmoothed (truncatedNormal "mass_1_source" "m1" "g") "g" o Ng params else .ok ([], [])) with
        | error e' =>
          rw [hgx] at h
          simp only [Except.error.injEq] at h
          subst h
          by_cases hN : 0 < Ng
          · rw [if_pos hN] at hgx; exact up (eB (cnt := .gauss) rfl d4 d2 hgx)
          · rw [if_neg hN] at hgx; simp at hgx
        | ok w =>
          obtain ⟨gm, gc⟩ := w
          rw [hgx] at h
          simp only at h
          have hlb : bc.length = Nb := by
            by_cases hN : 0 < Nb
            · rw [if_pos hN] at hb
              exact (buildSmoothed_components g1 g2 g3 hb).2.1
            · rw [if_neg hN] at hb
              simp only [Except.ok.injEq, Prod.mk.injEq] at hb
              obtain ⟨rfl, rfl⟩ := hb
              simp; omega
          have hlg : gc.length = Ng := by
            by_cases hN : 0 < Ng
            · rw [if_pos hN] at hgx
              exact (buildSmoothed_components good_mass_m1 good_smoothed_g rfl hgx).2.1
            · rw [if_neg hN] at hgx
              simp only [Except.ok.injEq, Prod.mk.injEq] at hgx
              obtain ⟨rfl, rfl⟩ := hgx
              simp; omega
          have hll : ls.length = Nb + Ng - 1 := by rw [← p2.length_eq]; simp [lambdaNames]
          rw [if_pos (by simp [closeWeights, hll, hlb, hlg]; omega)] at h
          simp at h

/-- **C50** (`o3_n_pls_m_gs`). -/
theorem C50_o3_only_declared_names_required {o : Flag → Bool} {Npl Ng : Nat} (hpos : 0 < Npl + Ng) {params : Dict String ℝ} {e : Err}
    (h : nSmoothedPowerlawMSmoothedGaussian o Npl Ng params = .error e) : MissingFrom (o3ModelParameters o Npl Ng) params e :=
  missing_smoothed o3_tables hpos o3_declares h

/-- **C50** (`o4_n_bpls_m_gs`). -/
theorem C50_o4_only_declared_names_required {o : Flag → Bool} {Nbpl Ng : Nat} (hpos : 0 < Nbpl + Ng) {params : Dict String ℝ} {e : Err}
    (h : nBrokenPowerlawMGaussian o Nbpl Ng params = .error e) : MissingFrom (o4ModelParameters o Nbpl Ng) params e :=
  missing_smoothed o4_tables hpos o4_declares h

theorem ok_of_not_missing {α : Type} {declared : List String} {params : Dict String ℝ} {x : Except Err α} (hd : ∀ n ∈ declared, n ∈ keys params)
    (h : ∀ e, x = .error e → MissingFrom declared params e) : ∃ m, x = .ok m := by
  cases x with
  | ok m => exact ⟨m, rfl⟩
  | error e =>
    obtain ⟨n, hn, hk, _⟩ := h e rfl
    exact absurd (hd n hn) hk

/-- **C50** (complete prior files suffice).  For every combination of options and every positive number of components, once every declared
hyper-parameter has a value each of the four models is built. -/
theorem C50_complete_priors_suffice (o : Flag → Bool) {Nb Ng : Nat} (hpos : 0 < Nb + Ng) (params : Dict String ℝ) :
    ((∀ n ∈ sageModelParameters o Nb Ng, n ∈ keys params) → ∃ m, nPowerlawMGaussian (sageConstants o) Nb Ng params = .ok m) ∧
    ((∀ n ∈ genieModelParameters o Nb Ng, n ∈ keys params) → ∃ m, nPowerlawMGaussian (genieConstants o) Nb Ng params = .ok m) ∧
    ((∀ n ∈ o3ModelParameters o Nb Ng, n ∈ keys params) → ∃ m, nSmoothedPowerlawMSmoothedGaussian o Nb Ng params = .ok m) ∧
    ((∀ n ∈ o4ModelParameters o Nb Ng, n ∈ keys params) → ∃ m, nBrokenPowerlawMGaussian o Nb Ng params = .ok m) :=
  ⟨fun hd => ok_of_not_missing hd fun _ h => C50_only_declared_names_required hpos h,
   fun hd => ok_of_not_missing hd fun _ h => C50_genie_only_declared_names_required hpos h,
   fun hd => ok_of_not_missing hd fun _ h => C50_o3_only_declared_names_required hpos h,
   fun hd => ok_of_not_missing hd fun _ h => C50_o4_only_declared_names_required hpos h⟩

/-- **C50** (violated: no components).  With no component of either kind the `n_pls_m_gs` model fails on an unassigned variable and the smoothed
ones on a mixture without components, whatever the hyper-parameters, as soon as the shared ones are given. -/
theorem C50_no_components_violated (use : Flag → Bool) (params : Dict String ℝ) :
    nPowerlawMGaussian use 0 0 params = .error (.unboundLocal "pl_component_dist") ∧
    (∀ m, nSmoothedPowerlawMSmoothedGaussian use 0 0 params ≠ .ok m) ∧ ∀ m, nBrokenPowerlawMGaussian use 0 0 params ≠ .ok m := by
  refine ⟨rfl, fun m h => ?_, fun m h => ?_⟩
  · exact absurd (smoothedModel_ok o3_tables h).1 (by simp)
  · exact absurd (smoothedModel_ok o4_tables h).1 (by simp)

/-! #### The declared names -/

theorem mem_expandAll_iff {l : List (String × Count)} {nb ng : Nat} {s : String} :
    s ∈ expandAll l nb ng ↔ ∃ p ∈ l, ∃ i < p.2.eval nb ng, s = p.1 ++ "_" ++ toString i := by
  unfold expandAll expandArguments
  rw [List.mem_flatMap]
  refine exists_congr fun p => and_congr_right fun _ => ?_
  rw [List.mem_map]
  constructor
  · rintro ⟨i, hi, h⟩; exact ⟨i, by simpa using hi, h.symm⟩
  · rintro ⟨i, hi, h⟩; exact ⟨i, by simpa using hi, h.symm⟩

theorem expandAll_nodup {l : List (String × Count)} (h : (l.map (·.1)).Nodup) (nb ng : Nat) : (expandAll l nb ng).Nodup := by
  induction l with
  | nil => exact List.nodup_nil
  | cons p l ih =>
    rw [List.map_cons, List.nodup_cons] at h
    have hc : expandAll (p :: l) nb ng = expandArguments p.1 (p.2.eval nb ng) ++ expandAll l nb ng := rfl
    rw [hc, List.nodup_append]
    refine ⟨?_, ih h.2, ?_⟩
    · refine List.Nodup.map ?_ List.nodup_range
      intro i j hij
      exact (numbered_eq hij).2
    · intro a ha b hb hab
      subst hab
      obtain ⟨i, _, rfl⟩ := List.mem_map.1 ha
      obtain ⟨q, hq, j, _, he⟩ := mem_expandAll_iff.1 hb
      exact h.1 (List.mem_map.2 ⟨q, hq, (numbered_eq he).1.symm⟩)

theorem allParams_nodup {blocks : List (Option Flag × List (String × Count))} (h : ((blocks.flatMap (·.2)).map (·.1)).Nodup) (o : Flag → Bool) :
    ((allParams blocks o).map (·.1)).Nodup := by
  refine List.Nodup.sublist (List.Sublist.map _ ?_) h
  unfold allParams
  induction blocks with
  | nil => exact List.Sublist.refl _
  | cons b bs ih =>
    have hbs : ((bs.flatMap (·.2)).map (·.1)).Nodup := by
      rw [List.flatMap_cons, List.map_append, List.nodup_append] at h
      exact h.2.1
    rw [List.flatMap_cons, List.flatMap_cons]
    refine List.Sublist.append ?_ (ih hbs)
    split
    · exact List.Sublist.refl _
    · exact List.nil_sublist _

theorem sageBlocks_nodup : ((sageBlocks.flatMap (·.2)).map (·.1)).Nodup := by decide +kernel
theorem genieBlocks_nodup : ((genieBlocks.flatMap (·.2)).map (·.1)).Nodup := by decide +kernel
theorem o3Blocks_nodup : ((o3Blocks.flatMap (·.2)).map (·.1)).Nodup := by decide +kernel
theorem o4Blocks_nodup : ((o4Blocks.flatMap (·.2)).map (·.1)).Nodup := by decide +kernel

/-- **C50** (the declared names are pairwise different) for every combination of options and numbers of components. -/
theorem C50_declared_names_distinct (o : Flag → Bool) (Nb Ng : Nat) :
    (sageModelParameters o Nb Ng).Nodup ∧ (genieModelParameters o Nb Ng).Nodup ∧ (o3ModelParameters o Nb Ng).Nodup ∧
    (o4ModelParameters o Nb Ng).Nodup := by
  have key : ∀ (names : List String) (blocks : List (Option Flag × List (String × Count))), names.Nodup → names.all notNumbered = true →
      ((blocks.flatMap (·.2)).map (·.1)).Nodup → (names ++ expandAll (allParams blocks o) Nb Ng).Nodup := by
    intro names blocks h1 h2 h3
    rw [List.nodup_append]
    refine ⟨h1, expandAll_nodup (allParams_nodup h3 o) _ _, ?_⟩
    intro a ha b hb hab
    subst hab
    obtain ⟨p, _, i, _, he⟩ := mem_expandAll_iff.1 hb
    exact numbered_ne (List.all_eq_true.1 h2 _ ha) he.symm
  exact ⟨expandAll_nodup (allParams_nodup sageBlocks_nodup o) _ _, expandAll_nodup (allParams_nodup genieBlocks_nodup o) _ _,
    key _ _ (by decide +kernel) (by decide +kernel) o3Blocks_nodup, key _ _ (by decide +kernel) (by decide +kernel) o4Blocks_nodup⟩

/-! #### The admissibility checks -/

theorem sage_no_chi_names : ((sageBlocks.flatMap (·.2)).all fun p =>
    !(["chi1_mean_pl", "chi1_mean_g"].contains p.1)) = true := by decide +kernel

theorem item_missing {params : Dict String ℝ} {n : String} (h : n ∉ keys params) : item params n = .error (.keyError n) := by
  unfold item
  rw [(get?_eq_none_iff _ _).2 h]

theorem checkReads_missing {stat ct : String} {N : Nat} (hN : 0 < N) {kwargs : Dict String ℝ}
    (h : "chi" ++ toString 1 ++ "_" ++ stat ++ "_" ++ ct ++ "_" ++ toString 0 ∉ keys kwargs) :
    checkReads stat ct N kwargs = .error (.keyError ("chi" ++ toString 1 ++ "_" ++ stat ++ "_" ++ ct ++ "_" ++ toString 0)) := by
  obtain ⟨n, rfl⟩ : ∃ n, N = n + 1 := ⟨N - 1, by omega⟩
  unfold checkReads
  rw [List.range_succ_eq_map]
  simp only [List.flatMap_cons, List.map_cons, List.map_nil, List.cons_append, List.mapM_cons]
  rw [item_missing h]
  rfl

/-- **C50** (violated: the beta-spin check of `n_pls_m_gs`).  With any positive number of components, the check of the spin means and variances
asks for `chi1_mean_…` although the analysis declares `a_1_mean_…`: given only declared hyper-parameters and constants (whose names do not end in
a number), it always raises `KeyError`. -/
theorem C50_beta_spin_check_violated {o : Flag → Bool} {Npl Ng : Nat} (hpos : 0 < Npl + Ng) {kwargs : Dict String ℝ}
    (hk : ∀ k ∈ keys kwargs, k ∈ sageModelParameters o Npl Ng ∨ notNumbered k = true) :
    meanVarianceCheck Npl Ng kwargs = .error (.keyError (if 0 < Npl then "chi1_mean_pl_0" else "chi1_mean_g_0")) := by
  have miss : ∀ ct, "chi" ++ toString 1 ++ "_" ++ "mean" ++ "_" ++ ct ∈ ["chi1_mean_pl", "chi1_mean_g"] →
      "chi" ++ toString 1 ++ "_" ++ "mean" ++ "_" ++ ct ++ "_" ++ toString 0 ∉ keys kwargs := by
    intro ct hct hm
    rcases hk _ hm with h | h
    · obtain ⟨p, hp, i, _, he⟩ := mem_expandAll_iff.1 h
      obtain ⟨h1, _⟩ := numbered_eq (i := 0) he
      obtain ⟨b, hb, hp⟩ := List.mem_flatMap.1 hp
      have hp' : p ∈ sageBlocks.flatMap (·.2) := by
        refine List.mem_flatMap.2 ⟨b, hb, ?_⟩
        split at hp
        · exact hp
        · simp at hp
      have := List.all_eq_true.1 sage_no_chi_names p hp'
      rw [← h1] at this
      simp only [Bool.not_eq_true', List.contains_eq_mem, decide_eq_false_iff_not] at this
      exact this hct
    · exact numbered_ne h rfl
  unfold meanVarianceCheck
  by_cases hp : 0 < Npl
  · rw [if_pos hp, if_pos hp, checkReads_missing hp (miss "pl" (by decide))]
    simp only [bind, Except.bind]
    rfl
  · rw [if_neg hp, if_neg hp]
    simp only [bind, Except.bind, pure, Except.pure]
    rw [if_pos (by omega : 0 < Ng), checkReads_missing (by omega : 0 < Ng) (miss "g" (by decide))]
    rfl

theorem checkReads_values {kwargs : Dict String ℝ} (stat ct : String) (N : Nat) (val : ℕ → ℕ → ℝ)
    (h : ∀ j < N, ∀ i ∈ [1, 2], get? kwargs ("chi" ++ toString i ++ "_" ++ stat ++ "_" ++ ct ++ "_" ++ toString j) = some (val i j)) :
    checkReads stat ct N kwargs = .ok ((List.range N).flatMap fun j => [val 1 j, val 2 j]) := by
  have key : ∀ l : List ℕ, (∀ j ∈ l, j < N) →
      (l.flatMap fun j => [1, 2].map fun (i : Nat) => "chi" ++ toString i ++ "_" ++ stat ++ "_" ++ ct ++ "_" ++ toString j).mapM (item kwargs) =
        .ok (l.flatMap fun j => [val 1 j, val 2 j]) := by
    intro l
    induction l with
    | nil => intro _; rfl
    | cons j l ih =>
      intro hl
      have h1 := h j (hl j (by simp)) 1 (by simp)
      have h2 := h j (hl j (by simp)) 2 (by simp)
      simp only [List.flatMap_cons, List.map_cons, List.map_nil, List.cons_append, List.nil_append, List.mapM_cons, item, h1, h2]
      have := ih fun k hk => hl k (by simp [hk])
      simp only [List.map_cons, List.map_nil, item] at this
      rw [this]
      rfl
  exact key _ fun j hj => by simpa using hj

/-- **C50** (the beta-spin check of `n_pls_m_gs`, on the names it asks for).  Were it given `chi1_mean_pl_0`, …, `chi2_variance_g_{N_g - 1}`, the check would see the mean and the variance of both spins of every component:
first the power laws, then the Gaussians, in order; with no component at all it raises `UnboundLocalError`. -/
theorem C50_beta_spin_check_reads {Npl Ng : Nat} {kwargs : Dict String ℝ} (mean variance : String → ℕ → ℕ → ℝ)
    (hpl : ∀ j < Npl, ∀ i ∈ [1, 2], get? kwargs ("chi" ++ toString i ++ "_mean_pl_" ++ toString j) = some (mean "pl" i j) ∧
      get? kwargs ("chi" ++ toString i ++ "_variance_pl_" ++ toString j) = some (variance "pl" i j))
    (hg : ∀ j < Ng, ∀ i ∈ [1, 2], get? kwargs ("chi" ++ toString i ++ "_mean_g_" ++ toString j) = some (mean "g" i j) ∧
      get? kwargs ("chi" ++ toString i ++ "_variance_g_" ++ toString j) = some (variance "g" i j)) :
    (0 < Npl + Ng → meanVarianceCheck Npl Ng kwargs = .ok
      (((List.range Npl).flatMap fun j => [mean "pl" 1 j, mean "pl" 2 j]) ++ ((List.range Ng).flatMap fun j => [mean "g" 1 j, mean "g" 2 j]),
       ((List.range Npl).flatMap fun j => [variance "pl" 1 j, variance "pl" 2 j]) ++ ((List.range Ng).flatMap fun j => [variance "g" 1 j, variance "g" 2 j]))) ∧
    (Npl + Ng = 0 → meanVarianceCheck Npl Ng kwargs = .error (.unboundLocal "means_g")) := by
  have r1 := checkReads_values (kwargs := kwargs) "mean" "pl" Npl (mean "pl") fun j hj i hi => by
    have := (hpl j hj i hi).1; simpa [String.append_assoc] using this
  have r2 := checkReads_values (kwargs := kwargs) "variance" "pl" Npl (variance "pl") fun j hj i hi => by
    have := (hpl j hj i hi).2; simpa [String.append_assoc] using this
  have r3 := checkReads_values (kwargs := kwargs) "mean" "g" Ng (mean "g") fun j hj i hi => by
    have := (hg j hj i hi).1; simpa [String.append_assoc] using this
  have r4 := checkReads_values (kwargs := kwargs) "variance" "g" Ng (variance "g") fun j hj i hi => by
    have := (hg j hj i hi).2; simpa [String.append_assoc] using this
  unfold meanVarianceCheck
  rw [r1, r2, r3, r4]
  constructor
  · intro hpos
    by_cases h1 : 0 < Npl <;> by_cases h2 : 0 < Ng
    · simp only [if_pos h1, if_pos h2]; rfl
    · obtain rfl : Ng = 0 := by omega
      simp only [if_pos h1, if_neg h2, List.range_zero, List.flatMap_nil, List.append_nil]; rfl
    · obtain rfl : Npl = 0 := by omega
      simp only [if_neg h1, if_pos h2, List.range_zero, List.flatMap_nil, List.nil_append]; rfl
    · omega
  · intro h0
    obtain ⟨rfl, rfl⟩ : Npl = 0 ∧ Ng = 0 := by omega
    rfl

/-- **C50** (the beta-spin check of the smoothed analyses reads declared names).  With beta spins and all declared hyper-parameters given, the check
succeeds in reading its arguments: the mean and variance of the primary spin of every component, in order. -/
theorem C50_o3_check_reads_primary_partial {o : Flag → Bool} (ho : o .betaSpin = true) {Npl Ng : Nat} {kwargs : Dict String ℝ}
    (hd : ∀ n ∈ o3ModelParameters o Npl Ng, n ∈ keys kwargs) :
    ∃ l, positiveConcentrationReads "pl" Npl Ng kwargs = .ok l ∧ l.length = Npl + Ng ∧
      (∀ i, i < Npl → ∃ p, l[i]? = some p ∧ get? kwargs ("a_1_mean_pl" ++ "_" ++ toString i) = some p.1 ∧
        get? kwargs ("a_1_variance_pl" ++ "_" ++ toString i) = some p.2) ∧
      ∀ i, i < Ng → ∃ p, l[Npl + i]? = some p ∧ get? kwargs ("a_1_mean_g" ++ "_" ++ toString i) = some p.1 ∧
        get? kwargs ("a_1_variance_g" ++ "_" ++ toString i) = some p.2 := by
  have hmem : ∀ (n : String) (c : Count), (o3Blocks.any fun b => decide (b.1 = some .betaSpin) && b.2.contains (n, c)) = true → ∀ i,
      i < c.eval Npl Ng → ∃ v, get? kwargs (n ++ "_" ++ toString i) = some v := by
    intro n c hb i hi
    obtain ⟨b, hb, hh⟩ := List.any_eq_true.1 hb
    simp only [Bool.and_eq_true, decide_eq_true_eq] at hh
    have := hd (n ++ "_" ++ toString i) (List.mem_append_right _ (mem_expandAll hb (by rw [hh.1]; exact ho) (by simpa using hh.2) hi))
    cases hg : get? kwargs (n ++ "_" ++ toString i) with
    | some v => exact ⟨v, rfl⟩
    | none => exact absurd this ((get?_eq_none_iff _ _).1 hg)
  have hread : ∀ (ct : String) (c : Count), (o3Blocks.any fun b => decide (b.1 = some .betaSpin) && b.2.contains ("a_1_mean_" ++ ct, c)) = true →
      (o3Blocks.any fun b => decide (b.1 = some .betaSpin) && b.2.contains ("a_1_variance_" ++ ct, c)) = true →
      ∃ l, concentrationReads ct (c.eval Npl Ng) kwargs = .ok l ∧ l.length = c.eval Npl Ng ∧ ∀ i, i < c.eval Npl Ng → ∃ p, l[i]? = some p ∧
        get? kwargs ("a_1_mean_" ++ ct ++ "_" ++ toString i) = some p.1 ∧ get? kwargs ("a_1_variance_" ++ ct ++ "_" ++ toString i) = some p.2 := by
    intro ct c h1 h2
    obtain ⟨l, hl⟩ := mapM_exists (fun n : Nat =>
      match get? kwargs ("a_1_mean_" ++ ct ++ "_" ++ toString n), get? kwargs ("a_1_variance_" ++ ct ++ "_" ++ toString n) with
      | some m, some v => (.ok (m, v) : Except Err (ℝ × ℝ))
      | _, _ => .error .typeError) (List.range (c.eval Npl Ng)) (by
        intro i hi
        obtain ⟨m, hm⟩ := hmem _ _ h1 i (by simpa using hi)
        obtain ⟨v, hv⟩ := hmem _ _ h2 i (by simpa using hi)
        rw [hm, hv]
        exact ⟨_, rfl⟩)
    refine ⟨l, hl, ?_⟩
    obtain ⟨a, b⟩ := mapM_range _ _ _ hl
    refine ⟨a, fun i hi => ?_⟩
    obtain ⟨p, hp, hh⟩ := b i hi
    obtain ⟨m, hm⟩ := hmem _ _ h1 i hi
    obtain ⟨v, hv⟩ := hmem _ _ h2 i hi
    rw [hm, hv] at hh
    simp only [Except.ok.injEq] at hh
    exact ⟨p, hp, by rw [hm, ← hh], by rw [hv, ← hh]⟩
  obtain ⟨a, ha, hal, hap⟩ := hread "pl" .body (by decide +kernel) (by decide +kernel)
  obtain ⟨b, hb, hbl, hbp⟩ := hread "g" .gauss (by decide +kernel) (by decide +kernel)
  simp only [Count.eval] at ha hal hap hb hbl hbp
  refine ⟨a ++ b, ?_, by simp [hal, hbl], fun i hi => ?_, fun i hi => ?_⟩
  · unfold positiveConcentrationReads
    rw [ha, hb]; rfl
  · obtain ⟨p, h1, h2⟩ := hap i hi
    exact ⟨p, by rw [List.getElem?_append_left (by omega), h1], h2⟩
  · obtain ⟨p, h1, h2⟩ := hbp i hi
    exact ⟨p, by rw [List.getElem?_append_right (by omega), hal, Nat.add_sub_cancel_left, h1], h2⟩

/-- **C50** (violated: the secondary spin).  The check never looks at the secondary spin: whatever its mean or variance, the arguments checked
are the same. -/
theorem C50_secondary_spin_unchecked_violated (body : String) (Nb Ng : Nat) (kwargs : Dict String ℝ) (stat : String)
    (hs : stat = "mean" ∨ stat = "variance") (ct : String) (i : Nat) (v : ℝ) :
    positiveConcentrationReads body Nb Ng (set kwargs ("a_2_" ++ stat ++ "_" ++ ct ++ "_" ++ toString i) v) =
      positiveConcentrationReads body Nb Ng kwargs := by
  have hne : ∀ (w c : String) (n : Nat), w = "a_1_mean_" ∨ w = "a_1_variance_" →
      w ++ c ++ "_" ++ toString n ≠ "a_2_" ++ stat ++ "_" ++ ct ++ "_" ++ toString i := by
    intro w c n hw h
    have h' := congrArg (fun s => s.toList[2]?) h
    rcases hw with rfl | rfl <;> rcases hs with rfl | rfl <;> simp [String.toList_append] at h'
  have hc : ∀ (c : String) (N : Nat), concentrationReads c N (set kwargs ("a_2_" ++ stat ++ "_" ++ ct ++ "_" ++ toString i) v) =
      concentrationReads c N kwargs := by
    intro c N
    unfold concentrationReads
    refine mapM_congr_mem _ _ _ fun n _ => ?_
    rw [get?_set_ne _ _ (hne _ _ _ (.inl rfl)), get?_set_ne _ _ (hne _ _ _ (.inr rfl))]
  unfold positiveConcentrationReads
  rw [hc, hc]

/-! #### The hypotheses are met -/

/-- Every declared hyper-parameter set to one. -/
def ones (names : List String) : Dict String ℝ := names.map fun n => (n, 1)

theorem keys_ones (names : List String) : keys (ones names) = names := by
  simp [ones, keys, Function.comp_def]

/-- Beta spins, tilts and redshift. -/
def someOptions : Flag → Bool
  | .betaSpin | .tilt | .redshift => true
  | _ => false

example : Exclusive someOptions := ⟨by simp [someOptions], by simp [someOptions]⟩

example : ∃ m, nPowerlawMGaussian (sageConstants someOptions) 2 1 (ones (sageModelParameters someOptions 2 1)) = .ok m ∧
    m.components.length = 3 ∧
    ∀ c ∈ m.components, coordinates c = ["mass_1_source", "mass_2_source", "a_1", "a_2", "cos_tilt_1", "cos_tilt_2", "redshift"] := by
  obtain ⟨m, hm⟩ := (C50_complete_priors_suffice someOptions (Nb := 2) (Ng := 1) (by norm_num) _).1 (by
    intro n hn; rw [keys_ones]; exact hn)
  obtain ⟨h1, _, h2⟩ := C49_columns_are_coordinates ⟨by simp [someOptions], by simp [someOptions]⟩ hm
  exact ⟨m, hm, h1, h2⟩

example : ∃ m, nBrokenPowerlawMGaussian someOptions 2 3 (ones (o4ModelParameters someOptions 2 3)) = .ok m ∧ m.weights.length = 5 ∧
    ∀ c ∈ m.components, Smoothed.coordinates c = ["mass_1_source", "a_1", "a_2", "cos_tilt_1", "cos_tilt_2", "redshift", "mass_ratio"] := by
  obtain ⟨m, hm⟩ := (C50_complete_priors_suffice someOptions (Nb := 2) (Ng := 3) (by norm_num) _).2.2.2 (by
    intro n hn; rw [keys_ones]; exact hn)
  obtain ⟨_, _, h2⟩ := C49_o4_columns_are_coordinates ⟨by simp [someOptions], by simp [someOptions]⟩ hm
  exact ⟨m, hm, (C50_o4_values hm).2.2.1, h2⟩

example : ∃ m, nSmoothedPowerlawMSmoothedGaussian someOptions 1 0 (ones (o3ModelParameters someOptions 1 0)) = .ok m := by
  exact (C50_complete_priors_suffice someOptions (Nb := 1) (Ng := 0) (by norm_num) _).2.2.1 (by
    intro n hn; rw [keys_ones]; exact hn)

/-- A precessing-spin population is built, but without its coordinate. -/
example : ∃ m, nPowerlawMGaussian (genieConstants fun f => decide (f = .chiP)) 1 0 (ones (genieModelParameters (fun f => decide (f = .chiP)) 1 0)) =
    .ok m ∧ ∀ c ∈ m.components, "chi_p" ∉ coordinates c := by
  obtain ⟨m, hm⟩ := (C50_complete_priors_suffice (fun f => decide (f = .chiP)) (Nb := 1) (Ng := 0) (by norm_num) _).2.1 (by
    intro n hn; rw [keys_ones]; exact hn)
  exact ⟨m, hm, (C49_generated_precessing_spin_violated (by simp) hm).2⟩

/-- Both spin-magnitude models: four spin coordinates for two columns. -/
example : ∃ m, nPowerlawMGaussian (sageConstants fun f => decide (f = .betaSpin ∨ f = .spinMixture)) 1 0
    (ones (sageModelParameters (fun f => decide (f = .betaSpin ∨ f = .spinMixture)) 1 0)) = .ok m := by
  exact (C50_complete_priors_suffice (fun f => decide (f = .betaSpin ∨ f = .spinMixture)) (Nb := 1) (Ng := 0) (by norm_num) _).1 (by
    intro n hn; rw [keys_ones]; exact hn)

/-- One power law and one Gaussian, with all eight names given. -/
example : meanVarianceCheck 1 1 [("chi1_mean_pl_0", 1), ("chi2_mean_pl_0", 2), ("chi1_variance_pl_0", 3), ("chi2_variance_pl_0", 4),
    ("chi1_mean_g_0", 5), ("chi2_mean_g_0", 6), ("chi1_variance_g_0", 7), ("chi2_variance_g_0", 8)] = .ok ([1, 2, 5, 6], [3, 4, 7, 8]) :=
  (C50_beta_spin_check_reads (fun c i _ => if c = "pl" then i else i + 4) (fun c i _ => if c = "pl" then i + 2 else i + 6)
    (by intro j hj i hi; obtain rfl : j = 0 := by omega
        rw [if_pos rfl, if_pos rfl]
        simp only [List.mem_cons, List.not_mem_nil, or_false] at hi
        rcases hi with rfl | rfl
        · exact ⟨Eq.trans (b := some 1) rfl (by norm_num), Eq.trans (b := some 3) rfl (by norm_num)⟩
        · exact ⟨Eq.trans (b := some 2) rfl (by norm_num), Eq.trans (b := some 4) rfl (by norm_num)⟩)
    (by intro j hj i hi; obtain rfl : j = 0 := by omega
        rw [if_neg (by decide), if_neg (by decide)]
        simp only [List.mem_cons, List.not_mem_nil, or_false] at hi
        rcases hi with rfl | rfl
        · exact ⟨Eq.trans (b := some 5) rfl (by norm_num), Eq.trans (b := some 7) rfl (by norm_num)⟩
        · exact ⟨Eq.trans (b := some 6) rfl (by norm_num), Eq.trans (b := some 8) rfl (by norm_num)⟩)).1 (by norm_num) |>.trans (by norm_num [List.range_succ]; decide)

example : meanVarianceCheck 1 1 (ones (sageModelParameters someOptions 1 1)) = .error (.keyError "chi1_mean_pl_0") :=
  C50_beta_spin_check_violated (o := someOptions) (by norm_num) (by intro k hk; rw [keys_ones] at hk; exact .inl hk)

example : ∃ l, positiveConcentrationReads "pl" 1 1 (ones (o3ModelParameters someOptions 1 1)) = .ok l ∧ l.length = 2 := by
  obtain ⟨l, h, hl, _⟩ := C50_o3_check_reads_primary_partial (o := someOptions) (Npl := 1) (Ng := 1)
    (kwargs := ones (o3ModelParameters someOptions 1 1)) rfl (by intro n hn; rw [keys_ones]; exact hn)
  exact ⟨l, h, hl⟩

/-- A missing slope is reported by its own name. -/
example : MissingFrom (sageModelParameters (fun f => decide (f = .redshift)) 1 0) (ones ["log_rate_0"]) (.valueError "alpha_pl_0") :=
  C50_only_declared_names_required (o := fun f => decide (f = .redshift)) (by norm_num)
    (show nPowerlawMGaussian (sageConstants fun f => decide (f = .redshift)) 1 0 (ones ["log_rate_0"]) = .error (.valueError "alpha_pl_0") from rfl)

end GW.Hybrids
