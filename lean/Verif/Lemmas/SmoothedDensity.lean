import Verif.Model.SmoothedDensity
import Verif.Spec.SmoothedDensity
import Verif.Lemmas.HybridMass
import Verif.Lemmas.Validation
import Verif.Lemmas.Rates
import Verif.Props.HybridDensity
import Verif.Props.HybridNames
import Verif.Props.Smoothed

/-! Facts about the smoothed hybrid models. -/

namespace GW.Mass
open GW XR GW.Num
open scoped Classical

/-- The normalisation of the mass ratio. -/
theorem AndRest.zq_exists (d : AndRest) (hmax : d.m1min < d.m1max) (h2 : 0 < d.m2min) (hd2 : 0 < d.delta2) :
    ∃ Zq : ℝ → ℝ, (∀ m, 0 < Zq m) ∧ (∀ m, d.m1min ≤ m → m ≤ d.m1max →
        ∃ v, 0 ≤ v ∧ Interpolates (fun m => trapz (d.ratio m) 0.005 1 500) d.m1min d.m1max 1000 m v ∧ Zq m = if v ≤ 0 then 1 else v) ∧
      ∀ m, logZq (interp (fin m) d.m1s d.zq (fin 0) (fin 0)) = fin (Real.log (Zq m)) := by
  have hQ : ∀ m, d.m1min ≤ m → m ≤ d.m1max → ∀ q, 0 < q → q ≤ 1 → IsLog (d.qUnnorm (fin m) (fin q)) ∧ expR (d.qUnnorm (fin m) (fin q)) = d.ratio m q := by
    intro m _ b q hq hq1
    have := d.q_spec h2 hd2 (m := m) hq.le hq1
    rwa [if_pos b] at this
  have hZ : ∀ m, ∃ z : ℝ, 0 < z ∧ (d.m1min ≤ m → m ≤ d.m1max → (∃ v, 0 ≤ v ∧ Interpolates (fun m => trapz (d.ratio m) 0.005 1 500) d.m1min d.m1max 1000 m v ∧ z = if v ≤ 0 then 1 else v)) ∧
      logZq (interp (fin m) d.m1s d.zq (fin 0) (fin 0)) = fin (Real.log z) := by
    intro m
    by_cases h1 : m < d.m1min
    · refine ⟨1, one_pos, fun a => absurd a (not_le.2 h1), ?_⟩
      rw [AndRest.m1s, interp_left (by norm_num) hmax (show lt (fin m) (fin d.m1min) from h1), logZq_zero, Real.log_one]
    · by_cases h2 : d.m1max < m
      · refine ⟨1, one_pos, fun _ a => absurd a (not_le.2 h2), ?_⟩
        rw [AndRest.m1s, interp_right (by norm_num) (show lt (fin d.m1max) (fin m) from h2), logZq_zero, Real.log_one]
      · push Not at h1 h2
        obtain ⟨v, a, b, c⟩ := logZq_interp hmax hQ h1 h2 (fin 0) (fin 0)
        refine ⟨if v ≤ 0 then 1 else v, ?_, fun _ _ => ⟨v, a, b, rfl⟩, c⟩
        split_ifs with h
        · exact one_pos
        · exact not_le.1 h
  choose Zq hZ0 hZq hZe using hZ
  exact ⟨Zq, hZ0, hZq, hZe⟩

/-- The log density at one event. -/
theorem AndRest.logProb_at (d : AndRest) {Z : ℝ} (hm2 : 0 < d.m2min) (hd1 : 0 < d.delta1) (hd2 : 0 < d.delta2) (hZ : 0 < Z) (hlZ : d.logZ = XR.log (fin Z))
    {Zq : ℝ → ℝ} (hZ0 : ∀ m, 0 < Zq m) (hZe : ∀ m, logZq (interp (fin m) d.m1s d.zq (fin 0) (fin 0)) = fin (Real.log (Zq m)))
    (m q : ℝ) (tl : List XR) (hlog : IsLog (d.restLogProb (fin m :: tl))) (hout : d.restSupport (fin m :: tl) = false → expR (d.restLogProb (fin m :: tl)) = 0) :
    IsLog (d.logProb (fin m :: tl) (fin q)) ∧ expR (d.logProb (fin m :: tl) (fin q)) =
      if (d.m1min ≤ m ∧ m ≤ d.m1max) ∧ 0 ≤ q ∧ q ≤ 1 then
        Real.exp d.logRate * (expR (d.restLogProb (fin m :: tl)) * planckTaper ((m - d.m1min) / d.delta1) / Z) * (d.ratio m q / Zq m)
      else 0 := by
  have a2 := C25_log_window ((m - d.m1min) / d.delta1)
  obtain ⟨q1, q2⟩ := d.q_log hm2 m q
  have hq : expR (d.qUnnorm (fin m) (fin q)) = if 0 ≤ q ∧ q ≤ 1 then (if m ≤ d.m1max then d.ratio m q else 0) else 0 := by
    split_ifs with h1 h2
    · rw [(d.q_spec hm2 hd2 h1.1 h1.2).2, if_pos h2]
    · rw [(d.q_spec hm2 hd2 h1.1 h1.2).2, if_neg h2]
    · rw [q2 h1]; rfl
  have sel : ∀ v : XR, select v.isNegInf ninf v = v := by
    intro v
    cases v <;> rfl
  set V := fin d.logRate + (d.restLogProb (fin m :: tl) + logPlanck (fin ((m - d.m1min) / d.delta1)) - fin (Real.log Z)) + d.qUnnorm (fin m) (fin q) - fin (Real.log (Zq m)) with hV
  have e : d.logProb (fin m :: tl) (fin q) = validated d.validate (d.support (fin m :: tl) (fin q)) V := by
    have hz := hlZ
    rw [log_fin_pos hZ] at hz
    simp only [AndRest.logProb, List.cons_append, List.headD_cons, hz, hZe, planck_frac _ _ _ hd1, decide_eq_false (not_le.2 hd1), Bool.false_or]
    rw [sel]
  have b1 := hlog.add a2.2.1
  have b2 := IsLog.sub_fin b1 (Real.log Z)
  have b3 := (isLog_fin d.logRate).add b2
  have b4 := b3.add q1
  have hVl : IsLog V := IsLog.sub_fin b4 _
  have hVe : expR V = if (d.m1min ≤ m ∧ m ≤ d.m1max) ∧ 0 ≤ q ∧ q ≤ 1 then
        Real.exp d.logRate * (expR (d.restLogProb (fin m :: tl)) * planckTaper ((m - d.m1min) / d.delta1) / Z) * (d.ratio m q / Zq m)
      else 0 := by
    rw [hV, expR_sub_fin b4, expR_add b3 q1, expR_add (isLog_fin _) b2, expR_sub_fin b1, expR_add hlog a2.2.1, a2.2.2, hq, expR_fin, Real.exp_log hZ,
      Real.exp_log (hZ0 m), mul_div_assoc]
    by_cases hm1 : d.m1min ≤ m
    · by_cases hm' : m ≤ d.m1max
      · by_cases hqq : 0 ≤ q ∧ q ≤ 1
        · rw [if_pos hqq, if_pos hm', if_pos ⟨⟨hm1, hm'⟩, hqq⟩]
        · rw [if_neg hqq, if_neg (fun k => hqq k.2), zero_div, mul_zero]
      · rw [if_neg hm', ite_self, if_neg (fun k => hm' k.1.2), zero_div, mul_zero]
    · have hn : ¬((d.m1min ≤ m ∧ m ≤ d.m1max) ∧ 0 ≤ q ∧ q ≤ 1) := fun k => hm1 k.1.1
      rw [if_neg hn, planck_zero hd1 (not_le.1 hm1).le, mul_zero, zero_div, mul_zero, zero_mul]
  rw [e]
  cases hs : d.support (fin m :: tl) (fin q) with
  | true => rw [Spin.validated_of_true]; exact ⟨hVl, hVe⟩
  | false =>
    have h0 : expR V = 0 := by
      rw [hVe]
      simp only [AndRest.support, Bool.and_eq_false_iff] at hs
      rcases hs with hs | hs
      · rw [hout hs]
        simp
      · rw [if_neg]
        rintro ⟨-, c1, c2⟩
        simp [c1, c2] at hs
    cases hv : d.validate with
    | true =>
      simp only [validated, if_true, select_false]
      exact ⟨isLog_ninf, by rw [← hVe, h0]; rfl⟩
    | false =>
      simp only [validated, Bool.false_eq_true, if_false]
      exact ⟨hVl, hVe⟩

/-- The normalisation of the mass mixture. -/
theorem mixtureLogZ_eq {f : XR → XR} {g : ℝ → ℝ} {delta lo hi : ℝ} (hd : 0 < delta) (hlh : lo < hi)
    (hf : ∀ m, lo ≤ m → m ≤ hi → IsLog (f (fin m)) ∧ expR (f (fin m)) = g m) :
    mixtureLogZ f delta lo hi = XR.log (fin (trapz (fun m => g m * planckTaper ((m - lo) / delta)) lo hi 1000)) := by
  simp only [mixtureLogZ, decide_eq_false (not_le.2 hd), select_false]
  rw [trap_linspace (f := fun m => f m + logPlanck ((m - fin lo) / fin (safeWidth delta))) hlh.le (by norm_num)]
  intro x a b
  have hp := C25_log_window ((x - lo) / delta)
  have hx := hf x a b
  rw [planck_frac _ _ _ hd]
  exact ⟨hx.1.add hp.2.1, by rw [expR_add hx.1 hp.2.1, hp.2.2, hx.2]⟩

end GW.Mass

namespace GW.Hybrids
open GW XR GW.PyDict GW.Joint GW.Constraints MeasureTheory ProbabilityTheory
open scoped Classical

theorem compTerm_evaluates (v : Bool) (supp : Slice XR → Bool) {d : Joint.Dist XR} {x : Slice XR} {p : ℝ} (hd : Full.Evaluates d x p) :
    IsLog (Mixture.compTerm (some supp) (Full.component v d) x) ∧ expR (Mixture.compTerm (some supp) (Full.component v d) x) = p ∧
    ((d.support x).getD false = false → p = 0) := by
  obtain ⟨l, s, hl, hs, h1, h2⟩ := hd.value
  have hc : Mixture.compTerm (some supp) (Full.component v d) x = if s then l else ninf := by
    simp only [Mixture.compTerm, Full.component, hl, hs, Option.getD_some, Option.isSome_some, Bool.true_and, Mass.validated]
    cases v <;> cases s <;> rfl
  rw [hc, hs, Option.getD_some]
  cases s with
  | true => exact ⟨(h1 rfl).1, (h1 rfl).2, by simp⟩
  | false => exact ⟨isLog_ninf, by rw [h2 rfl]; rfl, fun _ => h2 rfl⟩

theorem good_evaluates {t : Full.Part} (h : t.Good) : Full.Evaluates (.base t.block) t.at_ t.density :=
  ⟨⟨_, _, rfl, rfl, h.inside, h.outside⟩⟩

theorem logSoftmax_eq {weights : List ℝ} (hw : ∀ w ∈ weights, 0 ≤ w) (hs : weights.sum = 1) :
    Spin.logSoftmax (weights.map fun w => XR.log (fin w)) = weights.map fun w => XR.log (fin w) := by
  have hlog : ∀ t ∈ weights.map fun w => XR.log (fin w), IsLog t := by
    intro t ht
    obtain ⟨w, hwm, rfl⟩ := List.mem_map.1 ht
    exact isLog_log_sum (hw w hwm)
  have hsum : ((weights.map fun w => XR.log (fin w)).map expR).sum = 1 := by
    rw [List.map_map, ← hs]
    congr 1
    conv_rhs => rw [← List.map_id weights]
    exact List.map_congr_left fun w hwm => Spin.expR_log (hw w hwm)
  unfold Spin.logSoftmax
  rw [logsumexp_eq _ hlog, hsum, List.map_map]
  refine List.map_congr_left fun w hwm => ?_
  have : XR.log (fin 1) = fin 0 := by rw [log_fin_pos one_pos, Real.log_one]
  simp only [Function.comp, this]
  exact Spin.log_sub_zero (hw w hwm)

/-- The mixture of distributions that evaluate. -/
theorem generalMixture_eq (v : Bool) {weights : List ℝ} (hw : ∀ w ∈ weights, 0 ≤ w) (hs : weights.sum = 1) {ds : List (Joint.Dist XR)} {ps : List ℝ}
    {x : Slice XR} (h : List.Forall₂ (fun d p => Full.Evaluates d x p) ds ps) (supp : Slice XR → Bool)
    (hsupp : supp x = false → ∀ d ∈ ds, (d.support x).getD false = false) :
    IsLog (generalMixture v weights (ds.map (Full.component v)) supp x) ∧
    expR (generalMixture v weights (ds.map (Full.component v)) supp x) = weighted weights ps ∧ (supp x = false → weighted weights ps = 0) := by
  set terms := List.zipWith (· + ·) (weights.map fun w => XR.log (fin w)) ((ds.map (Full.component v)).map fun c => Mixture.compTerm (some supp) c x) with hterms
  have hall : (∀ t ∈ terms, IsLog t) ∧ (terms.map expR).sum = weighted weights ps ∧ ((∀ d ∈ ds, (d.support x).getD false = false) → weighted weights ps = 0) := by
    rw [hterms]
    clear hterms terms hs hsupp
    induction h generalizing weights with
    | nil => simp [weighted]
    | @cons d p ds ps hd _ ih =>
      cases weights with
      | nil => simp [weighted]
      | cons w weights =>
        obtain ⟨a, b, z⟩ := compTerm_evaluates v supp hd
        obtain ⟨i1, i2, i3⟩ := ih (weights := weights) fun w hwm => hw w (by simp [hwm])
        have hw0 := hw w (by simp)
        simp only [List.map_cons, List.zipWith_cons_cons, List.mem_cons, List.sum_cons, weighted] at i1 i2 i3 ⊢
        refine ⟨?_, ?_, ?_⟩
        · rintro t (rfl | ht)
          · exact (isLog_log_sum hw0).add a
          · exact i1 t ht
        · rw [expR_add (isLog_log_sum hw0) a, b, Spin.expR_log hw0, i2]
        · intro hz
          rw [z (hz d (Or.inl rfl)), mul_zero, zero_add]
          exact i3 fun d hd => hz d (Or.inr hd)
  obtain ⟨h1, h2, h3⟩ := hall
  have hid : terms.map (fun t => if t.isNegInf then ninf else t) = terms := by
    conv_rhs => rw [← List.map_id terms]
    refine List.map_congr_left fun t _ => ?_
    cases t <;> rfl
  have hS : 0 ≤ (terms.map expR).sum := List.sum_nonneg fun t ht => by
    obtain ⟨u, -, rfl⟩ := List.mem_map.1 ht
    exact expR_nonneg _
  have e : generalMixture v weights (ds.map (Full.component v)) supp x = Mass.validated v (supp x) (XR.log (fin (weighted weights ps))) := by
    unfold generalMixture
    simp only [logSoftmax_eq hw hs]
    rw [← hterms, hid, logsumexp_eq _ h1, h2]
  rw [h2] at hS
  rw [e]
  cases hsx : supp x with
  | true => rw [Spin.validated_of_true]; exact ⟨isLog_log_sum hS, Spin.expR_log hS, by simp⟩
  | false =>
    rw [h3 (hsupp hsx)]
    cases v <;> simp [Mass.validated, isLog_ninf]

theorem logsumexp_nan {l : List XR} (h : nan ∈ l) : logsumexp l = nan := by
  have hm : ∀ l : List XR, nan ∈ l → l.foldr XR.max ninf = nan := by
    intro l hl
    induction l with
    | nil => simp at hl
    | cons a l ih =>
      rw [List.foldr_cons]
      rcases List.mem_cons.1 hl with rfl | hl
      · rfl
      · rw [ih hl]
        cases a <;> rfl
  have e : (l.map fun a => exp (a - fin 0)) = l.map exp := List.map_congr_left fun a _ => by cases a <;> simp
  have hk : (((l.map fun x => (x, true)).filter (·.2)).map (·.1)) = l := by
    clear h e
    induction l with
    | nil => rfl
    | cons a l ih => simpa using ih
  unfold logsumexp logsumexpWhere
  simp only [hk, hm l h, isFinite_nan, Bool.false_eq_true, if_false, e, ((GW.Rates.sum_exp_kind l).1 (hm l h)), log_nan, nan_add]

/-- One negative weight spoils the whole mixture. -/
theorem generalMixture_nan {α : Type} (v : Bool) {weights : List ℝ} {cs : List (Mixture.Comp α)} (hneg : ∃ w ∈ weights, w < 0) (hne : cs ≠ []) (supp : α → Bool) (x : α) :
    generalMixture v weights cs supp x = Mass.validated v (supp x) nan := by
  obtain ⟨w, hw, hn⟩ := hneg
  have hlse : logsumexp (weights.map fun w => XR.log (fin w)) = nan := logsumexp_nan (List.mem_map.2 ⟨w, hw, log_fin_neg hn⟩)
  unfold generalMixture
  simp only [Spin.logSoftmax, hlse, sub_nan]
  congr 1
  refine logsumexp_nan ?_
  cases weights with
  | nil => simp at hw
  | cons w' ws =>
    cases cs with
    | nil => exact absurd rfl hne
    | cons c cs => simp

/-- What joining the factors of components of the same number of coordinates yields. -/
theorem joinAll_evaluates {c : Cosmo.Cosmology} (hc : c.Proper) {dV : ℝ → ℝ} (hV : IsVolume c dV) (big : ℝ) (v : Bool) {cs : List (List Factor)}
    (hne : ∀ fs ∈ cs, fs ≠ []) {laws : List (List Law)} (hl : HaveLaws cs laws) (hp : ∀ ls ∈ laws, ∀ L ∈ ls, L.Proper) {x : List ℝ}
    (hx : ∀ ls ∈ laws, x.length = lawsDim ls) (hr : ∀ ls ∈ laws, AllRegular ls x) :
    ∃ ds, joinAll c big v cs = .ok ds ∧ List.Forall₂ (fun d p => Full.Evaluates d (.many (x.map fin)) p) ds (laws.map fun ls => productDensity dV ls x) ∧
      ∀ d ∈ ds, d.shape = some x.length := by
  have ev := haveLaws_of_mem hl (P := fun fs ls => ∃ d, Full.join (fs.map (block c big v)) = .ok d ∧
      Full.Evaluates d (.many (x.map fin)) (productDensity dV ls x) ∧ d.shape = some x.length) fun fs hfs ls hls hL =>
    component_evaluates hc hV big v (hne fs hfs) hL (hp ls hls) (hx ls hls) (hr ls hls)
  unfold joinAll
  clear hl hp hx hr hne
  induction ev with
  | nil => exact ⟨[], rfl, .nil, by simp⟩
  | @cons fs ls cs laws hd _ ih =>
    obtain ⟨d, e1, e2, e3⟩ := hd
    obtain ⟨ds, i1, i2, i3⟩ := ih
    refine ⟨d :: ds, ?_, .cons e2 i2, ?_⟩
    · rw [List.mapM_cons, e1, i1]
      rfl
    · intro k hk
      rcases List.mem_cons.1 hk with rfl | hk
      · exact e3
      · exact i3 k hk

/-! ## The components of a smoothed model -/

/-- The classes of the primary mass. -/
def massClasses : List String := ["DoublyTruncatedPowerLaw", "BrokenPowerlaw", "TruncatedNormal"]

/-- What is known of a mass factor and the component it begins. -/
structure Begins (use : Flag → Bool) (n : ℕ) (f : Factor) (c : List Factor) : Prop where
  head : ∃ rest, c = f :: rest
  cls : f.cls ∈ massClasses
  quantities : f.quantities = ["mass_1_source"]
  laws : ∀ g ∈ c, ∃ L, lawOf g = some L ∧ L.dim = g.quantities.length
  length : (coordinates c).length = n

theorem info_smoothed_dims (ct : String) : (smoothedInfoCollection ct).all (fun e => (e.2.cls, e.2.quantities.length) ∈ classDims) = true := by
  have : ((smoothedInfoCollection ct).map fun e => (e.2.cls, e.2.quantities.length)).all (fun e => e ∈ classDims) = true := by
    change ((smoothedInfoCollection "g").map fun e => (e.2.cls, e.2.quantities.length)).all (fun e => e ∈ classDims) = true
    decide +kernel
  rw [List.all_map] at this
  exact this

/-- The number of coordinates. -/
def smoothedDim (use : Flag → Bool) : ℕ := 1 + ((((smoothedInfoCollection "g").map fun e => (e.1, e.2.quantities.length)).filter fun e => use e.1).map Prod.snd).sum

theorem forall₂_getElem {α β : Type} {R : α → β → Prop} {l : List α} {l' : List β} {N : ℕ} (h1 : l.length = N) (h2 : l'.length = N)
    (h : ∀ i, i < N → ∃ a b, l[i]? = some a ∧ l'[i]? = some b ∧ R a b) : List.Forall₂ R l l' := by
  rw [List.forall₂_iff_get]
  refine ⟨by omega, fun i a b => ?_⟩
  obtain ⟨x, y, e1, e2, hr⟩ := h i (by omega)
  rw [List.getElem?_eq_getElem a, Option.some.injEq] at e1
  rw [List.getElem?_eq_getElem b, Option.some.injEq] at e2
  simpa [e1, e2] using hr

theorem buildSmoothed_begins {mass : Maker} {ct : String} (hm : mass.cls ∈ massClasses) (hd : (mass.cls, mass.quantities.length) ∈ classDims)
    (hq : mass.quantities = ["mass_1_source"]) {use : Flag → Bool} {N : Nat} {params : Dict String ℝ} {ms : List Factor} {res : List (List Factor)}
    (h : buildSmoothed mass ct use N params = .ok (ms, res)) : List.Forall₂ (Begins use (smoothedDim use)) ms res := by
  have dims : ∀ l : List (Flag × Maker), ((l.filter fun e => use e.1).flatMap fun e => e.2.quantities).length =
      (((l.map fun e => (e.1, e.2.quantities.length)).filter fun e => use e.1).map Prod.snd).sum := by
    intro l
    induction l with
    | nil => rfl
    | cons e l ih => by_cases k : use e.1 <;> simp [k, ih]
  have same : (smoothedInfoCollection ct).map (fun e => (e.1, e.2.quantities.length)) = (smoothedInfoCollection "g").map fun e => (e.1, e.2.quantities.length) := rfl
  unfold buildSmoothed at h
  cases hcr : create N params mass with
  | error e => rw [hcr] at h; simp at h
  | ok ms' =>
    rw [hcr] at h
    simp only at h
    cases hb : buildLoop use N params (smoothedInfoCollection ct) (ms'.map fun m => [m]) with
    | error e => rw [hb] at h; simp [Except.map] at h
    | ok res' =>
      rw [hb] at h
      simp only [Except.map, Except.ok.injEq, Prod.mk.injEq] at h
      obtain ⟨rfl, rfl⟩ := h
      obtain ⟨hl, hms⟩ := create_ok hcr
      obtain ⟨h1, h2⟩ := buildLoop_ok (by simpa using hl) hb
      refine forall₂_getElem hl h1 fun i hi => ?_
      obtain ⟨f, hf, hmk⟩ := hms i hi
      obtain ⟨fs, hfs, hall⟩ := h2 i hi [f] (by rw [List.getElem?_map, hf]; rfl)
      obtain ⟨m1, m2, -⟩ := makeFactor_ok hmk
      refine ⟨f, _, hf, hfs, ⟨fs, rfl⟩, m1 ▸ hm, m2.trans hq, ?_, ?_⟩
      · intro g hgm
        rcases List.mem_append.1 hgm with hgm | hgm
        · rw [List.mem_singleton.1 hgm]
          exact makeFactor_law hd hmk
        · exact loop_laws (info_smoothed_dims ct) hall g hgm
      · have hcoord : ∀ {l : List (Flag × Maker)} {fs : List Factor}, List.Forall₂ (fun (e : Flag × Maker) f => makeFactor params e.2 i = .ok f) l fs →
            (fs.flatMap (·.quantities)) = l.flatMap fun e => e.2.quantities := by
          intro l fs hh
          induction hh with
          | nil => rfl
          | cons a _ ih => rw [List.flatMap_cons, List.flatMap_cons, ih, (makeFactor_ok a).2.1]
        simp only [coordinates, List.flatMap_append, List.flatMap_cons, List.flatMap_nil, List.append_nil, List.length_append, m2, hq, hcoord hall, dims, same]
        rfl

theorem smoothedModel_begins {names : List String} {body : Maker} {ct : String} (hm : body.cls ∈ massClasses) (hd : (body.cls, body.quantities.length) ∈ classDims)
    (hq : body.quantities = ["mass_1_source"]) {use : Flag → Bool} {Nb Ng : Nat} {params : Dict String ℝ} {s : Smoothed}
    (h : smoothedModel names body ct use Nb Ng params = .ok s) : List.Forall₂ (Begins use (smoothedDim use)) s.masses s.components := by
  unfold smoothedModel at h
  cases h1 : popAll names params with
  | error e => rw [h1] at h; simp at h
  | ok w =>
    obtain ⟨vs, d1⟩ := w
    rw [h1] at h
    simp only at h
    cases h2 : popAll ((List.range (Nb + Ng - 1)).map fun i => "lambda_" ++ toString i) d1 with
    | error e => rw [h2] at h; simp at h
    | ok w =>
      obtain ⟨ls, d2⟩ := w
      rw [h2] at h
      simp only at h
      cases hb : (if 0 < Nb then buildSmoothed body ct use Nb d2 else .ok ([], [])) with
      | error e => rw [hb] at h; simp at h
      | ok w =>
        obtain ⟨bm, bc⟩ := w
        rw [hb] at h
        simp only at h
        cases hg : (if 0 < Ng then buildSmoothed (truncatedNormal "mass_1_source" "m1" "g") "g" use Ng d2 else .ok ([], [])) with
        | error e => rw [hg] at h; simp at h
        | ok w =>
          obtain ⟨gm, gc⟩ := w
          rw [hg] at h
          simp only at h
          split_ifs at h with hlen
          simp only [Except.ok.injEq] at h
          subst h
          refine List.rel_append ?_ ?_
          · split_ifs at hb with hN
            · exact buildSmoothed_begins hm hd hq hb
            · simp only [Except.ok.injEq, Prod.mk.injEq] at hb
              rw [← hb.1, ← hb.2]
              exact .nil
          · split_ifs at hg with hN
            · exact buildSmoothed_begins (by decide +kernel) (by decide +kernel) rfl hg
            · simp only [Except.ok.injEq, Prod.mk.injEq] at hg
              rw [← hg.1, ← hg.2]
              exact .nil

/-- A law of one mass. -/
theorem mass_law {f : Factor} (h1 : f.cls ∈ massClasses) (h2 : f.quantities = ["mass_1_source"]) {L : Law} (h : lawOf f = some L) :
    L.dim = 1 ∧ (∀ l, L.Regular l) ∧ ∀ m : ℝ, sliceOf L [m] = .one (fin m) := by
  simp only [massClasses, List.mem_cons, List.not_mem_nil, or_false] at h1
  unfold lawOf at h
  rcases h1 with h1 | h1 | h1 <;> (rw [h1, h2] at h; injection h with h; subst h; exact ⟨rfl, fun _ => trivial, fun _ => rfl⟩)

/-- The primary-mass laws, first in each component. -/
theorem masses_evaluate {c : Cosmo.Cosmology} (hc : c.Proper) {dV : ℝ → ℝ} (hV : IsVolume c dV) (big : ℝ) (v : Bool) {use : Flag → Bool} {n : ℕ} {ms : List Factor}
    {cs : List (List Factor)} (hb : List.Forall₂ (Begins use n) ms cs) {laws : List (List Law)} (hl : HaveLaws cs laws) (hp : ∀ ls ∈ laws, ∀ L ∈ ls, L.Proper) (m : ℝ) :
    List.Forall₂ (fun d p => Full.Evaluates d (.one (fin m)) p) (ms.map fun f => .base (block c big v f)) (laws.map fun ls => match ls with
      | L :: _ => L.density dV [m]
      | [] => 0) := by
  unfold HaveLaws at hl
  induction hb generalizing laws with
  | nil =>
    cases hl
    exact .nil
  | @cons f cm ms cs hd _ ih =>
    cases hl with
    | @cons _ ls _ laws hL hrest =>
      refine .cons ?_ (ih hrest fun ls hls => hp ls (by simp [hls]))
      obtain ⟨rest, rfl⟩ := hd.head
      cases hL with
      | @cons _ L _ ls h1 _ =>
        obtain ⟨e1, e2, e3⟩ := mass_law hd.cls hd.quantities h1
        have := good_evaluates (factor_good hc hV big v h1 (hp (L :: ls) (by simp) L (by simp)) (l := [m]) (by simp [e1]) (e2 _))
        simpa [e3] using this

end GW.Hybrids
