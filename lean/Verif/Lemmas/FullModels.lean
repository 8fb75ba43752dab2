import Verif.Model.FullModels
import Verif.Spec.FullModels
import Verif.Lemmas.PyDict
import Verif.Props.Joint
import Verif.Props.Mixture
import Verif.Props.Spin
import Verif.Props.MultiSpin
import Verif.Props.Beta
import Verif.Props.Cosmology
import Verif.Lemmas.Validation

/-! Facts about the named population models. -/

namespace GW.Full
open GW XR GW.PyDict GW.Joint MeasureTheory ProbabilityTheory
open scoped Classical

theorem requireAll_ok {p : Dict String ℝ} {ns : List String} (h : ∀ n ∈ ns, n ∈ keys p) : requireAll p ns = .ok () := by
  induction ns with
  | nil => rfl
  | cons n ns ih =>
    unfold requireAll
    have := (mem_keys_iff _ _).1 (h n (by simp))
    obtain ⟨x, hx⟩ := Option.isSome_iff_exists.1 this
    rw [hx]
    exact ih fun n hn => h n (by simp [hn])

theorem requireAll_missing {p : Dict String ℝ} {ns : List String} {n : String} (h : FirstMissing p ns n) : requireAll p ns = .error (.keyError n) := by
  obtain ⟨before, after, rfl, hb, hn⟩ := h
  induction before with
  | nil =>
    unfold requireAll
    rw [List.nil_append]
    simp only
    rw [(get?_eq_none_iff _ _).2 hn]
  | cons k before ih =>
    have := (mem_keys_iff _ _).1 (hb k (by simp))
    obtain ⟨x, hx⟩ := Option.isSome_iff_exists.1 this
    simp only [List.cons_append, requireAll, hx]
    exact ih fun k hk => hb k (by simp [hk])

theorem FirstMissing.split {p : Dict String ℝ} {as bs : List String} {n : String} (h : FirstMissing p (as ++ bs) n) :
    FirstMissing p as n ∨ ((∀ k ∈ as, k ∈ keys p) ∧ FirstMissing p bs n) := by
  obtain ⟨before, after, he, hb, hn⟩ := h
  rcases List.append_eq_append_iff.1 he with ⟨c, rfl, hc⟩ | ⟨c, rfl, hc⟩
  · exact Or.inr ⟨fun k hk => hb k (by simp [hk]), c, after, hc, fun k hk => hb k (by simp [hk]), hn⟩
  · cases c with
    | nil =>
      right
      refine ⟨fun k hk => hb k (by simpa using hk), [], after, by simpa using hc.symm, by simp, hn⟩
    | cons d c =>
      left
      simp only [List.cons_append, List.cons.injEq] at hc
      obtain ⟨rfl, _⟩ := hc
      exact ⟨before, c, rfl, hb, hn⟩

theorem given_mem {p : Dict String ℝ} {l : List (String × ℝ)} (h : Given p l) {n : String} (hn : n ∈ l.map (·.1)) : n ∈ keys p := by
  obtain ⟨nv, h1, rfl⟩ := List.mem_map.1 hn
  rw [mem_keys_iff, h nv h1]
  rfl

theorem given_val {p : Dict String ℝ} {l : List (String × ℝ)} (h : Given p l) {n : String} {v : ℝ} (hn : (n, v) ∈ l) : val p n = v := by
  unfold val
  rw [h _ hn]
  rfl

/-- A block at one part of the event, with the density there. -/
structure Part where
  block : Base XR
  at_ : Slice XR
  density : ℝ

/-- The block takes that part of the event; inside its support its log density there is the log of the density, and outside the density is zero. -/
structure Part.Good (t : Part) : Prop where
  fits : Fits (.base t.block) t.at_
  inside : t.block.support t.at_ = true → IsLog (t.block.logProb t.at_) ∧ expR (t.block.logProb t.at_) = t.density
  outside : t.block.support t.at_ = false → t.density = 0

/-- The log density of the parts and their support. -/
theorem parts_eval (ts : List Part) (h : ∀ t ∈ ts, t.Good) :
    LP (ts.map fun t => Joint.Dist.base t.block) (ts.flatMap (·.at_.toList)) = some (ts.map fun t => t.block.logProb t.at_).sum ∧
    SP (ts.map fun t => Joint.Dist.base t.block) (ts.flatMap (·.at_.toList)) = some (ts.all fun t => t.block.support t.at_) := by
  induction ts with
  | nil => exact ⟨LP_nil _, SP_nil _⟩
  | cons t ts ih =>
    obtain ⟨a, b⟩ := ih fun s hs => h s (by simp [hs])
    have hf := (h t (by simp)).fits
    simp only [List.map_cons, List.flatMap_cons]
    rw [LP_cons hf, SP_cons hf, a, b]
    exact ⟨rfl, rfl⟩

theorem parts_sum (ts : List Part) (h : ∀ t ∈ ts, t.Good) :
    ((ts.all fun t => t.block.support t.at_) = true → IsLog (ts.map fun t => t.block.logProb t.at_).sum ∧
      expR (ts.map fun t => t.block.logProb t.at_).sum = (ts.map (·.density)).prod) ∧
    ((ts.all fun t => t.block.support t.at_) = false → (ts.map (·.density)).prod = 0) := by
  induction ts with
  | nil => exact ⟨fun _ => ⟨isLog_fin 0, by simp [show ([] : List XR).sum = fin 0 from rfl]⟩, by simp⟩
  | cons t ts ih =>
    have ht := h t (by simp)
    have ih := ih fun s hs => h s (by simp [hs])
    simp only [List.all_cons, Bool.and_eq_true, Bool.and_eq_false_iff, List.map_cons, List.sum_cons, List.prod_cons]
    refine ⟨fun ⟨h1, h2⟩ => ?_, fun h1 => ?_⟩
    · obtain ⟨a, b⟩ := ht.inside h1
      obtain ⟨c, e⟩ := ih.1 h2
      exact ⟨a.add c, by rw [expR_add a c, b, e]⟩
    · rcases h1 with h1 | h1
      · rw [ht.outside h1, zero_mul]
      · rw [ih.2 h1, mul_zero]

/-- A distribution that has this log density inside its support, and this support. -/
structure Evaluates (d : Joint.Dist XR) (x : Slice XR) (p : ℝ) : Prop where
  value : ∃ l s, d.logProb x = some l ∧ d.support x = some s ∧ (s = true → IsLog l ∧ expR l = p) ∧ (s = false → p = 0)

theorem join_density (ts : List Part) (hne : ts ≠ []) (h : ∀ t ∈ ts, t.Good) :
    ∃ d, join (ts.map (·.block)) = .ok d ∧ Evaluates d (.many (ts.flatMap (·.at_.toList))) (ts.map (·.density)).prod := by
  obtain ⟨a, b⟩ := parts_eval ts h
  obtain ⟨c, e⟩ := parts_sum ts h
  cases ts with
  | nil => exact absurd rfl hne
  | cons t ts =>
    refine ⟨.joint ((t :: ts).map fun t => Joint.Dist.base t.block) none, ?_, ⟨⟨_, _, by simpa [Joint.Dist.logProb] using a, by simpa [Joint.Dist.support] using b, c, e⟩⟩⟩
    simp [join, mkJoint, flatten, Function.comp_def]

theorem joinIfMany_density (t : Part) (ts : List Part) (h : ∀ s ∈ t :: ts, s.Good) (x y : XR) (hm : t.at_ = .many [x, y]) :
    ∃ d, joinIfMany ((t :: ts).map (·.block)) = .ok d ∧ Evaluates d (.many ((t :: ts).flatMap (·.at_.toList))) ((t :: ts).map (·.density)).prod := by
  cases ts with
  | nil =>
    refine ⟨_, rfl, ⟨⟨_, _, rfl, rfl, ?_⟩⟩⟩
    have ht := h t (by simp)
    simp only [List.flatMap_cons, List.flatMap_nil, List.append_nil, hm, Slice.toList, List.map_cons, List.map_nil, List.prod_cons, List.prod_nil, mul_one]
    rw [← hm]
    exact ⟨ht.inside, ht.outside⟩
  | cons s ts => exact join_density _ (by simp) h

theorem scaled_density' (g v : Bool) (d : Joint.Dist XR) (r : ℝ) (x : Slice XR) (p : ℝ) (h : Evaluates d x p) :
    ∃ m, scaled g r d = .ok m ∧ IsLog (m.logProbChecked v x) ∧ expR (m.logProbChecked v x) = Real.exp r * p := by
  obtain ⟨l, s, hl, hs, h1, h2⟩ := h.value
  have hmk : Mixture.mkMix [fin r] [component g d] (some (component g d).support) = .ok ⟨[fin r], [component g d], some (component g d).support⟩ := rfl
  refine ⟨_, by unfold scaled; rw [hmk], ?_⟩
  have hc : Mixture.compTerm (some (component g d).support) (component g d) x = if s then l else ninf := by
    simp only [Mixture.compTerm, component, hl, hs, Option.getD_some, Option.isSome_some, Bool.true_and, Mass.validated]
    cases g <;> cases s <;> rfl
  have hsupp : (Mixture.Mix.mk [fin r] [component g d] (some (component g d).support)).support x = s := by
    simp [Mixture.Mix.support, component, hs]
  have hx : (Mixture.Mix.mk [fin r] [component g d] (some (component g d).support)).componentLogProbs x = [fin r + if s then l else ninf] := by
    simp only [Mixture.Mix.componentLogProbs, List.map_cons, List.map_nil, List.zipWith_cons_cons, List.zipWith_nil_right, hc]
  have hlog : IsLog (if s then l else ninf) ∧ expR (if s then l else ninf) = p := by
    cases s with
    | true => exact h1 rfl
    | false => exact ⟨isLog_ninf, by rw [h2 rfl]; rfl⟩
  have hsum : IsLog (fin r + if s then l else ninf) := (isLog_fin r).add hlog.1
  have key : (Mixture.Mix.mk [fin r] [component g d] (some (component g d).support)).logProb x = fin r + if s then l else ninf := by
    rw [Mixture.logProb_eq _ _ (by rw [hx]; simpa using hsum), hx]
    simp only [List.map_cons, List.map_nil, List.sum_cons, List.sum_nil, add_zero]
    refine XR.eq_of_log (isLog_log_sum (expR_nonneg _)) hsum (Spin.expR_log (expR_nonneg _))
  have key' : (Mixture.Mix.mk [fin r] [component g d] (some (component g d).support)).logProbChecked v x = fin r + if s then l else ninf := by
    rw [Mixture.Mix.logProbChecked, hsupp, key]
    cases v <;> cases s <;> simp
  rw [key']
  exact ⟨hsum, by rw [expR_add (isLog_fin r) hlog.1, hlog.2, expR_fin]⟩

theorem scaled_density (v : Bool) (d : Joint.Dist XR) (r : ℝ) (x : Slice XR) (p : ℝ) (h : Evaluates d x p) :
    ∃ m, scaled v r d = .ok m ∧ IsLog (m.logProbChecked v x) ∧ expR (m.logProbChecked v x) = Real.exp r * p := scaled_density' v v d r x p h

/-- A part that is there only if the flag is set. -/
def opt (flag : Bool) (t : Part) : List Part := if flag then [t] else []

theorem opt_block (b : Bool) (t : Part) : (opt b t).map (·.block) = if b then [t.block] else [] := by cases b <;> rfl

theorem opt_density (b : Bool) (t : Part) : ((opt b t).map (·.density)).prod = factor b t.density := by cases b <;> simp [opt, factor]

theorem opt_at (b : Bool) (t : Part) (xs : List ℝ) (h : t.at_.toList = xs.map fin) : (opt b t).flatMap (·.at_.toList) = (coords b xs).map fin := by
  cases b <;> simp [opt, coords, h]

theorem opt_good {b : Bool} {t : Part} (h : b = true → t.Good) : ∀ s ∈ opt b t, s.Good := by
  cases b with
  | false => simp [opt]
  | true => simpa [opt] using h rfl

/-- Joining and scaling the parts. -/
theorem build_density (v : Bool) (t : Part) (ts : List Part) (h : ∀ s ∈ t :: ts, s.Good) (x y : XR) (hm : t.at_ = .many [x, y]) (rate : ℝ) :
    ∃ d M, joinIfMany ((t :: ts).map (·.block)) = .ok d ∧ scaled v rate d = .ok M ∧ IsLog (M.logProbChecked v (.many ((t :: ts).flatMap (·.at_.toList)))) ∧
      expR (M.logProbChecked v (.many ((t :: ts).flatMap (·.at_.toList)))) = Real.exp rate * ((t :: ts).map (·.density)).prod := by
  obtain ⟨d, h1, h2⟩ := joinIfMany_density t ts h x y hm
  obtain ⟨M, h5, h6, h7⟩ := scaled_density v d rate _ _ h2
  exact ⟨d, M, h1, h5, h6, h7⟩

theorem build_density' (v : Bool) (ts : List Part) (hne : ts ≠ []) (h : ∀ s ∈ ts, s.Good) (rate : ℝ) :
    ∃ d M, join (ts.map (·.block)) = .ok d ∧ scaled v rate d = .ok M ∧ IsLog (M.logProbChecked v (.many (ts.flatMap (·.at_.toList)))) ∧
      expR (M.logProbChecked v (.many (ts.flatMap (·.at_.toList)))) = Real.exp rate * (ts.map (·.density)).prod := by
  obtain ⟨d, h1, h2⟩ := join_density ts hne h
  obtain ⟨M, h5, h6, h7⟩ := scaled_density v d rate _ _ h2
  exact ⟨d, M, h1, h5, h6, h7⟩

/-! ## The blocks -/

/-- A one-dimensional distribution at a point: the density inside its support, and zero outside. -/
structure At (d : Spin.Dist1) (x p : ℝ) : Prop where
  inside : d.support (fin x) = true → IsLog (d.logProb (fin x)) ∧ expR (d.logProb (fin x)) = p
  outside : d.support (fin x) = false → p = 0

theorem twice_good {d : Spin.Dist1} (v : Bool) {x y p q : ℝ} (hx : At d x p) (hy : At d y q) : (Part.mk (twice d v) (.many [fin x, fin y]) (p * q)).Good := by
  have e : (twice d v).support (.many [fin x, fin y]) = (d.support (fin x) && d.support (fin y)) := by
    simp [twice, pair, Spin.independent, List.ofFn_succ]
  refine ⟨rfl, fun h => ?_, fun h => ?_⟩
  · rw [e, Bool.and_eq_true] at h
    have e' : (twice d v).logProb (.many [fin x, fin y]) = d.logProb (fin x) + d.logProb (fin y) := by
      simp only [twice, pair, Spin.independent, Mass.validated, List.ofFn_succ, List.ofFn_zero]
      simp only [Matrix.cons_val_zero, Fin.succ_zero_eq_one, Matrix.cons_val_one, List.all_cons, List.all_nil, Bool.and_true, id, h.1, h.2, select_true, ite_self]
      rw [sum_cons, sum_cons, show sum [] = 0 from rfl, add_zero']
    obtain ⟨a, b⟩ := hx.inside h.1
    obtain ⟨c, e⟩ := hy.inside h.2
    rw [e']
    exact ⟨a.add c, by rw [expR_add a c, b, e]⟩
  · rw [e, Bool.and_eq_false_iff] at h
    rcases h with h | h
    · show p * q = 0
      rw [hx.outside h, zero_mul]
    · show p * q = 0
      rw [hy.outside h, mul_zero]

theorem has_at {d : Spin.Dist1} {p : ℝ → ℝ} (h : Spin.Has d p) (x : ℝ) : At d x (p x) := by
  refine ⟨fun hs => ?_, h.outside x⟩
  obtain ⟨h1, h2⟩ := h.inside x hs
  rw [h2, expR_fin, Real.exp_log h1]
  exact ⟨isLog_fin _, rfl⟩

theorem scalar_good {d : Spin.Dist1} {x p : ℝ} (h : At d x p) : (Part.mk (scalar d.logProb d.support) (.one (fin x)) p).Good := ⟨trivial, h.inside, h.outside⟩

theorem tilt_good {lp : (Fin 2 → XR) → XR} {p : (Fin 2 → ℝ) → ℝ} (h : Spin.IsLogDensity lp p) (s : XR → XR → Bool) (x y : ℝ) (hs : s (fin x) (fin y) = false → p ![x, y] = 0) :
    (Part.mk (pair (fun x y => lp ![x, y]) s) (.many [fin x, fin y]) (p ![x, y])).Good := by
  have e : ![fin x, fin y] = fun i => fin (![x, y] i) := by
    funext i
    fin_cases i <;> rfl
  have e' : lp ![fin x, fin y] = log (fin (p ![x, y])) := by rw [e, h.log]
  refine ⟨rfl, fun _ => ⟨?_, ?_⟩, hs⟩
  · show IsLog (lp ![fin x, fin y])
    rw [e']
    exact isLog_log_sum (h.nonneg _)
  · show expR (lp ![fin x, fin y]) = _
    rw [e', Spin.expR_log (h.nonneg _)]

theorem halfNormal_log {s : ℝ} (hs : 0 < s) (x : ℝ) : IsLog ((halfNormal s true).logProb (fin x)) ∧ expR ((halfNormal s true).logProb (fin x)) = halfNormalDensity s x := by
  simp only [halfNormal, Mass.validated, if_true, halfNormalDensity, lt_fin_fin]
  by_cases h : 0 < x
  · rw [decide_eq_true h, select_true, if_pos h, Spin.normalLogProb_fin hs, add_fin_fin, expR_fin, Real.exp_add, Real.exp_log (Spin.normalDensity_pos hs x), Real.exp_log two_pos, mul_comm]
    exact ⟨isLog_fin _, rfl⟩
  · rw [decide_eq_false h, select_false, if_neg h]
    exact ⟨isLog_ninf, expR_ninf⟩

theorem beta_log {α β a : ℝ} (hα : 0 < α) (hβ : 0 < β) (ha : BetaRegular α β a) :
    IsLog ((betaDist (fin α) (fin β) true).logProb (fin a)) ∧ expR ((betaDist (fin α) (fin β) true).logProb (fin a)) = betaPDFReal α β a := by
  have hin : ∀ b, Spin.interval 0 1 (fin a) = b → (b = true ↔ 0 ≤ a ∧ a ≤ 1) := fun b hb => by rw [← hb, Spin.interval_fin]
  simp only [betaDist, Mass.validated, if_true, gammaln, add_fin_fin, sub_fin_fin]
  have hga := Real.Gamma_pos_of_pos hα
  have hgb := Real.Gamma_pos_of_pos hβ
  have hgs := Real.Gamma_pos_of_pos (add_pos hα hβ)
  cases hs : Spin.interval 0 1 (fin a) with
  | false =>
    have : ¬ (0 ≤ a ∧ a ≤ 1) := fun h => by simpa [hs] using Spin.interval_fin.2 h
    rw [select_false]
    refine ⟨isLog_ninf, ?_⟩
    rw [expR_ninf, betaPDFReal, if_neg (fun h => this ⟨h.1.le, h.2.le⟩)]
  | true =>
    obtain ⟨h0, h1⟩ := Spin.interval_fin.1 hs
    rw [select_true]
    rcases h0.eq_or_lt with h0' | h0'
    · have hα1 := ha.1 h0'.symm
      subst h0'
      rw [log_fin_zero, sub_zero, log_fin_pos one_pos, Real.log_one, mul_fin_fin, mul_zero, show fin (α - 1) * ninf = ninf by
        show XR.mul _ _ = _
        simp [XR.mul, mulInf]
        split_ifs
        rfl]
      simp [isLog_ninf, betaPDFReal]
    · rcases h1.eq_or_lt with h1' | h1'
      · have hβ1 := ha.2 h1'
        subst h1'
        rw [sub_self, log_fin_zero, log_fin_pos one_pos, Real.log_one, mul_fin_fin, mul_zero, show fin (β - 1) * ninf = ninf by
          show XR.mul _ _ = _
          simp [XR.mul, mulInf]
          split_ifs
          rfl]
        simp [isLog_ninf, betaPDFReal]
      · have h1'' : 0 < 1 - a := by linarith
        rw [log_fin_pos h0', log_fin_pos h1'', mul_fin_fin, mul_fin_fin, add_fin_fin, sub_fin_fin, expR_fin]
        refine ⟨isLog_fin _, ?_⟩
        rw [betaPDFReal, if_pos ⟨h0', h1'⟩, beta, Real.exp_sub, Real.exp_add, Real.exp_sub, Real.exp_add, Real.exp_log hga, Real.exp_log hgb, Real.exp_log hgs,
          Real.rpow_def_of_pos h0', Real.rpow_def_of_pos h1'', mul_comm (Real.log a), mul_comm (Real.log (1 - a))]
        field_simp

theorem beta_out {c1 c0 : XR} (x : ℝ) (h : (betaDist c1 c0 true).support (fin x) = false) : (betaDist c1 c0 true).logProb (fin x) = ninf := by
  simp only [betaDist] at h ⊢
  simp [h, Mass.validated]

/-- Inside the support argument validation makes no difference. -/
theorem At.of_checked {d e : Spin.Dist1} {x p : ℝ} (hs : d.support (fin x) = e.support (fin x)) (hin : e.support (fin x) = true → d.logProb (fin x) = e.logProb (fin x))
    (hout : e.support (fin x) = false → e.logProb (fin x) = ninf) (h : IsLog (e.logProb (fin x)) ∧ expR (e.logProb (fin x)) = p) : At d x p := by
  refine ⟨fun k => ?_, fun k => ?_⟩
  · rw [hin (by rw [← hs, k])]
    exact h
  · rw [← h.2, hout (by rw [← hs, k]), expR_ninf]

theorem beta_at (v : Bool) {α β a : ℝ} (hα : 0 < α) (hβ : 0 < β) (ha : BetaRegular α β a) : At (betaDist (fin α) (fin β) v) a (betaPDFReal α β a) :=
  At.of_checked (e := betaDist (fin α) (fin β) true) rfl (fun h => by
    simp only [betaDist] at h
    simp [betaDist, Mass.validated, h]) (beta_out a) (beta_log hα hβ ha)

theorem halfNormal_at (v : Bool) {s : ℝ} (hs : 0 < s) (x : ℝ) : At (halfNormal s v) x (halfNormalDensity s x) :=
  At.of_checked (e := halfNormal s true) rfl (fun h => by
    simp only [halfNormal] at h
    simp only [halfNormal, Mass.validated, h, select_true, ite_self]) (fun h => by
    simp only [halfNormal] at h
    simp only [halfNormal, Mass.validated, h, select_false, if_true]) (halfNormal_log hs x)

theorem betaShape_conc {mean variance α β : ℝ} (h : BetaShape mean variance α β) : Beta.fromMeanVar mean variance = (fin α, fin β) := by
  obtain ⟨ha, hb, h1, h2⟩ := h
  obtain ⟨m, v, e1, e2, i1, i2, i3, i4⟩ := Beta.C26_conc_roundtrip α β 0 1 one_pos ha hb
  obtain ⟨a', b', f1, f2, f3, f4, f5, f6⟩ := Beta.C26_moments m v i1 (by linarith) i3 (by linarith)
  rw [Beta.C26_same_formula _ _ i3.ne', e2] at f1
  simp only [Prod.mk.injEq, fin.injEq] at f1
  obtain ⟨rfl, rfl⟩ := f1
  rw [← h1, ← h2, f5, f6, Beta.C26_same_formula _ _ i3.ne', e2]

theorem redshift_good (c : Cosmo.Cosmology) (hc : c.Proper) {kappa zMax : ℝ} (hz : 0 < zMax) (v : Bool) (z : ℝ) :
    (Part.mk (redshiftBlock ⟨c, Cosmo.powerlawLogPsi kappa, zMax, v⟩) (.one (fin z))
      (expR ((Cosmo.Redshift.mk c (Cosmo.powerlawLogPsi kappa) zMax true).logProb (fin z)))).Good := by
  have H := (Cosmo.C28_density ⟨c, Cosmo.powerlawLogPsi kappa, zMax, true⟩ ⟨hc, hz, fun z hz => by
    obtain ⟨w, h, _⟩ := (Cosmo.C28_psi kappa 1 1 z hz one_pos).1
    exact ⟨w, h⟩⟩ rfl).1 (fin z)
  refine ⟨trivial, fun h => ?_, fun h => ?_⟩
  · have h' : (Cosmo.Redshift.mk c (Cosmo.powerlawLogPsi kappa) zMax v).support (fin z) = true := h
    have h'' : (Cosmo.Redshift.mk c (Cosmo.powerlawLogPsi kappa) zMax true).support (fin z) = true := h
    have e : (redshiftBlock ⟨c, Cosmo.powerlawLogPsi kappa, zMax, v⟩).logProb (.one (fin z)) = (Cosmo.Redshift.mk c (Cosmo.powerlawLogPsi kappa) zMax true).logProb (fin z) := by
      simp only [redshiftBlock, scalar, Cosmo.Redshift.logProb, Mass.validated, h', h'', select_true, ite_self]
      rfl
    rw [e]
    exact ⟨H, rfl⟩
  · have h'' : (Cosmo.Redshift.mk c (Cosmo.powerlawLogPsi kappa) zMax true).support (fin z) = false := h
    simp only [Cosmo.Redshift.logProb, Mass.validated, h'', select_false, if_true, expR_ninf]

theorem peakBlock_good (d : Mass.TwoComponent) (h0 : 0 < d.mmin) (hd : 0 < d.delta) (hdm : d.mmin + d.delta < d.mmax) (hl : 0 ≤ d.lambdaPeak) (hl1 : d.lambdaPeak ≤ 1) (hs : 0 < d.scale)
    (hv : d.validate = true) (v : Bool) (m q : ℝ) :
    (Part.mk (peakBlock { d with validate := v }) (.many [fin m, fin q]) (expR (d.logProb (fin m) (fin q)))).Good := by
  have H := (Mass.C25_two_component d h0 hd hdm hl hl1 hs hv).1 (fin m) (fin q)
  refine ⟨rfl, fun h => ?_, fun h => ?_⟩
  · have e : (peakBlock { d with validate := v }).logProb (.many [fin m, fin q]) = d.logProb (fin m) (fin q) := d.logProb_validate h0 hd (by linarith) v h
    rw [e]
    exact ⟨H, rfl⟩
  · have h' : d.support (fin m) (fin q) = false := h
    simp only [Mass.TwoComponent.logProb, Mass.validated, hv, h', select_false, if_true, expR_ninf]

theorem brokenBlock_good (d : Mass.TwoPeak) (hd : d.Proper) (hv : d.validate = true) (v : Bool) (m q : ℝ) :
    (Part.mk (brokenBlock { d with validate := v }) (.many [fin m, fin q]) (expR (d.logProb (fin m) (fin q)))).Good := by
  have H := (Mass.C25_two_peak d hd hv).1 (fin m) (fin q)
  refine ⟨rfl, fun h => ?_, fun h => ?_⟩
  · have e : (brokenBlock { d with validate := v }).logProb (.many [fin m, fin q]) = d.logProb (fin m) (fin q) := Mass.TwoPeak.logProb_validate hd v h
    rw [e]
    exact ⟨H, rfl⟩
  · have h' : d.support (fin m) (fin q) = false := h
    simp only [Mass.TwoPeak.logProb, Mass.validated, hv, h', select_false, if_true, expR_ninf]

theorem multiBlock_good (d : MultiSpin.Model) (hd : d.Proper) (v : Bool) (m q a1 a2 t1 t2 : ℝ) :
    (Part.mk (multiBlock { d with mass := { d.mass with validate := v } }) (.many [fin m, fin q, fin a1, fin a2, fin t1, fin t2])
      (expR (d.logProb (fin m) (fin q) (fin a1) (fin a2) (fin t1) (fin t2)))).Good := by
  have H := (MultiSpin.C62_density d hd).1 (fin m) (fin q) (fin a1) (fin a2) (fin t1) (fin t2)
  refine ⟨rfl, fun h => ?_, fun h => ?_⟩
  · have e : (multiBlock { d with mass := { d.mass with validate := v } }).logProb (.many [fin m, fin q, fin a1, fin a2, fin t1, fin t2]) =
      d.logProb (fin m) (fin q) (fin a1) (fin a2) (fin t1) (fin t2) := d.logProb_validate v h
    rw [e]
    exact ⟨H, rfl⟩
  · have h' : d.support (fin m) (fin q) (fin a1) (fin a2) (fin t1) (fin t2) = false := h
    simp only [MultiSpin.Model.logProb, Mass.validated, hd.validate, h', select_false, if_true, expR_ninf]

/-! ## Looking up the names -/

theorem requireAll_opt (p : Dict String ℝ) (b : Bool) (ns : List String) : requireAll p (optNames b ns) = if b then requireAll p ns else pure PUnit.unit := by
  cases b <;> rfl

theorem requireAll_append (p : Dict String ℝ) (as bs : List String) : requireAll p (as ++ bs) = (requireAll p as >>= fun _ => requireAll p bs) := by
  induction as with
  | nil => rfl
  | cons a as ih =>
    simp only [List.cons_append, requireAll]
    cases get? p a with
    | none => rfl
    | some x => exact ih

theorem powerlawPeak_eq (c : Cosmo.Cosmology) (f : Flags) (v : Bool) (p : Dict String ℝ) :
    powerlawPeak c f v p = (requireAll p (peakNames f.spin f.redshift f.tilt f.ecc) >>= fun _ =>
      joinIfMany ([peakBlock (peakMass v p)] ++ (if f.spin then [betaSpins v p] else []) ++ (if f.tilt then [peakTilts v p] else []) ++
        (if f.ecc then [halfNormalEcc v p] else []) ++ (if f.redshift then [redshiftBlock (redshiftModel c v p)] else [])) >>= fun d =>
      requireAll p ["log_rate"] >>= fun _ => scaled v (val p "log_rate") d) := by
  obtain ⟨f1, f2, f3, f4⟩ := f
  simp only [powerlawPeak, peakNames, requireAll_append, requireAll_opt, bind_assoc]
  cases f1 <;> cases f2 <;> cases f3 <;> cases f4 <;> rfl

theorem brokenFull_eq (c : Cosmo.Cosmology) (f : Flags) (v : Bool) (p : Dict String ℝ) :
    brokenPowerlawTwoPeakFull c f v p = (requireAll p (brokenNames f.spin f.redshift f.tilt f.ecc) >>= fun _ =>
      joinIfMany ([brokenBlock (brokenMass v p)] ++ (if f.spin then [truncatedSpins v p] else []) ++ (if f.tilt then [minimumTilts v p] else []) ++
        (if f.ecc then [truncatedEcc v p] else []) ++ (if f.redshift then [redshiftBlock (redshiftModel c v p)] else [])) >>= fun d =>
      requireAll p ["log_rate"] >>= fun _ => scaled v (val p "log_rate") d) := by
  obtain ⟨f1, f2, f3, f4⟩ := f
  simp only [brokenPowerlawTwoPeakFull, brokenNames, requireAll_append, requireAll_opt, bind_assoc]
  cases f1 <;> cases f2 <;> cases f3 <;> cases f4 <;> rfl

theorem multiFull_eq (c : Cosmo.Cosmology) (ecc v : Bool) (p : Dict String ℝ) :
    multiSpinMultiTiltFull c ecc v p = (requireAll p (multiAllNames ecc) >>= fun _ =>
      join ([multiBlock (multiMass v p)] ++ (if ecc then [halfNormalEcc v p] else []) ++ [redshiftBlock (redshiftModel c v p)]) >>= fun d =>
      requireAll p ["log_rate"] >>= fun _ => scaled v (val p "log_rate") d) := by
  rw [multiAllNames, show componentNames = multiNames by decide +kernel]
  simp only [multiSpinMultiTiltFull, requireAll_append, requireAll_opt, bind_assoc]
  cases ecc <;> rfl

theorem join_ok (ds : List (Base XR)) (h : ds ≠ []) : ∃ d, join ds = .ok d := by
  cases ds with
  | nil => exact absurd rfl h
  | cons d ds => exact ⟨_, rfl⟩

theorem joinIfMany_ok (ds : List (Base XR)) (h : ds ≠ []) : ∃ d, joinIfMany ds = .ok d := by
  unfold joinIfMany
  split
  · exact ⟨_, rfl⟩
  · exact join_ok _ h

theorem program_missing {p : Dict String ℝ} {ns : List String} {n : String} (h : FirstMissing p (ns ++ ["log_rate"]) n) {J : Except Err (Joint.Dist XR)} (hJ : ∃ d, J = .ok d)
    (K : Joint.Dist XR → Except Err (Mixture.Mix (Slice XR))) :
    (requireAll p ns >>= fun _ => J >>= fun d => requireAll p ["log_rate"] >>= fun _ => K d) = .error (.keyError n) := by
  obtain ⟨d, rfl⟩ := hJ
  rcases h.split with h | ⟨h1, h2⟩
  · rw [requireAll_missing h]
    rfl
  · rw [requireAll_ok h1]
    show (requireAll p ["log_rate"] >>= fun _ => K d) = _
    rw [requireAll_missing h2]
    rfl

theorem program_ok {p : Dict String ℝ} {ns : List String} (h : ∀ n ∈ ns, n ∈ keys p) (hr : "log_rate" ∈ keys p) {J : Except Err (Joint.Dist XR)} {d : Joint.Dist XR} (hJ : J = .ok d)
    (K : Joint.Dist XR → Except Err (Mixture.Mix (Slice XR))) :
    (requireAll p ns >>= fun _ => J >>= fun d => requireAll p ["log_rate"] >>= fun _ => K d) = K d := by
  subst hJ
  rw [requireAll_ok h, requireAll_ok (ns := ["log_rate"]) (by simpa using hr)]
  rfl

/-! ## The optional blocks -/

/-- Outside the square both densities vanish. -/
theorem box_zero {zeta loc scale minimum t1 t2 : ℝ} (h : (Spin.interval minimum 1 (fin t1) && Spin.interval minimum 1 (fin t2)) = false) :
    (1 - zeta) * (Spin.uniformDensity minimum 1 t1 * Spin.uniformDensity minimum 1 t2) +
      zeta * (Spin.restrictedNormal loc scale (Set.Icc minimum 1) t1 * Spin.restrictedNormal loc scale (Set.Icc minimum 1) t2) = 0 := by
  have key : ∀ t, Spin.interval minimum 1 (fin t) = false → Spin.uniformDensity minimum 1 t = 0 ∧ Spin.restrictedNormal loc scale (Set.Icc minimum 1) t = 0 := by
    intro t ht
    have hn : ¬ (minimum ≤ t ∧ t ≤ 1) := fun hc => by simp [Spin.interval_fin.2 hc] at ht
    refine ⟨?_, ?_⟩
    · rw [Spin.uniformDensity, if_neg hn]
    · rw [Spin.restrictedNormal, if_neg (by simpa using hn)]
  rcases Bool.and_eq_false_iff.1 h with h | h
  · simp [(key _ h).1, (key _ h).2]
  · simp [(key _ h).1, (key _ h).2]

theorem betaSpins_good (v : Bool) {p : Dict String ℝ} {mean variance A B a1 a2 : ℝ} (k1 : Given p [("chi_mean", mean), ("chi_variance", variance)]) (k2 : BetaShape mean variance A B)
    (r1 : BetaRegular A B a1) (r2 : BetaRegular A B a2) :
    (Part.mk (betaSpins v p) (.many [fin a1, fin a2]) (betaPDFReal A B a1 * betaPDFReal A B a2)).Good := by
  have : betaSpins v p = twice (betaDist (fin A) (fin B) v) v := by
    simp only [betaSpins, given_val k1 (n := "chi_mean") (v := mean) (by simp), given_val k1 (n := "chi_variance") (v := variance) (by simp), betaShape_conc k2]
  rw [this]
  exact twice_good v (beta_at v k2.1 k2.2.1 r1) (beta_at v k2.1 k2.2.1 r2)

theorem peakTilts_good (v : Bool) {p : Dict String ℝ} {zeta st : ℝ} (k1 : Given p [("cos_tilt_zeta", zeta), ("cos_tilt_scale", st)]) (k2 : 0 ≤ zeta) (k3 : zeta ≤ 1) (k4 : 0 < st) (t1 t2 : ℝ) :
    (Part.mk (peakTilts v p) (.many [fin t1, fin t2]) (if (-1 ≤ t1 ∧ t1 ≤ 1) ∧ (-1 ≤ t2 ∧ t2 ≤ 1) then
      (1 - zeta) / 4 + zeta * (Spin.restrictedNormal 1 st (Set.Icc (-1) 1) t1 * Spin.restrictedNormal 1 st (Set.Icc (-1) 1) t2) else 0)).Good := by
  have := tilt_good (Spin.C54_spin_orientation k2 k3 k4 k4 v) (fun x y => Spin.interval (-1) 1 x && Spin.interval (-1) 1 y) t1 t2 (fun h => by
    simp only [Fin.forall_fin_two, Matrix.cons_val_zero, Matrix.cons_val_one]
    rw [if_neg]
    rintro ⟨⟨a, b⟩, c, e⟩
    simp [Spin.interval_fin.2 ⟨a, b⟩, Spin.interval_fin.2 ⟨c, e⟩] at h)
  simp only [Fin.forall_fin_two, Matrix.cons_val_zero, Matrix.cons_val_one] at this
  have e : peakTilts v p = pair (fun x y => Spin.independentSpinOrientation zeta st st v ![x, y]) fun x y => Spin.interval (-1) 1 x && Spin.interval (-1) 1 y := by
    simp only [peakTilts, given_val k1 (n := "cos_tilt_zeta") (v := zeta) (by simp), given_val k1 (n := "cos_tilt_scale") (v := st) (by simp)]
  rw [e]
  exact this

theorem halfNormalEcc_good (v : Bool) {p : Dict String ℝ} {se : ℝ} (k1 : Given p [("eccentricity_scale", se)]) (k2 : 0 < se) (e : ℝ) :
    (Part.mk (halfNormalEcc v p) (.one (fin e)) (halfNormalDensity se e)).Good := by
  have : halfNormalEcc v p = scalar (halfNormal se v).logProb (halfNormal se v).support := by
    simp only [halfNormalEcc, given_val k1 (n := "eccentricity_scale") (v := se) (by simp)]
  rw [this]
  exact scalar_good (halfNormal_at v k2 e)

theorem redshiftModel_good (v : Bool) {p : Dict String ℝ} {c : Cosmo.Cosmology} {zmax kappa : ℝ} (k1 : Given p [("z_max", zmax), ("kappa", kappa)]) (k2 : c.Proper) (k3 : 0 < zmax) (z : ℝ) :
    (Part.mk (redshiftBlock (redshiftModel c v p)) (.one (fin z)) (expR ((Cosmo.Redshift.mk c (Cosmo.powerlawLogPsi kappa) zmax true).logProb (fin z)))).Good := by
  have : redshiftModel c v p = ⟨c, Cosmo.powerlawLogPsi kappa, zmax, v⟩ := by
    simp only [redshiftModel, given_val k1 (n := "z_max") (v := zmax) (by simp), given_val k1 (n := "kappa") (v := kappa) (by simp)]
  rw [this]
  exact redshift_good c k2 k3 v z

theorem truncatedSpins_good (v : Bool) {p : Dict String ℝ} {loc scale : ℝ} (k1 : Given p [("chi_loc", loc), ("chi_scale", scale)]) (k2 : 0 < scale) (a1 a2 : ℝ) :
    (Part.mk (truncatedSpins v p) (.many [fin a1, fin a2]) (Spin.restrictedNormal loc scale (Set.Icc 0 1) a1 * Spin.restrictedNormal loc scale (Set.Icc 0 1) a2)).Good := by
  have : truncatedSpins v p = twice (Spin.truncatedNormal loc scale (some 0) (some 1) v) v := by
    simp only [truncatedSpins, given_val k1 (n := "chi_loc") (v := loc) (by simp), given_val k1 (n := "chi_scale") (v := scale) (by simp)]
  rw [this]
  have H := has_at (Spin.has_truncatedNormal (loc := loc) (low := some 0) (high := some 1) k2 (by simp [Spin.loX, Spin.hiX]) v)
  exact twice_good v (H a1) (H a2)

theorem minimumTilts_good (v : Bool) {p : Dict String ℝ} {zeta loc scale minimum : ℝ} (k1 : Given p [("cos_tilt_zeta", zeta), ("cos_tilt_loc", loc), ("cos_tilt_scale", scale)])
    (km : (get? p "cos_tilt_minimum").getD (-1) = minimum) (k2 : 0 ≤ zeta) (k3 : zeta ≤ 1) (k4 : 0 < scale) (k5 : minimum < 1) (t1 t2 : ℝ) :
    (Part.mk (minimumTilts v p) (.many [fin t1, fin t2]) ((1 - zeta) * (Spin.uniformDensity minimum 1 t1 * Spin.uniformDensity minimum 1 t2) +
      zeta * (Spin.restrictedNormal loc scale (Set.Icc minimum 1) t1 * Spin.restrictedNormal loc scale (Set.Icc minimum 1) t2))).Good := by
  have := tilt_good (Spin.C54_minimum_tilt (loc := loc) k2 k3 k4 k5 v) (fun x y => Spin.interval minimum 1 x && Spin.interval minimum 1 y) t1 t2 (fun h => by
    simp only [Matrix.cons_val_zero, Matrix.cons_val_one]
    exact box_zero h)
  simp only [Matrix.cons_val_zero, Matrix.cons_val_one] at this
  have e : minimumTilts v p = pair (fun x y => Spin.minimumTilt zeta loc scale minimum v ![x, y]) fun x y => Spin.interval minimum 1 x && Spin.interval minimum 1 y := by
    simp only [minimumTilts, km, given_val k1 (n := "cos_tilt_zeta") (v := zeta) (by simp), given_val k1 (n := "cos_tilt_loc") (v := loc) (by simp),
      given_val k1 (n := "cos_tilt_scale") (v := scale) (by simp)]
  rw [e]
  exact this

theorem truncatedEcc_good (v : Bool) {p : Dict String ℝ} {loc scale low high : ℝ} (k1 : Given p [("eccentricity_loc", loc), ("eccentricity_scale", scale)])
    (kl : (get? p "eccentricity_low").getD 0 = low) (kh : (get? p "eccentricity_high").getD 1 = high) (k2 : 0 < scale) (k3 : low < high) (e : ℝ) :
    (Part.mk (truncatedEcc v p) (.one (fin e)) (Spin.restrictedNormal loc scale (Set.Icc low high) e)).Good := by
  have : truncatedEcc v p = scalar (Spin.truncatedNormal loc scale (some low) (some high) v).logProb (Spin.truncatedNormal loc scale (some low) (some high) v).support := by
    simp only [truncatedEcc, kl, kh, given_val k1 (n := "eccentricity_loc") (v := loc) (by simp), given_val k1 (n := "eccentricity_scale") (v := scale) (by simp)]
  rw [this]
  have H := has_at (Spin.has_truncatedNormal (loc := loc) (low := some low) (high := some high) k2 (by simp [Spin.loX, Spin.hiX, k3]) v)
  exact scalar_good (H e)

theorem optNames_mem {p : Dict String ℝ} {b : Bool} {ns : List String} {l : List (String × ℝ)} (hg : b = true → Given p l) (hns : ∀ n ∈ ns, n ∈ l.map (·.1)) {n : String}
    (hn : n ∈ optNames b ns) : n ∈ keys p := by
  cases b with
  | false => simp [optNames] at hn
  | true => exact given_mem (hg rfl) (hns n hn)

theorem four_parts (v : Bool) {t P1 P2 P3 P4 : Part} {b1 b2 b3 b4 : Bool} {x y : ℝ} (g0 : t.Good) (hm : t.at_ = .many [fin x, fin y]) (g1 : b1 = true → P1.Good) (g2 : b2 = true → P2.Good)
    (g3 : b3 = true → P3.Good) (g4 : b4 = true → P4.Good) {x1 x2 x3 x4 : List ℝ} (h1 : P1.at_.toList = x1.map fin) (h2 : P2.at_.toList = x2.map fin) (h3 : P3.at_.toList = x3.map fin)
    (h4 : P4.at_.toList = x4.map fin) (rate : ℝ) :
    ∃ d M, joinIfMany ([t.block] ++ (if b1 then [P1.block] else []) ++ (if b2 then [P2.block] else []) ++ (if b3 then [P3.block] else []) ++ (if b4 then [P4.block] else [])) = .ok d ∧
      scaled v rate d = .ok M ∧
      IsLog (M.logProbChecked v (.many (([x, y] ++ coords b1 x1 ++ coords b2 x2 ++ coords b3 x3 ++ coords b4 x4).map fin))) ∧
      expR (M.logProbChecked v (.many (([x, y] ++ coords b1 x1 ++ coords b2 x2 ++ coords b3 x3 ++ coords b4 x4).map fin))) =
        Real.exp rate * (t.density * factor b1 P1.density * factor b2 P2.density * factor b3 P3.density * factor b4 P4.density) := by
  obtain ⟨d, M, e1, e2, e3, e4⟩ := build_density v t (opt b1 P1 ++ opt b2 P2 ++ opt b3 P3 ++ opt b4 P4) (by
    simp only [List.mem_cons, List.mem_append]
    rintro s (rfl | ((hs | hs) | hs) | hs)
    · exact g0
    · exact opt_good g1 s hs
    · exact opt_good g2 s hs
    · exact opt_good g3 s hs
    · exact opt_good g4 s hs) (fin x) (fin y) hm rate
  simp only [List.flatMap_cons, List.flatMap_append, List.map_cons, List.map_append, List.prod_cons, List.prod_append, opt_density, opt_at b1 P1 x1 h1, opt_at b2 P2 x2 h2,
    opt_at b3 P3 x3 h3, opt_at b4 P4 x4 h4, hm, opt_block] at e1 e3 e4
  simp only [Slice.toList] at e3 e4
  refine ⟨d, M, by simpa only [List.append_assoc, List.cons_append, List.nil_append] using e1, e2, ?_, ?_⟩
  · simpa only [List.map_append, List.map_cons, List.map_nil, List.append_assoc, List.cons_append, List.nil_append] using e3
  · have : ([x, y] ++ coords b1 x1 ++ coords b2 x2 ++ coords b3 x3 ++ coords b4 x4).map fin =
        [fin x, fin y] ++ ((coords b1 x1).map fin ++ (coords b2 x2).map fin ++ (coords b3 x3).map fin ++ (coords b4 x4).map fin) := by simp
    rw [this, e4]
    ring

theorem default_eq {p : Dict String ℝ} {n : String} {v dflt : ℝ} (h : Given p [(n, v)] ∨ n ∉ keys p ∧ v = dflt) : (get? p n).getD dflt = v := by
  rcases h with h | ⟨h, rfl⟩
  · rw [h (n, v) (by simp)]
    rfl
  · rw [(get?_eq_none_iff _ _).2 h]
    rfl

theorem two_parts (v : Bool) {t P1 P2 : Part} {b1 : Bool} (g0 : t.Good) (g1 : b1 = true → P1.Good) (g2 : P2.Good) {x0 x1 x2 : List ℝ} (h0 : t.at_.toList = x0.map fin)
    (h1 : P1.at_.toList = x1.map fin) (h2 : P2.at_.toList = x2.map fin) (rate : ℝ) :
    ∃ d M, join ([t.block] ++ (if b1 then [P1.block] else []) ++ [P2.block]) = .ok d ∧ scaled v rate d = .ok M ∧
      IsLog (M.logProbChecked v (.many ((x0 ++ coords b1 x1 ++ x2).map fin))) ∧
      expR (M.logProbChecked v (.many ((x0 ++ coords b1 x1 ++ x2).map fin))) = Real.exp rate * (t.density * factor b1 P1.density * P2.density) := by
  obtain ⟨d, M, e1, e2, e3, e4⟩ := build_density' v (t :: (opt b1 P1 ++ [P2])) (by simp) (by
    simp only [List.mem_cons, List.mem_append, List.not_mem_nil, or_false]
    rintro s (rfl | hs | rfl)
    · exact g0
    · exact opt_good g1 s hs
    · exact g2) rate
  simp only [List.flatMap_cons, List.flatMap_append, List.flatMap_nil, List.append_nil, List.map_cons, List.map_append, List.map_nil, List.prod_cons, List.prod_append, List.prod_nil, mul_one,
    opt_density, opt_at b1 P1 x1 h1, h0, h2, opt_block] at e1 e3 e4
  refine ⟨d, M, by simpa only [List.append_assoc, List.cons_append, List.nil_append] using e1, e2, ?_, ?_⟩
  · simpa only [List.map_append, List.append_assoc] using e3
  · have : (x0 ++ coords b1 x1 ++ x2).map fin = x0.map fin ++ ((coords b1 x1).map fin ++ x2.map fin) := by simp
    rw [this, e4]
    ring

end GW.Full
