import Verif.Lemmas.FullModels
import Verif.Model.EccMatters
import Verif.Props.MassModels

/-! Facts about the eccentricity model. -/

namespace GW.Full
open GW XR GW.PyDict GW.Joint MeasureTheory ProbabilityTheory
open scoped Classical

theorem wysocki_good {alphaM mmin mmax : ℝ} (h0 : 0 < mmin) (h : mmin < mmax) (v : Bool) {m1 m2 : ℝ} (hm : m1 ≠ mmin) :
    (Part.mk (pair (Mass.Wysocki.mk alphaM mmin mmax v).logProb (Mass.Wysocki.mk alphaM mmin mmax v).support) (.many [fin m1, fin m2])
      (wysockiDensity alphaM mmin mmax m1 m2)).Good := by
  have hs : (Mass.Wysocki.mk alphaM mmin mmax v).support (fin m1) (fin m2) = true ↔ mmin ≤ m2 ∧ m2 ≤ m1 ∧ m1 ≤ mmax := by
    rw [Mass.Wysocki.support, Mass.accepts_iff, Constraints.C19_sandwich_iff]
    exact ⟨fun ⟨_, a, b, c⟩ => ⟨a, b, c⟩, fun ⟨a, b, c⟩ => ⟨h0, a, b, c⟩⟩
  refine ⟨rfl, fun hin => ?_, fun hout => ?_⟩
  · have hin : (Mass.Wysocki.mk alphaM mmin mmax v).support (fin m1) (fin m2) = true := hin
    obtain ⟨h3, h4, h2⟩ := hs.1 hin
    have h1 : mmin < m1 := lt_of_le_of_ne (h3.trans h4) hm.symm
    have hm0 := h0.trans h1
    have e1 := PowerLaw.logProbFn_eq (α := -alphaM) h0 h hm0
    simp only [PowerLaw.logProbFn] at e1
    have hp : 0 < m1 - mmin := sub_pos.2 h1
    have e2 : Mass.uniformLogpdf (fin m2) (fin mmin) (fin m1 - fin mmin) = fin (-Real.log (m1 - mmin)) := by
      have c1 : decide (lt (fin mmin + (fin m1 - fin mmin)) (fin m2)) = false := by
        simp [h4]
      have c2 : decide (lt (fin m2) (fin mmin)) = false := by simp [h3]
      rw [Mass.uniformLogpdf, c1, c2]
      simp [hp]
    have e3 : (Mass.Wysocki.mk alphaM mmin mmax v).logProb (fin m1) (fin m2) = fin (-alphaM * Real.log m1 - Real.log (PowerLaw.J (-alphaM) mmin mmax) + -Real.log (m1 - mmin)) := by
      simp only [Mass.Wysocki.logProb, Mass.validated, hin, select_true, ite_self, e1, e2, add_fin_fin]
    show IsLog ((Mass.Wysocki.mk alphaM mmin mmax v).logProb (fin m1) (fin m2)) ∧ expR ((Mass.Wysocki.mk alphaM mmin mmax v).logProb (fin m1) (fin m2)) = _
    rw [e3]
    refine ⟨isLog_fin _, ?_⟩
    rw [expR_fin, Real.exp_add, PowerLaw.exp_logProb h0 h hm0, Real.exp_neg, Real.exp_log hp, wysockiDensity, if_pos ⟨h3, h4, h2⟩, one_div]
    rfl
  · have hout : (Mass.Wysocki.mk alphaM mmin mmax v).support (fin m1) (fin m2) = false := hout
    show wysockiDensity alphaM mmin mmax m1 m2 = 0
    rw [wysockiDensity, if_neg]
    intro hc
    rw [hs.2 hc] at hout
    exact absurd hout (by simp)

theorem scaled_pinf (v : Bool) (d : Joint.Dist XR) (r : ℝ) (x : Slice XR) (hl : d.logProb x = some pinf) (hs : d.support x = some true) :
    ∃ m, scaled v r d = .ok m ∧ m.logProbChecked v x = pinf := by
  have hmk : Mixture.mkMix [fin r] [component v d] (some (component v d).support) = .ok ⟨[fin r], [component v d], some (component v d).support⟩ := rfl
  refine ⟨_, by unfold scaled; rw [hmk], ?_⟩
  have hc : Mixture.compTerm (some (component v d).support) (component v d) x = pinf := by
    simp only [Mixture.compTerm, component, hl, hs, Option.getD_some, Option.isSome_some, Bool.true_and, Mass.validated]
    cases v <;> rfl
  have hsupp : (Mixture.Mix.mk [fin r] [component v d] (some (component v d).support)).support x = true := by
    simp [Mixture.Mix.support, component, hs]
  have hx : (Mixture.Mix.mk [fin r] [component v d] (some (component v d).support)).componentLogProbs x = [pinf] := by
    simp only [Mixture.Mix.componentLogProbs, List.map_cons, List.map_nil, List.zipWith_cons_cons, List.zipWith_nil_right, hc]
    rfl
  rw [Mixture.Mix.logProbChecked, hsupp, Mixture.Mix.logProb, hx, if_pos rfl, ite_self]
  have hm : (XR.max pinf ninf) = pinf := rfl
  simp [logsumexpWhere, hm, XR.isFinite]

/-- What the mixture of one component answers, from the support and the log density inside it alone. -/
theorem scaled_value (g c : Bool) (d : Joint.Dist XR) (r : ℝ) (x : Slice XR) (l : XR) (s : Bool) (hl : s = true → d.logProb x = some l) (hs : d.support x = some s) :
    ∃ m, scaled g r d = .ok m ∧ m.logProbChecked c x = if s then logsumexpWhere [(if (fin r + l).isNegInf then ninf else fin r + l, !(fin r + l).isNegInf)] else ninf := by
  have hmk : Mixture.mkMix [fin r] [component g d] (some (component g d).support) = .ok ⟨[fin r], [component g d], some (component g d).support⟩ := rfl
  refine ⟨_, by unfold scaled; rw [hmk], ?_⟩
  have hc : Mixture.compTerm (some (component g d).support) (component g d) x = if s then l else ninf := by
    cases s with
    | true =>
      simp only [Mixture.compTerm, component, hl rfl, hs, Option.getD_some, Option.isSome_some, Bool.true_and, Mass.validated]
      cases g <;> rfl
    | false =>
      simp only [Mixture.compTerm, component, hs, Option.getD_some, Option.isSome_some, Bool.true_and, Mass.validated]
      cases g <;> rfl
  have hsupp : (Mixture.Mix.mk [fin r] [component g d] (some (component g d).support)).support x = s := by
    simp [Mixture.Mix.support, component, hs]
  have hx : (Mixture.Mix.mk [fin r] [component g d] (some (component g d).support)).componentLogProbs x = [fin r + if s then l else ninf] := by
    simp only [Mixture.Mix.componentLogProbs, List.map_cons, List.map_nil, List.zipWith_cons_cons, List.zipWith_nil_right, hc]
  rw [Mixture.Mix.logProbChecked, hsupp, Mixture.Mix.logProb, hx]
  cases s with
  | true => simp
  | false =>
    have hn : fin r + ninf = ninf := rfl
    have hm : (XR.max ninf ninf) = ninf := rfl
    simp [hn, logsumexpWhere, hm, XR.isFinite, XR.isNegInf]

theorem pair_eval (f : XR → XR → XR) (s : XR → XR → Bool) (k : XR → XR) (t : XR → Bool) (x y z : XR) :
    (Joint.Dist.joint [.base (pair f s), .base (scalar k t)] none).logProb (.many [x, y, z]) = some (f x y + (k z + 0)) ∧
      (Joint.Dist.joint [.base (pair f s), .base (scalar k t)] none).support (.many [x, y, z]) = some (s x y && (t z && true)) := by
  have f1 : Fits (.base (pair f s)) (.many [x, y]) := rfl
  have f2 : Fits (.base (scalar k t)) (.one z) := trivial
  have l1 := LP_cons f1 [.base (scalar k t)] [z]
  have l2 := LP_cons f2 [] []
  have s1 := SP_cons f1 [.base (scalar k t)] [z]
  have s2 := SP_cons f2 [] []
  rw [LP_nil, show (Joint.Dist.base (scalar k t)).logProb (.one z) = some (k z) from rfl] at l2
  rw [SP_nil, show (Joint.Dist.base (scalar k t)).support (.one z) = some (t z) from rfl] at s2
  simp only [Slice.toList, List.cons_append, List.nil_append] at l1 l2 s1 s2
  rw [l2, show (Joint.Dist.base (pair f s)).logProb (.many [x, y]) = some (f x y) from rfl] at l1
  rw [s2, show (Joint.Dist.base (pair f s)).support (.many [x, y]) = some (s x y) from rfl] at s1
  exact ⟨by simpa [Joint.Dist.logProb] using l1, by simpa [Joint.Dist.support] using s1⟩

theorem same_log {x y : XR} {r : ℝ} (hx : IsLog x ∧ expR x = r) (hy : IsLog y ∧ expR y = r) : x = y := XR.eq_of_log hx.1 hy.1 (by rw [hx.2, hy.2])

end GW.Full
