import Verif.Lemmas.MonkLimit
import Verif.Props.Monk

/-! # An analysis whose estimate depends on the number of batches -/

namespace GW.Monk
open GW PyDict XR Matrix MeasureTheory ProbabilityTheory Filter Topology
open GW.Sage (Meaningful meaning inPrior logPriorOf Sampled)
open GW.Analytic (IsCholesky IsTril batchKey)
open scoped Classical

noncomputable section

/-- The mean of the estimate of two batches of two draws with weights zero or one, each one with probability `p`, when the second batch is only made if the first two weights agree. -/
theorem adaptive_mean {Ω : Type} [MeasurableSpace Ω] {P : Measure Ω} [IsProbabilityMeasure P] {x y u v est : Ω → ℝ} {p : ℝ} (hx : Measurable x) (hy : Measurable y) (hu : Measurable u) (hv : Measurable v)
    (hx1 : ∀ ω, x ω = 0 ∨ x ω = 1) (hy1 : ∀ ω, y ω = 0 ∨ y ω = 1) (hu1 : ∀ ω, u ω = 0 ∨ u ω = 1) (hv1 : ∀ ω, v ω = 0 ∨ v ω = 1)
    (ex : ∫ ω, x ω ∂P = p) (ey : ∫ ω, y ω ∂P = p) (eu : ∫ ω, u ω ∂P = p) (ev : ∫ ω, v ω ∂P = p)
    (hxy : IndepFun x y P) (hind : IndepFun (fun ω => (x ω, y ω)) (fun ω => (u ω, v ω)) P)
    (hest : ∀ ω, (x ω ≠ y ω → est ω = (x ω + y ω) / 2) ∧ (x ω = y ω → est ω = (x ω + y ω + u ω + v ω) / 4)) :
    Integrable est P ∧ ∫ ω, est ω ∂P = p ^ 3 - 3 / 2 * p ^ 2 + 3 / 2 * p := by
  have bd : ∀ {g : Ω → ℝ}, Measurable g → (∀ ω, g ω = 0 ∨ g ω = 1) → Integrable g P := fun hg h1 =>
    Integrable.of_bound hg.aestronglyMeasurable 1 (Eventually.of_forall fun ω => by rcases h1 ω with h | h <;> simp [h])
  have ix := bd hx hx1
  have iy := bd hy hy1
  have iu := bd hu hu1
  have iv := bd hv hv1
  have ixy : Integrable (fun ω => x ω * y ω) P := bd (hx.mul hy) fun ω => by rcases hx1 ω with h | h <;> rcases hy1 ω with h' | h' <;> simp [h, h']
  have exy : ∫ ω, x ω * y ω ∂P = p * p := by
    rw [hxy.integral_fun_mul_eq_mul_integral hx.aestronglyMeasurable hy.aestronglyMeasurable, ex, ey]
  have e1 : est = fun ω => ((x ω + y ω) / 2 - x ω * y ω / 2) + ((1 - x ω - y ω + 2 * (x ω * y ω)) / 4) * (u ω + v ω) := by
    funext ω
    obtain ⟨h1, h2⟩ := hest ω
    rcases hx1 ω with h | h <;> rcases hy1 ω with h' | h' <;> rw [h, h'] at h1 h2 ⊢
    · rw [h2 rfl]; ring
    · rw [h1 (by norm_num)]; ring
    · rw [h1 (by norm_num)]; ring
    · rw [h2 rfl]; ring
  have iF : Integrable (fun ω => (x ω + y ω) / 2 - x ω * y ω / 2) P := ((ix.add iy).div_const _).sub (ixy.div_const _)
  have iG : Integrable (fun ω => (1 - x ω - y ω + 2 * (x ω * y ω)) / 4) P := ((((integrable_const 1).sub ix).sub iy).add (ixy.const_mul 2)).div_const 4
  have iH : Integrable (fun ω => u ω + v ω) P := iu.add iv
  have hGH : IndepFun (fun ω => (1 - x ω - y ω + 2 * (x ω * y ω)) / 4) (fun ω => u ω + v ω) P :=
    hind.comp (φ := fun a : ℝ × ℝ => (1 - a.1 - a.2 + 2 * (a.1 * a.2)) / 4) (ψ := fun a : ℝ × ℝ => a.1 + a.2) (by fun_prop) (by fun_prop)
  have hadd := integral_add iF (hGH.integrable_mul iG iH)
  simp only [Pi.mul_apply] at hadd
  subst e1
  refine ⟨iF.add (hGH.integrable_mul iG iH), ?_⟩
  have is : Integrable (fun ω => x ω + y ω) P := ix.add iy
  have i1 : Integrable (fun ω => 1 - x ω) P := (integrable_const 1).sub ix
  have i2 : Integrable (fun ω => 1 - x ω - y ω) P := i1.sub iy
  rw [hadd, hGH.integral_fun_mul_eq_mul_integral iG.aestronglyMeasurable iH.aestronglyMeasurable, integral_add iu iv, integral_sub (is.div_const _) (ixy.div_const _), integral_div, integral_div,
    integral_add ix iy, integral_div, integral_add i2 (ixy.const_mul 2), integral_sub i1 iy, integral_sub (integrable_const 1) ix, integral_const_mul, exy, ex, ey, eu, ev]
  simp only [integral_const, probReal_univ, smul_eq_mul]
  ring

/-- The inputs of an analysis of one event `N(0, 1)` in one dimension with a population that has rate one above `c` and none below, two draws in a batch and at most two batches. -/
def stepInputs (c : ℝ) : Inputs 1 where
  params := Sage.exTable
  extra := [("N", some 1)]
  model := fun _ x => if c < x 0 then fin 0 else .ninf
  grad := fun _ _ => 0
  hess := fun _ _ => 0
  rate := fun _ => fin 3
  filename := "events.hdf5"
  file := [("event_0", ⟨some [fin 0], some [[fin 1]]⟩)]
  tObs := 2
  seed := 37
  nSamples := 2
  minErr := 1 / 4
  nMaxSteps := 2

def stepEvents : List ((Fin 1 → ℝ) × Matrix (Fin 1) (Fin 1) ℝ) := [(0, 1)]

theorem stepFile (c : ℝ) : FileHolds (stepInputs c).filename (stepInputs c).file stepEvents := by
  refine ⟨Or.inl (by change ".hdf5".toList <:+ "events.hdf5".toList; decide +kernel), ?_⟩
  have : ((stepInputs c).file.filter fun kg => "event_".toList.isPrefixOf kg.1.toList) = [("event_0", ⟨some [fin 0], some [[fin 1]]⟩)] := rfl
  rw [this]
  refine .cons ⟨?_, ?_⟩ .nil <;> simp

/-- The values at which the example analyses are evaluated. -/
def exValue : String → ℝ := fun n => if n = "a" then 1 / 2 else 1 / 4

theorem exAt {inp : Inputs 1} (h : inp.params = Sage.exTable) : At inp ["a", "b"] exValue (-Real.log (1 / 2)) where
  nodup := by decide +kernel
  sorted := by decide +kernel
  columns := by
    intro n
    rw [h]
    simp only [List.mem_cons, List.not_mem_nil, or_false, Sampled]
    constructor
    · rintro (rfl | rfl)
      · exact Or.inl ⟨Sage.exA, by simp [Sage.exTable]⟩
      · exact Or.inr ⟨true, Sage.exB, _, by simp [Sage.exTable]; rfl⟩
    · rintro (⟨b, hb⟩ | ⟨ip, f, a, hb⟩)
      · rcases Sage.exTable_mem hb with h | h | h | h <;> simp at h
        exact Or.inl h.1
      · rcases Sage.exTable_mem hb with h | h | h | h <;> simp at h
        exact Or.inr h.1
  inside := by
    intro n hn
    rw [h]
    simp only [List.mem_cons, List.not_mem_nil, or_false] at hn
    rcases hn with rfl | rfl <;> simp [inPrior, Sage.priorOf, Sage.exTable, get?, Sage.exA, Sage.exB, exValue] <;> norm_num
  prior := by
    rw [h, XR.sum_eq]
    simp [logPriorOf, Sage.priorOf, Sage.exTable, get?, Sage.exA, Sage.exB, exValue]

theorem runs {inp : Inputs 1} (hpar : inp.params = Sage.exTable) (hex : inp.extra = [("N", some 1)]) {evs : List ((Fin 1 → ℝ) × Matrix (Fin 1) (Fin 1) ℝ)} (hne : evs ≠ [])
    (hfile : FileHolds inp.filename inp.file evs) (chol : Matrix (Fin 1) (Fin 1) ℝ → Matrix (Fin 1) (Fin 1) ℝ) (normals : Key → List (Fin 1 → ℝ)) :
    ∃ r, run id chol normals inp = .ok r := by
  obtain ⟨s, hs⟩ : ∃ s, Guru.setup id Sage.exTable [("N", some 1)] = .ok s := ⟨_, rfl⟩
  refine (C83_stops_iff (inp := inp) (fun l => List.Perm.refl l) (by rw [hpar]; exact Sage.exTable_meaningful) (by rw [hex]; decide +kernel) s (by rw [hpar, hex]; exact hs) evs hfile).2.2 hne ?_
  rintro ⟨n, hn, h⟩
  rw [hex] at hn
  have hn : n = "N" := by simpa [keys] using hn
  subst hn
  rw [hpar] at h
  simp [Sampled, Sage.exTable] at h

/-- The probability of a standard normal number above `c`. -/
def tail (c : ℝ) : ℝ := ∫ x : Fin 1 → ℝ, expR (if c < x 0 then fin 0 else .ninf) * gauss 0 1 x

theorem tril_one : IsTril (1 : Matrix (Fin 1) (Fin 1) ℝ) := ⟨fun i j h => by fin_cases i; fin_cases j; simp at h, fun i => by simp⟩

theorem gauss_one : Integrable (gauss (0 : Fin 1 → ℝ) 1) ∧ ∫ x, gauss (0 : Fin 1 → ℝ) 1 x = 1 ∧ ∀ x, 0 < gauss (0 : Fin 1 → ℝ) 1 x := by
  have h := gauss_total (0 : Fin 1 → ℝ) tril_one
  have h' := fun x => Analytic.gauss_pos (μ := (0 : Fin 1 → ℝ)) tril_one x
  simp only [transpose_one, mul_one] at h h'
  exact ⟨h.1, h.2, h'⟩

theorem measurable_above (c : ℝ) : MeasurableSet {x : Fin 1 → ℝ | c < x 0} := measurableSet_lt measurable_const (measurable_pi_apply 0)

theorem tail_eq (c : ℝ) : Integrable (fun x : Fin 1 → ℝ => expR (if c < x 0 then fin 0 else .ninf) * gauss 0 1 x) ∧ tail c = ∫ x in {x : Fin 1 → ℝ | c < x 0}, gauss 0 1 x := by
  have e : (fun x : Fin 1 → ℝ => expR (if c < x 0 then fin 0 else .ninf) * gauss 0 1 x) = {x : Fin 1 → ℝ | c < x 0}.indicator (gauss 0 1) := by
    funext x
    by_cases hx : c < x 0
    · rw [if_pos hx, Set.indicator_of_mem (by exact hx)]; simp
    · rw [if_neg hx, Set.indicator_of_notMem (by exact hx)]; simp
  rw [tail, e, integral_indicator (measurable_above c)]
  exact ⟨gauss_one.1.indicator (measurable_above c), rfl⟩

theorem slice_pos {U : Set (Fin 1 → ℝ)} (hU : IsOpen U) (hne : U.Nonempty) : 0 < ∫ x in U, gauss (0 : Fin 1 → ℝ) 1 x := by
  rw [setIntegral_pos_iff_support_of_nonneg_ae (Eventually.of_forall fun x => (gauss_one.2.2 x).le) gauss_one.1.integrableOn]
  have : Function.support (gauss (0 : Fin 1 → ℝ) 1) = Set.univ := by ext x; simp [(gauss_one.2.2 x).ne']
  rw [this, Set.univ_inter]
  exact hU.measure_pos volume hne

theorem tail_bounds (c : ℝ) : 0 < tail c ∧ tail c < 1 ∧ tail (c + 1) < tail c := by
  have hopen : ∀ a : ℝ, IsOpen {x : Fin 1 → ℝ | a < x 0} := fun a => isOpen_lt continuous_const (continuous_apply 0)
  have hopen' : ∀ a : ℝ, IsOpen {x : Fin 1 → ℝ | x 0 < a} := fun a => isOpen_lt (continuous_apply 0) continuous_const
  simp only [(tail_eq _).2]
  refine ⟨slice_pos (hopen c) ⟨fun _ => c + 1, by simp⟩, ?_, ?_⟩
  · have h := slice_pos (hopen' c) ⟨fun _ => c - 1, by simp⟩
    have h2 : Disjoint {x : Fin 1 → ℝ | c < x 0} {x | x 0 < c} := Set.disjoint_left.2 fun x (h1 : c < x 0) (h2 : x 0 < c) => absurd (h1.trans h2) (lt_irrefl _)
    have h3 := setIntegral_union h2 (hopen' c).measurableSet gauss_one.1.integrableOn gauss_one.1.integrableOn
    have h4 : ∫ x in {x : Fin 1 → ℝ | c < x 0} ∪ {x | x 0 < c}, gauss (0 : Fin 1 → ℝ) 1 x ≤ ∫ x, gauss (0 : Fin 1 → ℝ) 1 x :=
      setIntegral_le_integral gauss_one.1 (Eventually.of_forall fun x => (gauss_one.2.2 x).le)
    rw [gauss_one.2.1] at h4
    linarith
  · have ho : IsOpen {x : Fin 1 → ℝ | c < x 0 ∧ x 0 < c + 1} := (hopen c).inter (hopen' (c + 1))
    have h := slice_pos ho ⟨fun _ => c + 1 / 2, by constructor <;> norm_num⟩
    have h2 : Disjoint {x : Fin 1 → ℝ | c + 1 < x 0} {x : Fin 1 → ℝ | c < x 0 ∧ x 0 < c + 1} := Set.disjoint_left.2 fun x (h1 : c + 1 < x 0) (h2 : c < x 0 ∧ x 0 < c + 1) => absurd (h1.trans h2.2) (lt_irrefl _)
    have h3 := setIntegral_union h2 ho.measurableSet gauss_one.1.integrableOn gauss_one.1.integrableOn
    have h4 : ∫ x in {x : Fin 1 → ℝ | c + 1 < x 0} ∪ {x | c < x 0 ∧ x 0 < c + 1}, gauss (0 : Fin 1 → ℝ) 1 x ≤ ∫ x in {x : Fin 1 → ℝ | c < x 0}, gauss (0 : Fin 1 → ℝ) 1 x := by
      refine setIntegral_mono_set gauss_one.1.integrableOn (Eventually.of_forall fun x => (gauss_one.2.2 x).le) (Eventually.of_forall ?_)
      rintro x (h | h)
      · exact lt_trans (by linarith) h
      · exact h.1
    linarith

theorem stepLog (c : ℝ) (x : Fin 1 → ℝ) : IsLog (population (stepInputs c) exValue x) := by
  simp only [population, stepInputs]; split_ifs <;> simp [IsLog]

theorem stepProper (c : ℝ) : Proper (population (stepInputs c) exValue) stepEvents where
  isLog := stepLog c
  measurable := by
    have : (fun x : Fin 1 → ℝ => expR (population (stepInputs c) exValue x)) = {x : Fin 1 → ℝ | c < x 0}.indicator fun _ => 1 := by
      funext x
      simp only [population, stepInputs]
      by_cases hx : c < x 0
      · rw [if_pos hx, Set.indicator_of_mem (by exact hx)]; simp
      · rw [if_neg hx, Set.indicator_of_notMem (by exact hx)]; simp
    rw [this]
    exact measurable_const.indicator (measurable_above c)
  seen e he := by
    simp only [stepEvents, List.mem_singleton] at he
    subst he
    exact (tail_eq c).1
  possible e he := by
    simp only [stepEvents, List.mem_singleton] at he
    subst he
    exact (tail_bounds c).1

end
end GW.Monk
