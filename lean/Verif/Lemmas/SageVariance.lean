import Verif.Model.SageVariance
import Verif.Props.Sage
import Verif.Props.VarianceCut

/-! # The variance of the log likelihood of a data set -/

namespace GW.Sage
open GW XR PyDict
open GW.Likelihood (FRow Bucket Model allEvents inputEvents rowSamples eventVariance readData)

noncomputable section
open Classical

variable {ord : List String → List String} {orc : Jenks.Oracle} {inp : Inputs}

/-- A bucket whose rows fit together. -/
def Rect {θ : Type} (b : Bucket θ) : Prop :=
  ∃ rows : List (List θ × List XR × List Bool), b = ⟨rows.map (·.1), rows.map (·.2.1), rows.map (·.2.2)⟩ ∧
    ∀ p ∈ rows, p.1.length = p.2.2.length ∧ p.2.1.length = p.2.2.length

/-- The buckets of a data set fit together. -/
theorem readData_rect {data refs : List (Jenks.Arr FRow)} {nb : Option Nat} {thr : ℚ} {c : ℝ} {bs : List (Bucket FRow)} (ho : Jenks.OracleSorted orc)
    (hrows : ∀ i, (Jenks.pick data i).rows.length = (Jenks.pick refs i).rows.length)
    (h : readData orc data refs nb thr = .ok (c, bs)) : ∀ b ∈ bs, Rect b := by
  unfold readData at h
  split_ifs at h with hlen
  have hlen : data.length = refs.length := by simpa using hlen
  cases hp : Jenks.padAndStack orc (fun w => List.replicate w 0) [data, refs] nb thr with
  | error e => rw [hp] at h; cases h
  | ok r =>
    obtain ⟨padded, masks⟩ := r
    rw [hp] at h
    by_cases hd : data = []
    · subst hd
      have hr : refs = [] := List.eq_nil_of_length_eq_zero (by simpa using hlen.symm)
      subst hr
      have ht : 0 ≤ thr ∧ thr ≤ 100 := by
        by_contra hc
        have := Jenks.C08_bad_arguments_rejected orc (fun w => List.replicate w (0 : XR)) [[], []] nb thr (by
          by_contra h'
          simp only [not_or, not_lt] at h'
          exact hc ⟨h'.1, h'.2.1⟩)
        rw [this] at hp; cases hp
      have := Jenks.C08_no_events orc (fun w => List.replicate w (0 : XR)) 1 nb thr ht
      simp only [List.replicate] at this hp
      rw [this] at hp
      simp only [Except.ok.injEq, Prod.mk.injEq] at hp
      obtain ⟨rfl, rfl⟩ := hp
      simp only [Except.ok.injEq, Prod.mk.injEq] at h
      obtain ⟨rfl, rfl⟩ := h
      simp
    · obtain ⟨perm, groups, p1, p2, _, p4, p5, _⟩ := Jenks.C08_buckets_are_the_events orc ho _ data [refs] hd nb thr
        padded masks hp
      simp only [List.map_cons, List.map_nil] at p4
      subst p4 p5
      simp only [Except.ok.injEq, Prod.mk.injEq] at h
      obtain ⟨-, h2⟩ := h
      subst h2
      simp only [Likelihood.zipWith_map_same, Likelihood.zip_map_same]
      intro b hb
      obtain ⟨g, hg, rfl⟩ := List.mem_map.1 hb
      refine ⟨g.map fun i => (Jenks.padTo (Jenks.groupMax data g) (List.replicate (Jenks.pick data i).width 0) (Jenks.pick data i).rows,
        List.zipWith (fun (m : Bool) (r : FRow) => if m then r.headD 0 else 0)
          (Jenks.padTo (Jenks.groupMax data g) false (List.replicate (Jenks.pick data i).rows.length true))
          (Jenks.padTo (Jenks.groupMax refs g) (List.replicate (Jenks.pick refs i).width 0) (Jenks.pick refs i).rows),
        Jenks.padTo (Jenks.groupMax data g) false (List.replicate (Jenks.pick data i).rows.length true)), ?_, ?_⟩
      · simp only [List.map_map, Function.comp_def]
      · intro p hp
        obtain ⟨i, hi, rfl⟩ := List.mem_map.1 hp
        have hgm : Jenks.groupMax refs g = Jenks.groupMax data g := by
          unfold Jenks.groupMax; congr 1; exact List.map_congr_left fun j _ => (hrows j).symm
        simp only [Jenks.padTo, List.length_zipWith, List.length_append, List.length_replicate, hgm, hrows i]
        simp

/-- The estimated variance of one event: `Σw² / (Σw)² - 1/n`. -/
def relativeVariance {θ : Type} (logProb : θ → XR) (ev : List (θ × XR)) : ℝ :=
  ((ev.map fun p => (logProb p.1 - p.2).expR).map fun x => x ^ 2).sum / (ev.map fun p => (logProb p.1 - p.2).expR).sum ^ 2 - 1 / ev.length

theorem bucket_variances {θ : Type} (M : Model θ) (fp : Nat → θ) : ∀ rows : List (List θ × List XR × List Bool),
    (∀ p ∈ rows, p.1.length = p.2.2.length ∧ p.2.1.length = p.2.2.length) →
    (∀ p ∈ rows, ∀ q ∈ rowSamples p.1 p.2.1 p.2.2, (M.logProb q.1 - q.2).IsLog) →
    (∀ p ∈ rows, 0 < ((rowSamples p.1 p.2.1 p.2.2).map fun q => (M.logProb q.1 - q.2).expR).sum) →
    bucketVariances M fp (rows.map (·.1)) (rows.map (·.2.1)) (rows.map (·.2.2)) =
      rows.map fun p => fin (relativeVariance M.logProb (rowSamples p.1 p.2.1 p.2.2))
  | [], _, _, _ => rfl
  | p :: rows, h1, h2, h3 => by
    simp only [List.map_cons, bucketVariances]
    rw [bucket_variances M fp rows (fun p hp => h1 p (by simp [hp])) (fun p hp => h2 p (by simp [hp])) (fun p hp => h3 p (by simp [hp])),
      (Likelihood.C45_event_variance M fp p.1 p.2.1 p.2.2 (h1 p (by simp)).1 (h1 p (by simp)).2 (h2 p (by simp)) _ rfl (h3 p (by simp))).1]
    simp [relativeVariance]

theorem foldl_fin {β : Type} (f : β → XR) (g : β → ℝ) : ∀ (l : List β) (a : ℝ), (∀ b ∈ l, f b = fin (g b)) →
    l.foldl (fun acc b => acc + f b) (fin a) = fin (a + (l.map g).sum)
  | [], a, _ => by simp
  | b :: l, a, h => by
    rw [List.foldl_cons, h b (by simp), add_fin_fin, foldl_fin f g l _ fun b hb => h b (by simp [hb])]
    simp [add_assoc]

theorem sum_fin {β : Type} (g : β → ℝ) : ∀ l : List β, XR.sum (l.map fun b => fin (g b)) = fin (l.map g).sum := by
  intro l
  induction l with
  | nil => rfl
  | cons b l ih => rw [List.map_cons, XR.sum_cons, ih, add_fin_fin]; simp

/-- The sum over all events. -/
theorem singleEventVariance_eq (M : Model FRow) {bs : List (Bucket FRow)} (hr : ∀ b ∈ bs, Rect b)
    (hlog : ∀ ev ∈ allEvents bs, ∀ p ∈ ev, (M.logProb p.1 - p.2).IsLog)
    (hpos : ∀ ev ∈ allEvents bs, 0 < (ev.map fun p => (M.logProb p.1 - p.2).expR).sum) :
    singleEventVariance M bs = fin ((allEvents bs).map (relativeVariance M.logProb)).sum := by
  have key : ∀ b ∈ bs, XR.sum (bucketVariances M (M.feasible (b.data.headD [])) b.data b.refs b.masks) =
      fin (b.events.map (relativeVariance M.logProb)).sum := by
    intro b hb
    obtain ⟨rows, rfl, hrows⟩ := hr b hb
    have hev : (⟨rows.map (·.1), rows.map (·.2.1), rows.map (·.2.2)⟩ : Bucket FRow).events = rows.map fun p => rowSamples p.1 p.2.1 p.2.2 := by
      simp only [Bucket.events, Likelihood.zip_map_same, List.map_map, Function.comp_def]
    have hmem : ∀ p ∈ rows, rowSamples p.1 p.2.1 p.2.2 ∈ allEvents bs := by
      intro p hp
      refine List.mem_flatMap.2 ⟨_, hb, ?_⟩
      rw [hev]
      exact List.mem_map.2 ⟨p, hp, rfl⟩
    rw [bucket_variances M _ rows hrows (fun p hp => hlog _ (hmem p hp)) (fun p hp => hpos _ (hmem p hp)), sum_fin, hev, List.map_map]
    rfl
  unfold singleEventVariance
  rw [show (0 : XR) = fin 0 from rfl, foldl_fin _ (fun b => (b.events.map (relativeVariance M.logProb)).sum) bs 0 key, zero_add]
  congr 1
  unfold allEvents
  rw [List.map_flatMap, List.flatMap_def, List.sum_flatten, List.map_map]
  rfl

theorem variance_ok {rv : Model FRow → XR} {V : List XR → XR} (h : likelihoodVariance ord orc inp rv = .ok V) :
    ∃ s pr c bs, Guru.setup ord inp.params inp.extra = .ok s ∧ prior s = .ok pr ∧
      readData orc inp.data inp.refs inp.nBuckets inp.threshold = .ok (c, bs) ∧
      ¬ (keys s.constants).any (· ∈ keys s.index) = true ∧ V = computeVariance inp rv s bs := by
  unfold likelihoodVariance at h
  cases hs : Guru.setup ord inp.params inp.extra with
  | error e => simp [hs] at h
  | ok s =>
    simp only [hs] at h
    cases hp : prior s with
    | error e => simp [hp] at h
    | ok pr =>
      simp only [hp] at h
      cases hd : readData orc inp.data inp.refs inp.nBuckets inp.threshold with
      | error e => simp [hd] at h
      | ok cb =>
        obtain ⟨c, bs⟩ := cb
        simp only [hd] at h
        split_ifs at h with hdis
        exact ⟨s, pr, c, bs, rfl, hp, rfl, hdis, (Except.ok.inj h).symm⟩

end
end GW.Sage
