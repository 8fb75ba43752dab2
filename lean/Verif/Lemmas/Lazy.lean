import Verif.Model.Lazy
import Verif.Lemmas.Joint

namespace GW.Lazy
open GW GW.Joint

variable {α : Type}

theorem kwargs_eq {env : Nat → Option (List α)} {val : Nat → List α} {dep : List (String × Nat)}
    (h : ∀ p ∈ dep, env p.2 = some (val p.2)) :
    kwargs env dep = some (dep.map fun p => (p.1, val p.2)) := by
  induction dep with
  | nil => rfl
  | cons p dep ih =>
    obtain ⟨k, v⟩ := p
    have h1 := h (k, v) (by simp)
    simp only at h1
    rw [kwargs, h1, ih fun p hp => h p (by simp [hp])]
    rfl

theorem instLoop_spec {env : Nat → Option (List α)} {val : Nat → List α} :
    ∀ (deps : List (Nat × List (String × Nat))) (ms : List (Marg α)),
      (deps.map Prod.fst).Nodup →
      (∀ p ∈ deps, ∃ f, ms[p.1]? = some (.part f)) →
      (∀ p ∈ deps, ∀ q ∈ p.2, env q.2 = some (val q.2)) →
      ∃ ms', instLoop env deps ms = some ms' ∧ ms'.length = ms.length ∧
        (∀ p ∈ deps, ∀ f, ms[p.1]? = some (.part f) →
          ms'[p.1]? = some (.dist (f (p.2.map fun q => (q.1, val q.2))))) ∧
        (∀ i, i ∉ deps.map Prod.fst → ms'[i]? = ms[i]?) := by
  intro deps
  induction deps with
  | nil => intro ms _ _ _; exact ⟨ms, rfl, rfl, by simp, by simp⟩
  | cons p deps ih =>
    obtain ⟨i, dep⟩ := p
    intro ms hnd hpart henv
    simp only [List.map_cons, List.nodup_cons] at hnd
    obtain ⟨f, hf⟩ := hpart (i, dep) (by simp)
    simp only at hf
    have hkw := kwargs_eq (val := val) (henv (i, dep) (by simp))
    have hne : ∀ p ∈ deps, i ≠ p.1 := fun p hp h => hnd.1 (List.mem_map.2 ⟨p, hp, h.symm⟩)
    obtain ⟨ms', h1, h2, h3, h4⟩ := ih (ms.set i (.dist (f (dep.map fun q => (q.1, val q.2))))) hnd.2
      (fun p hp => by
        obtain ⟨g, hg⟩ := hpart p (by simp [hp])
        exact ⟨g, by rw [List.getElem?_set_ne (hne p hp)]; exact hg⟩)
      (fun p hp => henv p (by simp [hp]))
    refine ⟨ms', ?_, by simpa using h2, ?_, ?_⟩
    · rw [instLoop, hkw]
      simp only [Option.bind_eq_bind, Option.bind_some]
      rw [hf]
      exact h1
    · intro p hp g hg
      rcases List.mem_cons.1 hp with rfl | hp
      · simp only at hg ⊢
        rw [h4 i hnd.1]
        rw [hf] at hg
        cases hg
        have : i < ms.length := by
          rw [List.getElem?_eq_some_iff] at hf
          exact hf.1
        simp [this]
      · refine h3 p hp g ?_
        rw [List.getElem?_set_ne (hne p hp)]; exact hg
    · intro j hj
      simp only [List.map_cons, List.mem_cons, not_or] at hj
      rw [h4 j hj.2, List.getElem?_set_ne (Ne.symm hj.1)]

theorem logProbLoop_eq (bs : List (Base α)) (es : List EvSlice) (x : List α) (h : bs.length = es.length) :
    logProbLoop (bs.map .dist) es x = Dist.logProbLoop (bs.map .base) es x := by
  induction bs generalizing es with
  | nil => cases es <;> simp_all [logProbLoop, Dist.logProbLoop]
  | cons b bs ih =>
    cases es with
    | nil => simp at h
    | cons e es =>
      simp only [List.map_cons, logProbLoop, Dist.logProbLoop, Dist.logProb]
      rw [ih es (by simpa using h)]
      simp

theorem supportLoop_eq (bs : List (Base α)) (es : List EvSlice) (x : List α) (h : bs.length = es.length) :
    supportLoop (bs.map .dist) es x = Dist.supportLoop (bs.map .base) es x := by
  induction bs generalizing es with
  | nil => cases es <;> simp_all [supportLoop, Dist.supportLoop]
  | cons b bs ih =>
    cases es with
    | nil => simp at h
    | cons e es =>
      simp only [List.map_cons, supportLoop, Dist.supportLoop, Dist.support]
      rw [ih es (by simpa using h)]
      simp

theorem LP_blocks : ∀ (bs : List (Base α)) (ss : List (Slice α)), List.Forall₂ Fits (bs.map Dist.base) ss →
    LP (bs.map Dist.base) (ss.flatMap Slice.toList) = some (List.zipWith Base.logProb bs ss).sum
  | [], [], _ => by simp [LP_nil]
  | b :: bs, s :: ss, h => by
    cases h with
    | cons h1 h2 =>
      rw [List.map_cons, List.flatMap_cons, LP_cons h1, LP_blocks bs ss h2]
      simp [Dist.logProb]

theorem SP_blocks : ∀ (bs : List (Base α)) (ss : List (Slice α)), List.Forall₂ Fits (bs.map Dist.base) ss →
    SP (bs.map Dist.base) (ss.flatMap Slice.toList) = some ((List.zipWith Base.support bs ss).all id)
  | [], [], _ => by simp [SP_nil]
  | b :: bs, s :: ss, h => by
    cases h with
    | cons h1 h2 =>
      rw [List.map_cons, List.flatMap_cons, SP_cons h1, SP_blocks bs ss h2]
      simp [Dist.support]

/-- If the declared shapes are those of the distributions `bs`, the constructor computes the slices of the
ordinary joint of `bs`. -/
theorem shapeLoop_eq (shapes : Option (List (Option Nat))) :
    ∀ (ms : List (Marg α)) (bs : List (Base α)) (i k : Nat), ms.length = bs.length →
      (∀ j m b, ms[j]? = some m → bs[j]? = some b → eventShape shapes (i + j) m = some b.shape) →
      shapeLoop shapes i k ms =
        some (shapedValues k (bs.map Dist.base), k + Dist.total (bs.map Dist.base)) := by
  intro ms
  induction ms with
  | nil => intro bs i k h _; cases bs <;> simp_all [shapeLoop, shapedValues, Dist.total]
  | cons m ms ih =>
    intro bs i k h hs
    cases bs with
    | nil => simp at h
    | cons b bs =>
      have h0 := hs 0 m b (by simp) (by simp)
      have ih' := fun k => ih bs (i + 1) k (by simpa using h) (fun j m b hm hb => by
        have := hs (j + 1) m b (by simpa using hm) (by simpa using hb)
        rwa [show i + 1 + j = i + (j + 1) by omega])
      simp only [Nat.add_zero] at h0
      simp only [shapeLoop, h0, Option.bind_eq_bind, Option.bind_some, List.map_cons, shapedValues,
        Dist.total, Dist.shape]
      cases hb : b.shape with
      | none => simp only [ih', shapeSize]; simp [Nat.add_assoc]
      | some n => simp only [ih', shapeSize]; simp [Nat.add_assoc]

/-- The key obtained after `p` executions of `key, subkey = jrd.split(key)`. -/
def chain (key : Key) : Nat → Key
  | 0 => key
  | p + 1 => .sub (chain key p) 0

/-- Number of `sub` constructors. -/
def depth : Key → Nat
  | .seed _ => 0
  | .sub k _ => depth k + 1

theorem depth_chain (key : Key) (p : Nat) : depth (chain key p) = depth key + p := by
  induction p with
  | zero => rfl
  | succ p ih => simp [chain, depth, ih]; omega

/-- Sampling state reached after processing the indices `done`: every processed index holds a draw of its
distribution, instantiated with the values stored for its dependencies. -/
structure Inv (ms : List (Marg α)) (deps : List (Nat × List (String × Nat))) (key0 : Key)
    (done : List Nat) (samples : List (List α)) : Prop where
  len : samples.length = ms.length
  ok : ∀ p i, done[p]? = some i → ∃ b, samples[i]? = some (b.sample (.sub (chain key0 p) 1)).toList ∧
    (ms[i]? = some (.dist b) ∨ ∃ f dep, ms[i]? = some (.part f) ∧ (i, dep) ∈ deps ∧
      (∀ q ∈ dep, q.2 ∈ done ∧ q.2 < ms.length) ∧
      b = f (dep.map fun q => (q.1, (samples[q.2]?).getD [])))

/-- Setting an index not in `done` preserves the invariant and extends it by that index. -/
theorem Inv.step {ms : List (Marg α)} {deps key0 done samples} (h : Inv ms deps key0 done samples)
    {i : Nat} (hi : i ∉ done) (b : Base α)
    (hb : ms[i]? = some (.dist b) ∨ ∃ f dep, ms[i]? = some (.part f) ∧ (i, dep) ∈ deps ∧
      (∀ q ∈ dep, q.2 ∈ done ∧ q.2 < ms.length) ∧
      b = f (dep.map fun q => (q.1, (samples[q.2]?).getD []))) :
    Inv ms deps key0 (done ++ [i])
      (samples.set i (b.sample (.sub (chain key0 done.length) 1)).toList) := by
  have hilt : i < ms.length := by
    rcases hb with h | ⟨f, dep, h, _⟩ <;> exact (List.getElem?_eq_some_iff.1 h).1
  have stable : ∀ v ∈ done, (samples.set i (b.sample (.sub (chain key0 done.length) 1)).toList)[v]? =
      samples[v]? := fun v hv => List.getElem?_set_ne (fun e => hi (by rw [e]; exact hv))
  refine ⟨by simpa using h.len, ?_⟩
  intro p j hp
  rcases Nat.lt_or_ge p done.length with hlt | hge
  · rw [List.getElem?_append_left hlt] at hp
    have hj : j ∈ done := List.mem_of_getElem? hp
    obtain ⟨b', h1, h2⟩ := h.ok p j hp
    refine ⟨b', by rw [stable j hj, h1], ?_⟩
    rcases h2 with h2 | ⟨f, dep, h2, h3, h4, h5⟩
    · exact .inl h2
    · refine .inr ⟨f, dep, h2, h3, fun q hq => ⟨by simp [(h4 q hq).1], (h4 q hq).2⟩, ?_⟩
      rw [h5]
      congr 1
      refine List.map_congr_left fun q hq => ?_
      rw [stable _ (h4 q hq).1]
  · rw [List.getElem?_append_right hge] at hp
    have hp0 : p - done.length = 0 := by
      rcases Nat.eq_zero_or_pos (p - done.length) with h | h
      · exact h
      · rw [List.getElem?_eq_none (by simp; omega)] at hp; cases hp
    rw [hp0] at hp
    simp only [List.getElem?_cons_zero, Option.some.injEq] at hp
    subst hp
    have hpe : p = done.length := by omega
    subst hpe
    refine ⟨b, by simp [h.len, hilt], ?_⟩
    rcases hb with h2 | ⟨f, dep, h2, h3, h4, h5⟩
    · exact .inl h2
    · refine .inr ⟨f, dep, h2, h3, fun q hq => ⟨by simp [(h4 q hq).1], (h4 q hq).2⟩, ?_⟩
      refine h5.trans ?_
      congr 1
      refine List.map_congr_left fun q hq => ?_
      rw [stable _ (h4 q hq).1]

theorem sampleInd_spec {ms : List (Marg α)} {deps key0} :
    ∀ (is done : List Nat) (samples : List (List α)), Inv ms deps key0 done samples →
      (done ++ is).Nodup → (∀ i ∈ is, ∃ b, ms[i]? = some (.dist b)) →
      ∃ samples', sampleInd ms is (chain key0 done.length) samples =
          some (chain key0 (done ++ is).length, samples') ∧ Inv ms deps key0 (done ++ is) samples' := by
  intro is
  induction is with
  | nil => intro done samples h _ _; exact ⟨samples, by simp [sampleInd], by simpa using h⟩
  | cons i is ih =>
    intro done samples h hnd hd
    obtain ⟨b, hb⟩ := hd i (by simp)
    have hi : i ∉ done := by
      intro hi
      exact (List.nodup_append.1 hnd).2.2 i hi i (by simp) rfl
    have hstep := h.step hi b (.inl hb)
    obtain ⟨s', h1, h2⟩ := ih (done ++ [i]) _ hstep (by simpa using hnd) (fun j hj => hd j (by simp [hj]))
    refine ⟨s', ?_, by simpa using h2⟩
    rw [sampleInd, hb]
    simp only [List.append_assoc, List.singleton_append] at h1
    rw [← h1]
    simp [chain]

theorem lookup_of_mem {deps : List (Nat × List (String × Nat))} (hnd : (deps.map Prod.fst).Nodup)
    {i dep} (h : (i, dep) ∈ deps) : deps.lookup i = some dep := by
  induction deps with
  | nil => cases h
  | cons p deps ih =>
    obtain ⟨j, d⟩ := p
    simp only [List.map_cons, List.nodup_cons] at hnd
    rcases List.mem_cons.1 h with h | h
    · cases h; simp [List.lookup]
    · have : i ≠ j := fun e => hnd.1 (e ▸ List.mem_map.2 ⟨_, h, rfl⟩)
      have hb : (i == j) = false := by simpa using this
      rw [List.lookup, hb]
      exact ih hnd.2 h

theorem sampleOrd_spec {ms : List (Marg α)} {deps key0} (hk : (deps.map Prod.fst).Nodup) :
    ∀ (is done : List Nat) (samples : List (List α)), Inv ms deps key0 done samples →
      (done ++ is).Nodup →
      (∀ pre i post, is = pre ++ i :: post → ∃ f dep, ms[i]? = some (.part f) ∧ (i, dep) ∈ deps ∧
        ∀ q ∈ dep, q.2 ∈ done ++ pre ∧ q.2 < ms.length) →
      ∃ key' samples', sampleOrd ms deps is (chain key0 done.length) samples =
          some (key', samples') ∧ Inv ms deps key0 (done ++ is) samples' := by
  intro is
  induction is with
  | nil => intro done samples h _ _; exact ⟨chain key0 done.length, samples, by simp [sampleOrd], by simpa using h⟩
  | cons i is ih =>
    intro done samples h hnd hd
    obtain ⟨f, dep, hf, hdep, hq⟩ := hd [] i is rfl
    simp only [List.append_nil] at hq
    have hi : i ∉ done := by
      intro hi
      exact (List.nodup_append.1 hnd).2.2 i hi i (by simp) rfl
    have hkw : kwargs (fun v => samples[v]?) dep =
        some (dep.map fun q => (q.1, (samples[q.2]?).getD [])) := by
      refine kwargs_eq (val := fun v => (samples[v]?).getD []) fun q hq' => ?_
      have : q.2 < samples.length := by rw [h.len]; exact (hq q hq').2
      simp [this]
    have hstep := h.step hi (f (dep.map fun q => (q.1, (samples[q.2]?).getD []))) (.inr ⟨f, dep, hf, hdep, hq, rfl⟩)
    obtain ⟨k', s', h1, h2⟩ := ih (done ++ [i]) _ hstep (by simpa using hnd) (by
      intro pre j post e
      obtain ⟨g, d, e1, e2, e3⟩ := hd (i :: pre) j post (by simp [e])
      exact ⟨g, d, e1, e2, fun q hq => by simpa using e3 q hq⟩)
    refine ⟨k', s', ?_, by simpa using h2⟩
    rw [sampleOrd, lookup_of_mem hk hdep]
    simp only [Option.bind_eq_bind, Option.bind_some, hkw, hf]
    rw [← h1]
    simp [chain]

theorem Inv.init (ms : List (Marg α)) (deps) (key0 : Key) (junk : α) :
    Inv ms deps key0 [] (ms.map fun _ => [junk]) :=
  ⟨by simp, by simp⟩

end GW.Lazy
