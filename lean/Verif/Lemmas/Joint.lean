import Verif.Spec.Joint
import Verif.Lemmas.XR

namespace GW.Joint
open GW

variable {α : Type}

theorem Fits.size {d : Dist α} {s : Slice α} (h : Fits d s) : s.toList.length = shapeSize d.shape := by
  unfold Fits at h
  cases s <;> cases hd : d.shape <;> simp_all [Slice.toList, shapeSize]

theorem fits_cases {d : Dist α} {s : Slice α} (h : Fits d s) :
    (d.shape = none ∧ ∃ a, s = .one a) ∨ (∃ l, d.shape = some l.length ∧ s = .many l) := by
  unfold Fits at h
  cases s <;> cases hd : d.shape <;> simp_all

theorem getSlice_shift (pre y : List α) (e : EvSlice) :
    getSlice (pre ++ y) (match e with
      | .idx k => .idx (pre.length + k)
      | .range a b => .range (pre.length + a) (pre.length + b)) = getSlice y e := by
  cases e with
  | idx k => simp [getSlice, List.getElem?_append_right]
  | range a b =>
    simp only [getSlice, List.length_append, List.drop_append, Nat.add_sub_add_left]
    have h1 : pre.drop (pre.length + a) = [] := List.drop_eq_nil_of_le (by omega)
    have h2 : pre.length + a - pre.length = a := by omega
    simp only [h1, h2, List.nil_append]
    by_cases h : b ≤ y.length
    · rw [if_pos h, if_pos (by omega)]
    · rw [if_neg h, if_neg (by omega)]

theorem logProbLoop_shift (pre y : List α) (ms : List (Dist α)) : ∀ k,
    Dist.logProbLoop ms (shapedValues (pre.length + k) ms) (pre ++ y)
      = Dist.logProbLoop ms (shapedValues k ms) y := by
  induction ms with
  | nil => intro k; simp [Dist.logProbLoop]
  | cons m ms ih =>
    intro k
    cases h : m.shape with
    | none =>
      have := getSlice_shift pre y (.idx k)
      simp only [shapedValues, h, Dist.logProbLoop] at *
      rw [this, Nat.add_assoc, ih]
    | some n =>
      have := getSlice_shift pre y (.range k (k + n))
      simp only [shapedValues, h, Dist.logProbLoop] at *
      simp only [Nat.add_assoc] at *
      rw [this, ih]

theorem supportLoop_shift (pre y : List α) (ms : List (Dist α)) : ∀ k,
    Dist.supportLoop ms (shapedValues (pre.length + k) ms) (pre ++ y)
      = Dist.supportLoop ms (shapedValues k ms) y := by
  induction ms with
  | nil => intro k; simp [Dist.supportLoop]
  | cons m ms ih =>
    intro k
    cases h : m.shape with
    | none =>
      have := getSlice_shift pre y (.idx k)
      simp only [shapedValues, h, Dist.supportLoop] at *
      rw [this, Nat.add_assoc, ih]
    | some n =>
      have := getSlice_shift pre y (.range k (k + n))
      simp only [shapedValues, h, Dist.supportLoop] at *
      simp only [Nat.add_assoc] at *
      rw [this, ih]

/-- Joint log-prob of a list of marginals at a vector. -/
noncomputable abbrev LP (ms : List (Dist α)) (x : List α) : Option XR :=
  Dist.logProbLoop ms (shapedValues 0 ms) x

/-- Joint support of a list of marginals at a vector. -/
abbrev SP (ms : List (Dist α)) (x : List α) : Option Bool :=
  Dist.supportLoop ms (shapedValues 0 ms) x

theorem LP_cons {d : Dist α} {s : Slice α} (h : Fits d s) (ms : List (Dist α)) (y : List α) :
    LP (d :: ms) (s.toList ++ y) = (do
      let l ← d.logProb s
      let r ← LP ms y
      pure (l + r)) := by
  have hs := logProbLoop_shift s.toList y ms 0
  rw [h.size, Nat.add_zero] at hs
  rcases fits_cases h with ⟨hd, a, rfl⟩ | ⟨l, hd, rfl⟩
  · simp only [LP, shapedValues, hd, Dist.logProbLoop, Slice.toList, getSlice] at *
    simp [shapeSize] at hs
    simp [hs]
  · simp only [LP, shapedValues, hd, Dist.logProbLoop, Slice.toList, getSlice] at *
    simp only [shapeSize] at hs
    simp [hs]

theorem SP_cons {d : Dist α} {s : Slice α} (h : Fits d s) (ms : List (Dist α)) (y : List α) :
    SP (d :: ms) (s.toList ++ y) = (do
      let l ← d.support s
      let r ← SP ms y
      pure (l && r)) := by
  have hs := supportLoop_shift s.toList y ms 0
  rw [h.size, Nat.add_zero] at hs
  rcases fits_cases h with ⟨hd, a, rfl⟩ | ⟨l, hd, rfl⟩
  · simp only [SP, shapedValues, hd, Dist.supportLoop, Slice.toList, getSlice] at *
    simp [shapeSize] at hs
    simp [hs]
  · simp only [SP, shapedValues, hd, Dist.supportLoop, Slice.toList, getSlice] at *
    simp only [shapeSize] at hs
    simp [hs]

theorem LP_nil (x : List α) : LP ([] : List (Dist α)) x = some 0 := by
  simp [LP, Dist.logProbLoop]
theorem SP_nil (x : List α) : SP ([] : List (Dist α)) x = some true := by
  simp [SP, Dist.supportLoop]

/-- Every vector that is at least as long as the total event size splits into a block for the
first marginal and the rest. -/
theorem exists_fit (d : Dist α) (x : List α) (h : shapeSize d.shape ≤ x.length) :
    ∃ s y, Fits d s ∧ x = s.toList ++ y ∧ y.length + shapeSize d.shape = x.length := by
  cases hd : d.shape with
  | none =>
    cases x with
    | nil => simp [hd, shapeSize] at h
    | cons a y => exact ⟨.one a, y, by simp [Fits, hd], by simp [Slice.toList], by simp [shapeSize]⟩
  | some n =>
    rw [hd] at h
    simp only [shapeSize] at h ⊢
    refine ⟨.many (x.take n), x.drop n, by simp [Fits, hd, h], by simp [Slice.toList], ?_⟩
    simp; omega

theorem total_append (ds es : List (Dist α)) :
    Dist.total (ds ++ es) = Dist.total ds + Dist.total es := by
  induction ds with
  | nil => simp [Dist.total]
  | cons d ds ih => simp [Dist.total, ih, Nat.add_assoc]

theorem LP_append (ds es : List (Dist α)) : ∀ (x y : List α), x.length = Dist.total ds →
    LP (ds ++ es) (x ++ y) = (do
      let l ← LP ds x
      let r ← LP es y
      pure (l + r)) := by
  induction ds with
  | nil =>
    intro x y h
    have : x = [] := by simpa [Dist.total] using h
    subst this
    rw [LP_nil]
    cases hy : LP es y <;> simp [hy]
    rw [← XR.zero_def, zero_add]
  | cons d ds ih =>
    intro x y h
    simp only [Dist.total] at h
    obtain ⟨s, z, hf, rfl, hz⟩ := exists_fit d x (by omega)
    have hzl : z.length = Dist.total ds := by omega
    rw [List.cons_append, List.append_assoc, LP_cons hf, LP_cons hf, ih z y hzl]
    cases d.logProb s <;> cases LP ds z <;> cases LP es y <;> simp [add_assoc]

theorem SP_append (ds es : List (Dist α)) : ∀ (x y : List α), x.length = Dist.total ds →
    SP (ds ++ es) (x ++ y) = (do
      let l ← SP ds x
      let r ← SP es y
      pure (l && r)) := by
  induction ds with
  | nil =>
    intro x y h
    have : x = [] := by simpa [Dist.total] using h
    subst this
    rw [SP_nil]
    cases hy : SP es y <;> simp [hy]
  | cons d ds ih =>
    intro x y h
    simp only [Dist.total] at h
    obtain ⟨s, z, hf, rfl, hz⟩ := exists_fit d x (by omega)
    have hzl : z.length = Dist.total ds := by omega
    rw [List.cons_append, List.append_assoc, SP_cons hf, SP_cons hf, ih z y hzl]
    cases d.support s <;> cases SP ds z <;> cases SP es y <;> simp [Bool.and_assoc]

theorem fits_joint {ms : List (Dist α)} {sp} {x : List α} :
    Fits (.joint ms sp) (.many x) ↔ x.length = Dist.total ms := by
  simp [Fits, Dist.shape]

/-- A single-element block list behaves as the element. -/
theorem LP_singleton {d : Dist α} {s : Slice α} (h : Fits d s) : LP [d] s.toList = d.logProb s := by
  have := LP_cons h [] []
  rw [List.append_nil] at this
  rw [this, LP_nil]
  cases d.logProb s <;> simp
  rw [← XR.zero_def, add_zero]

theorem SP_singleton {d : Dist α} {s : Slice α} (h : Fits d s) : SP [d] s.toList = d.support s := by
  have := SP_cons h [] []
  rw [List.append_nil] at this
  rw [this, SP_nil]
  cases d.support s <;> simp

mutual
theorem total_flattenDeepOne : ∀ d : Dist α, Dist.total (flattenDeepOne d) = shapeSize d.shape
  | .base b => by simp [flattenDeepOne, Dist.total, Dist.shape]
  | .joint ms sp => by
    simp only [flattenDeepOne, Dist.shape, shapeSize]
    exact total_flattenDeep ms
theorem total_flattenDeep : ∀ ds : List (Dist α), Dist.total (flattenDeep ds) = Dist.total ds
  | [] => by simp [flattenDeep]
  | d :: ds => by
    rw [flattenDeep, total_append, total_flattenDeepOne d, total_flattenDeep ds, Dist.total]
end

theorem total_flattenShallow (ds : List (Dist α)) : Dist.total (flattenShallow ds) = Dist.total ds := by
  induction ds with
  | nil => simp [flattenShallow]
  | cons d ds ih => cases d <;> simp [flattenShallow, total_append, Dist.total, Dist.shape, ih, shapeSize]

mutual
theorem LP_flattenDeepOne : ∀ (d : Dist α) (s : Slice α), Fits d s →
    LP (flattenDeepOne d) s.toList = d.logProb s
  | .base b, s, h => by rw [flattenDeepOne]; exact LP_singleton h
  | .joint ms sp, .one a, h => by simp [Fits, Dist.shape] at h
  | .joint ms sp, .many x, h => by
    rw [flattenDeepOne, Slice.toList, LP_flattenDeep ms x (fits_joint.1 h), Dist.logProb]
theorem LP_flattenDeep : ∀ (ds : List (Dist α)) (x : List α), x.length = Dist.total ds →
    LP (flattenDeep ds) x = LP ds x
  | [], x, h => by simp [flattenDeep]
  | d :: ds, x, h => by
    rw [Dist.total] at h
    obtain ⟨s, z, hf, rfl, hz⟩ := exists_fit d x (by omega)
    rw [flattenDeep, LP_append _ _ _ _ (by rw [hf.size, total_flattenDeepOne]), LP_cons hf,
      LP_flattenDeepOne d s hf, LP_flattenDeep ds z (by omega)]
end

theorem LP_flattenShallow (ds : List (Dist α)) : ∀ (x : List α), x.length = Dist.total ds →
    LP (flattenShallow ds) x = LP ds x := by
  induction ds with
  | nil => intro x _; simp [flattenShallow]
  | cons d ds ih =>
    intro x h
    rw [Dist.total] at h
    obtain ⟨s, z, hf, rfl, hz⟩ := exists_fit d x (by omega)
    cases d with
    | base b => rw [flattenShallow, LP_cons hf, LP_cons hf, ih z (by omega)]
    | joint ms sp =>
      cases s with
      | one a => simp [Fits, Dist.shape] at hf
      | many y =>
        rw [flattenShallow, LP_cons hf, Slice.toList, LP_append _ _ _ _ (fits_joint.1 hf), ih z (by omega),
          Dist.logProb]

mutual
theorem SP_flattenDeepOne : ∀ (d : Dist α) (s : Slice α), Fits d s → d.DefaultSupport →
    SP (flattenDeepOne d) s.toList = d.support s
  | .base b, s, h, _ => by rw [flattenDeepOne]; exact SP_singleton h
  | .joint ms sp, .one a, h, _ => by simp [Fits, Dist.shape] at h
  | .joint ms sp, .many x, h, hd => by
    rw [Dist.DefaultSupport] at hd
    obtain ⟨rfl, hd⟩ := hd
    rw [flattenDeepOne, Slice.toList, SP_flattenDeep ms x (fits_joint.1 h) hd, Dist.support]
theorem SP_flattenDeep : ∀ (ds : List (Dist α)) (x : List α), x.length = Dist.total ds → AllDefault ds →
    SP (flattenDeep ds) x = SP ds x
  | [], x, h, _ => by simp [flattenDeep]
  | d :: ds, x, h, hd => by
    rw [AllDefault] at hd
    rw [Dist.total] at h
    obtain ⟨s, z, hf, rfl, hz⟩ := exists_fit d x (by omega)
    rw [flattenDeep, SP_append _ _ _ _ (by rw [hf.size, total_flattenDeepOne]), SP_cons hf,
      SP_flattenDeepOne d s hf hd.1, SP_flattenDeep ds z (by omega) hd.2]
end

theorem SP_flattenShallow (ds : List (Dist α)) : ∀ (x : List α), x.length = Dist.total ds → AllDefault ds →
    SP (flattenShallow ds) x = SP ds x := by
  induction ds with
  | nil => intro x _ _; simp [flattenShallow]
  | cons d ds ih =>
    intro x h hd
    rw [AllDefault] at hd
    rw [Dist.total] at h
    obtain ⟨s, z, hf, rfl, hz⟩ := exists_fit d x (by omega)
    cases d with
    | base b => rw [flattenShallow, SP_cons hf, SP_cons hf, ih z (by omega) hd.2]
    | joint ms sp =>
      rw [Dist.DefaultSupport] at hd
      obtain ⟨⟨rfl, _⟩, hd2⟩ := hd
      cases s with
      | one a => simp [Fits, Dist.shape] at hf
      | many y =>
        rw [flattenShallow, SP_cons hf, Slice.toList, SP_append _ _ _ _ (fits_joint.1 hf), ih z (by omega) hd2,
          Dist.support]

mutual
theorem logProb_isSome : ∀ (d : Dist α) (s : Slice α), Fits d s → ∃ l, d.logProb s = some l
  | .base b, s, _ => ⟨_, by rw [Dist.logProb]⟩
  | .joint ms sp, .one a, h => by simp [Fits, Dist.shape] at h
  | .joint ms sp, .many x, h => by
    rw [Dist.logProb]; exact LP_isSome ms x (fits_joint.1 h)
theorem LP_isSome : ∀ (ds : List (Dist α)) (x : List α), x.length = Dist.total ds → ∃ l, LP ds x = some l
  | [], x, _ => ⟨0, LP_nil x⟩
  | d :: ds, x, h => by
    rw [Dist.total] at h
    obtain ⟨s, z, hf, rfl, hz⟩ := exists_fit d x (by omega)
    obtain ⟨l, hl⟩ := logProb_isSome d s hf
    obtain ⟨r, hr⟩ := LP_isSome ds z (by omega)
    exact ⟨l + r, by rw [LP_cons hf, hl, hr]; rfl⟩
end

end GW.Joint
