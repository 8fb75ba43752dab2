import Verif.Spec.Pytree
import Mathlib.Data.List.Perm.Basic
import Mathlib.Tactic.Tauto

/-!
# C102: models, constraints and transforms as arguments of compiled functions
-/

namespace GW.Pytree
open GW.PyDict

variable {α : Type}

/-! ### What `cross` does, written directly -/

mutual
/-- The value a function receives. -/
def image (f : Leaf α → Leaf α) : Val α → Val α
  | .arr a => (f (.arr a)).toVal
  | .int n => (f (.int n)).toVal
  | .null => .null
  | .seq vs => .seq (imageSeq f vs)
  | .dict kvs => .dict (imageDict f kvs)
  | .obj c attrs => .obj c (imageAttrs f c attrs ++ attrs.filter fun p => isAux c p.1)
/-- Entry by entry. -/
def imageSeq (f : Leaf α → Leaf α) : List (Val α) → List (Val α)
  | [] => []
  | v :: vs => image f v :: imageSeq f vs
/-- Entry by entry. -/
def imageDict (f : Leaf α → Leaf α) : List (String × Val α) → List (String × Val α)
  | [] => []
  | (k, v) :: r => (k, image f v) :: imageDict f r
/-- The data attributes. -/
def imageAttrs (f : Leaf α → Leaf α) (c : String) : List (String × Val α) → List (String × Val α)
  | [] => []
  | (k, v) :: r => if isData c k then (k, image f v) :: imageAttrs f c r else imageAttrs f c r
end

mutual
theorem rebuild_describe (f : Leaf α → Leaf α) : ∀ (v : Val α) (rest : List (Leaf α)),
    rebuild (describe v) ((leaves v).map f ++ rest) = (image f v, rest)
  | .arr a, rest => by simp [describe, leaves, rebuild, image]
  | .int n, rest => by simp [describe, leaves, rebuild, image]
  | .null, rest => by simp [describe, leaves, rebuild, image]
  | .seq vs, rest => by simp [describe, leaves, rebuild, image, rebuild_describeSeq f vs rest]
  | .dict kvs, rest => by simp [describe, leaves, rebuild, image, rebuild_describeDict f kvs rest]
  | .obj c attrs, rest => by simp [describe, leaves, rebuild, image, rebuild_describeAttrs f c attrs rest]
theorem rebuild_describeSeq (f : Leaf α → Leaf α) : ∀ (vs : List (Val α)) (rest : List (Leaf α)),
    rebuildSeq (describeSeq vs) ((leavesSeq vs).map f ++ rest) = (imageSeq f vs, rest)
  | [], rest => by simp [describeSeq, leavesSeq, rebuildSeq, imageSeq]
  | v :: vs, rest => by
    simp only [describeSeq, leavesSeq, rebuildSeq, imageSeq, List.map_append, List.append_assoc]
    rw [rebuild_describe f v, rebuild_describeSeq f vs rest]
theorem rebuild_describeDict (f : Leaf α → Leaf α) : ∀ (kvs : List (String × Val α)) (rest : List (Leaf α)),
    rebuildDict (describeDict kvs) ((leavesDict kvs).map f ++ rest) = (imageDict f kvs, rest)
  | [], rest => by simp [describeDict, leavesDict, rebuildDict, imageDict]
  | (k, v) :: r, rest => by
    simp only [describeDict, leavesDict, rebuildDict, imageDict, List.map_append, List.append_assoc]
    rw [rebuild_describe f v, rebuild_describeDict f r rest]
theorem rebuild_describeAttrs (f : Leaf α → Leaf α) (c : String) : ∀ (attrs : List (String × Val α)) (rest : List (Leaf α)),
    rebuildDict (describeAttrs c attrs) ((leavesAttrs c attrs).map f ++ rest) = (imageAttrs f c attrs, rest)
  | [], rest => by simp [describeAttrs, leavesAttrs, rebuildDict, imageAttrs]
  | (k, v) :: r, rest => by
    by_cases h : isData c k = true
    · simp only [describeAttrs, leavesAttrs, h, if_true, rebuildDict, imageAttrs, List.map_append, List.append_assoc]
      rw [rebuild_describe f v, rebuild_describeAttrs f c r rest]
    · simp only [describeAttrs, leavesAttrs, h, imageAttrs, List.nil_append]
      simpa using rebuild_describeAttrs f c r rest
end

theorem cross_eq (f : Leaf α → Leaf α) (v : Val α) : cross f v = image f v := by
  have h := rebuild_describe f v []
  simp only [List.append_nil] at h
  simp [cross, h]

/-! ### Look-ups -/

theorem get?_of_mem {d : Dict String (Val α)} (h : (keys d).Nodup) {k : String} {v : Val α} (hm : (k, v) ∈ d) : get? d k = some v := by
  induction d with
  | nil => simp at hm
  | cons p d ih =>
    obtain ⟨k', v'⟩ := p
    simp only [keys, List.map_cons, List.nodup_cons] at h
    rcases List.mem_cons.1 hm with e | e
    · cases e; simp [get?]
    · have hne : k' ≠ k := fun e' => h.1 (e' ▸ List.mem_map.2 ⟨_, e, rfl⟩)
      simp only [get?, if_neg hne]
      exact ih h.2 e

theorem get?_append (d e : Dict String (Val α)) (k : String) : get? (d ++ e) k = (get? d k).orElse fun _ => get? e k := by
  induction d with
  | nil => simp [get?]
  | cons p d ih =>
    simp only [List.cons_append, get?]
    split <;> simp [ih]

theorem get?_filter (q : String → Bool) (d : Dict String (Val α)) (k : String) :
    get? (d.filter fun p => q p.1) k = if q k then get? d k else none := by
  induction d with
  | nil => simp [get?]
  | cons p d ih =>
    obtain ⟨k', v'⟩ := p
    simp only [List.filter_cons]
    by_cases hk : k' = k
    · subst hk
      by_cases hq : q k' = true
      · simp [hq, get?]
      · simp only [hq, Bool.false_eq_true, if_false, ih, get?]
    · by_cases hq : q k' = true
      · simp only [hq, if_true, get?, if_neg hk, ih]
      · simp only [hq, Bool.false_eq_true, if_false, ih, get?, if_neg hk]

theorem get?_imageAttrs (f : Leaf α → Leaf α) (c : String) (d : Dict String (Val α)) (k : String) :
    get? (imageAttrs f c d) k = if isData c k then (get? d k).map (image f) else none := by
  induction d with
  | nil => simp [imageAttrs, get?]
  | cons p d ih =>
    obtain ⟨k', v'⟩ := p
    simp only [imageAttrs]
    by_cases hk : k' = k
    · subst hk
      by_cases hq : isData c k' = true
      · simp [hq, get?]
      · simp [hq, ih]
    · by_cases hq : isData c k' = true
      · simp only [hq, if_true, get?, if_neg hk, ih]
      · simp only [hq, Bool.false_eq_true, if_false, ih, get?, if_neg hk]

theorem getattr_image (f : Leaf α → Leaf α) (c : String) (attrs : List (String × Val α)) (k : String) :
    getattr (image f (.obj c attrs)) k =
      ((if isData c k then (get? attrs k).map (image f) else none).orElse fun _ => if isAux c k then get? attrs k else none).orElse
        fun _ => classAttr c k := by
  simp only [image, getattr, get?_append, get?_imageAttrs, get?_filter]

/-! ### `Same` -/

theorem sameAttrs_iff (attrs : List (String × Val α)) (o : Val α) :
    SameAttrs attrs o ↔ ∀ p ∈ attrs, ∃ w, getattr o p.1 = some w ∧ Same p.2 w := by
  induction attrs with
  | nil => simp [SameAttrs]
  | cons p r ih => obtain ⟨k, v⟩ := p; simp [SameAttrs, ih]

theorem everyDict_iff (P : String → List (String × Val α) → Prop) (d : List (String × Val α)) : EveryDict P d ↔ ∀ p ∈ d, Every P p.2 := by
  induction d with
  | nil => simp [EveryDict]
  | cons p r ih => obtain ⟨k, v⟩ := p; simp [EveryDict, ih]

mutual
theorem same_refl : ∀ v : Val α, Every (fun _ attrs => (keys attrs).Nodup) v → Same v v
  | .arr a, _ => by simp [Same]
  | .int n, _ => by simp [Same]
  | .null, _ => by simp [Same]
  | .seq vs, h => by
    simp only [Every] at h
    rw [Same]; exact ⟨vs, rfl, sameSeq_refl vs h⟩
  | .dict kvs, h => by
    simp only [Every] at h
    rw [Same]; exact ⟨kvs, rfl, sameDict_refl kvs h⟩
  | .obj c attrs, h => by
    simp only [Every] at h
    rw [Same]
    refine ⟨attrs, rfl, (sameAttrs_iff _ _).2 fun p hp => ⟨p.2, ?_, same_reflMem attrs h.2 p hp⟩⟩
    simp [getattr, get?_of_mem h.1 hp]
theorem sameSeq_refl : ∀ vs : List (Val α), EverySeq (fun _ attrs => (keys attrs).Nodup) vs → SameSeq vs vs
  | [], _ => by simp [SameSeq]
  | v :: vs, h => by
    simp only [EverySeq] at h
    rw [SameSeq]; exact ⟨v, vs, rfl, same_refl v h.1, sameSeq_refl vs h.2⟩
theorem sameDict_refl : ∀ vs : List (String × Val α), EveryDict (fun _ attrs => (keys attrs).Nodup) vs → SameDict vs vs
  | [], _ => by simp [SameDict]
  | (k, v) :: vs, h => by
    simp only [EveryDict] at h
    rw [SameDict]; exact ⟨v, vs, rfl, same_refl v h.1, sameDict_refl vs h.2⟩
theorem same_reflMem : ∀ vs : List (String × Val α), EveryDict (fun _ attrs => (keys attrs).Nodup) vs → ∀ p ∈ vs, Same p.2 p.2
  | [], _ => by simp
  | (k, v) :: vs, h => by
    simp only [EveryDict] at h
    intro p hp
    rcases List.mem_cons.1 hp with rfl | hp
    · exact same_refl v h.1
    · exact same_reflMem vs h.2 p hp
end

mutual
theorem mapArrays_id : ∀ v : Val α, mapArrays id v = v
  | .arr a => by simp [mapArrays]
  | .int n => by simp [mapArrays]
  | .null => by simp [mapArrays]
  | .seq vs => by simp [mapArrays, mapArraysSeq_id vs]
  | .dict kvs => by simp [mapArrays, mapArraysDict_id kvs]
  | .obj c attrs => by simp [mapArrays, mapArraysDict_id attrs]
theorem mapArraysSeq_id : ∀ vs : List (Val α), mapArraysSeq id vs = vs
  | [] => by simp [mapArraysSeq]
  | v :: vs => by simp [mapArraysSeq, mapArrays_id v, mapArraysSeq_id vs]
theorem mapArraysDict_id : ∀ vs : List (String × Val α), mapArraysDict id vs = vs
  | [] => by simp [mapArraysDict]
  | (k, v) :: vs => by simp [mapArraysDict, mapArrays_id v, mapArraysDict_id vs]
end

mutual
theorem mapArrays_integers (f : α → α) : ∀ v : Val α, Integers v → mapArrays f v = v
  | .arr a, h => by simp [Integers] at h
  | .int n, _ => by simp [mapArrays]
  | .null, _ => by simp [mapArrays]
  | .seq vs, h => by simp only [Integers] at h; simp [mapArrays, mapArraysSeq_integers f vs h]
  | .dict kvs, h => by simp only [Integers] at h; simp [mapArrays, mapArraysDict_integers f kvs h]
  | .obj c attrs, h => by simp [Integers] at h
theorem mapArraysSeq_integers (f : α → α) : ∀ vs : List (Val α), IntegersSeq vs → mapArraysSeq f vs = vs
  | [], _ => by simp [mapArraysSeq]
  | v :: vs, h => by simp only [IntegersSeq] at h; simp [mapArraysSeq, mapArrays_integers f v h.1, mapArraysSeq_integers f vs h.2]
theorem mapArraysDict_integers (f : α → α) : ∀ vs : List (String × Val α), IntegersDict vs → mapArraysDict f vs = vs
  | [], _ => by simp [mapArraysDict]
  | (k, v) :: vs, h => by simp only [IntegersDict] at h; simp [mapArraysDict, mapArrays_integers f v h.1, mapArraysDict_integers f vs h.2]
end

theorem mem_mapArraysDict {f : α → α} {d : List (String × Val α)} {p : String × Val α} (h : p ∈ mapArraysDict f d) :
    ∃ v, (p.1, v) ∈ d ∧ p.2 = mapArrays f v := by
  induction d with
  | nil => simp [mapArraysDict] at h
  | cons q r ih =>
    obtain ⟨k, v⟩ := q
    simp only [mapArraysDict, List.mem_cons] at h
    rcases h with rfl | h
    · exact ⟨v, by simp, rfl⟩
    · obtain ⟨v', h1, h2⟩ := ih h
      exact ⟨v', by simp [h1], h2⟩

/-- What is needed of an object so that it survives with its arrays replaced by their images under `f`. -/
def Sound (f : α → α) (c : String) (attrs : List (String × Val α)) : Prop :=
  (keys attrs).Nodup ∧ ∀ k v, (k, v) ∈ attrs → isData c k = true ∨ (isAux c k = true ∧ mapArrays f v = v)

mutual
theorem every_mono {P Q : String → List (String × Val α) → Prop} (h : ∀ c a, P c a → Q c a) : ∀ v : Val α, Every P v → Every Q v
  | .arr _, _ => by simp [Every]
  | .int _, _ => by simp [Every]
  | .null, _ => by simp [Every]
  | .seq vs, hv => by simp only [Every] at hv ⊢; exact everySeq_mono h vs hv
  | .dict kvs, hv => by simp only [Every] at hv ⊢; exact everyDict_mono h kvs hv
  | .obj c attrs, hv => by simp only [Every] at hv ⊢; exact ⟨h _ _ hv.1, everyDict_mono h attrs hv.2⟩
theorem everySeq_mono {P Q : String → List (String × Val α) → Prop} (h : ∀ c a, P c a → Q c a) : ∀ vs : List (Val α), EverySeq P vs → EverySeq Q vs
  | [], _ => by simp [EverySeq]
  | v :: vs, hv => by simp only [EverySeq] at hv ⊢; exact ⟨every_mono h v hv.1, everySeq_mono h vs hv.2⟩
theorem everyDict_mono {P Q : String → List (String × Val α) → Prop} (h : ∀ c a, P c a → Q c a) :
    ∀ vs : List (String × Val α), EveryDict P vs → EveryDict Q vs
  | [], _ => by simp [EveryDict]
  | (_, v) :: vs, hv => by simp only [EveryDict] at hv ⊢; exact ⟨every_mono h v hv.1, everyDict_mono h vs hv.2⟩
end

mutual
theorem every_and {P Q : String → List (String × Val α) → Prop} : ∀ v : Val α, Every P v → Every Q v → Every (fun c a => P c a ∧ Q c a) v
  | .arr _, _, _ => by simp [Every]
  | .int _, _, _ => by simp [Every]
  | .null, _, _ => by simp [Every]
  | .seq vs, h, h' => by simp only [Every] at h h' ⊢; exact everySeq_and vs h h'
  | .dict kvs, h, h' => by simp only [Every] at h h' ⊢; exact everyDict_and kvs h h'
  | .obj c attrs, h, h' => by simp only [Every] at h h' ⊢; exact ⟨⟨h.1, h'.1⟩, everyDict_and attrs h.2 h'.2⟩
theorem everySeq_and {P Q : String → List (String × Val α) → Prop} :
    ∀ vs : List (Val α), EverySeq P vs → EverySeq Q vs → EverySeq (fun c a => P c a ∧ Q c a) vs
  | [], _, _ => by simp [EverySeq]
  | v :: vs, h, h' => by simp only [EverySeq] at h h' ⊢; exact ⟨every_and v h.1 h'.1, everySeq_and vs h.2 h'.2⟩
theorem everyDict_and {P Q : String → List (String × Val α) → Prop} :
    ∀ vs : List (String × Val α), EveryDict P vs → EveryDict Q vs → EveryDict (fun c a => P c a ∧ Q c a) vs
  | [], _, _ => by simp [EveryDict]
  | (_, v) :: vs, h, h' => by simp only [EveryDict] at h h' ⊢; exact ⟨every_and v h.1 h'.1, everyDict_and vs h.2 h'.2⟩
end

mutual
theorem same_image (f : α → α) : ∀ v : Val α, Every (Sound f) v → Same (mapArrays f v) (image (onArrays f) v)
  | .arr a, _ => by simp [mapArrays, image, onArrays, Leaf.toVal, Same]
  | .int n, _ => by simp [mapArrays, image, onArrays, Leaf.toVal, Same]
  | .null, _ => by simp [mapArrays, image, Same]
  | .seq vs, h => by
    simp only [Every] at h
    simp only [mapArrays, image]
    rw [Same]
    exact ⟨_, rfl, same_imageSeq f vs h⟩
  | .dict kvs, h => by
    simp only [Every] at h
    simp only [mapArrays, image]
    rw [Same]
    exact ⟨_, rfl, same_imageDict f kvs h⟩
  | .obj c attrs, h => by
    simp only [Every] at h
    have hall := same_imageMem f attrs h.2
    have hrefl := everyDict_mono (Q := fun _ a => (keys a).Nodup) (fun c a h' => (h' : Sound f c a).1) attrs h.2
    rw [everyDict_iff] at hrefl
    obtain ⟨⟨hn, hs⟩, -⟩ := h
    simp only [mapArrays]
    rw [Same]
    refine ⟨imageAttrs (onArrays f) c attrs ++ attrs.filter fun p => isAux c p.1, by simp [image], (sameAttrs_iff _ _).2 fun p hp => ?_⟩
    obtain ⟨v, hm, e⟩ := mem_mapArraysDict hp
    rw [getattr_image, get?_of_mem hn hm, e]
    by_cases hd : isData c p.1 = true
    · exact ⟨_, by simp [hd], hall _ hm⟩
    · rcases hs _ _ hm with h' | ⟨h1, h2⟩
      · exact absurd h' hd
      · refine ⟨v, by simp [hd, h1], ?_⟩
        rw [h2]
        exact same_refl v (hrefl _ hm)
theorem same_imageSeq (f : α → α) : ∀ vs : List (Val α), EverySeq (Sound f) vs → SameSeq (mapArraysSeq f vs) (imageSeq (onArrays f) vs)
  | [], _ => by simp [mapArraysSeq, imageSeq, SameSeq]
  | v :: vs, h => by
    simp only [EverySeq] at h
    simp only [mapArraysSeq, imageSeq]
    rw [SameSeq]
    exact ⟨_, _, rfl, same_image f v h.1, same_imageSeq f vs h.2⟩
theorem same_imageDict (f : α → α) : ∀ vs : List (String × Val α), EveryDict (Sound f) vs → SameDict (mapArraysDict f vs) (imageDict (onArrays f) vs)
  | [], _ => by simp [mapArraysDict, imageDict, SameDict]
  | (k, v) :: vs, h => by
    simp only [EveryDict] at h
    simp only [mapArraysDict, imageDict]
    rw [SameDict]
    exact ⟨_, _, rfl, same_image f v h.1, same_imageDict f vs h.2⟩
theorem same_imageMem (f : α → α) : ∀ vs : List (String × Val α), EveryDict (Sound f) vs →
    ∀ p ∈ vs, Same (mapArrays f p.2) (image (onArrays f) p.2)
  | [], _ => by simp
  | (k, v) :: vs, h => by
    simp only [EveryDict] at h
    intro p hp
    rcases List.mem_cons.1 hp with rfl | hp
    · exact same_image f v h.1
    · exact same_imageMem f vs h.2 p hp
end

/-! ### The declarations of the package -/

/-- Every class but `BlockTransform` declares every attribute that its constructor sets. -/
theorem declared : ∀ p ∈ constructedTable, p.1 ≠ "BlockTransform" → ∀ k ∈ p.2, isData p.1 k = true ∨ isAux p.1 k = true := by decide +kernel

/-- What is kept as it is steers, but for the support of the power law. -/
theorem kept : ∀ p ∈ fieldTable, p.1 ≠ "DoublyTruncatedPowerLaw" → ∀ k ∈ p.2.aux, k ∈ steering := by decide +kernel

/-- What steers is kept as it is, but for the lazy constraint. -/
theorem steers : ∀ p ∈ constructedTable, p.1 ≠ "_LazyConstraint" → ∀ k ∈ p.2, k ∈ steering → isData p.1 k = false ∧ isAux p.1 k = true := by
  decide +kernel

/-- The two tables list the same classes. -/
theorem classes_eq : fieldTable.map (·.1) = constructedTable.map (·.1) := by decide +kernel

theorem mem_of_get? {V : Type} {d : Dict String V} {k : String} {v : V} (h : get? d k = some v) : (k, v) ∈ d := by
  induction d with
  | nil => simp [get?] at h
  | cons p d ih =>
    simp only [get?] at h
    split at h
    · rename_i e; cases h; cases e; simp
    · exact List.mem_cons_of_mem _ (ih h)

theorem get?_isSome {V : Type} {d : Dict String V} {k : String} : (get? d k).isSome ↔ k ∈ d.map (·.1) := by
  induction d with
  | nil => simp [get?]
  | cons p d ih =>
    simp only [get?, List.map_cons, List.mem_cons]
    split
    · rename_i e; simp [e]
    · rename_i e; rw [ih]; constructor
      · exact Or.inr
      · rintro (h | h)
        · exact absurd h.symm e
        · exact h

theorem constructed_none {c : String} (h : constructed c = none) : fields c = none := by
  by_contra hf
  have h1 : (get? fieldTable c).isSome := by rw [Option.isSome_iff_ne_none]; exact hf
  rw [get?_isSome, classes_eq, ← get?_isSome, Option.isSome_iff_ne_none] at h1
  exact h1 h

theorem declared_of {c : String} {attrs : List (String × Val α)} (h : AsConstructed c attrs) (hb : c ≠ "BlockTransform") {k : String} {v : Val α}
    (hm : (k, v) ∈ attrs) : isData c k = true ∨ isAux c k = true := by
  rcases e : constructed c with _ | ks
  · exact .inl (by simp [isData, constructed_none e])
  · have hk : k ∈ ks := (h.2.1 ks e).subset (List.mem_map.2 ⟨_, hm, rfl⟩)
    exact declared (c, ks) (mem_of_get? e) hb k hk

theorem kept_of {c k : String} (h : isAux c k = true) (hb : c ≠ "DoublyTruncatedPowerLaw") : k ∈ steering := by
  unfold isAux at h
  split at h
  · rename_i f e
    exact kept (c, f) (mem_of_get? e) hb k (by simpa using h)
  · simp at h

/-- The round trip: a function that receives a model, constraint or transform — of any class of the package but `BlockTransform`, with models, constraints and
transforms nested in it to any depth — sees an object that behaves like the one it was called with. -/
theorem C102_round_trip_partial (v : Val α) (hv : Built v) (hb : Avoids ["BlockTransform"] v) : Same v (cross id v) := by
  have hs : Every (Sound (id : α → α)) v := by
    refine every_mono (fun c a h => ?_) v (every_and v hv hb)
    refine ⟨h.1.1, fun k w hm => ?_⟩
    rcases declared_of h.1 (by simpa using h.2) hm with h' | h'
    · exact .inl h'
    · exact .inr ⟨h', mapArrays_id w⟩
  have := same_image (id : α → α) v hs
  rw [mapArrays_id] at this
  rw [cross_eq]
  have e : (onArrays id : Leaf α → Leaf α) = id := by funext l; cases l <;> rfl
  rwa [e] at this

/-- Batches and gradients: when the arrays of a model are replaced by others, for example by one element of the batch, the function sees the model with
those arrays, in its supports and nested models, too.  The two exceptions are the theorems below. -/
theorem C102_new_arrays_partial (f : α → α) (v : Val α) (hv : Built v) (hb : Avoids ["BlockTransform", "DoublyTruncatedPowerLaw"] v) :
    Same (mapArrays f v) (cross (onArrays f) v) := by
  rw [cross_eq]
  refine same_image f v (every_mono (fun c a h => ?_) v (every_and v hv hb))
  have h2 : c ≠ "BlockTransform" ∧ c ≠ "DoublyTruncatedPowerLaw" := by simpa using h.2
  refine ⟨h.1.1, fun k w hm => ?_⟩
  rcases declared_of h.1 h2.1 hm with h' | h'
  · exact .inl h'
  · exact .inr ⟨h', mapArrays_integers f w (h.1.2.2 k w hm (kept_of h' h2.2))⟩

/-- Compilation: whatever happens to the leaves (tracing turns integers into arrays), the numbers and positions of coordinates and components stay the Python integers
they were, for every class but the lazy constraint. -/
theorem C102_static_partial (f : Leaf α → Leaf α) (c : String) (attrs : List (String × Val α)) (hc : constructed c ≠ none)
    (hv : AsConstructed c attrs) (hl : c ≠ "_LazyConstraint") {k : String} (hk : k ∈ steering) {v : Val α} (hm : (k, v) ∈ attrs) :
    getattr (cross f (.obj c attrs)) k = some v := by
  rcases e : constructed c with _ | ks
  · exact absurd e hc
  · have hk' : k ∈ ks := (hv.2.1 ks e).subset (List.mem_map.2 ⟨_, hm, rfl⟩)
    obtain ⟨h1, h2⟩ := steers (c, ks) (mem_of_get? e) hl k hk' hk
    rw [cross_eq, getattr_image, h1, h2, get?_of_mem hv.1 hm]
    simp

/-- In particular a constraint on blocks of coordinates takes the same slices in a compiled function. -/
theorem C102_block_constraint (f : Leaf α → Leaf α) (attrs : List (String × Val α)) (hv : AsConstructed "_AllConstraint" attrs) :
    slicesOf (cross f (.obj "_AllConstraint" attrs)) = slicesOf (.obj "_AllConstraint" attrs) := by
  have hp := hv.2.1 _ (show constructed "_AllConstraint" = some ["constraints", "event_slices"] from by decide +kernel)
  have hmem : "event_slices" ∈ keys attrs := hp.symm.subset (by simp)
  obtain ⟨⟨k, v⟩, hm, rfl⟩ := List.mem_map.1 hmem
  have h1 := C102_static_partial f "_AllConstraint" attrs (by decide +kernel) hv (by decide) (k := "event_slices") (by decide) hm
  have h2 : getattr (.obj "_AllConstraint" attrs) "event_slices" = some v := by simp [getattr, get?_of_mem hv.1 hm]
  simp only [slicesOf, h1, h2]

/-- A transform on blocks of coordinates forgets its domain and codomain: a compiled function sees the real line in their place. -/
theorem C102_block_transform_violated (f : Leaf α → Leaf α) (attrs : List (String × Val α)) :
    getattr (cross f (.obj "BlockTransform" attrs)) "domain" = some (.obj "real" []) ∧
      getattr (cross f (.obj "BlockTransform" attrs)) "codomain" = some (.obj "real" []) := by
  have h : ∀ k ∈ ["domain", "codomain"], isData "BlockTransform" k = false ∧ isAux "BlockTransform" k = false := by decide +kernel
  constructor
  · rw [cross_eq, getattr_image, (h "domain" (by simp)).1, (h "domain" (by simp)).2]; simp [classAttr]
  · rw [cross_eq, getattr_image, (h "codomain" (by simp)).1, (h "codomain" (by simp)).2]; simp [classAttr]

/-- A truncated power law keeps its support while its bounds change: an element of a batch of power laws has its own bounds and the support of the whole
batch. -/
theorem C102_power_law_support_violated (f : α → α) (attrs : List (String × Val α)) (hn : (keys attrs).Nodup) {low : α} {s : Val α}
    (hl : ("low", .arr low) ∈ attrs) (hs : ("_support", s) ∈ attrs) :
    getattr (cross (onArrays f) (.obj "DoublyTruncatedPowerLaw" attrs)) "low" = some (.arr (f low)) ∧
      getattr (cross (onArrays f) (.obj "DoublyTruncatedPowerLaw" attrs)) "_support" = some s := by
  have h1 : isData "DoublyTruncatedPowerLaw" "low" = true := by decide +kernel
  have h2 : isData "DoublyTruncatedPowerLaw" "_support" = false ∧ isAux "DoublyTruncatedPowerLaw" "_support" = true := by decide +kernel
  constructor
  · rw [cross_eq, getattr_image, h1, get?_of_mem hn hl]; simp [image, onArrays, Leaf.toVal]
  · rw [cross_eq, getattr_image, h2.1, h2.2, get?_of_mem hn hs]; simp

/-- The support of a lazy joint distribution cannot be checked in a compiled function that received the distribution: its slices are arrays there. -/
theorem C102_lazy_support_violated (f : α → α) (g : Int → α) (attrs : List (String × Val α)) (hv : AsConstructed "_LazyConstraint" attrs) {s : Val α} {r : List (Val α)}
    (hm : ("event_slices", .seq (s :: r)) ∈ attrs) {x : List (Int × Option Int)} (hok : slicesOf (.obj "_LazyConstraint" attrs) = .ok x) :
    slicesOf (cross (traced f g) (.obj "_LazyConstraint" attrs)) = .error .notIndexable ∨
      slicesOf (cross (traced f g) (.obj "_LazyConstraint" attrs)) = .error .notStatic := by
  have h1 : isData "_LazyConstraint" "event_slices" = true := by decide +kernel
  have h2 : getattr (cross (traced f g) (.obj "_LazyConstraint" attrs)) "event_slices" =
      some (.seq (image (traced f g) s :: imageSeq (traced f g) r)) := by
    rw [cross_eq, getattr_image, h1, get?_of_mem hv.1 hm]; simp [image, imageSeq]
  have h3 : getattr (.obj "_LazyConstraint" attrs) "event_slices" = some (.seq (s :: r)) := by simp [getattr, get?_of_mem hv.1 hm]
  have hs : ∃ y, sliceOf s = .ok y := by
    simp only [slicesOf, h3, List.mapM_cons] at hok
    rcases e : sliceOf s with _ | y
    · rw [e] at hok; cases hok
    · exact ⟨y, rfl⟩
  have key : sliceOf (image (traced f g) s) = .error .notIndexable ∨ sliceOf (image (traced f g) s) = .error .notStatic := by
    obtain ⟨y, hy⟩ := hs
    unfold sliceOf at hy
    split at hy
    · left; simp [image, traced, Leaf.toVal, sliceOf]
    · right; simp [image, imageSeq, traced, Leaf.toVal, sliceOf]
    · cases hy
    · cases hy
  rcases key with h | h
  · left; simp only [slicesOf, h2, List.mapM_cons, h]; rfl
  · right; simp only [slicesOf, h2, List.mapM_cons, h]; rfl

/-! ### The hypotheses are met -/

/-- The support of a power law of two mass ranges. -/
def someInterval (low high : α) : Val α := .obj "interval" [("lower_bound", .arr low), ("upper_bound", .arr high)]

/-- A batch of power laws. -/
def somePowerLaw (alpha low high : α) : Val α :=
  .obj "DoublyTruncatedPowerLaw" [("alpha", .arr alpha), ("low", .arr low), ("high", .arr high), ("_support", someInterval low high),
    ("_batch_shape", .seq [.int 2]), ("_event_shape", .seq [])]

/-- A redshift model. -/
def someRedshift (kappa zmax : α) : Val α :=
  .obj "PowerlawRedshift" [("z_max", .arr zmax), ("_support", someInterval kappa zmax), ("_batch_shape", .seq []), ("_event_shape", .seq []),
    ("kappa", .arr kappa)]

/-- A joint distribution of a mass model and a redshift model, with its support. -/
def someJoint (a b : α) (m : Val α) : Val α :=
  .obj "JointDistribution" [("marginal_distributions", .seq [m, someRedshift a b]), ("shaped_values", .seq [.int 0, .int 1]),
    ("_support", .obj "_AllConstraint" [("constraints", .seq [someInterval a b, someInterval b a]), ("event_slices", .seq [.int 0, .int 1])]),
    ("_batch_shape", .seq []), ("_event_shape", .seq [.int 2])]

/-- A mixture of two joint distributions. -/
def someMixture (a b : α) (m : Val α) : Val α :=
  .obj "ScaledMixture" [("log_scales", .arr a), ("_mixture_size", .int 2), ("_support", .null),
    ("_component_distributions", .seq [someJoint a b m, someJoint b a m]), ("_batch_shape", .seq []), ("_event_shape", .seq [.int 2])]

/-- A transform on two blocks. -/
def someBlocks : Val α :=
  .obj "BlockTransform" [("event_slices", .seq [.seq [.int 0, .int 2], .int 2]),
    ("transforms", .seq [.obj "ComponentMassesToPrimaryMassAndMassRatio" [], .obj "DeltaToSymmetricMassRatio" []]),
    ("domain", .obj "_AllConstraint" [("constraints", .seq [.obj "positive_decreasing_vector" [], .obj "unit_interval" []]),
      ("event_slices", .seq [.seq [.int 0, .int 2], .int 2])]),
    ("codomain", .obj "_AllConstraint" [("constraints", .seq [.obj "unit_interval" [], .obj "unit_interval" []]),
      ("event_slices", .seq [.seq [.int 0, .int 2], .int 2])])]

/-- A lazy constraint on three coordinates. -/
def someLazy : List (String × Val α) :=
  [("marginal_distributions", .seq [.obj "Uniform" [], .obj "Partial" []]), ("dependencies", .dict [("1", .dict [("high", .int 0)])]),
    ("event_slices", .seq [.int 0, .seq [.int 1, .int 3]])]

theorem asConstructed_of {c : String} {attrs : List (String × Val α)} (names : List String) (hk : keys attrs = names)
    (hc : (constructed c).all (names.isPerm ·) = true) (hn : names.Nodup) (hi : ∀ p ∈ attrs, p.1 ∈ steering → Integers p.2) :
    AsConstructed c attrs := by
  refine ⟨hk ▸ hn, fun ks h => ?_, fun k v hm => hi (k, v) hm⟩
  rw [h] at hc
  rw [hk]
  exact List.isPerm_iff.1 (by simpa using hc)

theorem someInterval_built (a b : α) : Built (someInterval a b) := by
  simp only [Built, someInterval, Every, EveryDict, and_true]
  refine asConstructed_of ["lower_bound", "upper_bound"] rfl (by decide +kernel) (by decide) ?_
  simp [steering]

theorem somePowerLaw_built (a b c : α) : Built (somePowerLaw a b c) := by
  have h := someInterval_built b c
  unfold Built at *
  simp only [somePowerLaw, Every, EveryDict, EverySeq, and_true, true_and, h]
  refine asConstructed_of ["alpha", "low", "high", "_support", "_batch_shape", "_event_shape"] rfl (by decide +kernel) (by decide) ?_
  simp [steering, Integers, IntegersSeq]

theorem someRedshift_built (a b : α) : Built (someRedshift a b) := by
  have h := someInterval_built a b
  unfold Built at *
  simp only [someRedshift, Every, EveryDict, EverySeq, and_true, true_and, h]
  refine asConstructed_of ["z_max", "_support", "_batch_shape", "_event_shape", "kappa"] rfl (by decide +kernel) (by decide) ?_
  simp [steering, Integers, IntegersSeq]

theorem someJoint_built (a b : α) {m : Val α} (hm : Built m) : Built (someJoint a b m) := by
  have h1 := someRedshift_built a b
  have h2 := someInterval_built a b
  have h3 := someInterval_built b a
  unfold Built at *
  simp only [someJoint, Every, EveryDict, EverySeq, and_true, true_and, hm, h1, h2, h3]
  refine ⟨asConstructed_of ["marginal_distributions", "shaped_values", "_support", "_batch_shape", "_event_shape"] rfl (by decide +kernel)
    (by decide) ?_, asConstructed_of ["constraints", "event_slices"] rfl (by decide +kernel) (by decide) ?_⟩ <;>
  simp [steering, Integers, IntegersSeq]

/-- A mixture of joint distributions of power laws and redshift models survives the round trip. -/
example (a b : α) : Same (someMixture a b (somePowerLaw a a b)) (cross id (someMixture a b (somePowerLaw a a b))) := by
  have h1 := someJoint_built a b (somePowerLaw_built a a b)
  have h2 := someJoint_built b a (somePowerLaw_built a a b)
  refine C102_round_trip_partial _ ?_ ?_
  · unfold Built at *
    simp only [someMixture, Every, EveryDict, EverySeq, and_true, true_and, h1, h2]
    refine asConstructed_of ["log_scales", "_mixture_size", "_support", "_component_distributions", "_batch_shape", "_event_shape"] rfl (by decide +kernel)
      (by decide) ?_
    simp [steering, Integers, IntegersSeq]
  · simp [Avoids, someMixture, someJoint, somePowerLaw, someRedshift, someInterval, Every, EveryDict, EverySeq]

/-- A joint distribution of two redshift models with its arrays replaced. -/
example (f : α → α) (a b : α) : Same (someJoint (f a) (f b) (someRedshift (f b) (f a))) (cross (onArrays f) (someJoint a b (someRedshift b a))) := by
  have h := C102_new_arrays_partial f (someJoint a b (someRedshift b a)) (someJoint_built a b (someRedshift_built b a))
    (by simp [Avoids, someJoint, someRedshift, someInterval, Every, EveryDict, EverySeq])
  simpa [someJoint, someRedshift, someInterval, mapArrays, mapArraysSeq, mapArraysDict] using h

/-- The tuple of coordinates of a joint distribution in a compiled function. -/
example (f : Leaf α → Leaf α) (a b : α) :
    getattr (cross f (someJoint a b (someRedshift b a))) "shaped_values" = some (.seq [.int 0, .int 1]) := by
  have h := someJoint_built a b (someRedshift_built b a)
  simp only [Built, someJoint, Every] at h
  exact C102_static_partial f "JointDistribution" _ (by decide +kernel) h.1 (by decide) (by decide) (by simp)

/-- The domain of the transform on two blocks was not the real line. -/
example : getattr (someBlocks : Val α) "domain" ≠ some (.obj "real" []) ∧
    getattr (cross id (someBlocks : Val α)) "domain" = some (.obj "real" []) :=
  ⟨by simp [someBlocks, getattr, get?], (C102_block_transform_violated id _).1⟩

/-- The first of two power laws with minimum masses 5 and 10: its bound is 5, its support still has both. -/
example (f : α → α) (a b c : α) : getattr (cross (onArrays f) (somePowerLaw a b c)) "low" = some (.arr (f b)) ∧
    getattr (cross (onArrays f) (somePowerLaw a b c)) "_support" = some (someInterval b c) :=
  C102_power_law_support_violated f _ (by simp [keys]) (by simp) (by simp)

example : AsConstructed "_LazyConstraint" (someLazy : List (String × Val α)) :=
  asConstructed_of ["marginal_distributions", "dependencies", "event_slices"] rfl (by decide +kernel) (by decide)
    (by simp [someLazy, steering, Integers, IntegersSeq, IntegersDict])

example (f : α → α) (g : Int → α) : slicesOf (.obj "_LazyConstraint" (someLazy : List (String × Val α))) = .ok [(0, none), (1, some 2)] ∧
    slicesOf (cross (traced f g) (.obj "_LazyConstraint" someLazy)) = .error .notIndexable :=
  ⟨by simp [slicesOf, getattr, someLazy, get?, sliceOf]; rfl, by
    rw [cross_eq]
    have h1 : isData "_LazyConstraint" "event_slices" = true := by decide +kernel
    have h2 : getattr (image (traced f g) (.obj "_LazyConstraint" someLazy)) "event_slices" = some (.seq [.arr (g 0), .seq [.arr (g 1), .arr (g 3)]]) := by
      rw [getattr_image, h1]; simp [someLazy, get?, image, imageSeq, traced, Leaf.toVal]
    simp only [slicesOf, h2, List.mapM_cons, sliceOf]; rfl⟩

end GW.Pytree
