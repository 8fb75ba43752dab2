import Verif.Lemmas.LazyEq

/-!
# C20 for the supports of lazy joint distributions
-/

namespace GW.Lazy
open GW GW.Joint GW.PyDict

variable {α : Type}

/-- The constraint is the support of the joint distribution it was made by (no support given by the user). -/
theorem C20_lazy_check (d : LazyJoint α) (h : d.supp = none) (x : List α) : d.support x = (Constraint.mk d.ms d.deps d.shaped).check x := by
  simp only [LazyJoint.support, h, Constraint.check]

/-- **C20** (lazy joint distributions).  If `==` of the marginals is sound (marginals that compare equal stand for the same supports), two supports that compare equal accept
the same events: the dependencies may be listed in another order, but every marginal depends on the same coordinates under the same names, and is checked on the
same block. -/
theorem C20_lazy_eq_sound (eq : Marg α → Marg α → Bool) (heq : ∀ m m', eq m m' = true → Agree m m') (a b : Constraint α) (ha : DistinctKeys a.deps) (hb : DistinctKeys b.deps)
    (h : a.eq eq (.constraint b) = .ok true) (x : List α) : a.check x = b.check x := by
  simp only [Constraint.eq] at h
  cases hm : allEq eq a.marginals b.marginals with
  | error e => rw [hm] at h; simp at h
  | ok r =>
    cases r with
    | false => rw [hm] at h; simp at h
    | true =>
      rw [hm] at h
      simp only [Except.ok.injEq, Bool.and_eq_true, decide_eq_true_eq] at h
      obtain ⟨hd, hs⟩ := h
      obtain ⟨d', hp, hf⟩ := dictEq_match _ a.deps b.deps ha.1 hb.1 hd
      have hf' : List.Forall₂ (fun p q => p.1 = q.1 ∧ p.2.Perm q.2) a.deps d' := by
        have key : ∀ (l l' : List (Nat × List (String × Nat))), (∀ p ∈ l, (p.2.map (·.1)).Nodup) → (∀ p ∈ l', (p.2.map (·.1)).Nodup) →
            List.Forall₂ (fun p q => p.1 = q.1 ∧ dictEq (· == ·) p.2 q.2 = true) l l' → List.Forall₂ (fun p q => p.1 = q.1 ∧ p.2.Perm q.2) l l' := by
          intro l l' h1 h2 h3
          induction h3 with
          | nil => exact .nil
          | cons e _ ih =>
            exact .cons ⟨e.1, innerEq_perm (h1 _ (by simp)) (h2 _ (by simp)) e.2⟩ (ih (fun p hp => h1 p (by simp [hp])) fun p hp => h2 p (by simp [hp]))
        exact key _ _ ha.2 (fun p hp' => hb.2 p (hp.mem_iff.1 hp')) hf
      have hag : List.Forall₂ Agree a.marginals b.marginals := (allEq_true.1 hm).imp fun _ _ h => heq _ _ h
      have hi := instLoop_agree (eventEnv x) hf' hag
      rw [instLoop_perm (eventEnv x) hp ((hp.map Prod.fst).nodup_iff.2 hb.1)] at hi
      simp only [Constraint.check, hs]
      revert hi
      generalize instLoop (eventEnv x) a.deps a.marginals = u
      generalize instLoop (eventEnv x) b.deps b.marginals = v
      intro hi
      cases hi with
      | none => rfl
      | some hi => exact supportLoop_agree hi _ _

/-- **C20** (lazy joint distributions).  A support equals itself, and equals no object of another kind. -/
theorem C20_lazy_eq_self (eq : Marg α → Marg α → Bool) (a : Constraint α) (heq : ∀ m ∈ a.marginals, eq m m = true) (ha : DistinctKeys a.deps) :
    a.eq eq (.constraint a) = .ok true ∧ a.eq eq .somethingElse = .ok false := by
  have h1 : allEq eq a.marginals a.marginals = .ok true := by
    rw [allEq_true]
    generalize a.marginals = l at heq
    induction l with
    | nil => exact .nil
    | cons m l ih => exact .cons (heq m (by simp)) (ih fun m' h' => heq m' (by simp [h']))
  have h2 : depsEq a.deps a.deps = true := dictEq_self _ _ ha.1 fun p hp => dictEq_self _ _ (ha.2 p hp) fun q _ => by simp
  exact ⟨by simp [Constraint.eq, h1, h2], rfl⟩

/-- **C20** (lazy joint distributions: the comparison that stops the program).  `==` raises `ValueError`, instead of answering no, exactly if the numbers of marginals differ and
the marginals agree as far as they go. -/
theorem C20_lazy_eq_raises (eq : Marg α → Marg α → Bool) (a b : Constraint α) :
    a.eq eq (.constraint b) = .error .zipLength ↔ a.marginals.length ≠ b.marginals.length ∧
      ∀ i (h1 : i < a.marginals.length) (h2 : i < b.marginals.length), eq a.marginals[i] b.marginals[i] = true := by
  rw [← allEq_error]
  simp only [Constraint.eq]
  cases hm : allEq eq a.marginals b.marginals with
  | error e => cases e; simp
  | ok r => cases r <;> simp

/-! ## Examples -/

/-- A point mass at a given value; the support of the partial is the value of its dependency. -/
noncomputable def pointMass (n : Nat) : Base Nat := ⟨none, fun _ => 0, fun s => s.toList == [n], fun _ => .one n⟩

/-- The partial whose distribution is the point mass at the sum of its dependencies: their order does not matter. -/
noncomputable def sumOf (kw : List (String × List Nat)) : Base Nat := pointMass ((kw.map fun p => p.2.sum).sum)

theorem sumOf_agree : Agree (.part sumOf) (.part sumOf) := by
  intro kw kw' h s
  have : (kw.map fun p => p.2.sum).sum = (kw'.map fun p => p.2.sum).sum := (h.map _).sum_eq
  simp only [sumOf, this]

/-- Three coordinates, the last two given by the others, the dependencies of the third listed in two orders. -/
noncomputable def exampleConstraint : Constraint Nat :=
  ⟨[.dist (pointMass 2), .part sumOf, .part sumOf], [(1, [("loc", 0)]), (2, [("loc", 0), ("scale", 1)])], [.idx 0, .idx 1, .idx 2]⟩

/-- The same with the dictionaries listed in another order. -/
noncomputable def exampleReordered : Constraint Nat :=
  ⟨[.dist (pointMass 2), .part sumOf, .part sumOf], [(2, [("scale", 1), ("loc", 0)]), (1, [("loc", 0)])], [.idx 0, .idx 1, .idx 2]⟩

/-- Compares by kind only, which is right for the marginals of the example. -/
def sameKind : Marg Nat → Marg Nat → Bool
  | .dist _, .dist _ => true
  | .part _, .part _ => true
  | _, _ => false

/-- `==` of the marginals of the example as Python has it: the same object. -/
noncomputable def sameObject (m m' : Marg Nat) : Bool := by
  classical exact decide (m = m' ∧ Agree m m')

/-- `C20_lazy_eq_sound`: the two compare equal, and `(2, 2, 4)` is accepted by both. -/
example : exampleConstraint.eq sameObject (.constraint exampleReordered) = .ok true ∧ exampleReordered.check [2, 2, 4] = some true ∧ exampleReordered.check [2, 2, 5] = some false := by
  have hr : ∀ m ∈ exampleConstraint.marginals, sameObject m m = true := by
    intro m hm
    simp only [exampleConstraint, List.mem_cons, List.not_mem_nil, or_false] at hm
    rcases hm with rfl | rfl | rfl
    · simp [sameObject, Agree, SameSupport]
    · simpa [sameObject] using sumOf_agree
    · simpa [sameObject] using sumOf_agree
  have h : exampleConstraint.eq sameObject (.constraint exampleReordered) = .ok true := by
    have h1 : allEq sameObject exampleConstraint.marginals exampleReordered.marginals = .ok true :=
      allEq_true.2 (.cons (hr _ (by simp [exampleConstraint])) (.cons (hr _ (by simp [exampleConstraint])) (.cons (hr _ (by simp [exampleConstraint])) .nil)))
    have h2 : depsEq exampleConstraint.deps exampleReordered.deps = true := by decide +kernel
    simp only [Constraint.eq, h1, h2]
    rfl
  have heq : ∀ m m', sameObject m m' = true → Agree m m' := fun m m' hm => by
    simp only [sameObject, decide_eq_true_eq] at hm
    exact hm.2
  have hs := C20_lazy_eq_sound sameObject heq exampleConstraint exampleReordered ⟨by decide +kernel, by decide +kernel⟩ ⟨by decide +kernel, by decide +kernel⟩ h
  refine ⟨h, ?_, ?_⟩
  · rw [← hs]; rfl
  · rw [← hs]; rfl

/-- `C20_lazy_eq_raises`: the joint distribution of the first marginal only. -/
example : ∃ b : Constraint Nat, b.check [2] = some true ∧ exampleConstraint.eq sameKind (.constraint b) = .error .zipLength :=
  ⟨⟨[.dist (pointMass 2)], [], [.idx 0]⟩, rfl, (C20_lazy_eq_raises _ _ _).2 ⟨by decide, fun i h1 h2 => by
    have : i = 0 := by simpa using h2
    subst this
    rfl⟩⟩

end GW.Lazy
