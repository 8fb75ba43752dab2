import Verif.Model.Common
import Verif.Lemmas.Names

/-!
# C51: name expansion and grid-range tables
-/

namespace GW.Common
open GW.Tools (Err)

/-- **C51 (names).**  `expand_arguments(name, n)` is the list `name_0, …, name_{n-1}` in order, and these are pairwise distinct. -/
theorem C51_expand_arguments (arg : String) (n : Nat) :
    (expandArguments arg n).length = n ∧
    (∀ i < n, (expandArguments arg n)[i]? = some (arg ++ "_" ++ toString i)) ∧ (expandArguments arg n).Nodup := by
  refine ⟨by simp [expandArguments], ?_, ?_⟩
  · intro i hi
    rw [expandArguments, List.getElem?_map, List.getElem?_range hi]; rfl
  · unfold expandArguments
    rw [List.Nodup, List.pairwise_map]
    exact List.nodup_range.imp fun hne h => hne (numbered_inj h)

/-- The last entry of a table for a name. -/
private theorem ppdLoop_spec (parameters : List String) (hnd : parameters.Nodup) (ranges : List (String × Range))
    (out : List (Option Range)) (hout : out.length = parameters.length) :
    (∀ res, ppdLoop parameters ranges out = .ok res →
      (∀ e ∈ ranges, e.1 ∈ parameters) ∧ res.length = parameters.length ∧
      ∀ k, ∀ hk : k < parameters.length,
        res[k]? = (match (ranges.filter (·.1 = parameters[k])).getLast? with
          | some e => some (some e.2)
          | none => out[k]?)) ∧
    ((∀ e ∈ ranges, e.1 ∈ parameters) → ∃ res, ppdLoop parameters ranges out = .ok res) ∧
    ((∃ e ∈ ranges, e.1 ∉ parameters) → ppdLoop parameters ranges out = .error .valueError) := by
  induction ranges generalizing out with
  | nil =>
    refine ⟨?_, fun _ => ⟨out, rfl⟩, by simp⟩
    intro res h
    simp only [ppdLoop, Except.ok.injEq] at h
    subst h
    exact ⟨by simp, hout, by simp⟩
  | cons e ranges ih =>
    obtain ⟨name, r⟩ := e
    obtain ⟨i1, i2, i3⟩ := ih (out.set (parameters.idxOf name) (some r)) (by simpa using hout)
    by_cases hm : name ∈ parameters
    · have hs : ppdLoop parameters ((name, r) :: ranges) out =
          ppdLoop parameters ranges (out.set (parameters.idxOf name) (some r)) := by
        simp [ppdLoop, hm]
      rw [hs]
      refine ⟨?_, ?_, ?_⟩
      · intro res h
        obtain ⟨a1, a2, a3⟩ := i1 res h
        refine ⟨?_, a2, ?_⟩
        · intro e he
          rcases List.mem_cons.1 he with rfl | he
          · exact hm
          · exact a1 e he
        · intro k hk
          rw [a3 k hk]
          by_cases hname : name = parameters[k]
          · have hidx : parameters.idxOf name = k := by rw [hname]; exact hnd.idxOf_getElem k hk
            rw [List.filter_cons_of_pos (by simp [hname]), hidx, List.getElem?_set_self (by omega), List.getLast?_cons]
            cases (ranges.filter (·.1 = parameters[k])).getLast? <;> simp
          · rw [List.filter_cons_of_neg (by simpa using hname)]
            have hidx : parameters.idxOf name ≠ k := by
              intro hc
              apply hname
              subst hc
              exact (List.getElem_idxOf hk).symm
            rw [List.getElem?_set_ne hidx]
      · intro h
        exact i2 fun e he => h e (List.mem_cons_of_mem _ he)
      · rintro ⟨e, he, hne⟩
        rcases List.mem_cons.1 he with rfl | he
        · exact absurd hm hne
        · exact i3 ⟨e, he, hne⟩
    · have hs : ppdLoop parameters ((name, r) :: ranges) out = .error .valueError := by simp [ppdLoop, hm]
      rw [hs]
      refine ⟨by simp, ?_, fun _ => rfl⟩
      intro h
      exact absurd (h (name, r) (by simp)) hm

/-- **C51 (ranges).**  For distinct parameter names, `ppd_ranges` succeeds exactly when every listed name is a parameter (and
raises `ValueError` otherwise); the result has one entry per parameter, in order: the range of the last listing of that parameter,
or `None` if it is not listed. -/
theorem C51_ppd_ranges (parameters : List String) (hnd : parameters.Nodup) (ranges : List (String × Range)) :
    ((∃ e ∈ ranges, e.1 ∉ parameters) → ppdRanges parameters ranges = .error .valueError) ∧
    ((∀ e ∈ ranges, e.1 ∈ parameters) → ∃ res, ppdRanges parameters ranges = .ok res ∧
      res.length = parameters.length ∧
      ∀ k, ∀ hk : k < parameters.length,
        ((∀ e ∈ ranges, e.1 ≠ parameters[k]) → res[k]? = some none) ∧
        (∀ before r after, ranges = before ++ (parameters[k], r) :: after → (∀ e ∈ after, e.1 ≠ parameters[k]) →
          res[k]? = some (some r))) := by
  obtain ⟨h1, h2, h3⟩ := ppdLoop_spec parameters hnd ranges (List.replicate parameters.length none) (by simp)
  refine ⟨h3, ?_⟩
  intro hall
  obtain ⟨res, hres⟩ := h2 hall
  obtain ⟨_, a2, a3⟩ := h1 res hres
  refine ⟨res, hres, a2, ?_⟩
  intro k hk
  refine ⟨?_, ?_⟩
  · intro hno
    rw [a3 k hk, List.filter_eq_nil_iff.2 (by simpa using hno)]
    simp [hk]
  · intro before r after hr hafter
    rw [a3 k hk, hr, List.filter_append, List.filter_cons_of_pos (by simp),
      show after.filter (·.1 = parameters[k]) = [] from List.filter_eq_nil_iff.2 (by simpa using hafter)]
    simp

example : expandArguments "alpha" 3 = ["alpha_0", "alpha_1", "alpha_2"] := by decide +kernel

example : (ppdRanges ["m", "z"] [("z", 0, 1, 10), ("z", 0, 2, 20)]).toOption = some [none, some (0, 2, 20)] := by
  decide +kernel

end GW.Common
