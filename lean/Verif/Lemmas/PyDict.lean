import Verif.Model.PyDict

namespace GW.PyDict
variable {K V : Type} [DecidableEq K]

theorem get?_set_self (d : Dict K V) (k : K) (v : V) : get? (set d k v) k = some v := by
  induction d with
  | nil => simp [set, get?]
  | cons p d ih =>
    unfold set
    split_ifs with h
    · simp [get?]
    · simp [get?, h, ih]

theorem get?_set_ne (d : Dict K V) {k k' : K} (v : V) (h : k' ≠ k) : get? (set d k v) k' = get? d k' := by
  induction d with
  | nil => simp [set, get?, h.symm]
  | cons p d ih =>
    unfold set
    split_ifs with hp
    · subst hp; simp [get?, h.symm]
    · simp only [get?, ih]

theorem get?_set (d : Dict K V) (k k' : K) (v : V) :
    get? (set d k v) k' = if k' = k then some v else get? d k' := by
  split_ifs with h
  · subst h; exact get?_set_self d k' v
  · exact get?_set_ne d v h

theorem mem_keys_iff (d : Dict K V) (k : K) : k ∈ keys d ↔ (get? d k).isSome := by
  induction d with
  | nil => simp [keys, get?]
  | cons p d ih =>
    simp only [keys, List.map_cons, List.mem_cons, get?] at ih ⊢
    split_ifs with h
    · simp [h]
    · rw [ih]; simp [Ne.symm h]

theorem mem_keys_set (d : Dict K V) (k k' : K) (v : V) : k' ∈ keys (set d k v) ↔ k' = k ∨ k' ∈ keys d := by
  rw [mem_keys_iff, mem_keys_iff, get?_set]
  split_ifs with h <;> simp [h]

theorem keys_set (d : Dict K V) (k : K) (v : V) :
    keys (set d k v) = if k ∈ keys d then keys d else keys d ++ [k] := by
  induction d with
  | nil => simp [set, keys]
  | cons p d ih =>
    unfold set
    by_cases h : p.1 = k
    · simp [h, keys]
    · rw [if_neg h]
      simp only [keys, List.map_cons, List.mem_cons] at ih ⊢
      rw [ih]
      by_cases h2 : k ∈ d.map (·.1)
      · simp only [h2, or_true, if_true]
      · simp only [h2, Ne.symm h, or_self, if_false, List.cons_append]

theorem nodup_keys_set {d : Dict K V} (h : (keys d).Nodup) (k : K) (v : V) : (keys (set d k v)).Nodup := by
  rw [keys_set]
  split_ifs with hk
  · exact h
  · rw [List.nodup_append]
    refine ⟨h, by simp, ?_⟩
    intro a ha b hb
    simp at hb
    subst hb
    intro e; subst e; exact hk ha

theorem mem_of_get? {d : Dict K V} {k : K} {v : V} (h : get? d k = some v) : (k, v) ∈ d := by
  induction d with
  | nil => simp [get?] at h
  | cons p d ih =>
    simp only [get?] at h
    split_ifs at h with hp
    · simp at h; subst hp h; simp
    · exact List.mem_cons_of_mem _ (ih h)

theorem get?_of_mem {d : Dict K V} (hn : (keys d).Nodup) {k : K} {v : V} (h : (k, v) ∈ d) : get? d k = some v := by
  induction d with
  | nil => cases h
  | cons p d ih =>
    simp only [keys, List.map_cons, List.nodup_cons] at hn
    simp only [get?]
    rcases List.mem_cons.1 h with e | h
    · subst e; simp
    · have hne : p.1 ≠ k := by
        intro e; subst e
        exact hn.1 (List.mem_map.2 ⟨(p.1, v), h, rfl⟩)
      rw [if_neg hne]; exact ih hn.2 h

theorem get?_eq_none_iff (d : Dict K V) (k : K) : get? d k = none ↔ k ∉ keys d := by
  rw [mem_keys_iff]; cases get? d k <;> simp

theorem nodup_ofPairs (l : List (K × V)) : (keys (ofPairs l)).Nodup := by
  unfold ofPairs
  have : ∀ (l : List (K × V)) (d : Dict K V), (keys d).Nodup →
      (keys (l.foldl (fun d p => set d p.1 p.2) d)).Nodup := by
    intro l
    induction l with
    | nil => exact fun d h => h
    | cons p l ih => exact fun d h => ih _ (nodup_keys_set h _ _)
  exact this l [] (by simp [keys])

end GW.PyDict
