import Verif.Model.Parameters
import Mathlib.Data.List.Nodup

/-!
# C55: parameter names behave as strings
-/

namespace GW.Parameters

/-- What an object stands for as a name: the text of a string or member. -/
def text : Obj → Option String
  | .member m => some m.value
  | .str s => some s
  | .other _ => none

/-- **C55.**  The list of members is complete and has no repetition, and the values and the Python names of different members differ. -/
theorem C55_values_distinct : (∀ m : Member, m ∈ members) ∧ members.Nodup ∧ (∀ a b : Member, a.value = b.value ↔ a = b) ∧
    (∀ a b : Member, a.name = b.name ↔ a = b) := by
  have h1 : ∀ m : Member, m ∈ members := fun m => by cases m <;> decide
  have h2 : (members.map Member.value).Nodup := by decide +kernel
  have h3 : (members.map Member.name).Nodup := by decide +kernel
  refine ⟨h1, List.Nodup.of_map _ h2, fun a b => ⟨fun h => ?_, fun h => h ▸ rfl⟩, fun a b => ⟨fun h => ?_, fun h => h ▸ rfl⟩⟩
  · exact List.inj_on_of_nodup_map h2 (h1 a) (h1 b) h
  · exact List.inj_on_of_nodup_map h3 (h1 a) (h1 b) h

/-- **C55.**  The Python name of a parameter is its column name in capitals, except for the parameters whose columns have short names. -/
theorem C55_names (m : Member) : (m.name, m.value) ∈ [("EFFECTIVE_SPIN", "chi_eff"), ("POLARIZATION_ANGLE", "psi"), ("PRECESSING_SPIN", "chi_p"),
      ("PRIMARY_MASS_DETECTED", "mass_1"), ("PRIMARY_MASS_SOURCE", "mass_1_source"), ("PRIMARY_SPIN_MAGNITUDE", "a_1"), ("PRIMARY_SPIN_X", "spin_1x"),
      ("PRIMARY_SPIN_Y", "spin_1y"), ("PRIMARY_SPIN_Z", "spin_1z"), ("RIGHT_ASCENSION", "ra"), ("SECONDARY_MASS_DETECTED", "mass_2"),
      ("SECONDARY_MASS_SOURCE", "mass_2_source"), ("SECONDARY_SPIN_MAGNITUDE", "a_2"), ("SECONDARY_SPIN_X", "spin_2x"), ("SECONDARY_SPIN_Y", "spin_2y"),
      ("SECONDARY_SPIN_Z", "spin_2z"), ("SIN_DECLINATION", "dec")] ∨ m.name.toList = m.value.toList.map Char.toUpper := by
  cases m <;> decide +kernel

theorem eq_iff (a b : Obj) : eq a b = true ↔ text a = text b ∧ (text a = none → a = b) := by
  cases a <;> cases b <;> simp [eq, text, Member.eqPlain] <;> exact eq_comm

/-- **C55.**  `==` between members and strings in any order and combination compares the texts; so two members are equal exactly if they are the same member. -/
theorem C55_equality (a b : Obj) (ha : text a ≠ none) : eq a b = true ↔ text a = text b := by
  rw [eq_iff]
  exact ⟨fun h => h.1, fun h => ⟨h, fun h' => absurd h' ha⟩⟩

theorem C55_members_equal (a b : Member) : eq (.member a) (.member b) = true ↔ a = b := by
  rw [C55_equality _ _ (by simp [text])]
  simp [text, C55_values_distinct.2.2.1]

/-- Python's requirements on `==` and `hash` of keys: an equivalence, and equal objects have equal hashes. -/
theorem C55_equality_contract (hs : String → Int) (ho : Nat → Int) (a b c : Obj) :
    eq a a = true ∧ (eq a b = eq b a) ∧ (eq a b = true → eq b c = true → eq a c = true) ∧ (eq a b = true → hash hs ho a = hash hs ho b) := by
  refine ⟨(eq_iff a a).2 ⟨rfl, fun _ => rfl⟩, ?_, fun h1 h2 => ?_, fun h => ?_⟩
  · have : eq a b = true ↔ eq b a = true := by
      rw [eq_iff, eq_iff]
      exact ⟨fun h => ⟨h.1.symm, fun h' => (h.2 (h.1.trans h')).symm⟩, fun h => ⟨h.1.symm, fun h' => (h.2 (h.1.trans h')).symm⟩⟩
    cases h1 : eq a b <;> cases h2 : eq b a <;> simp_all
  · rw [eq_iff] at *
    exact ⟨h1.1.trans h2.1, fun h => (h1.2 h).trans (h2.2 (h1.1.symm.trans h))⟩
  · rw [eq_iff] at h
    cases a <;> cases b <;> simp_all [text, hash]

theorem match_iff (hs : String → Int) (ho : Nat → Int) (a b : Obj) : (hash hs ho a == hash hs ho b && eq a b) = eq a b := by
  cases h : eq a b with
  | false => simp
  | true => simp [(C55_equality_contract hs ho a b b).2.2.2 h]

theorem eq_congr {k q : Obj} (h : eq k q = true) (p : Obj) : eq p k = eq p q := by
  obtain ⟨h1, h2⟩ := (eq_iff k q).1 h
  cases hp : eq p q with
  | true => exact (C55_equality_contract (fun _ => 0) (fun _ => 0) p q k).2.2.1 hp (by rw [(C55_equality_contract (fun _ => 0) (fun _ => 0) q k k).2.1]; exact h)
  | false =>
    cases hk : eq p k with
    | false => rfl
    | true =>
      have := (C55_equality_contract (fun _ => 0) (fun _ => 0) p k q).2.2.1 hk h
      rw [hp] at this
      exact this.symm

/-- **C55** (tables).  In every table, whatever its keys are and however they were mixed, looking up a member and looking up its string value give the same
result, present or absent. -/
theorem C55_lookup_by_string {V : Type} (hs : String → Int) (ho : Nat → Int) (d : Table V) (m : Member) :
    lookup (hash hs ho) d (.member m) = lookup (hash hs ho) d (.str m.value) := by
  unfold lookup
  simp only [match_iff]
  simp only [eq_congr (show eq (.member m) (.str m.value) = true by simp [eq, Member.eqPlain])]

/-- **C55** (assignment).  After `d[k] = v` the table gives `v` for every object equal to `k` — a member stored, its string looked up, or the reverse — and
what it gave before for every other. -/
theorem C55_assignment {V : Type} (hs : String → Int) (ho : Nat → Int) (d : Table V) (k q : Obj) (v : V) :
    lookup (hash hs ho) (insert (hash hs ho) d k v) q = if eq k q then some v else lookup (hash hs ho) d q := by
  unfold lookup
  simp only [match_iff]
  induction d with
  | nil =>
    simp only [insert, List.find?_cons, List.find?_nil]
    cases eq k q <;> simp
  | cons p d ih =>
    simp only [insert, match_iff]
    cases hpk : eq p.1 k with
    | true =>
      rw [if_pos rfl]
      simp only [List.find?_cons]
      have : eq p.1 q = eq k q := by
        cases hk : eq k q with
        | true => exact (C55_equality_contract (fun _ => 0) (fun _ => 0) p.1 k q).2.2.1 hpk hk
        | false =>
          cases hq : eq p.1 q with
          | false => rfl
          | true =>
            have h1 := (C55_equality_contract (fun _ => 0) (fun _ => 0) k p.1 q).2.2.1 (by
              rw [(C55_equality_contract (fun _ => 0) (fun _ => 0) k p.1 q).2.1]; exact hpk) hq
            rw [hk] at h1
            exact h1.symm
      rw [this]
      cases eq k q <;> simp
    | false =>
      rw [if_neg (by simp)]
      simp only [List.find?_cons]
      cases hq : eq p.1 q with
      | true =>
        have : eq k q = false := by
          cases hk : eq k q with
          | false => rfl
          | true =>
            have h1 := eq_congr hk p.1
            rw [hq, hpk] at h1
            exact h1.symm
        simp [this]
      | false => simpa using ih

/-- No table built by assignments holds a member and its string as two keys. -/
theorem C55_no_duplicate_keys {V : Type} (hs : String → Int) (ho : Nat → Int) (pairs : List (Obj × V)) :
    (build (hash hs ho) pairs).Pairwise fun p q => eq p.1 q.1 = false := by
  have step : ∀ (d : Table V) (k : Obj) (v : V), d.Pairwise (fun p q => eq p.1 q.1 = false) →
      (insert (hash hs ho) d k v).Pairwise (fun p q => eq p.1 q.1 = false) ∧ ∀ p ∈ insert (hash hs ho) d k v, (∃ p' ∈ d, p'.1 = p.1) ∨ p.1 = k := by
    intro d k v
    induction d with
    | nil => intro _; simp [insert]
    | cons p d ih =>
      intro hd
      rw [List.pairwise_cons] at hd
      obtain ⟨i1, i2⟩ := ih hd.2
      simp only [insert, match_iff]
      cases hpk : eq p.1 k with
      | true =>
        rw [if_pos rfl]
        refine ⟨List.pairwise_cons.2 ⟨hd.1, hd.2⟩, fun q hq => ?_⟩
        rcases List.mem_cons.1 hq with rfl | hq
        · exact .inl ⟨p, by simp, rfl⟩
        · exact .inl ⟨q, by simp [hq], rfl⟩
      | false =>
        rw [if_neg (by simp)]
        refine ⟨List.pairwise_cons.2 ⟨fun q hq => ?_, i1⟩, fun q hq => ?_⟩
        · rcases i2 q hq with ⟨p', hp', e⟩ | e
          · rw [← e]; exact hd.1 p' hp'
          · rw [e]; exact hpk
        · rcases List.mem_cons.1 hq with rfl | hq
          · exact .inl ⟨q, by simp, rfl⟩
          · rcases i2 q hq with ⟨p', hp', e⟩ | e
            · exact .inl ⟨p', by simp [hp'], e⟩
            · exact .inr e
  unfold build
  have : ∀ d : Table V, d.Pairwise (fun p q => eq p.1 q.1 = false) →
      (pairs.foldl (fun d p => insert (hash hs ho) d p.1 p.2) d).Pairwise fun p q => eq p.1 q.1 = false := by
    induction pairs with
    | nil => exact fun d hd => hd
    | cons p pairs ih => exact fun d hd => ih _ (step d p.1 p.2 hd).1
  exact this [] List.Pairwise.nil

/-- **C55** (names from strings).  `Parameters(s)` is the member whose value is `s` and fails exactly for other strings; `str(member)` is its inverse. -/
theorem C55_by_value : (∀ m : Member, byValue m.value = some m ∧ m.str = m.value) ∧ ∀ s m, byValue s = some m ↔ s = m.value := by
  have h : ∀ m : Member, byValue m.value = some m := fun m => by cases m <;> decide +kernel
  refine ⟨fun m => ⟨h m, rfl⟩, fun s m => ⟨fun hs => ?_, fun hs => hs ▸ h m⟩⟩
  have := List.find?_some hs
  simpa using (by simpa using this : m.value = s).symm

/-! ## Concrete cases -/

example : eq (.str "mass_1_source") (.member .primaryMassSource) = true ∧ eq (.member .primaryMassSource) (.str "mass_1") = false ∧
    eq (.member .redshift) (.other 3) = false := by decide +kernel

example (hs : String → Int) (ho : Nat → Int) : lookup (hash hs ho) (build (hash hs ho) [(.member .redshift, 1), (.str "a_1", 2), (.str "redshift", 3)]) (.member .redshift) =
    some 3 := by
  simp [build, C55_assignment, eq, Member.eqPlain, Member.value, List.foldl]

example : byValue "psi" = some .polarizationAngle ∧ byValue "PSI" = none := by decide +kernel

end GW.Parameters
