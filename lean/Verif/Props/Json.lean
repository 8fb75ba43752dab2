import Verif.Lemmas.Json

/-! # C88: JSON files -/

namespace GW.Json

variable {F : Type}

/-! ## Helpers -/

theorem loads_renders (fl : Floats F) {v : J F} {s w w' : Text} (hv : Writable fl v) (h : Renders fl v s) (hw : Blank w) (hw' : Blank w') :
    loads fl (w ++ s ++ w') = some (norm v) := by
  obtain ⟨c, t, e, hc, -⟩ := renders_head fl v s hv h
  have hbom : (w ++ s ++ w').head? ≠ some (Char.ofNat 0xfeff) := by
    cases w with
    | nil =>
      rw [List.nil_append, e]
      simp only [List.cons_append, List.head?_cons, ne_eq, Option.some.injEq]
      intro hb
      -- a rendered value does not begin with a byte order mark: reading it from there fails
      have hs := scan_renders fl v s [] s.length hv h (Or.inl rfl) (Nat.le_refl _)
      rw [List.append_nil, e, hb, List.length_cons, scan] at hs
      simp [scanNumber, scanInt, scanNat, isDig] at hs
    | cons d w =>
      have := hw d (by simp)
      simp only [List.cons_append, List.head?_cons, ne_eq, Option.some.injEq]
      rintro rfl
      exact absurd this (by decide)
  have hsk : skipWs (w ++ s ++ w') = s ++ w' := by
    rw [List.append_assoc, e, List.cons_append, skipWs_blank_cons hw hc]
  have hends : Ends w' := by
    cases w' with
    | nil => exact Or.inl rfl
    | cons d w' => exact Or.inr ⟨d, w', rfl, by have := hw' d (by simp); simp only [List.mem_cons, List.not_mem_nil, or_false] at this ⊢; tauto⟩
  unfold loads
  rw [if_neg hbom, hsk, scan_renders fl v s w' _ hv h hends (by simp only [List.length_append]; omega)]
  have : skipWs w' = [] := by simpa [skipWs] using skipWs_blank (s := []) hw'
  simp [this]

/-! ## Theorems -/

/-- **C88 (round trip).**  For every value that a JSON file can hold, and whatever the files were before: `write_json` succeeds, `read_json` of the file
returns the value, and no other file changes. -/
theorem C88_round_trip (fl : Floats F) (v : J F) (hv : Writable fl v) (hk : DistinctKeys v) (fs : Files) (name : String) :
    (writeJson fl fs name v).2 = .ok () ∧ readJson fl (writeJson fl fs name v).1 name = .ok v ∧
    ∀ other, other ≠ name → (writeJson fl fs name v).1 other = fs other := by
  obtain ⟨h1, h2⟩ := encode_renders fl v 0 hv
  have hl := loads_renders fl (w := []) (w' := []) hv h2 (by simp [Blank]) (by simp [Blank])
  rw [List.nil_append, List.append_nil, norm_distinct v hk] at hl
  refine ⟨by simp [writeJson, h1], by simp [readJson, writeJson, hl], fun other ho => by simp [writeJson, ho]⟩

/-- **C88 (layout).**  Every text that writes a value is read as that value, whatever blanks and line ends stand between its parts, before it and after
it, however the characters of its strings are spelled (as they are, with a short escape, as `\uXXXX` with digits of either case, or as a surrogate pair) and
whatever text of a float stands for its floats: a settings file can be written by hand. -/
theorem C88_layout (fl : Floats F) (v : J F) (hv : Writable fl v) (hk : DistinctKeys v) {s w w' : Text} (hs : Renders fl v s) (hw : Blank w) (hw' : Blank w')
    (fs : Files) (name : String) (hfile : fs name = some (w ++ s ++ w')) : readJson fl fs name = .ok v := by
  rw [readJson, hfile, ]
  simp only [loads_renders fl hv hs hw hw', norm_distinct v hk]

/-- **C88 (templates).**  The empty lines between the sections of the template do not change what is read: for every configuration and all section names,
reading the template returns the configuration. -/
theorem C88_template (fl : Floats F) (v : J F) (hv : Writable fl v) (hk : DistinctKeys v) (headers : List String) (fs : Files) (name : String)
    (hfile : fs name = some (withGaps headers (encode fl 0 v).1)) : readJson fl fs name = .ok v := by
  obtain ⟨pre, t, e, hp, hg⟩ := withGaps_gaps headers (encode fl 0 v).1
  have hr := renders_gaps fl v _ t hv (encode_renders fl v 0 hv).2 hg
  refine C88_layout fl v hv hk (w := pre) (w' := []) hr hp (by simp [Blank]) fs name ?_
  rw [hfile, e, List.append_nil]

/-- **C88 (injective).**  Two different values never have the same file. -/
theorem C88_injective (fl : Floats F) (v v' : J F) (hv : Writable fl v) (hk : DistinctKeys v) (hv' : Writable fl v') (hk' : DistinctKeys v')
    (h : (encode fl 0 v).1 = (encode fl 0 v').1) : v = v' := by
  have h1 := (C88_round_trip fl v hv hk (fun _ => none) "").2.1
  have h2 := (C88_round_trip fl v' hv' hk' (fun _ => none) "").2.1
  have : (writeJson fl (fun _ => none) "" v).1 = (writeJson fl (fun _ => none) "" v').1 := by
    funext n
    simp [writeJson, h]
  rw [this, h2] at h1
  simpa using h1.symm

/-- **C88 (missing file).**  Reading a file that does not exist is a `ValueError`, as documented, and so is reading an empty one. -/
theorem C88_missing (fl : Floats F) (fs : Files) (name : String) (h : fs name = none ∨ fs name = some []) :
    readJson fl fs name = .error .valueError := by
  rcases h with h | h <;> rw [readJson, h]
  rfl

theorem find_store (d : List (List ℕ × J F)) (p : List ℕ × J F) (k : List ℕ) :
    ((store d p).find? fun q => q.1 = k) = if p.1 = k then some p else d.find? fun q => q.1 = k := by
  unfold store
  split_ifs with h1 h2 h2
  · rw [List.any_eq_true] at h1
    obtain ⟨q, hq, hqp⟩ := h1
    simp only [decide_eq_true_eq] at hqp
    induction d with
    | nil => simp at hq
    | cons a d ih =>
      rw [List.map_cons, List.find?_cons]
      by_cases ha : a.1 = p.1
      · simp [ha, h2]
      · have hak : a.1 ≠ k := fun e => ha (e.trans h2.symm)
        simp only [ha, if_false, hak, decide_false]
        rcases List.mem_cons.1 hq with rfl | hq
        · exact absurd hqp ha
        · exact ih hq
  · clear h1
    induction d with
    | nil => rfl
    | cons a d ih =>
      rw [List.map_cons, List.find?_cons, List.find?_cons]
      by_cases ha : a.1 = p.1
      · simp [ha, h2, ih]
      · simp only [ha, if_false]
        split <;> simp_all
  · have hnone : (d.find? fun q => q.1 = k) = none := by
      rw [List.find?_eq_none]
      intro q hq hqk
      simp only [decide_eq_true_eq] at hqk
      exact h1 (List.any_eq_true.2 ⟨q, hq, by simp [hqk, h2]⟩)
    rw [List.find?_append, hnone]
    simp [h2]
  · rw [List.find?_append]
    simp [h2]

/-- **C88 (violated: a name given twice).**  A file that gives a name twice is read without a complaint, and for every name the last entry of the file is
the one that counts; the earlier ones are lost. -/
theorem C88_duplicate_names_violated (fl : Floats F) (kvs : List (List ℕ × J F)) (hv : Writable fl (.obj kvs)) (hk : DistinctKeysFields kvs) {s : Text}
    (hs : Renders fl (.obj kvs) s) (fs : Files) (name : String) (hfile : fs name = some s) :
    ∃ d, readJson fl fs name = .ok (.obj d) ∧ ∀ k, (d.find? fun q => q.1 = k) = kvs.reverse.find? fun q => q.1 = k := by
  refine ⟨toDict kvs, ?_, fun k => ?_⟩
  · have := loads_renders fl (w := []) (w' := []) hv hs (by simp [Blank]) (by simp [Blank])
    rw [List.nil_append, List.append_nil, norm, normFields_distinct kvs hk] at this
    simp [readJson, hfile, this]
  · have key : ∀ (ps d : List (List ℕ × J F)), ((ps.foldl store d).find? fun q => q.1 = k) = (ps.reverse.find? fun q => q.1 = k).or (d.find? fun q => q.1 = k) := by
      intro ps
      induction ps with
      | nil => intro d; simp
      | cons p ps ih =>
        intro d
        rw [List.foldl_cons, ih, find_store, List.reverse_cons, List.find?_append]
        cases ps.reverse.find? fun q => q.1 = k with
        | some x => simp
        | none => by_cases hp : p.1 = k <;> simp [hp]
    have := key kvs []
    simpa [toDict] using this

/-- **C88 (violated: a failed write).**  If somewhere in the content is an object that JSON cannot write, `write_json` raises `ValueError`, but the previous
file is already gone: whatever it was, it has been replaced by the part written before the error.  That part is the beginning of the file that would have
been written with any value `w` in the place of the objects that JSON cannot write; nothing is written after the error. -/
theorem C88_failed_write_violated (fl : Floats F) (v : J F) (h : Foreign v) (fs fs' : Files) (name : String) :
    (writeJson fl fs name v).2 = .error .valueError ∧ (writeJson fl fs name v).1 name = (writeJson fl fs' name v).1 name ∧
    ∃ left, (writeJson fl fs name v).1 name = some left ∧
      ∀ w, ∃ full, (writeJson fl fs name (fill w v)).1 name = some full ∧ left <+: full := by
  rw [← encode_foreign fl v 0] at h
  refine ⟨by simp [writeJson, h], by simp [writeJson], (encode fl 0 v).1, by simp [writeJson], fun w => ?_⟩
  exact ⟨_, by simp only [writeJson, if_true], (encode_fill fl w v 0).1⟩

/-- **C88.**  `write_json` fails only on such an object. -/
theorem C88_write_fails_iff (fl : Floats F) (v : J F) (fs : Files) (name : String) : (writeJson fl fs name v).2 = .error .valueError ↔ Foreign v := by
  rw [← encode_foreign fl v 0]
  cases h : (encode fl 0 v).2 <;> simp [writeJson, h]

/-- **C88 (violated: surrogates).**  A string of a high and a low surrogate (two characters) comes back as one character. -/
theorem C88_surrogates_violated (fl : Floats F) (fs : Files) (name : String) :
    readJson fl (writeJson fl fs name (.str [0xd83d, 0xde00])).1 name = .ok (.str [0x1f600]) := by
  have : loads fl (encode fl 0 (.str [0xd83d, 0xde00] : J F)).1 = some (.str [0x1f600]) := by rfl
  simp [readJson, writeJson, this]

/-! ## Examples -/

/-- Floats that are their own text: every float text is a float. -/
def literal : Floats Text := ⟨id, id⟩

theorem isFloatText_fraction : IsFloatText "0.01".toList :=
  Or.inr (Or.inr (Or.inr ⟨[], ['0'], ".01".toList, [], by decide, Or.inl rfl, Or.inl rfl, Or.inr ⟨"01".toList, by decide, by decide, by unfold Digits; decide⟩,
    Or.inl rfl, Or.inl (by decide)⟩))

theorem isFloatText_exponent : IsFloatText "-1e-05".toList :=
  Or.inr (Or.inr (Or.inr ⟨['-'], ['1'], [], "e-05".toList, by decide, Or.inr rfl, Or.inr ⟨'1', [], rfl, by decide, by unfold Digits; decide⟩, Or.inl rfl,
    Or.inr ⟨'e', ['-'], "05".toList, by decide, Or.inl rfl, Or.inr (Or.inr rfl), by decide, by unfold Digits; decide⟩, Or.inr (by decide)⟩))

theorem stringOk_ascii (s : List ℕ) (h : ∀ n ∈ s, n < 0xd800) : StringOk s :=
  ⟨fun n hn => Nat.lt_trans (h n hn) (by decide), fun a b hab ⟨⟨h1, _⟩, _⟩ => absurd (h a (hab.subset (by simp))) (by omega)⟩

/-- A dictionary with a name outside ASCII, nested lists, an empty dictionary and two floats meets the hypotheses of `C88_round_trip`. -/
example : Writable literal (.obj [([0x3bb], .flt "0.01".toList), ([97, 10], .arr [.int (-40), .arr [], .bool false, .flt "-1e-05".toList]), ([98], .obj []), ([99], .null)]) ∧
    DistinctKeys (.obj [([0x3bb], .flt "0.01".toList), ([97, 10], .arr [.int (-40), .arr [], .bool false, .flt "-1e-05".toList]), ([98], .obj []), ([99], .null)] : J Text) := by
  constructor
  · simp only [Writable, WritableFields, WritableItems, and_true, true_and]
    exact ⟨stringOk_ascii _ (by simp), ⟨isFloatText_fraction, rfl⟩, stringOk_ascii _ (by simp), ⟨isFloatText_exponent, rfl⟩, stringOk_ascii _ (by simp),
      stringOk_ascii _ (by simp)⟩
  · simp [DistinctKeys, DistinctKeysFields, DistinctKeysItems]

/-- A file written by hand: a name spelled with an escape in capitals, a character beyond ASCII as it is, and blanks between the parts. -/
example : Renders literal (.obj [([0x3bb, 0x3bb], .arr [.flt "0.01".toList, .int (-40)])]) "{ \"\\u03BBλ\":[0.01\t,  -40]}".toList := by
  simp only [Renders, RendersFields, RendersItems]
  have hB : Unit4 0x3bb "\\u03BB".toList :=
    ⟨'0', '3', 'B', 'B', 0, 3, 11, 11, rfl, by unfold HexDigit; decide, by unfold HexDigit; decide, by unfold HexDigit; decide, by unfold HexDigit; decide, rfl⟩
  have hl : Spells 0x3bb "λ".toList := Or.inl ⟨'λ', rfl, by decide, by decide, by decide, by decide⟩
  have hi : IsInt (-40) "-40".toList :=
    ⟨['-'], "40".toList, rfl, Or.inr ⟨'4', ['0'], rfl, by decide, by unfold Digits; decide⟩, 40, rfl, Or.inr ⟨rfl, rfl⟩⟩
  refine ⟨" ".toList, "\"\\u03BBλ\"".toList, [], [], "[0.01\t,  -40]".toList, "}".toList, by unfold Blank; decide,
    ⟨"\\u03BBλ".toList, ⟨_, "λ".toList, Or.inr (Or.inr (Or.inl hB)), ⟨_, [], hl, rfl, rfl⟩, rfl⟩, rfl⟩, by unfold Blank; decide, by unfold Blank; decide,
    ⟨[], "0.01".toList, "\t,  -40]".toList, by unfold Blank; decide, ⟨isFloatText_fraction, rfl⟩,
      ⟨"\t".toList, "  ".toList, "-40".toList, "]".toList, by unfold Blank; decide, by unfold Blank; decide, hi, ⟨[], by unfold Blank; decide, rfl⟩, rfl⟩, rfl⟩,
    ⟨[], by unfold Blank; decide, rfl⟩, rfl⟩

/-- What is in the file. -/
example : String.ofList (encode literal 0 (.obj [([0x3bb], .arr [.int (-40), .null])])).1 =
    "{\n    \"\\u03bb\": [\n        -40,\n        null\n    ]\n}" := by decide +kernel

/-- A template with two sections: an empty line stands before the second one. -/
example : String.ofList (withGaps sectionHeaders (encode literal 0 (.obj [("n_chains".toList.map Char.toNat, .int 10), ("batch_size".toList.map Char.toNat, .int 1000)])).1) =
    "{\n    \"n_chains\": 10,\n\n    \"batch_size\": 1000\n}" := by decide +kernel

/-- A name given twice. -/
example : (match readJson literal (fun _ => some "{\"a\": 1, \"a\": 2}".toList) "prior.json" with
    | .ok (.obj [(k, .int z)]) => k == [97] && z == 2
    | _ => false) = true := by decide +kernel

/-- After a failed write the file cannot be read. -/
example : let fs := (writeJson literal (fun _ => some "{}".toList) "constants.json" (.obj [([97], .other)]))
    (match fs.2, readJson literal fs.1 "constants.json" with
    | .error .valueError, .error .valueError => true
    | _, _ => false) = true := by decide +kernel

end GW.Json
