import Verif.Model.Tables
import Mathlib.Data.List.Basic
import Mathlib.Data.List.Nodup
import Mathlib.Data.List.Perm.Basic
import Mathlib.Data.List.TakeWhile
import Mathlib.Tactic.IntervalCases

/-!
# C70, C71: what is written to a text table is what is read back

The specification is two functions on the table itself: `column`, the values under a name, and the rows.
-/

namespace GW.Tables
open GW.Tools (Err)

/-! ## Specification -/

/-- The table meant by a header and rows: every row has one value per name, no name occurs twice, and no name is empty or starts with `#`. -/
structure IsTable {V} (labels : List String) (rows : List (List V)) : Prop where
  nonempty : labels ≠ []
  nodup : labels.Nodup
  plain : ∀ l ∈ labels, l.toList ≠ [] ∧ l.toList.head? ≠ some '#'
  width : ∀ r ∈ rows, r.length = labels.length

/-- A cell which holds the number `v`. -/
def cell {V} (v : V) : Option (Tok V) := some (.val v)

/-- The values of column `j` of the rows. -/
def Holds {V} (rows : List (List V)) (j : ℕ) (cells : List (Option (Tok V))) : Prop :=
  cells.length = rows.length ∧ ∀ (i : ℕ) (r : List V) (v : V), rows[i]? = some r → r[j]? = some v → cells[i]? = some (cell v)

/-! ## Lemmas -/

theorem fit_self {V} (r : List V) (w : ℕ) (h : r.length = w) : fit w (r.map Tok.val) = r.map cell := by
  subst h
  simp [fit, cell]

theorem fit_short {V} (r : List V) (w : ℕ) (h : r.length + 1 = w) : fit w (r.map Tok.val) = r.map cell ++ [none] := by
  subst h
  have e : r.length - (r.length + 1) = 0 := by omega
  simp [fit, cell, e]

theorem findIdx_label {V} [DecidableEq V] {ls : List String} (hn : ls.Nodup) {j : ℕ} (hj : j < ls.length) :
    (ls.map (Tok.txt (V := V))).findIdx? (· == .txt ls[j]) = some j := by
  rw [List.findIdx?_eq_some_iff_getElem]
  refine ⟨by simpa using hj, by simp, ?_⟩
  intro i hi
  have hne : ls[i] ≠ ls[j] := fun e => by
    have := (List.Nodup.getElem_inj_iff hn).1 e
    omega
  simpa using hne

theorem holds_map {V} (rows : List (List V)) (j : ℕ) (f : List V → Option (Tok V)) (h : ∀ r ∈ rows, ∀ v, r[j]? = some v → f r = cell v) :
    Holds rows j (rows.map f) := by
  refine ⟨by simp, ?_⟩
  intro i r v hr hv
  simp [hr, h r (List.mem_of_getElem? hr) v hv]

theorem isComment_val {V} (r : List V) : uncomment (r.map Tok.val) = r.map Tok.val := by
  unfold uncomment
  induction r with
  | nil => rfl
  | cons a r ih =>
    rw [List.map_cons, List.takeWhile_cons_of_pos (by rfl), ih]

theorem dataLines_vals {V} (rows : List (List V)) (h : ∀ r ∈ rows, r ≠ []) :
    dataLines (rows.map (·.map Tok.val)) = rows.map (·.map Tok.val) := by
  unfold dataLines
  rw [List.map_map]
  have : rows.map (uncomment ∘ fun r => r.map Tok.val) = rows.map (·.map Tok.val) := by
    apply List.map_congr_left
    intro r _
    exact isComment_val r
  rw [this, List.filter_eq_self]
  intro l hl
  obtain ⟨r, hr, rfl⟩ := List.mem_map.1 hl
  cases r with
  | nil => exact absurd rfl (h _ hr)
  | cons a r => rfl

theorem IsTable.row_ne {V} {labels : List String} {rows : List (List V)} (h : IsTable labels rows) : ∀ r ∈ rows, r ≠ [] := by
  intro r hr e
  have := h.width r hr
  rw [e] at this
  exact h.nonempty (List.length_eq_zero_iff.1 this.symm)

theorem uncomment_hash {V} (l : Line V) (s : String) (h : s.toList.head? = some '#') : uncomment (.txt s :: l) = [] := by
  simp [uncomment, isComment, h]

theorem head_hash (l : String) : ("#" ++ l).toList.head? = some '#' := by simp

theorem dataLines_rows {V} {labels : List String} {rows : List (List V)} (hn : labels ≠ []) (hne : ∀ r ∈ rows, r ≠ []) (c : Comments) (hc : c ≠ .none) :
    dataLines (savetxt c labels rows) = rows.map (·.map Tok.val) := by
  have hd := dataLines_vals rows hne
  have hu : uncomment (headerLine (V := V) c labels) = [] := by
    cases c with
    | none => exact absurd rfl hc
    | hash =>
      cases labels with
      | nil => exact absurd rfl hn
      | cons a ls => exact uncomment_hash _ _ (head_hash a)
    | hashSpace => exact uncomment_hash _ _ rfl
  unfold dataLines at hd ⊢
  simp only [savetxt, List.map_cons, hu]
  simpa using hd

theorem dataLines_savetxt {V} {labels : List String} {rows : List (List V)} (h : IsTable labels rows) (c : Comments) (hc : c ≠ .none) :
    dataLines (savetxt c labels rows) = rows.map (·.map Tok.val) := dataLines_rows h.nonempty h.row_ne c hc

theorem mapM_number {V} (r : List V) : (r.map Tok.val).mapM Tok.number? = some r := by
  induction r with
  | nil => rfl
  | cons a r ih => simp [Tok.number?, ih]

theorem mapM_rows {V} (rows : List (List V)) : (rows.map (·.map Tok.val)).mapM (fun l => l.mapM Tok.number?) = some rows := by
  induction rows with
  | nil => rfl
  | cons a r ih =>
    rw [List.map_cons, List.mapM_cons, ih, mapM_number]
    rfl

theorem loadtxt_of_lines {V} {labels : List String} {rows : List (List V)} (h : IsTable labels rows) (f : File V) (skip : ℕ)
    (hf : dataLines (f.drop skip) = rows.map (·.map Tok.val)) : loadtxt skip f = .ok rows := by
  unfold loadtxt
  simp only [hf]
  rw [if_pos, mapM_rows]
  rw [List.all_eq_true]
  intro l hl
  obtain ⟨r, hr, rfl⟩ := List.mem_map.1 hl
  cases rows with
  | nil => simp at hr
  | cons a rows => simp [h.width r hr, h.width a (by simp)]

theorem lstrip_plain {l : String} (h : l.toList.head? ≠ some '#') : lstripHash l = l := by
  unfold lstripHash
  have : l.toList.dropWhile (· == '#') = l.toList := by
    cases e : l.toList with
    | nil => rfl
    | cons a as =>
      rw [e] at h
      have ha : a ≠ '#' := by simpa using h
      rw [List.dropWhile_cons_of_neg (by simpa using ha)]
  rw [this, String.ofList_toList]

theorem lstrip_hash {l : String} (h : l.toList.head? ≠ some '#') : lstripHash ("#" ++ l) = l := by
  have := lstrip_plain h
  unfold lstripHash at this ⊢
  rw [String.toList_append]
  simpa using this

theorem ne_empty {l : String} (h : l.toList ≠ []) : l ≠ "" := fun e => h (by rw [e]; rfl)

theorem readHeader_savetxt {V} {labels : List String} {rows : List (List V)} (h : IsTable labels rows) (c : Comments) :
    readHeader (savetxt c labels rows) = labels.map Tok.txt := by
  cases hl : labels with
  | nil => exact absurd hl h.nonempty
  | cons a ls =>
    have ha := h.plain a (by simp [hl])
    cases c with
    | none => simp [savetxt, headerLine, readHeader, lstrip_plain ha.2, ne_empty ha.1]
    | hash => simp [savetxt, headerLine, readHeader, lstrip_hash ha.2, ne_empty ha.1]
    | hashSpace =>
      have : lstripHash "#" = "" := by decide +kernel
      simp [savetxt, headerLine, readHeader, this]

/-! ## C70 -/

/-- C70: a catalogue or an event file (written without a comment sign) gives back, to a reader which asks for a column by its name, exactly the values written under that
name, in order. -/
theorem C70_catalogue {V} [DecidableEq V] {labels : List String} {rows : List (List V)} (h : IsTable labels rows) {j : ℕ} (hj : j < labels.length) :
    ∃ cells, namedColumn (savetxt .none labels rows) labels[j] = .ok cells ∧ Holds rows j cells := by
  refine ⟨rows.map fun r => (((fit labels.length (r.map Tok.val)))[j]?).getD none, ?_, ?_⟩
  · simp only [namedColumn, readCsv, savetxt, headerLine, List.drop_zero, bind, Except.bind, Frame.col, findIdx_label h.nodup hj]
    simp [Function.comp_def]
  · apply holds_map
    intro r hr v hv
    rw [fit_self r _ (h.width r hr)]
    simp [hv]

/-- C70: a name which is not in the file is refused. -/
theorem C70_catalogue_missing {V} [DecidableEq V] (labels : List String) (rows : List (List V)) {name : String} (hn : name ∉ labels) :
    namedColumn (savetxt .none labels rows) name = .error .key := by
  have : (labels.map (Tok.txt (V := V))).findIdx? (· == .txt name) = none := by
    rw [List.findIdx?_eq_none_iff]
    intro t ht
    obtain ⟨s, hs, rfl⟩ := List.mem_map.1 ht
    have : s ≠ name := fun e => hn (e ▸ hs)
    simpa using this
  simp only [namedColumn, readCsv, savetxt, headerLine, List.drop_zero, bind, Except.bind, Frame.col, this]

/-- C70: the histogram script reads every column of a file of posterior samples or of a chain exactly. -/
theorem C70_histogram {V} [DecidableEq V] {labels : List String} {rows : List (List V)} (h : IsTable labels rows) (hr : rows ≠ []) (c : Comments)
    (hc : c ≠ .none) {j : ℕ} (hj : j < labels.length) :
    ∃ cells, histColumn (savetxt c labels rows) labels[j] = .ok cells ∧ Holds rows j cells := by
  refine ⟨rows.map fun r => (((fit labels.length (r.map Tok.val)))[j]?).getD none, ?_, ?_⟩
  · unfold histColumn
    rw [dataLines_savetxt h c hc, readHeader_savetxt h c]
    cases hrr : rows with
    | nil => exact absurd hrr hr
    | cons a as =>
      have hw := h.width a (by simp [hrr])
      simp only [List.map_cons]
      rw [if_neg (by simp [hw]), findIdx_label h.nodup hj]
      simp [hw, Function.comp_def]
  · apply holds_map
    intro r hr v hv
    rw [fit_self r _ (h.width r hr)]
    simp [hv]

/-- C70: a file whose samples do not have as many values as there are names is refused by the histogram script, whatever column is asked for. -/
theorem C70_histogram_refused {V} [DecidableEq V] {labels : List String} {first : List V} {rows : List (List V)} (h : IsTable labels ([] : List (List V)))
    (hne : ∀ r ∈ first :: rows, r ≠ []) (hw : first.length ≠ labels.length) (c : Comments) (hc : c ≠ .none) (name : String) :
    histColumn (savetxt c labels (first :: rows)) name = .error .valueError := by
  have hh : readHeader (savetxt c labels (first :: rows)) = labels.map Tok.txt := by
    rw [← readHeader_savetxt h c]
    simp only [readHeader, savetxt]
    cases headerLine (V := V) c labels with
    | nil => rfl
    | cons t ts => cases t <;> rfl
  unfold histColumn
  rw [dataLines_rows h.nonempty hne c hc, hh, List.map_cons]
  dsimp only
  rw [if_pos (by simpa using hw)]

example : histColumn (savetxt .hashSpace ["mass", "spin"] [[1, 2, 3], [4, 5, 6]]) "spin" = .error .valueError :=
  C70_histogram_refused ⟨by decide, by decide, by decide +kernel, by decide⟩ (by decide) (by decide) _ (by decide) _

/-- C70: `np.loadtxt` (the convergence diagnostics, the mass matrix) gives back exactly the rows of a file with a comment sign. -/
theorem C70_loadtxt {V} {labels : List String} {rows : List (List V)} (h : IsTable labels rows) (c : Comments) (hc : c ≠ .none) :
    loadtxt 0 (savetxt c labels rows) = .ok rows :=
  loadtxt_of_lines h _ 0 (by rw [List.drop_zero]; exact dataLines_savetxt h c hc)

/-- C70: with the header line skipped (the catalogue read to add errors, the posterior read for the variance cut) it does so for every file of the package. -/
theorem C70_loadtxt_skip {V} {labels : List String} {rows : List (List V)} (h : IsTable labels rows) (c : Comments) :
    loadtxt 1 (savetxt c labels rows) = .ok rows :=
  loadtxt_of_lines h _ 1 (by simpa [savetxt] using dataLines_vals rows h.row_ne)

/-- C70 fails for the plots of all samples: whatever the file, the first sample is taken for the header and not drawn; all the others are. -/
theorem C70_first_sample_violated {V} {labels : List String} {rows : List (List V)} (h : IsTable labels rows) (c : Comments) :
    allSamples (savetxt c labels rows) = if rows = [] then .error .valueError else .ok (rows.tail.map (·.map cell)) := by
  cases rows with
  | nil => simp [allSamples, readCsv, savetxt, bind, Except.bind]
  | cons a as =>
    simp only [allSamples, readCsv, savetxt, List.drop_succ_cons, List.drop_zero, List.map_cons, bind, Except.bind, pure, Except.pure]
    rw [if_neg (by simp)]
    simp only [List.map_map, List.tail_cons, Except.ok.injEq, List.length_map]
    apply List.map_congr_left
    intro r hr
    rw [Function.comp, fit_self r _ (by rw [h.width r (by simp [hr]), h.width a (by simp)])]

/-- C70 fails for a column asked for by name in a file with the default comment sign, as the files of posterior samples are: the reader gets the values of the next
column, and for the last name no value at all. -/
theorem C70_named_posterior_violated {V} [DecidableEq V] {labels : List String} {rows : List (List V)} (h : IsTable labels rows) {j : ℕ} (hj : j < labels.length) :
    ∃ cells, namedColumn (savetxt .hashSpace labels rows) labels[j] = .ok cells ∧
      (j + 1 < labels.length → Holds rows (j + 1) cells) ∧ (j + 1 = labels.length → ∀ x ∈ cells, x = none) := by
  refine ⟨rows.map fun r => (((fit (labels.length + 1) (r.map Tok.val)))[j + 1]?).getD none, ?_, ?_, ?_⟩
  · have hne : ((Tok.txt "#" : Tok V) == .txt labels[j]) = false := by
      have := (h.plain labels[j] (List.getElem_mem hj)).2
      have : "#" ≠ labels[j] := fun e => this (by rw [← e]; rfl)
      simpa using this
    have hi := findIdx_label (V := V) h.nodup hj
    simp only [namedColumn, readCsv, savetxt, headerLine, List.drop_zero, bind, Except.bind, Frame.col, List.findIdx?_cons, hne, hi]
    simp [Function.comp_def]
  · intro _
    apply holds_map
    intro r hr v hv
    rw [fit_short r _ (by rw [h.width r hr])]
    have : j + 1 < r.length := by
      rw [List.getElem?_eq_some_iff] at hv
      exact hv.1
    rw [List.getElem?_append_left (by simpa using this)]
    simp [hv]
  · intro e x hx
    obtain ⟨r, hr, rfl⟩ := List.mem_map.1 hx
    rw [fit_short r _ (by rw [h.width r hr])]
    rw [List.getElem?_append_right (by simp [h.width r hr, e])]
    simp [h.width r hr, e]

/-- C70 fails for the chains written by the NumPyro driver: the name of the first column carries the comment sign, so the first parameter is not found; the others are
read exactly. -/
theorem C70_named_chain_violated {V} [DecidableEq V] {labels : List String} {rows : List (List V)} (h : IsTable labels rows) {j : ℕ} (hj : j < labels.length) :
    if j = 0 then namedColumn (savetxt .hash labels rows) labels[j] = .error .key
    else ∃ cells, namedColumn (savetxt .hash labels rows) labels[j] = .ok cells ∧ Holds rows j cells := by
  cases labels with
  | nil => exact absurd rfl h.nonempty
  | cons a ls =>
    have hash_ne : ∀ i (hi : i < (a :: ls).length), ((Tok.txt ("#" ++ a) : Tok V) == .txt (a :: ls)[i]) = false := by
      intro i hi
      have := (h.plain _ (List.getElem_mem hi)).2
      have : "#" ++ a ≠ (a :: ls)[i] := fun e => this (by rw [← e]; exact head_hash a)
      simpa using this
    have hn := List.nodup_cons.1 h.nodup
    split
    · next e =>
      subst e
      have : (ls.map (Tok.txt (V := V))).findIdx? (· == .txt a) = none := by
        rw [List.findIdx?_eq_none_iff]
        intro t ht
        obtain ⟨s, hs, rfl⟩ := List.mem_map.1 ht
        have : s ≠ a := fun e => hn.1 (e ▸ hs)
        simpa using this
      have h0 := hash_ne 0 (by simp)
      simp only [List.getElem_cons_zero] at h0
      simp only [namedColumn, readCsv, savetxt, headerLine, List.drop_zero, bind, Except.bind, Frame.col, List.findIdx?_cons, List.getElem_cons_zero, h0, this]
      rfl
    · next e =>
      obtain ⟨k, rfl⟩ : ∃ k, j = k + 1 := ⟨j - 1, by omega⟩
      have hk : k < ls.length := by simpa using hj
      refine ⟨rows.map fun r => (((fit (ls.length + 1) (r.map Tok.val)))[k + 1]?).getD none, ?_, ?_⟩
      · have h0 := hash_ne (k + 1) hj
        have hi := findIdx_label (V := V) hn.2 hk
        simp only [List.getElem_cons_succ] at h0
        simp only [namedColumn, readCsv, savetxt, headerLine, List.drop_zero, bind, Except.bind, Frame.col, List.findIdx?_cons, List.getElem_cons_succ, h0, hi]
        simp [Function.comp_def]
      · apply holds_map
        intro r hr v hv
        rw [fit_self r (ls.length + 1) (by simpa using h.width r hr)]
        simp [hv]

/-- C70 fails for the histogram of a catalogue: the header line is not a comment, so it is drawn as the first sample. -/
theorem C70_histogram_catalogue_violated {V} [DecidableEq V] {labels : List String} {rows : List (List V)} (h : IsTable labels rows) {j : ℕ} (hj : j < labels.length) :
    ∃ cells, histColumn (savetxt .none labels rows) labels[j] = .ok (some (.txt labels[j]) :: cells) ∧ Holds rows j cells := by
  have hd : dataLines (savetxt .none labels rows) = labels.map Tok.txt :: rows.map (·.map Tok.val) := by
    have hu : uncomment (labels.map (Tok.txt (V := V))) = labels.map Tok.txt := by
      unfold uncomment
      have all : ∀ t ∈ labels.map (Tok.txt (V := V)), (!isComment t) = true := ?_
      · exact List.takeWhile_eq_self_iff.2 all
      intro t ht
      obtain ⟨s, hs, rfl⟩ := List.mem_map.1 ht
      have := (h.plain s hs).2
      simpa [isComment] using this
    have hv := dataLines_vals rows h.row_ne
    unfold dataLines at hv ⊢
    simp only [savetxt, headerLine, List.map_cons, hu]
    rw [List.filter_cons_of_pos, hv]
    cases hl : labels with
    | nil => exact absurd hl h.nonempty
    | cons a ls => rfl
  refine ⟨rows.map fun r => (((fit labels.length (r.map Tok.val)))[j]?).getD none, ?_, ?_⟩
  · unfold histColumn
    rw [hd, readHeader_savetxt h .none]
    dsimp only
    rw [if_neg (by simp), findIdx_label h.nodup hj]
    simp [Function.comp_def, fit, hj]
  · apply holds_map
    intro r hr v hv
    rw [fit_self r _ (h.width r hr)]
    simp [hv]

/-- C70 fails for `np.loadtxt` on a catalogue with its header: it is refused. -/
theorem C70_loadtxt_catalogue_violated {V} {labels : List String} {rows : List (List V)} (h : IsTable labels rows) :
    loadtxt 0 (savetxt .none labels rows) = .error .valueError := by
  cases hl : labels with
  | nil => exact absurd hl h.nonempty
  | cons a ls =>
    have ha := (h.plain a (by simp [hl])).2
    have : ∃ t, dataLines (savetxt (V := V) .none (a :: ls) rows) = (.txt a :: t) :: dataLines (rows.map (·.map Tok.val)) := by
      refine ⟨uncomment (ls.map Tok.txt), ?_⟩
      simp [dataLines, savetxt, headerLine, uncomment, isComment, ha]
    obtain ⟨t, ht⟩ := this
    unfold loadtxt
    simp only [List.drop_zero, ht]
    split
    · simp [Tok.number?]
    · rfl

/-! ## C71 -/

/-- A file to be drawn: how it was written, its names and its rows. -/
structure Written (V : Type) where
  comments : Comments
  labels : List String
  rows : List (List V)

def Written.file {V} (w : Written V) : File V := savetxt w.comments w.labels w.rows

/-- The samples `out` are the rows of `w` but the first (see C70), and under the heading `labels[k]` is the column of that name. -/
def Drawn {V} (labels : List String) (w : Written V) (out : List (List (Option (Tok V)))) : Prop :=
  ∀ (k i : ℕ) (hk : k < labels.length) (hi : i < w.labels.length), w.labels[i] = labels[k] →
    Holds w.rows.tail i (out.map fun r => r[k]?.getD none)

theorem mapM_forall₂ {α β} (f : α → Except Err β) (P : α → β → Prop) (l : List α) (h : ∀ x ∈ l, ∃ y, f x = .ok y ∧ P x y) :
    ∃ ys, l.mapM f = .ok ys ∧ List.Forall₂ P l ys := by
  induction l with
  | nil => exact ⟨[], rfl, .nil⟩
  | cons a l ih =>
    obtain ⟨y, hy, py⟩ := h a (by simp)
    obtain ⟨ys, hys, pys⟩ := ih fun x hx => h x (by simp [hx])
    refine ⟨y :: ys, ?_, .cons py pys⟩
    rw [List.mapM_cons, hy, hys]
    rfl

theorem mapM_index {V} [DecidableEq V] {labels : List String} (hn : labels.Nodup) (ls : List String) (hs : ∀ l ∈ ls, l ∈ labels) :
    (ls.map (Tok.txt (V := V))).mapM (indexOf (labels.map Tok.txt)) = .ok (ls.map fun l => labels.idxOf l) := by
  induction ls with
  | nil => rfl
  | cons a ls ih =>
    have ha := hs a (by simp)
    have hlt := List.idxOf_lt_length_of_mem ha
    have e := findIdx_label (V := V) hn hlt
    rw [List.getElem_idxOf hlt] at e
    rw [List.map_cons, List.mapM_cons, ih fun l hl => hs l (by simp [hl])]
    simp only [indexOf, e]
    rfl

theorem overplotOne_eq {V} [DecidableEq V] {labels : List String} (hn : labels.Nodup) {w : Written V} (h : IsTable w.labels w.rows) (hr : w.rows ≠ [])
    (hp : w.labels.Perm labels) :
    overplotOne (labels.map Tok.txt) w.file =
      .ok (w.rows.tail.map fun r => (w.labels.map fun l => labels.idxOf l).map fun j => ((r.map cell)[j]?).getD none) := by
  unfold overplotOne Written.file
  rw [C70_first_sample_violated h, if_neg hr, readHeader_savetxt h, mapM_index hn _ fun l hl => hp.mem_iff.1 hl]
  have hl : w.labels.length = labels.length := hp.length_eq
  simp [bind, Except.bind, pure, Except.pure, hl, Function.comp_def]

/-- What is drawn under the heading `labels[k]`, whatever the order of the columns of the file: its column at the place which the `k`-th name of the file has among
the headings. -/
theorem overplot_drawn {V} [DecidableEq V] {labels : List String} (hn : labels.Nodup) {w : Written V} (h : IsTable w.labels w.rows) (hr : w.rows ≠ [])
    (hp : w.labels.Perm labels) :
    ∃ out, overplotOne (labels.map Tok.txt) w.file = .ok out ∧
      ∀ (k i : ℕ) (hk : k < w.labels.length) (hi : i < labels.length), w.labels[k] = labels[i] →
        Holds w.rows.tail i (out.map fun r => r[k]?.getD none) := by
  refine ⟨_, overplotOne_eq hn h hr hp, ?_⟩
  intro k i hk hi e
  rw [List.map_map]
  apply holds_map
  intro r hrr v hv
  have hidx : labels.idxOf w.labels[k] = i := by rw [e, List.Nodup.idxOf_getElem hn]
  simp [hk, hidx, hv]

/-- C71, for files in which the order of the columns differs from that of the first file by exchanges of pairs only (or not at all): every file is drawn, and under every
heading is the column of that name.  Missing: any other order, see `C71_order_violated`, and the first sample, see C70. -/
theorem C71_columns_partial {V} [DecidableEq V] (w : Written V) (ws : List (Written V)) (h : ∀ x ∈ w :: ws, IsTable x.labels x.rows ∧ x.rows ≠ [])
    (hp : ∀ x ∈ ws, x.labels.Perm w.labels)
    (hx : ∀ x ∈ ws, ∀ (k i : ℕ) (hk : k < x.labels.length) (hi : i < w.labels.length) (hk' : k < w.labels.length) (hi' : i < x.labels.length),
      x.labels[k] = w.labels[i] → x.labels[i] = w.labels[k]) :
    ∃ data, overplot ((w :: ws).map Written.file) = .ok (w.labels.map .txt, data) ∧ List.Forall₂ (Drawn w.labels) (w :: ws) data := by
  have hw := h w (by simp)
  have hh : readHeader w.file = w.labels.map Tok.txt := readHeader_savetxt hw.1 w.comments
  have one : ∀ x ∈ w :: ws, ∃ y, (overplotOne (w.labels.map Tok.txt) ∘ Written.file) x = .ok y ∧ Drawn w.labels x y := by
    intro x hxm
    have hxt := h x hxm
    have hxp : x.labels.Perm w.labels := by
      rcases List.mem_cons.1 hxm with rfl | hxm
      · exact List.Perm.refl _
      · exact hp x hxm
    have inv : ∀ (k i : ℕ) (hk : k < x.labels.length) (hi : i < w.labels.length) (hk' : k < w.labels.length) (hi' : i < x.labels.length),
        x.labels[k] = w.labels[i] → x.labels[i] = w.labels[k] := by
      rcases List.mem_cons.1 hxm with rfl | hxm
      · intro k i hk hi hk' hi' e
        exact e.symm
      · exact hx x hxm
    obtain ⟨out, ho, hd⟩ := overplot_drawn hw.1.nodup hxt.1 hxt.2 hxp
    refine ⟨out, ho, ?_⟩
    intro k i hk hi e
    have hl := hxp.length_eq
    have hk' : k < x.labels.length := by omega
    have hm : x.labels[k] ∈ w.labels := hxp.mem_iff.1 (List.getElem_mem hk')
    obtain ⟨i', hi', e'⟩ := List.getElem_of_mem hm
    have e2 := inv k i' hk' hi' hk (by omega) e'.symm
    have : i' = i := (List.Nodup.getElem_inj_iff hxt.1.nodup).1 (e2.trans e.symm)
    subst this
    exact hd k i' hk' hi' e'.symm
  obtain ⟨data, hdata, hf⟩ := mapM_forall₂ _ _ _ one
  refine ⟨data, ?_, hf⟩
  have hne : w.labels.map (Tok.txt (V := V)) ≠ [] := by simpa using hw.1.nonempty
  have hmm : ∀ l : List (Written V), (l.map Written.file).mapM (overplotOne (w.labels.map Tok.txt)) = l.mapM (overplotOne (w.labels.map Tok.txt) ∘ Written.file) := by
    intro l
    induction l with
    | nil => rfl
    | cons a l ih => simp [ih]
  have hm := hmm (w :: ws)
  rw [hdata] at hm
  simp only [overplot, List.map_cons, hh, if_neg hne]
  rw [List.map_cons] at hm
  rw [hm]
  rfl

/-- C71 fails for a file whose columns are in another order: of the columns `b c a` of a file, `c` is drawn under the heading `a`, `a` under `b` and `b` under `c`. -/
theorem C71_order_violated {V} [DecidableEq V] (r₀ : List V) (h₀ : r₀.length = 3) (b₀ c₀ a₀ b c a : V) :
    overplot [savetxt .none ["a", "b", "c"] [r₀], savetxt .none ["b", "c", "a"] [[b₀, c₀, a₀], [b, c, a]]] =
      .ok (["a", "b", "c"].map .txt, [[], [[cell c, cell a, cell b]]]) := by
  have ha : lstripHash "a" = "a" := by decide +kernel
  have hb : lstripHash "b" = "b" := by decide +kernel
  simp [overplot, overplotOne, savetxt, headerLine, readHeader, allSamples, readCsv, ha, hb, bind, Except.bind, pure, Except.pure, indexOf, List.findIdx?_cons,
    List.mapM_cons, fit, cell, h₀]

/-- C71: a file with another number of columns than the first, or with a name the first does not have, is refused. -/
theorem C71_refused {V} [DecidableEq V] (labels : List String) (w : Written V) (h : IsTable w.labels w.rows) (hr : w.rows ≠ []) :
    (w.labels.length ≠ labels.length → overplotOne (labels.map Tok.txt) w.file = .error .assertion) ∧
    (w.labels.length = labels.length → (∃ l ∈ w.labels, l ∉ labels) → overplotOne (labels.map Tok.txt) w.file = .error .valueError) := by
  constructor
  · intro hl
    unfold overplotOne Written.file
    rw [C70_first_sample_violated h, if_neg hr, readHeader_savetxt h]
    simp [bind, Except.bind, hl]
  · intro hl ⟨l, hlm, hno⟩
    have bad : ∀ ls : List String, (∃ l ∈ ls, l ∉ labels) → (ls.map (Tok.txt (V := V))).mapM (indexOf (labels.map Tok.txt)) = .error .valueError := by
      intro ls
      induction ls with
      | nil => simp
      | cons a ls ih =>
        intro hex
        rw [List.map_cons, List.mapM_cons]
        cases hi : indexOf (labels.map (Tok.txt (V := V))) (.txt a) with
        | error e =>
          unfold indexOf at hi
          split at hi
          · rw [← hi]; rfl
          · simp at hi
        | ok j =>
          have ha : a ∈ labels := by
            by_contra hna
            have : (labels.map (Tok.txt (V := V))).findIdx? (· == .txt a) = none := by
              rw [List.findIdx?_eq_none_iff]
              intro t ht
              obtain ⟨s, hs, rfl⟩ := List.mem_map.1 ht
              have : s ≠ a := fun e => hna (e ▸ hs)
              simpa using this
            simp [indexOf, this] at hi
          obtain ⟨l, hl, hno⟩ := hex
          have : l ∈ ls := by
            rcases List.mem_cons.1 hl with rfl | hl
            · exact absurd ha hno
            · exact hl
          rw [ih ⟨l, this, hno⟩]
          rfl
    unfold overplotOne Written.file
    rw [C70_first_sample_violated h, if_neg hr, readHeader_savetxt h, bad _ ⟨l, hlm, hno⟩]
    simp [bind, Except.bind, hl]

/-! ## Cases -/

/-- A table of two samples of three parameters. -/
def demoRows : List (List ℕ) := [[1, 2, 3], [4, 5, 6]]

theorem demo_table : IsTable ["mass", "spin", "z"] demoRows := by
  refine ⟨by simp, by decide +kernel, by decide +kernel, ?_⟩
  intro r hr
  simp [demoRows] at hr
  rcases hr with rfl | rfl <;> rfl

/-- The hypotheses of the theorems of C70 hold of it, and the column `spin` is found in a catalogue. -/
example : namedColumn (savetxt .none ["mass", "spin", "z"] demoRows) "spin" = .ok [some (.val 2), some (.val 5)] := by decide +kernel

/-- In the file of posterior samples, `spin` gives the values of `z`. -/
example : namedColumn (savetxt .hashSpace ["mass", "spin", "z"] demoRows) "spin" = .ok [some (.val 3), some (.val 6)] := by decide +kernel

example : histColumn (savetxt .hashSpace ["mass", "spin", "z"] demoRows) "spin" = .ok [some (.val 2), some (.val 5)] := by decide +kernel

/-- Two files in which two columns are exchanged meet the hypotheses of `C71_columns_partial`. -/
example : ∃ data, overplot (([⟨.hashSpace, ["mass", "spin", "z"], demoRows⟩, ⟨.hashSpace, ["mass", "z", "spin"], demoRows⟩] : List (Written ℕ)).map Written.file) =
    .ok (["mass", "spin", "z"].map .txt, data) := by
  obtain ⟨d, hd, _⟩ := C71_columns_partial (V := ℕ) ⟨.hashSpace, ["mass", "spin", "z"], demoRows⟩ [⟨.hashSpace, ["mass", "z", "spin"], demoRows⟩]
    (by
      intro x hx
      simp at hx
      rcases hx with rfl | rfl
      · exact ⟨demo_table, by simp [demoRows]⟩
      · refine ⟨⟨by simp, by decide +kernel, by decide +kernel, ?_⟩, by simp [demoRows]⟩
        intro r hr
        simp [demoRows] at hr
        rcases hr with rfl | rfl <;> rfl)
    (by
      intro x hx
      simp at hx
      subst hx
      exact List.Perm.cons _ (List.Perm.swap _ _ _))
    (by
      intro x hx
      simp at hx
      subst hx
      intro k i hk hi hk' hi' e
      simp at hk hi
      interval_cases k <;> interval_cases i <;> simp_all)
  exact ⟨d, hd⟩

end GW.Tables
