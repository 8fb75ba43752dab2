import Verif.Model.Selection
import Verif.Lemmas.PyDict

/-!
# C101: the selection-function file
-/

namespace GW.Selection
open GW.PyDict

theorem get?_without (d : Dict String Val) (ns : List String) (n : String) : get? (without d ns) n = if n ∈ ns then none else get? d n := by
  induction d with
  | nil => simp [without, get?]
  | cons p d ih =>
    obtain ⟨a, b⟩ := p
    unfold without at ih ⊢
    by_cases ha : a ∈ ns
    · rw [List.filter_cons_of_neg (by simpa using ha), ih]
      by_cases hn : n ∈ ns
      · simp [hn]
      · rw [if_neg hn, if_neg hn]
        rw [get?, if_neg (by rintro rfl; exact hn ha)]
    · rw [List.filter_cons_of_pos (by simpa using ha)]
      simp only [get?, ih]
      by_cases hab : a = n
      · subst hab; simp [ha]
      · simp [hab]

/-- A configuration the programs can use at all: it names a type and a file, and leaves the key and the parameters to the program. -/
structure Complete (config : Dict String Val) (kind : String) (file : Val) : Prop where
  kind : get? config "estimator_type" = some (.str kind)
  file : get? config "filename" = some file
  noKey : "key" ∉ keys config
  noParameters : "parameters" ∉ keys config

/-- The value of an option, or the default. -/
def option (config : Dict String Val) (name : String) (default : Val) : Val :=
  match get? config name with
  | some v => v
  | none => default

theorem find_none {ks : List String} (h1 : "key" ∉ ks) (h2 : "parameters" ∉ ks) : (ks.find? fun n => n == "key" || n == "parameters") = none := by
  rw [List.find?_eq_none]
  intro n hn h
  simp only [Bool.or_eq_true, beq_iff_eq] at h
  rcases h with rfl | rfl
  · exact h1 hn
  · exact h2 hn

theorem select_complete {run : String → Option Bool} {parameters : List String} {config : Dict String Val} {kind : String} {file : Val}
    (h : Complete config kind file) : select run parameters config =
      factory run (.str kind) parameters file (option config "batch_size" .null) (without config ["estimator_type", "filename", "batch_size"]) := by
  unfold select option
  rw [find_none h.noKey h.noParameters, h.kind, h.file]
  cases get? config "batch_size" <;> rfl

theorem getD_option {config : Dict String Val} {n : String} {v : Val} (hn : n ∉ ["estimator_type", "filename", "batch_size"]) :
    (get? (without config ["estimator_type", "filename", "batch_size"]) n).getD v = option config n v := by
  rw [get?_without, if_neg hn]
  unfold option
  cases get? config n <;> rfl

/-- **C101** (the documented estimators).  Whatever else is in the file: `injection` uses injections with the given or default cuts on the false-alarm
rate and the signal-to-noise ratio, `neural_vt` and `neural_pdet` their networks with the given or default number of samples and observation time, all
of them with the program's parameters in its order, the given file and the given batch size. -/
theorem C101_documented_estimators (run : String → Option Bool) (parameters : List String) {config : Dict String Val} {file : Val} :
    (Complete config "injection" file → select run parameters config = .ok (.injection parameters file (option config "batch_size" .null)
      (option config "far_cut" (.num 1)) (option config "snr_cut" (.num 10)))) ∧
    (Complete config "neural_vt" file → select run parameters config = .ok (.neuralVT parameters file (option config "batch_size" .null)
      (option config "num_samples" (.num 1000)) (option config "time_scale" (.num 1)))) ∧
    (Complete config "neural_pdet" file → select run parameters config = .ok (.neuralPdet parameters file (option config "batch_size" .null)
      (option config "num_samples" (.num 1000)) (option config "time_scale" (.num 1)))) := by
  refine ⟨fun h => ?_, fun h => ?_, fun h => ?_⟩ <;> rw [select_complete h] <;> unfold factory <;>
    simp [getD_option]

/-- **C101** (custom estimators).  A module path that ends in `.py` and whose module has the function is used, with the program's parameters, the given
file and batch size, and every other option of the file as a keyword argument.  Otherwise the error says what is wrong. -/
theorem C101_custom_estimators (run : String → Option Bool) (parameters : List String) {config : Dict String Val} {file : Val}
    (h : Complete config "custom" file) :
    (∀ path, get? config "python_module_path" = some (.str path) → path.endsWith ".py" = true → run path = some true →
      ∃ kw, select run parameters config = .ok (.custom path parameters file (option config "batch_size" .null) kw) ∧
        ∀ n, get? kw n = if n ∈ ["estimator_type", "filename", "batch_size", "python_module_path"] then none else get? config n) ∧
    (∀ path, get? config "python_module_path" = some (.str path) → path.endsWith ".py" = true → run path = some false →
      select run parameters config = .error .noFunction) ∧
    (∀ path, get? config "python_module_path" = some (.str path) → path.endsWith ".py" = true → run path = none →
      select run parameters config = .error (.moduleFails path)) ∧
    (∀ path, get? config "python_module_path" = some (.str path) → path.endsWith ".py" = false → select run parameters config = .error .notPython) ∧
    (get? config "python_module_path" = none ∨ get? config "python_module_path" = some .null → select run parameters config = .error .noModulePath) ∧
    (∀ v, get? config "python_module_path" = some v → v ≠ .null → (∀ s, v ≠ .str s) → select run parameters config = .error .pathNotString) := by
  have hs : select run parameters config =
      custom run parameters file (option config "batch_size" .null) (without config ["estimator_type", "filename", "batch_size"]) := by
    rw [select_complete h]
    unfold factory
    simp
  have hp : get? (without config ["estimator_type", "filename", "batch_size"]) "python_module_path" = get? config "python_module_path" := by
    rw [get?_without, if_neg (by decide)]
  rw [hs]
  unfold custom
  rw [hp]
  refine ⟨fun path h1 h2 h3 => ?_, fun path h1 h2 h3 => ?_, fun path h1 h2 h3 => ?_, fun path h1 h2 => ?_, fun h1 => ?_, fun v h1 h2 h3 => ?_⟩
  · rw [h1]
    simp only [h2, h3, Bool.not_true, Bool.false_eq_true, if_false]
    refine ⟨_, rfl, fun n => ?_⟩
    rw [get?_without, get?_without]
    by_cases a : n = "python_module_path" <;> by_cases b : n ∈ ["estimator_type", "filename", "batch_size"] <;> simp_all
  · rw [h1]; simp [h2, h3]
  · rw [h1]; simp [h2, h3]
  · rw [h1]; simp [h2]
  · rcases h1 with h1 | h1 <;> rw [h1]
  · rw [h1]
    cases v with
    | null => exact absurd rfl h2
    | str s => exact absurd rfl (h3 s)
    | num q => rfl
    | other w => rfl

/-- **C101** (unusable files).  A file that sets the key or the parameters, has no type or no file name, or names another type is rejected. -/
theorem C101_unusable_files_rejected (run : String → Option Bool) (parameters : List String) (config : Dict String Val) :
    ("key" ∈ keys config ∨ "parameters" ∈ keys config →
      ∃ n ∈ ["key", "parameters"], n ∈ keys config ∧ select run parameters config = .error (.multiple n)) ∧
    ("key" ∉ keys config → "parameters" ∉ keys config → "estimator_type" ∉ keys config →
      select run parameters config = .error (.missing "estimator_type")) ∧
    ("key" ∉ keys config → "parameters" ∉ keys config → "estimator_type" ∈ keys config → "filename" ∉ keys config →
      select run parameters config = .error (.missing "filename")) ∧
    (∀ t, "key" ∉ keys config → "parameters" ∉ keys config → "filename" ∈ keys config → get? config "estimator_type" = some t →
      (∀ k ∈ ["injection", "neural_vt", "neural_pdet", "custom"], t ≠ .str k) → select run parameters config = .error .unknownEstimator) := by
  refine ⟨fun h => ?_, fun h1 h2 h3 => ?_, fun h1 h2 h3 h4 => ?_, fun t h1 h2 h3 h4 h5 => ?_⟩ <;> unfold select
  · cases hf : (keys config).find? fun n => n == "key" || n == "parameters" with
    | none =>
      rw [List.find?_eq_none] at hf
      rcases h with h | h <;> exact absurd (by simp) (hf _ h)
    | some n => exact ⟨n, by have := List.find?_some hf; simpa using this, List.mem_of_find?_eq_some hf, rfl⟩
  · rw [find_none h1 h2, (get?_eq_none_iff _ _).2 h3]
  · rw [find_none h1 h2, (get?_eq_none_iff _ _).2 h4]
    cases hg : get? config "estimator_type" with
    | none => exact absurd h3 ((get?_eq_none_iff _ _).1 hg)
    | some t => rfl
  · rw [find_none h1 h2, h4]
    cases hg : get? config "filename" with
    | none => exact absurd h3 ((get?_eq_none_iff _ _).1 hg)
    | some f =>
      simp only
      unfold factory
      rw [if_pos]
      intro hm
      simp only [List.mem_cons, List.not_mem_nil, or_false] at hm
      simp only [List.mem_cons, List.not_mem_nil, or_false, forall_eq_or_imp, forall_eq] at h5
      rcases hm with hm | hm | hm | hm <;> simp_all

/-- The options an estimator looks at. -/
def known (kind : String) : List String :=
  ["estimator_type", "filename", "batch_size", "key", "parameters"] ++
    if kind = "injection" then ["far_cut", "snr_cut"] else ["num_samples", "time_scale"]

/-- **C101** (violated: misspelt options).  For the three documented estimators an option they do not know has no effect and is not reported: with or
without it the result is the same, defaults included. -/
theorem C101_unknown_options_ignored_violated (run : String → Option Bool) (parameters : List String) {config : Dict String Val} {kind : String}
    {file : Val} (h : Complete config kind file) (hk : kind ∈ ["injection", "neural_vt", "neural_pdet"]) {n : String} (hn : n ∉ known kind) (v : Val) :
    ∃ r, select run parameters config = .ok r ∧ select run parameters (set config n v) = .ok r := by
  have hn' : ∀ m ∈ known kind, m ≠ n := fun m hm e => hn (e ▸ hm)
  have hkey : ∀ m ∈ known kind, m ∉ keys config → m ∉ keys (set config n v) := by
    intro m hm h1
    rw [← get?_eq_none_iff] at h1 ⊢
    rw [get?_set_ne _ _ (hn' m hm), h1]
  have h' : Complete (set config n v) kind file :=
    ⟨by rw [get?_set_ne _ _ (hn' _ (by simp [known])), h.kind], by rw [get?_set_ne _ _ (hn' _ (by simp [known])), h.file],
     hkey _ (by simp [known]) h.noKey, hkey _ (by simp [known]) h.noParameters⟩
  have ho : ∀ m ∈ known kind, ∀ d, option (set config n v) m d = option config m d := by
    intro m hm d
    unfold option
    rw [get?_set_ne _ _ (hn' m hm)]
  simp only [List.mem_cons, List.not_mem_nil, or_false] at hk
  rcases hk with rfl | rfl | rfl
  · refine ⟨_, (C101_documented_estimators run parameters).1 h, ?_⟩
    rw [(C101_documented_estimators run parameters).1 h', ho _ (by decide), ho _ (by decide), ho _ (by decide)]
  · refine ⟨_, (C101_documented_estimators run parameters).2.1 h, ?_⟩
    rw [(C101_documented_estimators run parameters).2.1 h', ho _ (by decide), ho _ (by decide), ho _ (by decide)]
  · refine ⟨_, (C101_documented_estimators run parameters).2.2 h, ?_⟩
    rw [(C101_documented_estimators run parameters).2.2 h', ho _ (by decide), ho _ (by decide), ho _ (by decide)]

/-! ### The hypotheses are met -/

/-- A file for injections with one cut. -/
def someConfig : Dict String Val := [("estimator_type", .str "injection"), ("filename", .str "injections.hdf5"), ("far_cut", .num 2)]

example : Complete someConfig "injection" (.str "injections.hdf5") := ⟨rfl, rfl, by decide, by decide⟩

example (run : String → Option Bool) : select run ["mass_1_source"] someConfig =
    .ok (.injection ["mass_1_source"] (.str "injections.hdf5") .null (.num 2) (.num 10)) :=
  (C101_documented_estimators run _).1 ⟨rfl, rfl, by decide, by decide⟩

/-- `far-cut` for `far_cut`. -/
example : "far-cut" ∉ known "injection" ∧ "far_cut" ∉ known "neural_pdet" := by decide

/-- A custom estimator with an option of its own. -/
example : ∃ kw, select (fun p => if p = "mine.py" then some true else none) ["mass_1_source"]
      [("estimator_type", .str "custom"), ("filename", .null), ("python_module_path", .str "mine.py"), ("threshold", .num 8)] =
        .ok (.custom "mine.py" ["mass_1_source"] .null .null kw) ∧ get? kw "threshold" = some (.num 8) := by
  obtain ⟨kw, h1, h2⟩ := (C101_custom_estimators (fun p => if p = "mine.py" then some true else none) ["mass_1_source"]
    (config := [("estimator_type", .str "custom"), ("filename", .null), ("python_module_path", .str "mine.py"), ("threshold", .num 8)])
    (file := .null) ⟨rfl, rfl, by decide, by decide⟩).1 "mine.py" rfl (by decide +kernel) rfl
  exact ⟨kw, h1, h2 "threshold"⟩

/-- A misspelt type, and no file name. -/
example (run : String → Option Bool) : select run [] [("estimator_type", .str "injections"), ("filename", .null)] = .error .unknownEstimator ∧
    select run [] [("estimator_type", .str "injection")] = .error (.missing "filename") := by
  refine ⟨(C101_unusable_files_rejected run [] _).2.2.2 (.str "injections") (by decide) (by decide) (by decide) rfl (by decide), ?_⟩
  exact (C101_unusable_files_rejected run [] _).2.2.1 (by decide) (by decide) (by decide) (by decide)

end GW.Selection
