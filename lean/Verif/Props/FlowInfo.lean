import Verif.Spec.FlowInfo
import Verif.Lemmas.PyDict
import Verif.Props.SamplerConfig
import Verif.Props.Scripts

/-!
# C108: the report on a flowMC configuration and the run it describes
-/

namespace GW.FlowInfo
open GW.PyDict GW.Settings GW.Settings.Spec GW.FlowInfo.Spec

variable {parse : String → Option ℤ} {cfg : Cfg}

/-! ### Helpers -/

theorem pyInt_isInt {name : String} {a : Atom} {k : ℤ} (h : IsInt a k) : pyInt parse name (.atom a) = .ok k := by
  cases h <;> simp [pyInt]

theorem numbers_get {ws : List (String × Option ℤ)} (hn : (ws.map (·.1)).Nodup) {d : Dict String ℤ} (h : numbers parse cfg ws = .ok d) {w : String × Option ℤ} (hw : w ∈ ws) :
    ∃ k, number parse cfg w = .ok k ∧ get? d w.1 = some k := by
  induction ws generalizing d with
  | nil => cases hw
  | cons v vs ih =>
    rw [numbers] at h
    rw [List.map_cons, List.nodup_cons] at hn
    cases hv : number parse cfg v with
    | error e => rw [hv] at h; cases h
    | ok k =>
      rw [hv] at h
      cases hr : numbers parse cfg vs with
      | error e => rw [hr] at h; cases h
      | ok r =>
        rw [hr] at h
        cases h
        rcases List.mem_cons.1 hw with rfl | hw
        · exact ⟨k, hv, by simp [get?]⟩
        · obtain ⟨k', h1, h2⟩ := ih hn.2 hr hw
          refine ⟨k', h1, ?_⟩
          have hne : v.1 ≠ w.1 := fun h => hn.1 (h ▸ List.mem_map_of_mem hw)
          simpa [get?, hne] using h2

theorem numbers_exist {ws : List (String × Option ℤ)} (h : ∀ w ∈ ws, ∃ k, number parse cfg w = .ok k) : ∃ d, numbers parse cfg ws = .ok d := by
  induction ws with
  | nil => exact ⟨_, rfl⟩
  | cons v vs ih =>
    obtain ⟨k, hk⟩ := h v (by simp)
    obtain ⟨r, hr⟩ := ih fun w hw => h w (by simp [hw])
    exact ⟨_, by rw [numbers, hk, hr]⟩

theorem wanted_nodup : (wanted.map (·.1)).Nodup := by decide +kernel

theorem numbers_missing {before after : List (String × Option ℤ)} {name : String} (hm : get? cfg name = none)
    (hb : ∀ w ∈ before, ∃ k, number parse cfg w = .ok k) : numbers parse cfg (before ++ (name, none) :: after) = .error (.key name) := by
  induction before with
  | nil => simp [numbers, number, hm]
  | cons v vs ih =>
    obtain ⟨k, hk⟩ := hb v (by simp)
    rw [List.cons_append, numbers, hk, ih fun w hw => hb w (by simp [hw])]

/-- A setting that has no default of its own in the report, present in the file. -/
theorem number_of_setting {w : String × Option ℤ} {k : ℤ} (h : Setting cfg w.1 k) (hd : fallback w.1 = none ∨ (get? cfg w.1).isSome = true) :
    number parse cfg w = .ok k := by
  obtain ⟨a, hg, ha⟩ := h
  rcases hg with hg | ⟨hn, hf⟩
  · simp only [number, hg, pyInt_isInt ha]
  · rcases hd with hd | hd
    · rw [hd] at hf; cases hf
    · rw [hn] at hd; cases hd

theorem fallback_wanted : ∀ w ∈ wanted, w.1 ≠ "history_window" → fallback w.1 = none := by
  intro w hw hne
  simp only [wanted, List.mem_cons, List.not_mem_nil, or_false] at hw
  rcases hw with rfl | rfl | rfl | rfl | rfl | rfl | rfl | rfl | rfl | rfl | rfl <;> first | rfl | exact absurd rfl hne

theorem val_of_setting {d : Dict String ℤ} (h : numbers parse cfg wanted = .ok d) {name : String} {o : Option ℤ} (hw : (name, o) ∈ wanted) {k : ℤ} (hs : Setting cfg name k)
    (hp : name = "history_window" → (get? cfg "history_window").isSome = true) : val d name = k := by
  obtain ⟨k', h1, h2⟩ := numbers_get wanted_nodup h hw
  rw [number_of_setting (w := (name, o)) hs] at h1
  · cases h1; simp [val, h2]
  · by_cases hh : name = "history_window"
    · exact .inr (by rw [hh]; exact hp hh)
    · exact .inl (fallback_wanted _ hw hh)

theorem number_ok_window {d : Dict String ℤ} (h : numbers parse cfg wanted = .ok d) : (get? cfg "history_window").isSome = true := by
  obtain ⟨k, h1, _⟩ := numbers_get wanted_nodup h (w := ("history_window", none)) (by decide +kernel)
  cases hg : get? cfg "history_window" with
  | some v => rfl
  | none => simp [number, hg] at h1

theorem pyRange_one (b : ℤ) : pyRange 1 (b + 1) = loops b.toNat := by
  simp [pyRange, loops, add_comm]

theorem report_ok {o : Options} {r : Report} (h : report parse o (some cfg) = .ok r) : ∃ d, numbers parse cfg wanted = .ok d ∧
    r.table = rows d o ∧ r.picture = (if o.plot then some (o.plotPath, points d o) else none) ∧ r.nDims = inferNDims parse cfg o.nDims ∧
    r.suggestion = (if r.nDims > 0 then some (heuristics r.nDims (val d "n_chains") (keptTotal d)) else none) ∧ r.keptTotal = keptTotal d ∧ r.capacity = capacity d := by
  rw [report] at h
  cases hd : numbers parse cfg wanted with
  | error e => rw [hd] at h; cases h
  | ok d =>
    rw [hd] at h
    cases h
    exact ⟨d, rfl, rfl, rfl, rfl, rfl, rfl, rfl⟩

theorem limit_le {d : Dict String ℤ} (o : Options) : limit d o ≤ val d "n_training_loops" := by
  unfold limit
  split_ifs <;> simp

theorem limit_cases {d : Dict String ℤ} (o : Options) : limit d o = val d "n_training_loops" ∨ 0 ≤ limit d o := by
  unfold limit
  have hf : 0 ≤ firstForget d := by unfold firstForget; split_ifs <;> omega
  split_ifs with h1 h2 <;> omega

theorem pyRange_append {a b c : ℤ} (h1 : a ≤ b) (h2 : b ≤ c) : pyRange a b ++ pyRange b c = pyRange a c := by
  unfold pyRange
  obtain ⟨m, rfl⟩ := Int.le.dest h1
  obtain ⟨n, rfl⟩ := Int.le.dest h2
  rw [show (a + ↑m - a).toNat = m by omega, show (a + ↑m + ↑n - (a + ↑m)).toNat = n by omega, show (a + ↑m + ↑n - a).toNat = m + n by omega, List.range_add,
    List.map_append, List.map_map]
  congr 1
  apply List.map_congr_left
  intro i _
  simp; ring

theorem points_eq {d : Dict String ℤ} {o : Options} (hp : o.plot = true) : points d o = (loops (val d "n_training_loops").toNat).map (point d) := by
  unfold points
  rw [← pyRange_one]
  by_cases h : limit d o < val d "n_training_loops"
  · rw [if_pos ⟨hp, h⟩, ← List.map_append, pyRange_append]
    · rcases limit_cases (d := d) o with h' | h' <;> omega
    · omega
  · rw [if_neg (fun hh => h hh.2), List.append_nil, le_antisymm (limit_le o) (not_lt.1 h)]

theorem ceil_eq_iff {w k L : ℤ} (hk : 0 < k) : L = -(-w / k) ↔ w ≤ L * k ∧ (L - 1) * k < w := by
  have h1 : k * (-w / k) ≤ -w := Int.mul_ediv_self_le hk.ne'
  have h2 : -w < k * (-w / k) + k := Int.lt_mul_ediv_self_add hk
  generalize -w / k = q at *
  constructor
  · rintro rfl
    constructor <;> nlinarith
  · rintro ⟨h3, h4⟩
    have : L + q < 1 := by nlinarith
    have : -1 < L + q := by nlinarith
    omega

theorem ceil_lt_iff {w k L : ℤ} (hk : 0 < k) : L ≥ -(-w / k) + 1 ↔ w ≤ (L - 1) * k := by
  have h1 : k * (-w / k) ≤ -w := Int.mul_ediv_self_le hk.ne'
  have h2 : -w < k * (-w / k) + k := Int.lt_mul_ediv_self_add hk
  generalize -w / k = q at *
  constructor
  · intro h
    nlinarith
  · intro h
    have : -1 < L - 1 + q := by nlinarith
    omega

theorem loopsToFill_pos {d : Dict String ℤ} (hk : keptPerChain d > 0) (hw : val d "history_window" > 0) : loopsToFill d > 0 := by
  rw [loopsToFill, if_pos ⟨hk, hw⟩]
  by_contra h
  have := (ceil_lt_iff (L := 1) (w := val d "history_window") hk).1 (by omega)
  omega

theorem line_right {d : Dict String ℤ} {t : Training} (h1 : val d "n_chains" = t.chains) (h2 : val d "n_local_steps" = t.localSteps)
    (h3 : val d "local_thinning" = t.localThinning) (h4 : val d "n_global_steps" = t.globalSteps) (h5 : val d "global_thinning" = t.globalThinning)
    (h6 : val d "history_window" = t.window) (h7 : val d "n_max_examples" = t.examples) (p1 : 1 ≤ t.chains) (p3 : 1 ≤ t.localThinning)
    (p5 : 1 ≤ t.globalThinning) (p6 : 1 ≤ t.window) (p7 : 1 ≤ t.examples) (p2 : 1 ≤ t.localSteps) (p4 : 1 ≤ t.globalSteps) {L : ℤ} (hL : 1 ≤ L) : Right t (line d L) := by
  have hk : keptPerChain d = t.localSteps / t.localThinning + t.globalSteps / t.globalThinning := by
    rw [keptPerChain, h2, h3, h4, h5, max_eq_left p3, max_eq_left p5]
  have hkept : ∀ L, t.kept L = L * keptPerChain d := fun L => by rw [hk]; rfl
  have hk0 : 0 ≤ keptPerChain d := by
    rw [hk]
    exact add_nonneg (Int.ediv_nonneg (by omega) (by omega)) (Int.ediv_nonneg (by omega) (by omega))
  have hc : capacity d > 0 := by rw [capacity, h6, h1]; exact Int.mul_pos (by omega) (by omega)
  refine ⟨?_, ?_, ?_, ?_, ?_⟩
  · simp only [line, keptTotal, h1, hkept]; ring
  · simp only [line, if_pos hc, hkept]
    rw [mul_min_of_nonneg _ _ (by omega : 0 ≤ t.chains), keptTotal, capacity, h1, h6]
    congr 1 <;> ring
  · simp only [line, h7, if_pos (show t.examples > 0 by omega)]
  · simp only [line, decide_eq_true_eq, hkept]
    rcases hk0.lt_or_eq with hk0 | hk0
    · rw [loopsToFill, if_pos ⟨hk0, by omega⟩, h6]
      exact ceil_eq_iff hk0
    · rw [loopsToFill, if_neg (by omega), ← hk0]
      constructor
      · intro h; omega
      · rintro ⟨h, _⟩; omega
  · simp only [line, decide_eq_true_eq, hkept]
    rcases hk0.lt_or_eq with hk0 | hk0
    · have hp := loopsToFill_pos (d := d) hk0 (by omega)
      rw [firstForget, if_pos hp]
      rw [loopsToFill, if_pos ⟨hk0, by omega⟩, h6] at *
      rw [ceil_lt_iff hk0]
      exact ⟨fun h => h.1, fun h => ⟨h, by omega⟩⟩
    · have hf : firstForget d = 0 := by
        have hl : loopsToFill d = 0 := by rw [loopsToFill, if_neg (by omega)]
        rw [firstForget, hl, if_neg (by omega)]
      rw [hf, ← hk0]
      constructor
      · rintro ⟨_, h⟩; omega
      · intro h; omega

theorem setting_unique {name : String} {k k' : ℤ} (h : Setting cfg name k) (h' : Setting cfg name k') : k = k' := by
  obtain ⟨a, hg, ha⟩ := h
  obtain ⟨a', hg', ha'⟩ := h'
  have := given_unique hg hg'
  cases this
  cases ha <;> cases ha' <;> rfl

theorem setting_pos {n : ℕ} (hc : Acceptable n cfg) {name : String} (hn : name ∈ counts) {k : ℤ} (h : Setting cfg name k) : 1 ≤ k := by
  obtain ⟨a, k', hg, ha, hk⟩ := hc.counts name hn
  rw [setting_unique h ⟨a, hg, ha⟩]
  exact hk

/-! ### The property -/

/-- **C108 (partial: the window has to be in the file).**  A file that the sampler accepts is reported on, whatever the options are, and the report is about that run: the
samples of a loop, the room in the windows and every row of the table are those of the settings the sampler uses.  Missing: files that leave the window to its
default, see `C108_window_violated`. -/
theorem C108_accepted_partial (n : ℕ) (cfg : Cfg) (hc : Acceptable n cfg) (hw : "history_window" ∈ keys cfg) (parse : String → Option ℤ) (o : Options) (t : Training)
    (ht : Asks cfg t) :
    ∃ r, report parse o (some cfg) = .ok r ∧ r.keptTotal = t.chains * t.kept 1 ∧ r.capacity = t.chains * t.window ∧
      r.keptLocal + r.keptGlobal = r.keptTotal ∧ (r.trainsOnAll = some true ∨ r.trainsOnAll = some false) ∧
      (r.trainsOnAll = some true → ∀ l ∈ r.table, l.nTrain = l.candidates) ∧ ∀ l ∈ r.table, Right t l := by
  have hw' : (get? cfg "history_window").isSome = true := (mem_keys_iff cfg _).1 hw
  have hall : ∀ w ∈ wanted, w.1 ∈ counts := by decide +kernel
  obtain ⟨d, hd⟩ := numbers_exist (parse := parse) (cfg := cfg) (ws := wanted) fun w hw => by
    obtain ⟨a, k, hg, ha, hk⟩ := hc.counts _ (hall w hw)
    refine ⟨k, number_of_setting ⟨a, hg, ha⟩ ?_⟩
    by_cases hh : w.1 = "history_window"
    · exact .inr (by rw [hh]; exact hw')
    · exact .inl (fallback_wanted _ hw hh)
  have v : ∀ {name : String} {o : Option ℤ}, (name, o) ∈ wanted → ∀ {k : ℤ}, Setting cfg name k → val d name = k := fun hm _ hs => val_of_setting hd hm hs fun _ => hw'
  have p : ∀ {name : String}, name ∈ counts → ∀ {k : ℤ}, Setting cfg name k → 1 ≤ k := fun hm _ hs => setting_pos hc hm hs
  have v1 := v (name := "n_chains") (o := none) (by decide +kernel) ht.chains
  have v2 := v (name := "n_local_steps") (o := none) (by decide +kernel) ht.localSteps
  have v3 := v (name := "local_thinning") (o := none) (by decide +kernel) ht.localThinning
  have v4 := v (name := "n_global_steps") (o := none) (by decide +kernel) ht.globalSteps
  have v5 := v (name := "global_thinning") (o := none) (by decide +kernel) ht.globalThinning
  have v6 := v (name := "history_window") (o := none) (by decide +kernel) ht.window
  have v7 := v (name := "n_max_examples") (o := none) (by decide +kernel) ht.examples
  have p1 := p (by decide +kernel) ht.chains
  have p2 := p (by decide +kernel) ht.localSteps
  have p3 := p (by decide +kernel) ht.localThinning
  have p4 := p (by decide +kernel) ht.globalSteps
  have p5 := p (by decide +kernel) ht.globalThinning
  have p6 := p (by decide +kernel) ht.window
  have p7 := p (by decide +kernel) ht.examples
  have hright : ∀ l ∈ rows d o, Right t l := by
    intro l hl
    rw [rows, pyRange_one, loops] at hl
    obtain ⟨L, hL, rfl⟩ := List.mem_map.1 hl
    obtain ⟨i, _, rfl⟩ := List.mem_map.1 hL
    exact line_right v1 v2 v3 v4 v5 v6 v7 p1 p3 p5 p6 p7 p2 p4 (by omega)
  refine ⟨_, by rw [report, hd], ?_, ?_, ?_, ?_, ?_, hright⟩
  · dsimp only
    rw [keptTotal, keptPerChain, v1, v2, v3, v4, v5, max_eq_left p3, max_eq_left p5, Training.kept]; ring
  · dsimp only
    rw [capacity, v1, v6]; ring
  · dsimp only
    rw [keptTotal, keptPerChain]; ring
  · dsimp only
    rw [v7]
    split_ifs with h1 h2
    · exact .inr rfl
    · exact .inl rfl
    · omega
  · dsimp only
    intro h l hl
    have hr := hright l hl
    rw [v7, capacity, v6, v1] at h
    have hcap : t.window * t.chains ≤ t.examples := by
      split_ifs at h with h1 h2 <;> first | omega | simp at h
    rw [hr.nTrain, min_eq_left]
    rw [hr.candidates]
    calc t.chains * min (t.kept l.loop) t.window ≤ t.chains * t.window := Int.mul_le_mul_of_nonneg_left (min_le_right _ _) (by omega)
      _ ≤ t.examples := by rw [mul_comm]; exact hcap

/-- **C108 (errors).**  The report stops with `KeyError` for the first setting that is not in the file, and with exit status 1 if there is no file or it is not JSON. -/
theorem C108_missing (parse : String → Option ℤ) (o : Options) :
    report parse o none = .error (.exit 1) ∧
    ∀ (cfg : Cfg) (name : String), FirstMissing cfg ["n_chains", "n_local_steps", "local_thinning", "n_global_steps", "global_thinning", "history_window", "n_max_examples",
      "n_training_loops"] name → report parse o (some cfg) = .error (.key name) := by
  refine ⟨rfl, ?_⟩
  rintro cfg name ⟨before, after, he, hm, hb⟩
  have hw : wanted = before.map (·, none) ++ (name, none) :: (after.map (·, none) ++ [("n_production_loops", some 0), ("batch_size", none), ("n_epochs", none)]) := by
    have := congrArg (List.map fun s : String => (s, (none : Option ℤ))) he
    rw [List.map_append, List.map_cons] at this
    rw [← List.cons_append, ← List.append_assoc]
    exact (congrArg (· ++ [("n_production_loops", some (0 : ℤ)), ("batch_size", none), ("n_epochs", none)]) this)
  rw [report, hw, numbers_missing hm]
  intro w hw
  obtain ⟨m, hmem, rfl⟩ := List.mem_map.1 hw
  obtain ⟨a, k, hg, ha⟩ := hb m hmem
  exact ⟨k, by simp only [number, hg, pyInt_isInt ha]⟩

/-- The template without its window. -/
noncomputable def noWindow : Cfg := template.filter fun kv => kv.1 ≠ "history_window"

theorem get_filter (d : Cfg) (k name : String) : get? (d.filter fun kv => kv.1 ≠ k) name = if name = k then none else get? d name := by
  induction d with
  | nil => simp [get?]
  | cons kv rest ih =>
    rw [List.filter_cons]
    by_cases h1 : kv.1 = k
    · rw [if_neg (by simp [h1]), ih]
      by_cases h2 : name = k
      · rw [if_pos h2, if_pos h2]
      · rw [if_neg h2, if_neg h2, get?, if_neg (by rintro rfl; exact h2 h1)]
    · rw [if_pos (by simp [h1]), get?, get?]
      by_cases h2 : kv.1 = name
      · rw [if_pos h2, if_pos h2, if_neg (by rintro rfl; exact h1 h2)]
      · rw [if_neg h2, if_neg h2, ih]

theorem noWindow_get {name : String} (h : name ≠ "history_window") : get? noWindow name = get? template name := by
  rw [noWindow, get_filter, if_neg h]

theorem noWindow_none : get? noWindow "history_window" = none := by
  rw [noWindow, get_filter, if_pos rfl]

theorem noWindow_given {name : String} {v : JV} (h : name ≠ "history_window") (hg : Given template name v) : Given noWindow name v := by
  unfold Given at *
  rwa [noWindow_get h]

theorem noWindow_acceptable (n : ℕ) : Acceptable n noWindow := by
  have hT : Acceptable n template := template_acceptable (fun _ _ => rfl) rfl (.scalar (.float 1) one_pos)
  obtain ⟨h1, ⟨a, k, h2, h2'⟩, h3, ⟨s, h4, h4'⟩, ⟨v, M, h5, h5'⟩, ⟨as, h6, h6'⟩, ⟨w, h7, h7'⟩, ⟨b, h8⟩⟩ := hT
  refine ⟨?_, ⟨a, k, noWindow_given (by decide) h2, h2'⟩, ?_, ⟨s, noWindow_given (by decide) h4, h4'⟩, ⟨v, M, noWindow_given (by decide) h5, h5'⟩,
    ⟨as, noWindow_given (by decide) h6, h6'⟩, ⟨w, noWindow_given (by decide) h7, h7'⟩, ⟨b, noWindow_given (by decide) h8⟩⟩
  · intro name hname
    by_cases hh : name = "history_window"
    · subst hh
      exact ⟨_, 100, .inr ⟨noWindow_none, rfl⟩, .int _, by decide⟩
    · obtain ⟨a, k, hg, ha⟩ := h1 name hname
      exact ⟨a, k, noWindow_given hh hg, ha⟩
  · intro name hname
    obtain ⟨a, x, hg, ha⟩ := h3 name hname
    exact ⟨a, x, noWindow_given (by rintro rfl; revert hname; decide) hg, ha⟩

/-- **C108 (violated).**  The window may be left out of the settings, the sampler then uses 100; but the report on every such file fails. -/
theorem C108_window_violated (n : ℕ) :
    (∀ cfg : Cfg, Acceptable n cfg → "history_window" ∉ keys cfg → Setting cfg "history_window" 100 ∧
      ∀ parse o, report parse o (some cfg) = .error (.key "history_window")) ∧
    ∃ cfg : Cfg, Acceptable n cfg ∧ "history_window" ∉ keys cfg := by
  refine ⟨fun cfg hc hw => ?_, noWindow, noWindow_acceptable n, (get?_eq_none_iff _ _).1 noWindow_none⟩
  have hn : get? cfg "history_window" = none := (get?_eq_none_iff _ _).2 hw
  refine ⟨⟨_, .inr ⟨hn, rfl⟩, .int _⟩, fun parse o => (C108_missing parse o).2 cfg _
    ⟨["n_chains", "n_local_steps", "local_thinning", "n_global_steps", "global_thinning"], ["n_max_examples", "n_training_loops"], rfl, hn, ?_⟩⟩
  intro m hm
  have hm' : m ∈ counts ∧ fallback m = none := by
    simp only [List.mem_cons, List.not_mem_nil, or_false] at hm
    rcases hm with rfl | rfl | rfl | rfl | rfl <;> exact ⟨by decide +kernel, rfl⟩
  obtain ⟨a, k, hg, ha, -⟩ := hc.counts m hm'.1
  rcases hg with hg | ⟨-, hf⟩
  · exact ⟨a, k, hg, ha⟩
  · rw [hm'.2] at hf; cases hf

/-- **C108 (options).**  The table has the loops from the first on, never more than the training has; as many as asked for, and otherwise at least up to the first that is
marked "Forgetting".  The picture is drawn exactly if asked for, under the given name; it has every training loop once and in order, however short the table is, and the
numbers of the table. -/
theorem C108_loops (parse : String → Option ℤ) (o : Options) (cfg : Cfg) (r : Report) (h : report parse o (some cfg) = .ok r) (total : ℤ)
    (ht : Setting cfg "n_training_loops" total) :
    (∃ m : ℕ, r.table.map (·.loop) = loops m ∧ (m ≤ total.toNat) ∧ (0 ≤ o.maxLoops → m = (min o.maxLoops total).toNat) ∧
      (o.maxLoops < 0 → m < total.toNat → ∃ l ∈ r.table, l.forgetting = true)) ∧
    (o.plot = false → r.picture = none) ∧
    (o.plot = true → ∃ curve, r.picture = some (o.plotPath, curve) ∧ curve.map (·.1) = loops total.toNat ∧
      ∀ l ∈ r.table, (l.loop, l.candidates, l.nTrain) ∈ curve) := by
  obtain ⟨d, hd, h1, h2, -⟩ := report_ok h
  have hv : val d "n_training_loops" = total := val_of_setting hd (o := none) (by decide +kernel) ht fun h => absurd h (by decide)
  refine ⟨⟨(limit d o).toNat, ?_, ?_, ?_, ?_⟩, ?_, ?_⟩
  · rw [h1, rows, pyRange_one, List.map_map]
    exact List.map_id _
  · have := limit_le (d := d) o
    omega
  · intro h0
    rw [limit, if_neg (by omega), hv]
  · intro h0 hlt
    have hff : firstForget d ≠ 0 ∧ limit d o = firstForget d + 2 := by
      rw [limit, if_pos h0, hv] at hlt ⊢
      split_ifs at hlt ⊢ with hz
      · exact ⟨hz, by omega⟩
      · omega
    have hpos : 0 < firstForget d := by
      have : 0 ≤ firstForget d := by unfold firstForget; split_ifs <;> omega
      omega
    refine ⟨line d (firstForget d), ?_, ?_⟩
    · rw [h1, rows, pyRange_one, loops]
      refine List.mem_map_of_mem (List.mem_map.2 ⟨(firstForget d - 1).toNat, ?_, by omega⟩)
      rw [List.mem_range]
      omega
    · simp only [line, decide_eq_true_eq]
      omega
  · intro hp
    rw [h2, hp]
    rfl
  · intro hp
    refine ⟨points d o, by rw [h2, hp]; rfl, ?_, ?_⟩
    · rw [points_eq hp, hv, List.map_map]
      exact List.map_id _
    · intro l hl
      rw [h1, rows] at hl
      obtain ⟨L, hL, rfl⟩ := List.mem_map.1 hl
      exact List.mem_append_left _ (List.mem_map_of_mem hL)

/-- **C108 (notes).**  The epoch and the step where forgetting is said to start are those at the end of the first loop after which the windows are full; nothing is said if the
loops keep no samples.  The warning about the mass matrix is given exactly if the file has none. -/
theorem C108_notes (n : ℕ) (cfg : Cfg) (hc : Acceptable n cfg) (parse : String → Option ℤ) (o : Options) (t : Training) (ht : Asks cfg t) (epochs : ℤ)
    (he : Setting cfg "n_epochs" epochs) (r : Report) (h : report parse o (some cfg) = .ok r) :
    (0 < t.kept 1 → ∃ L, 1 ≤ L ∧ t.window ≤ t.kept L ∧ t.kept (L - 1) < t.window ∧ r.forgets = some (L * epochs, L * (t.localSteps + t.globalSteps))) ∧
    (t.kept 1 ≤ 0 → r.forgets = none) ∧ (r.warned = true ↔ "mass_matrix" ∉ keys cfg) := by
  rw [report] at h
  cases hd : numbers parse cfg wanted with
  | error e => rw [hd] at h; cases h
  | ok d =>
    rw [hd] at h
    cases h
    have v : ∀ {name : String} {o : Option ℤ}, (name, o) ∈ wanted → ∀ {k : ℤ}, Setting cfg name k → val d name = k := fun hm _ hs => val_of_setting hd hm hs fun _ => number_ok_window hd
    have v2 := v (name := "n_local_steps") (o := none) (by decide +kernel) ht.localSteps
    have v3 := v (name := "local_thinning") (o := none) (by decide +kernel) ht.localThinning
    have v4 := v (name := "n_global_steps") (o := none) (by decide +kernel) ht.globalSteps
    have v5 := v (name := "global_thinning") (o := none) (by decide +kernel) ht.globalThinning
    have v6 := v (name := "history_window") (o := none) (by decide +kernel) ht.window
    have v8 := v (name := "n_epochs") (o := none) (by decide +kernel) he
    have p3 := setting_pos hc (by decide +kernel) ht.localThinning
    have p5 := setting_pos hc (by decide +kernel) ht.globalThinning
    have p6 := setting_pos hc (by decide +kernel) ht.window
    have hk : keptPerChain d = t.localSteps / t.localThinning + t.globalSteps / t.globalThinning := by
      rw [keptPerChain, v2, v3, v4, v5, max_eq_left p3, max_eq_left p5]
    have hkept : ∀ L, t.kept L = L * keptPerChain d := fun L => by rw [hk]; rfl
    refine ⟨fun hpos => ?_, fun hz => ?_, ?_⟩
    · rw [hkept, one_mul] at hpos
      have hlp := loopsToFill_pos (d := d) hpos (by omega)
      have hc := (ceil_eq_iff (L := loopsToFill d) (w := t.window) hpos).1 (by rw [loopsToFill, if_pos ⟨hpos, by omega⟩, v6])
      refine ⟨loopsToFill d, by omega, by rw [hkept]; exact hc.1, by rw [hkept]; exact hc.2, ?_⟩
      dsimp only
      rw [if_pos (by rw [firstForget, if_pos hlp]; omega), v2, v4, v8, mul_add]
    · rw [hkept, one_mul] at hz
      dsimp only
      have hl : loopsToFill d = 0 := by rw [loopsToFill, if_neg (by omega)]
      rw [if_neg (by rw [firstForget, hl, if_neg (by omega)]; omega)]
    · dsimp only
      rw [← get?_eq_none_iff]
      simp

/-- **C108 (dimensions).**  The number of dimensions is that of the command line, else that of the file, else the length of the mass matrix; otherwise it is unknown.  Settings are
suggested exactly if it is positive. -/
theorem C108_dimensions (parse : String → Option ℤ) (o : Options) (cfg : Cfg) (r : Report) (h : report parse o (some cfg) = .ok r) :
    (∀ k, o.nDims = some k → r.nDims = k) ∧
    (o.nDims = none → ∀ a k, get? cfg "n_dims" = some (.atom a) → IsInt a k → r.nDims = k) ∧
    (o.nDims = none → get? cfg "n_dims" = none → (∀ items, get? cfg "mass_matrix" = some (.list items) → r.nDims = items.length) ∧
      ((∀ items, get? cfg "mass_matrix" ≠ some (.list items)) → r.nDims = 0)) ∧
    (r.suggestion.isSome = true ↔ 0 < r.nDims) := by
  obtain ⟨d, hd, -, -, h3, h4, -⟩ := report_ok h
  refine ⟨fun k hk => by rw [h3, hk]; rfl, fun hn a k ha hk => ?_, fun hn hf => ⟨fun items hi => ?_, fun hi => ?_⟩, ?_⟩
  · rw [h3, hn]
    simp only [inferNDims, ha, Option.map_some, pyInt_isInt hk]
  · rw [h3, hn]
    simp only [inferNDims, hf, Option.map_none, hi]
  · rw [h3, hn]
    simp only [inferNDims, hf, Option.map_none]
  · rw [h4]
    split_ifs with hp
    · simpa using hp
    · simpa using hp

/-- **C108 (dimensions of the run).**  For settings that the sampler accepts in `n` dimensions, with the mass matrix given as a diagonal or a matrix and without an override, the
report is about `n` dimensions. -/
theorem C108_dimensions_of_run (n : ℕ) (cfg : Cfg) (hc : Acceptable n cfg) (items : List Item) (hm : get? cfg "mass_matrix" = some (.list items)) (hd : "n_dims" ∉ keys cfg)
    (parse : String → Option ℤ) (o : Options) (ho : o.nDims = none) (r : Report) (h : report parse o (some cfg) = .ok r) : r.nDims = n := by
  obtain ⟨-, -, h3, -⟩ := C108_dimensions parse o cfg r h
  rw [(h3 ho ((get?_eq_none_iff _ _).2 hd)).1 items hm]
  obtain ⟨v, M, hg, hM⟩ := hc.mass
  cases given_unique hg (.inl hm)
  generalize hi : JV.list items = v at hM
  cases hM with
  | scalar ha hm => cases hi
  | diagonal hl hd hp => cases hi; simp [hl]
  | full hl hn hr hM hp => cases hi; simp [hl]
  | string s => cases hi

/-- **C108 (suggestions).**  The suggested window is a whole number of loops of the run, there are never more examples than it holds for all chains, the batch is between 1024 and 10000,
the training is at least four times as long as it takes to fill the window, and a larger number of dimensions never gets a smaller network or a shorter history. -/
theorem C108_suggestions (n : ℕ) (cfg : Cfg) (hc : Acceptable n cfg) (parse : String → Option ℤ) (o : Options) (t : Training) (ht : Asks cfg t) (r : Report)
    (h : report parse o (some cfg) = .ok r) (s : Suggestion) (hs : r.suggestion = some s) :
    s.window = t.kept s.historyLoops ∧ s.capacity = t.chains * s.window ∧ s.nMax ≤ s.capacity ∧ 1024 ≤ s.batchSize ∧ s.batchSize ≤ 10000 ∧
      4 * s.historyLoops ≤ s.trainingLoops ∧ 2 * s.historyLoops ≤ s.productionLoops ∧
      (∀ o' r' s', report parse o' (some cfg) = .ok r' → r'.suggestion = some s' → r.nDims ≤ r'.nDims →
        s.historyLoops ≤ s'.historyLoops ∧ s.layers ≤ s'.layers ∧ List.Forall₂ (· ≤ ·) s.hidden s'.hidden) := by
  obtain ⟨d, hd, -, -, h3, h4, -⟩ := report_ok h
  rw [hs] at h4
  have hpos : r.nDims > 0 := by
    by_contra hh
    rw [if_neg hh] at h4
    cases h4
  rw [if_pos hpos] at h4
  cases h4
  have v : ∀ {name : String} {o : Option ℤ}, (name, o) ∈ wanted → ∀ {k : ℤ}, Setting cfg name k → val d name = k := fun hm _ hs => val_of_setting hd hm hs fun _ => number_ok_window hd
  have v1 := v (name := "n_chains") (o := none) (by decide +kernel) ht.chains
  have v2 := v (name := "n_local_steps") (o := none) (by decide +kernel) ht.localSteps
  have v3 := v (name := "local_thinning") (o := none) (by decide +kernel) ht.localThinning
  have v4 := v (name := "n_global_steps") (o := none) (by decide +kernel) ht.globalSteps
  have v5 := v (name := "global_thinning") (o := none) (by decide +kernel) ht.globalThinning
  have p1 := setting_pos hc (by decide +kernel) ht.chains
  have p3 := setting_pos hc (by decide +kernel) ht.localThinning
  have p5 := setting_pos hc (by decide +kernel) ht.globalThinning
  have hk : keptPerChain d = t.localSteps / t.localThinning + t.globalSteps / t.globalThinning := by
    rw [keptPerChain, v2, v3, v4, v5, max_eq_left p3, max_eq_left p5]
  refine ⟨?_, ?_, ?_, ?_, ?_, ?_, ?_, ?_⟩
  · simp only [heuristics]
    rw [v1, max_eq_left p1, keptTotal, v1, Int.mul_ediv_cancel _ (by omega), hk, Training.kept]
  · simp only [heuristics]
    rw [v1, mul_comm]
  · simp only [heuristics]
    exact min_le_right _ _
  · simp only [heuristics]
    split_ifs <;> omega
  · simp only [heuristics]
    split_ifs <;> omega
  · simp only [heuristics]
    split_ifs <;> omega
  · simp only [heuristics]
    split_ifs <;> omega
  · intro o' r' s' h' hs' hle
    obtain ⟨d', -, -, -, -, h4', -⟩ := report_ok h'
    rw [hs', if_pos (by omega)] at h4'
    cases h4'
    simp only [heuristics]
    refine ⟨?_, ?_, .cons ?_ (.cons ?_ .nil)⟩ <;> split_ifs <;> omega

/-! ### Examples -/

/-- The run of the template. -/
def templateTraining : Training := ⟨10, 300, 1, 20, 1, 500, 100000, 15⟩

theorem template_asks : Asks template templateTraining :=
  ⟨⟨_, .inl rfl, .int _⟩, ⟨_, .inl rfl, .int _⟩, ⟨_, .inl rfl, .int _⟩, ⟨_, .inl rfl, .int _⟩, ⟨_, .inl rfl, .int _⟩, ⟨_, .inl rfl, .int _⟩, ⟨_, .inl rfl, .int _⟩,
    ⟨_, .inl rfl, .int _⟩⟩

theorem template_reported (parse : String → Option ℤ) (o : Options) : ∃ r, report parse o (some template) = .ok r := by
  obtain ⟨r, h, -⟩ := C108_accepted_partial 2 template (template_acceptable (fun _ _ => rfl) rfl (.scalar (.float 1) one_pos)) ((mem_keys_iff _ _).2 rfl) parse o _ template_asks
  exact ⟨r, h⟩

/-- The template is reported on.  Asked for a table of three loops and a picture, the picture has all 15 loops. -/
example (parse : String → Option ℤ) : ∃ r, report parse { maxLoops := 3, plot := true } (some template) = .ok r ∧ r.table.length = 3 ∧ r.nDims = 0 ∧
    ∃ curve, r.picture = some ("flowmc_history_plot.png", curve) ∧ curve.length = 15 := by
  obtain ⟨r, h⟩ := template_reported parse { maxLoops := 3, plot := true }
  obtain ⟨⟨m, h1, -, h2, -⟩, -, h3⟩ := C108_loops _ _ _ _ h 15 template_asks.trainingLoops
  obtain ⟨curve, hc, hl, -⟩ := h3 rfl
  obtain ⟨-, -, hd, -⟩ := C108_dimensions _ _ _ _ h
  refine ⟨r, h, ?_, ?_, curve, hc, ?_⟩
  · have := congrArg List.length h1
    rw [h2 (by decide)] at this
    simpa [loops] using this
  · refine (hd rfl rfl).2 fun items hi => ?_
    have : get? template "mass_matrix" = some (.atom (.float 1)) := rfl
    rw [this] at hi
    cases hi
  · have := congrArg List.length hl
    simpa [loops] using this

/-- With a diagonal of three numbers and the option left out, suggestions are made for three dimensions. -/
example (parse : String → Option ℤ) : ∃ r s, report parse {} (some (PyDict.set template "mass_matrix" (.list ([.int 2, .float (1 / 2), .int 1].map Item.atom)))) = .ok r ∧ r.nDims = 3 ∧
    r.suggestion = some s := by
  set cfg := PyDict.set template "mass_matrix" (.list ([.int 2, .float (1 / 2), .int 1].map Item.atom)) with hcfg
  have hne : ∀ name, name ≠ "mass_matrix" → get? cfg name = get? template name := fun name hn => get?_set_ne _ _ hn
  have hg : get? cfg "mass_matrix" = some (.list ([.int 2, .float (1 / 2), .int 1].map Item.atom)) := get?_set_self _ _ _
  have hacc : Acceptable 3 cfg := template_acceptable hne hg (M := .matrix (fun i j => if i = j then ![2, 1 / 2, 1] i else 0)) (by
    refine .diagonal rfl ?_ ?_
    · intro i
      fin_cases i
      · exact ⟨_, rfl, by simpa using IsNum.int (.int 2)⟩
      · exact ⟨_, rfl, .float _⟩
      · exact ⟨_, rfl, by simpa using IsNum.int (.int 1)⟩
    · intro i
      fin_cases i <;> norm_num)
  have hask : Asks cfg templateTraining := by
    have hs : ∀ {name k}, name ≠ "mass_matrix" → Setting template name k → Setting cfg name k := by
      rintro name k hn ⟨a, hga, ha⟩
      refine ⟨a, ?_, ha⟩
      unfold Given at *
      rwa [hne name hn]
    obtain ⟨a1, a2, a3, a4, a5, a6, a7, a8⟩ := template_asks
    exact ⟨hs (by decide) a1, hs (by decide) a2, hs (by decide) a3, hs (by decide) a4, hs (by decide) a5, hs (by decide) a6, hs (by decide) a7, hs (by decide) a8⟩
  have hw : "history_window" ∈ keys cfg := (mem_keys_iff _ _).2 (by rw [hne _ (by decide)]; rfl)
  obtain ⟨r, h, -⟩ := C108_accepted_partial 3 cfg hacc hw parse {} _ hask
  have hn : "n_dims" ∉ keys cfg := (get?_eq_none_iff _ _).1 (by rw [hne _ (by decide)]; rfl)
  have hd : r.nDims = 3 := C108_dimensions_of_run 3 cfg hacc _ hg hn parse {} rfl r h
  obtain ⟨-, -, -, hsug⟩ := C108_dimensions _ _ _ _ h
  obtain ⟨s, hs⟩ := Option.isSome_iff_exists.1 (hsug.2 (by rw [hd]; decide))
  exact ⟨r, s, h, hd, hs⟩

end GW.FlowInfo
