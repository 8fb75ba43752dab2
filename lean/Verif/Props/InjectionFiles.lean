import Verif.Props.InjectionPrior

/-!
# C46, C47: the parts of an injection file
-/

namespace GW.Injections
open GW XR GW.PyDict
open scoped Classical

/-- **C46.**  Without a threshold on the inverse false-alarm rate no finite rate of ordinary size makes an injection found: only an SNR can. -/
theorem C46_default_threshold {n : ℕ} (d : Data n) (hn : (keys d.cols).Nodup) (h : ∃ k ∈ keys d.cols, MentionsIfar k) (s : ℝ)
    (hname : d.name.isSome → "optimal_snr_net" ∈ keys d.cols) (hsmall : ∀ k c i, (k, c) ∈ d.cols → MentionsIfar k → ∃ r : ℝ, r ≤ 1e300 ∧ c i = fin r) :
    ∃ f, getFound d none (some s) = .ok f ∧ ∀ i, f i = true ↔ EarlyRun d s i ∨ Exceeds d "semianalytic_observed_phase_maximized_snr_net" s i := by
  obtain ⟨f, hf, hfi⟩ := C46_found_ifar d hn h 1e300 s hname
  refine ⟨f, hf, fun i => (hfi i).trans ⟨?_, Or.inr⟩⟩
  rintro (⟨k, hk, c, hc, hl⟩ | h)
  · obtain ⟨r, hr, e⟩ := hsmall k c i hc hk
    rw [e, lt_fin_fin] at hl
    exact absurd hl (not_lt.2 hr)
  · exact h

theorem contains_word {w : List Char} {s : List Char} : contains w s = true ↔ w <:+: s := by simp [contains]

theorem namesRate_iff {w : List Char} {word : String} (hw : word.toList = w) (key : String) : namesRate w key = true ↔ HasWord word key := by
  subst hw
  simp [namesRate, HasWord, startsWith, endsWith, contains, or_assoc]

theorem kept_iff (key : String) : keptKey key = true ↔ key ∈ readByName ∨ HasWord "far" key ∨ HasWord "ifar" key := by
  unfold keptKey
  rw [Bool.or_eq_true, Bool.or_eq_true, namesRate_iff (w := ['f', 'a', 'r']) (word := "far") (by decide +kernel),
    namesRate_iff (w := ['i', 'f', 'a', 'r']) (word := "ifar") (by decide +kernel), or_assoc]
  refine or_congr ?_ Iff.rfl
  rw [List.contains_iff_mem]
  exact (show keysOfInterest.Perm readByName by decide +kernel).mem_iff

theorem firstOf_head (attrs : Dict String ℝ) (ks : List String) (a : ℝ) (h : (ks.filterMap fun k => get? attrs k).head? = some a) : FirstOf attrs ks a := by
  induction ks with
  | nil => cases h
  | cons k ks ih =>
    cases hg : get? attrs k with
    | none =>
      rw [List.filterMap_cons, hg] at h
      exact .later _ _ _ ((get?_eq_none_iff _ _).1 hg) (ih h)
    | some v =>
      rw [List.filterMap_cons, hg] at h
      cases h
      exact .here _ _ _ (mem_of_get? hg)

/-- **C46.**  What is read before the selection.  The number of injections generated is the integer part of the attribute.  The analysis time is in Julian
years; in the "events" layout it is the first of three attributes, and one month stands for zero.  The "injections" layout gives every column of the group;
the "events" layout gives exactly the columns looked up by name and those naming a false-alarm rate or its inverse. -/
theorem C46_open {n : ℕ} (f : File n) (d : Data n) (total : ℤ) (years : ℝ) (h : openFile f = .ok (d, total, years)) :
    (∃ t, ("total_generated", t) ∈ f.attrs ∧ |(total : ℝ)| ≤ |t| ∧ |t - total| < 1 ∧ (0 ≤ t → 0 ≤ total) ∧ (t ≤ 0 → total ≤ 0)) ∧ d.name = f.name ∧
    ((f.layout = .injections ∧ d.cols = f.cols ∧ ∃ s, ("analysis_time_s", s) ∈ f.attrs ∧ years = s / 31557600) ∨
      (f.layout = .events ∧ (∀ k c, (k, c) ∈ d.cols ↔ (k, c) ∈ f.cols ∧ (k ∈ readByName ∨ HasWord "far" k ∨ HasWord "ifar" k)) ∧
        ∃ s, FirstOf f.attrs ["total_analysis_time", "analysis_time", "total_analysis_time_1ifo"] s ∧ (s ≠ 0 → years = s / 31557600) ∧ (s = 0 → years = 1 / 12))) := by
  have hsec : secondsPerYear = 31557600 := by unfold secondsPerYear; norm_num
  have hint : ∀ t : ℝ, |(pyInt t : ℝ)| ≤ |t| ∧ |t - pyInt t| < 1 ∧ (0 ≤ t → 0 ≤ pyInt t) ∧ (t ≤ 0 → pyInt t ≤ 0) := by
    intro t
    unfold pyInt
    split_ifs with h0
    · have h1 := Int.floor_le t
      have h2 := Int.lt_floor_add_one t
      have h3 : (0 : ℝ) ≤ (⌊t⌋ : ℝ) := by exact_mod_cast Int.floor_nonneg.2 h0
      refine ⟨by rw [abs_of_nonneg h3, abs_of_nonneg h0]; exact h1, by rw [abs_lt]; constructor <;> linarith, fun _ => Int.floor_nonneg.2 h0, fun h => ?_⟩
      have : (⌊t⌋ : ℝ) ≤ 0 := by linarith
      exact_mod_cast this
    · have h0 : t < 0 := not_le.1 h0
      have h1 := Int.le_ceil t
      have h2 := Int.ceil_lt_add_one t
      have h3 : ⌈t⌉ ≤ 0 := Int.ceil_le.2 (by exact_mod_cast h0.le)
      have h3' : (⌈t⌉ : ℝ) ≤ 0 := by exact_mod_cast h3
      refine ⟨by rw [abs_of_nonpos h3', abs_of_neg h0]; linarith, by rw [abs_lt]; constructor <;> linarith, fun h => absurd h (not_le.2 h0), fun _ => h3⟩
  unfold openFile at h
  cases hl : f.layout with
  | injections =>
    rw [hl] at h
    simp only at h
    cases ht : get? f.attrs "total_generated" with
    | none => rw [ht] at h; cases h
    | some t =>
      cases ha : get? f.attrs "analysis_time_s" with
      | none => rw [ht, ha] at h; cases h
      | some a =>
        rw [ht, ha] at h
        cases h
        exact ⟨⟨t, mem_of_get? ht, hint t⟩, rfl, Or.inl ⟨rfl, rfl, a, mem_of_get? ha, by rw [hsec]⟩⟩
  | events =>
    rw [hl] at h
    simp only at h
    cases ht : get? f.attrs "total_generated" with
    | none => rw [ht] at h; cases h
    | some t =>
      rw [ht] at h
      simp only at h
      cases ha : (["total_analysis_time", "analysis_time", "total_analysis_time_1ifo"].filterMap fun k => get? f.attrs k).head? with
      | none => rw [ha] at h; cases h
      | some a =>
        rw [ha] at h
        injection h with h
        rw [Prod.mk.injEq, Prod.mk.injEq] at h
        obtain ⟨rfl, rfl, hy⟩ := h
        refine ⟨⟨t, mem_of_get? ht, hint t⟩, rfl, Or.inr ⟨rfl, ?_, a, firstOf_head _ _ _ ha, ?_, ?_⟩⟩
        · intro k c
          rw [List.mem_filter, kept_iff]
        · intro h0
          rw [← hy, if_neg (div_ne_zero h0 (by rw [hsec]; norm_num)), hsec]
        · rintro rfl
          rw [← hy, if_pos (zero_div _)]
  | unknown =>
    rw [hl] at h
    cases h

/-- **C46.**  The spin magnitude of a row is the Euclidean length of the spin vector; the cosine of the tilt is the third component over that length, so
between −1 and 1; and it is NaN for a spin of length zero. -/
theorem C46_spin_vector (x y z : ℝ) :
    spinMagnitude (fin x) (fin y) (fin z) = fin ‖!₂[x, y, z]‖ ∧
    ((x, y, z) ≠ (0, 0, 0) → ∃ c, fin z / spinMagnitude (fin x) (fin y) (fin z) = fin c ∧ c * ‖!₂[x, y, z]‖ = z ∧ |c| ≤ 1) ∧
    ((x, y, z) = (0, 0, 0) → fin z / spinMagnitude (fin x) (fin y) (fin z) = nan) := by
  have hn : ‖!₂[x, y, z]‖ = Real.sqrt (x * x + y * y + z * z) := by
    rw [EuclideanSpace.norm_eq]
    congr 1
    simp [Fin.sum_univ_three, sq]
  have hm : spinMagnitude (fin x) (fin y) (fin z) = fin ‖!₂[x, y, z]‖ := by
    rw [hn]
    unfold spinMagnitude
    rw [square, square, square, mul_fin_fin, mul_fin_fin, mul_fin_fin, add_fin_fin, add_fin_fin, sqrt_fin (by nlinarith [mul_self_nonneg x, mul_self_nonneg y, mul_self_nonneg z])]
  refine ⟨hm, fun h => ?_, fun h => ?_⟩
  · have hpos : 0 < x * x + y * y + z * z := by
      by_contra h0
      have hx : x = 0 := by nlinarith [mul_self_nonneg x, mul_self_nonneg y, mul_self_nonneg z]
      have hy : y = 0 := by nlinarith [mul_self_nonneg x, mul_self_nonneg y, mul_self_nonneg z]
      have hz : z = 0 := by nlinarith [mul_self_nonneg x, mul_self_nonneg y, mul_self_nonneg z]
      exact h (by rw [hx, hy, hz])
    have hs : 0 < ‖!₂[x, y, z]‖ := by rw [hn]; exact Real.sqrt_pos.2 hpos
    refine ⟨z / ‖!₂[x, y, z]‖, by rw [hm, div_fin_of_ne _ hs.ne'], div_mul_cancel₀ _ hs.ne', ?_⟩
    rw [abs_div, abs_of_pos hs, div_le_one hs, hn]
    refine Real.abs_le_sqrt ?_
    nlinarith [mul_self_nonneg x, mul_self_nonneg y]
  · simp only [Prod.mk.injEq] at h
    obtain ⟨rfl, rfl, rfl⟩ := h
    rw [hm, hn]
    simp [div_fin_fin, mulInf]

/-- **C46.**  The density is divided by the column "weights_1ifo" for single-detector files (which must have it), else by the column "weights", else by 1. -/
theorem C46_weights {n : ℕ} (f : File n) (d : Data n) (hn : (keys d.cols).Nodup) :
    (f.oneIfo = true → ∀ c, ("weights_1ifo", c) ∈ d.cols → weights f d = .ok c) ∧ (f.oneIfo = true → "weights_1ifo" ∉ keys d.cols → weights f d = .error .keyError) ∧
    (f.oneIfo = false → ∀ c, ("weights", c) ∈ d.cols → weights f d = .ok c) ∧ (f.oneIfo = false → "weights" ∉ keys d.cols → weights f d = .ok fun _ => fin 1) := by
  unfold weights column
  refine ⟨fun h c hc => ?_, fun h hc => ?_, fun h c hc => ?_, fun h hc => ?_⟩
  · rw [if_pos h, get?_of_mem hn hc]
  · rw [if_pos h, (get?_eq_none_iff _ _).2 hc]
  · rw [if_neg (by rw [h]; exact Bool.false_ne_true), get?_of_mem hn hc]
  · rw [if_neg (by rw [h]; exact Bool.false_ne_true), (get?_eq_none_iff _ _).2 hc]

/-- **C47.**  For a model in the coordinates the injections are generated in, the sample has, in the requested order, the values called by those names, and the
density is unchanged. -/
theorem C47_plain (e : Env) (ps : List String) (r : Row) (v : String → XR)
    (hv : v "mass_1_source" = r.m1 ∧ v "mass_2_source" = r.m2 ∧ v "redshift" = r.z ∧ v "a_1" = r.a1 ∧ v "a_2" = r.a2 ∧ v "cos_tilt_1" = r.c1 ∧ v "cos_tilt_2" = r.c2)
    (hps : ∀ p ∈ ps, p ∈ ["mass_1_source", "mass_2_source", "redshift", "a_1", "a_2", "cos_tilt_1", "cos_tilt_2"]) :
    prepare e ps r = .ok (ps.map v, log r.prior) := by
  have hno : ∀ p, p ∉ ["mass_1_source", "mass_2_source", "redshift", "a_1", "a_2", "cos_tilt_1", "cos_tilt_2"] → ps.contains p = false := by
    intro p hp
    rw [Bool.eq_false_iff]
    exact fun h => hp (hps p (List.contains_iff_mem.1 h))
  have ha : applyPrior e ps r = .ok r := by
    simp only [applyPrior, stepRatio, stepChirp, stepEffective, stepChi1, stepChi2, stepDetected1, stepDetected2, stepChirpDetected, stepDistance,
      hno "mass_ratio" (by decide +kernel), hno "chirp_mass" (by decide +kernel), hno "chi_eff" (by decide +kernel), hno "chi_1" (by decide +kernel),
      hno "chi_2" (by decide +kernel), hno "mass_1" (by decide +kernel), hno "mass_2" (by decide +kernel), hno "chirp_mass_detector" (by decide +kernel),
      hno "luminosity_distance" (by decide +kernel), Bool.false_eq_true, if_false, bind, Except.bind]
  have hmap : ∀ l : List String, (∀ p ∈ l, p ∈ ["mass_1_source", "mass_2_source", "redshift", "a_1", "a_2", "cos_tilt_1", "cos_tilt_2"]) →
      (l.mapM fun p => need (r.entry p)) = .ok (l.map v) := by
    intro l
    induction l with
    | nil => intro _; rfl
    | cons p l ih =>
      intro hl
      have hp := hl p (by simp)
      have he : r.entry p = some (v p) := by
        simp only [List.mem_cons, List.not_mem_nil, or_false] at hp
        obtain ⟨v1, v2, v3, v4, v5, v6, v7⟩ := hv
        rcases hp with rfl | rfl | rfl | rfl | rfl | rfl | rfl <;> simp [Row.entry, v1, v2, v3, v4, v5, v6, v7]
      rw [List.mapM_cons, he, ih fun q hq => hl q (List.mem_cons_of_mem _ hq)]
      rfl
  unfold prepare
  rw [ha]
  simp only [bind, Except.bind]
  rw [hmap ps hps]

/-! ## Non-vacuity -/

/-- A file in the "events" layout, with a false-alarm rate, a column that is not copied, and no analysis time recorded. -/
noncomputable def eventsFile : File 2 where
  layout := .events
  cols := [("mass1_source", ![fin 30, fin 20]), ("gstlal_far", ![fin 1, fin 2]), ("pycbc_ifar", ![fin 3, fin 4]), ("comment", ![fin 0, fin 0])]
  name := none
  attrs := [("total_generated", 7 / 2), ("analysis_time", 0)]
  oneIfo := false

example : ∃ d total years, openFile eventsFile = .ok (d, total, years) ∧ total = 3 ∧ years = 1 / 12 ∧ ("pycbc_ifar", ![fin 3, fin 4]) ∈ d.cols ∧
    "comment" ∉ keys d.cols := by
  have ho : openFile eventsFile = .ok (⟨eventsFile.cols.filter fun p => keptKey p.1, none, false⟩, pyInt (7 / 2), if (0 : ℝ) / secondsPerYear = 0 then 1 / 12 else 0 / secondsPerYear) := by
    unfold openFile
    rfl
  obtain ⟨⟨t, h1, h2, h3, h4, h5⟩, -, hc⟩ := C46_open _ _ _ _ ho
  refine ⟨_, _, _, ho, ?_, by simp, ?_, ?_⟩
  · unfold pyInt
    rw [if_pos (by norm_num), Int.floor_eq_iff]
    norm_num
  · rcases hc with ⟨h, -⟩ | ⟨-, hc, -⟩
    · cases h
    · exact (hc _ _).2 ⟨by simp [eventsFile], Or.inr (Or.inr (Or.inr (Or.inl (by decide +kernel))))⟩
  · rcases hc with ⟨h, -⟩ | ⟨-, hc, -⟩
    · cases h
    · intro hk
      obtain ⟨⟨k, c⟩, hm, rfl⟩ := List.mem_map.1 hk
      rcases ((hc _ _).1 hm).2 with h | h | h
      · revert h; decide +kernel
      · revert h; unfold HasWord; decide +kernel
      · revert h; unfold HasWord; decide +kernel

/-- Two spins, the second aligned and out of order. -/
example (e : Env) : prepare e ["redshift", "a_2", "a_1"] (startRow 30 15 1 (1 / 2) (1 / 4) 1 1 2) = .ok ([fin 1, fin (1 / 4), fin (1 / 2)], log (fin 2)) := by
  have := C47_plain e ["redshift", "a_2", "a_1"] (startRow 30 15 1 (1 / 2) (1 / 4) 1 1 2)
    (fun p => if p = "mass_1_source" then fin 30 else if p = "mass_2_source" then fin 15 else if p = "redshift" then fin 1 else if p = "a_1" then fin (1 / 2) else
      if p = "a_2" then fin (1 / 4) else fin 1) (by simp [startRow]) (by decide +kernel)
  simpa [startRow] using this

/-- A file with inverse rates below the default threshold, of which one row has a large SNR. -/
example : ∃ f, getFound (n := 2) ⟨[("ifar_gstlal", ![fin 5, fin 1000]), ("semianalytic_observed_phase_maximized_snr_net", ![fin 20, fin 3])], none, true⟩ none (some 10) = .ok f ∧
    f 0 = true ∧ f 1 = false := by
  obtain ⟨f, hf, h⟩ := C46_default_threshold (n := 2) ⟨[("ifar_gstlal", ![fin 5, fin 1000]), ("semianalytic_observed_phase_maximized_snr_net", ![fin 20, fin 3])], none, true⟩
    (by simp [keys]) ⟨"ifar_gstlal", by simp [keys], by unfold MentionsIfar; decide +kernel⟩ 10 (by simp) (by
      intro k c i hc hk
      simp only [List.mem_cons, Prod.mk.injEq, List.not_mem_nil, or_false] at hc
      rcases hc with ⟨rfl, rfl⟩ | ⟨rfl, rfl⟩
      · fin_cases i
        · exact ⟨5, by norm_num, rfl⟩
        · exact ⟨1000, by norm_num, rfl⟩
      · exact absurd hk (by unfold MentionsIfar; decide +kernel))
  refine ⟨f, hf, (h 0).2 (Or.inr ⟨![fin 20, fin 3], by simp, by simp only [Matrix.cons_val_zero, lt_fin_fin]; norm_num⟩), ?_⟩
  rw [Bool.eq_false_iff]
  intro h1
  rcases (h 1).1 h1 with ⟨nm, hnm, -⟩ | ⟨c, hc, hl⟩
  · cases hnm
  · simp at hc
    subst hc
    simp only [Matrix.cons_val_one, Matrix.cons_val_fin_one, lt_fin_fin] at hl
    norm_num at hl

end GW.Injections
