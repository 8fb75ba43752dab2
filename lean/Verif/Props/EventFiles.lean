import Verif.Spec.Events
import Verif.Lemmas.PyDict
import Verif.Lemmas.XR

/-!
# C56: reading event files
-/

namespace GW.Events
open GW XR GW.PyDict

/-! ## Helpers -/

theorem bind_ok {α β : Type} {x : Except Err α} {g : α → Except Err β} {y : β} (h : x.bind g = .ok y) : ∃ a, x = .ok a ∧ g a = .ok y := by
  cases x with
  | error err => cases h
  | ok a => exact ⟨a, rfl, h⟩

theorem filterMap_get {α : Type} (l : List α) (idx : List ℕ) (h : ∀ i ∈ idx, i < l.length) : (idx.filterMap (l[·]?)).map some = idx.map (l[·]?) := by
  induction idx with
  | nil => rfl
  | cons i idx ih =>
    have hi := h i (by simp)
    rw [List.filterMap_cons, List.getElem?_eq_getElem hi]
    simp only [List.map_cons, List.getElem?_eq_getElem hi]
    rw [ih fun j hj => h j (List.mem_cons_of_mem _ hj)]

theorem map_get_range {α : Type} (l : List α) : (List.range l.length).map (l[·]?) = l.map some := by
  apply List.ext_getElem
  · simp
  · intro i h1 h2
    simp at h1 h2
    simp [h2]

/-- The positions the sub-sampled rows come from. -/
theorem subsample_spec (L : Loader) {pick : ℕ → ℕ → ℕ → List ℕ} (hp : IsChoice pick) (df : Frame) (seed : ℕ) :
    (subsample L pick df seed).columns = df.columns ∧ ∃ idx : List ℕ, idx.Nodup ∧ (∀ i ∈ idx, i < df.rows.length) ∧
      (match L.maxSamples with | none => idx.length = df.rows.length | some n => idx.length = min n df.rows.length) ∧
      (subsample L pick df seed).rows.map some = idx.map (df.rows[·]?) := by
  unfold subsample
  cases hm : L.maxSamples with
  | none => exact ⟨rfl, List.range df.rows.length, List.nodup_range, fun i hi => List.mem_range.1 hi, by simp, (map_get_range _).symm⟩
  | some n =>
    by_cases hn : df.rows.length ≤ n
    · simp only [if_pos hn]
      exact ⟨trivial, List.range df.rows.length, List.nodup_range, fun i hi => List.mem_range.1 hi, by simp [hn], (map_get_range _).symm⟩
    · simp only [if_neg hn]
      obtain ⟨h1, h2, h3⟩ := hp seed df.rows.length n (by omega)
      exact ⟨trivial, _, h2, h3, by rw [h1]; omega, filterMap_get _ _ h3⟩

theorem logPrior_columns {L : Loader} {e : Env} {ps : List String} {df df' : Frame} (h : df'.columns = df.columns) : logPrior L e ps df' = logPrior L e ps df := by
  obtain ⟨c, r⟩ := df
  obtain ⟨c', r'⟩ := df'
  subst h
  rfl

theorem loadEvent_spec {L : Loader} {e : Env} {pick : ℕ → ℕ → ℕ → List ℕ} (hp : IsChoice pick) {ps : List String} {df : Frame} {seed : ℕ} {data : List (List XR)} {lp : List XR}
    (h : loadEvent L e pick ps df seed = .ok (data, lp)) : EventResult L e ps df data lp := by
  unfold loadEvent at h
  obtain ⟨u, hv, h⟩ := bind_ok h
  obtain ⟨f, hf, h⟩ := bind_ok h
  obtain ⟨hc, idx, h1, h2, h3, h4⟩ := subsample_spec L hp df seed
  rw [logPrior_columns hc] at hf
  injection h with h
  injection h with ha hb
  refine ⟨idx, f, h1, h2, h3, ?_, hf, ?_, ?_⟩
  · unfold validateColumns at hv
    by_cases hall : (ps.map L.name).all (df.columns.contains ·) = true
    · intro p hp
      rw [List.all_eq_true] at hall
      exact List.contains_iff_mem.1 (hall _ (List.mem_map_of_mem hp))
    · rw [if_neg hall] at hv
      cases hv
  · rw [← ha, List.map_map]
    have := congrArg (List.map (Option.map fun r : Rec => ps.map fun p => r (L.name p))) h4
    rw [List.map_map, List.map_map] at this
    exact this
  · rw [← hb, List.map_map]
    have := congrArg (List.map (Option.map f)) h4
    rw [List.map_map, List.map_map] at this
    exact this

/-! ## C56 -/

/-- **C56.**  A loader made from a configuration has the matching files, each as often as `glob` returned it, in sorted order; there is at least one.  The
limit on the samples, if any, is positive. -/
theorem C56_from_json (glob : String → List String) (raw : Option (Dict String Json)) (L : Loader) (h : fromJson glob raw = .ok L) :
    ∃ d regex, raw = some d ∧ get? d "regex" = some (.str regex) ∧ L.filenames.Perm (glob regex) ∧ L.filenames.Pairwise (· ≤ ·) ∧ L.filenames ≠ [] ∧
      (∀ n, L.maxSamples = some n → 0 < n) := by
  unfold fromJson at h
  cases raw with
  | none => cases h
  | some d =>
    simp only at h
    cases hr : get? d "regex" with
    | none => rw [hr] at h; cases h
    | some j =>
      rw [hr] at h
      cases j with
      | null => cases h
      | num n => cases h
      | obj o => cases h
      | str regex =>
        simp only at h
        by_cases h0 : ((glob regex).insertionSort (· ≤ ·)).length = 0
        · rw [if_pos h0] at h; cases h
        · rw [if_neg h0] at h
          by_cases h1 : (get? d "filenames").isSome
          · rw [if_pos h1] at h; cases h
          · rw [if_neg h1] at h
            obtain ⟨a, ha, h⟩ := bind_ok h
            obtain ⟨n, hn, h⟩ := bind_ok h
            obtain ⟨m, hm, h⟩ := bind_ok h
            obtain ⟨s, hs, h⟩ := bind_ok h
            obtain ⟨dp, hd, h⟩ := bind_ok h
            injection h with h
            subst h
            refine ⟨d, regex, rfl, hr, List.perm_insertionSort _ _, List.pairwise_insertionSort _ _, fun hh => h0 (by simp only at hh; rw [hh]; rfl), ?_⟩
            intro k hk
            simp only at hk
            subst hk
            unfold parseMax at hn
            split at hn
            · cases hn
            · cases hn
            · split_ifs at hn with hpos
              injection hn with hn
              injection hn with hn
              omega
            · cases hn

/-- **C56.**  The fields of the loader are those of the configuration: the aliases, the limit and the named reference priors, each absent when its key is
absent or null. -/
theorem C56_from_json_fields (glob : String → List String) (d : Dict String Json) (L : Loader) (h : fromJson glob (some d) = .ok L) :
    ((get? d "parameter_aliases" = none ∧ L.aliases = []) ∨ get? d "parameter_aliases" = some (.obj L.aliases)) ∧
    (∀ n, L.maxSamples = some n ↔ get? d "max_samples" = some (.num n)) ∧
    (L.massPrior = some .detectorComponents ↔ get? d "mass_prior" = some (.str "flat-detector-components")) ∧
    (L.massPrior = some .detectorChirpRatio ↔ get? d "mass_prior" = some (.str "flat-detector-chirp-mass-ratio")) ∧
    (L.massPrior = some .sourceComponents ↔ get? d "mass_prior" = some (.str "flat-source-components")) ∧
    (L.massPrior = none ↔ get? d "mass_prior" = none ∨ get? d "mass_prior" = some .null) ∧
    (L.spinComponent = true ↔ get? d "spin_prior" = some (.str "component")) ∧
    (L.distancePrior = some .comoving ↔ get? d "distance_prior" = some (.str "comoving")) ∧
    (L.distancePrior = some .euclidean ↔ get? d "distance_prior" = some (.str "euclidean")) ∧
    (L.distancePrior = none ↔ get? d "distance_prior" = none ∨ get? d "distance_prior" = some .null) := by
  unfold fromJson at h
  simp only at h
  cases hr : get? d "regex" with
  | none => rw [hr] at h; cases h
  | some j =>
    rw [hr] at h
    cases j with
    | null => cases h
    | num n => cases h
    | obj o => cases h
    | str regex =>
      simp only at h
      by_cases h0 : ((glob regex).insertionSort (· ≤ ·)).length = 0
      · rw [if_pos h0] at h; cases h
      · rw [if_neg h0] at h
        by_cases h1 : (get? d "filenames").isSome
        · rw [if_pos h1] at h; cases h
        · rw [if_neg h1] at h
          obtain ⟨a, ha, h⟩ := bind_ok h
          obtain ⟨n, hn, h⟩ := bind_ok h
          obtain ⟨m, hm, h⟩ := bind_ok h
          obtain ⟨s, hs, h⟩ := bind_ok h
          obtain ⟨dp, hd, h⟩ := bind_ok h
          injection h with h
          subst h
          simp only
          have e1 : (get? d "parameter_aliases" = none ∧ a = []) ∨ get? d "parameter_aliases" = some (.obj a) := by
            unfold parseAliases at ha
            split at ha <;> rename_i hk <;> cases ha
            · exact Or.inl ⟨hk, rfl⟩
            · exact Or.inr hk
          have e2 : ∀ k : ℕ, n = some k ↔ get? d "max_samples" = some (.num k) := by
            intro k
            unfold parseMax at hn
            split at hn <;> rename_i hk
            · cases hn; simp [hk]
            · cases hn; simp [hk]
            · split_ifs at hn with hpos
              cases hn
              rw [hk]
              simp only [Option.some.injEq, Json.num.injEq]
              omega
            · cases hn
          have e3 : (m = some .detectorComponents ↔ get? d "mass_prior" = some (.str "flat-detector-components")) ∧
              (m = some .detectorChirpRatio ↔ get? d "mass_prior" = some (.str "flat-detector-chirp-mass-ratio")) ∧
              (m = some .sourceComponents ↔ get? d "mass_prior" = some (.str "flat-source-components")) ∧
              (m = none ↔ get? d "mass_prior" = none ∨ get? d "mass_prior" = some .null) := by
            unfold parseMass at hm
            split at hm <;> rename_i hk <;> cases hm <;> simp [hk]
          have e4 : s = true ↔ get? d "spin_prior" = some (.str "component") := by
            unfold parseSpin at hs
            split at hs <;> rename_i hk <;> cases hs <;> simp [hk]
          have e5 : (dp = some .comoving ↔ get? d "distance_prior" = some (.str "comoving")) ∧
              (dp = some .euclidean ↔ get? d "distance_prior" = some (.str "euclidean")) ∧
              (dp = none ↔ get? d "distance_prior" = none ∨ get? d "distance_prior" = some .null) := by
            unfold parseDistance at hd
            split at hd <;> rename_i hk <;> cases hd <;> simp [hk]
          exact ⟨e1, e2, e3.1, e3.2.1, e3.2.2.1, e3.2.2.2, e4, e5⟩

/-- **C56, error branches.**  No `regex`, no matching file, or a limit that is not positive raise. -/
theorem C56_from_json_raises (glob : String → List String) (d : Dict String Json) :
    fromJson glob none = .error .valueError ∧ (get? d "regex" = none → fromJson glob (some d) = .error .keyError) ∧
      (∀ regex, get? d "regex" = some (.str regex) → glob regex = [] → fromJson glob (some d) = .error .fileNotFound) ∧
      (∀ n, get? d "max_samples" = some (.num n) → n ≤ 0 → ∃ err, fromJson glob (some d) = .error err) := by
  refine ⟨rfl, fun h => ?_, fun regex h h0 => ?_, fun n h hn => ?_⟩
  · unfold fromJson
    simp only [h]
  · unfold fromJson
    simp only [h, h0]
    rfl
  · cases hr : fromJson glob (some d) with
    | error err => exact ⟨err, rfl⟩
    | ok L =>
      exfalso
      unfold fromJson at hr
      simp only at hr
      split at hr
      · cases hr
      · split_ifs at hr
        obtain ⟨a, ha, hr⟩ := bind_ok hr
        obtain ⟨k, hk, hr⟩ := bind_ok hr
        rw [h] at hk
        unfold parseMax at hk
        simp only at hk
        rw [if_neg (by omega)] at hk
        cases hk
      · cases hr

/-- **C56.**  When reading succeeds there is one array of samples and one array of log priors for each file, in the order of the files; the samples of a
file are distinct rows of that file, at most as many as the limit (and all of them when the file is not longer), every requested parameter taken from its
column of the same row; and the log priors are those of the same rows in the same order. -/
theorem C56_load (L : Loader) (e : Env) (read : String → Option Frame) (pick : ℕ → ℕ → ℕ → List ℕ) (hp : IsChoice pick) (ps : List String) (seed : ℕ)
    (datas : List (List (List XR))) (lps : List (List XR)) (h : load L e read pick ps seed = .ok (datas, lps)) :
    datas.length = L.filenames.length ∧ lps.length = L.filenames.length ∧
      ∀ (i : ℕ) (hi : i < L.filenames.length), ∃ df data lp, read L.filenames[i] = some df ∧ datas[i]? = some data ∧ lps[i]? = some lp ∧ EventResult L e ps df data lp := by
  unfold load at h
  generalize 0 = k at h
  generalize L.filenames = files at h
  induction files generalizing k datas lps with
  | nil =>
    injection h with h
    injection h with h1 h2
    subst h1 h2
    exact ⟨rfl, rfl, fun i hi => absurd hi (by simp)⟩
  | cons event rest ih =>
    unfold loadFrom at h
    cases hr : read event with
    | none => rw [hr] at h; cases h
    | some df =>
      rw [hr] at h
      obtain ⟨⟨data, lp⟩, hx, h⟩ := bind_ok h
      obtain ⟨⟨ds, ls⟩, hy, h⟩ := bind_ok h
      injection h with h
      injection h with h1 h2
      subst h1 h2
      obtain ⟨g1, g2, g3⟩ := ih _ _ _ hy
      refine ⟨by simp [g1], by simp [g2], ?_⟩
      intro i hi
      cases i with
      | zero => exact ⟨df, data, lp, hr, rfl, rfl, loadEvent_spec hp hx⟩
      | succ i =>
        obtain ⟨df', data', lp', k1, k2, k3, k4⟩ := g3 i (by simpa using hi)
        exact ⟨df', data', lp', by simpa using k1, by simpa using k2, by simpa using k3, k4⟩

/-- **C56.**  A file longer than the limit is sub-sampled with a seed of its own, the given seed plus the file's number, so that different events (of any
lengths) do not share a random state. -/
theorem C56_own_seed (L : Loader) (e : Env) (read : String → Option Frame) (pick : ℕ → ℕ → ℕ → List ℕ) (hp : IsChoice pick) (ps : List String) (seed n : ℕ)
    (datas : List (List (List XR))) (lps : List (List XR)) (hmax : L.maxSamples = some n) (h : load L e read pick ps seed = .ok (datas, lps))
    (i : ℕ) (hi : i < L.filenames.length) (df : Frame) (hdf : read L.filenames[i] = some df) (hlen : n < df.rows.length) (data : List (List XR)) (hdata : datas[i]? = some data) :
    data.map some = (pick (seed + i) df.rows.length n).map fun j => df.rows[j]?.map fun r => ps.map fun p => r (L.name p) := by
  have key : ∀ (files : List String) (k : ℕ) (datas : List (List (List XR))) (lps : List (List XR)), loadFrom L e read pick ps seed k files = .ok (datas, lps) →
      ∀ (i : ℕ) (hi : i < files.length) (df : Frame), read files[i] = some df → n < df.rows.length → ∀ data, datas[i]? = some data →
        data.map some = (pick (seed + (k + i)) df.rows.length n).map fun j => df.rows[j]?.map fun r => ps.map fun p => r (L.name p) := by
    intro files
    induction files with
    | nil => intro k datas lps _ i hi; exact absurd hi (by simp)
    | cons event rest ih =>
      intro k datas lps h i hi df' hdf' hlen data' hdata'
      unfold loadFrom at h
      cases hr : read event with
      | none => rw [hr] at h; cases h
      | some df =>
        rw [hr] at h
        obtain ⟨⟨data, lp⟩, hx, h⟩ := bind_ok h
        obtain ⟨⟨ds, ls⟩, hy, h⟩ := bind_ok h
        injection h with h
        injection h with h1 h2
        subst h1 h2
        cases i with
        | zero =>
          simp only [List.getElem_cons_zero] at hdf'
          rw [hr] at hdf'
          cases hdf'
          simp only [List.getElem?_cons_zero, Option.some.injEq] at hdata'
          subst hdata'
          unfold loadEvent at hx
          obtain ⟨u, hv, hx⟩ := bind_ok hx
          obtain ⟨f, hf, hx⟩ := bind_ok hx
          injection hx with hx
          injection hx with ha hb
          rw [← ha, subsample, hmax]
          simp only [if_neg (not_le.2 hlen)]
          have := congrArg (List.map (Option.map fun r : Rec => ps.map fun p => r (L.name p)))
            (filterMap_get df'.rows (pick (seed + k) df'.rows.length n) (hp (seed + k) df'.rows.length n hlen.le).2.2)
          simp only [List.map_map] at this ⊢
          exact this
        | succ i =>
          have := ih (k + 1) ds ls hy i (by simpa using hi) df' (by simpa using hdf') hlen data' (by simpa using hdata')
          rw [this, show k + 1 + i = k + (i + 1) by omega]
  have := key L.filenames 0 datas lps h i hi df hdf hlen data hdata
  rwa [Nat.zero_add] at this

/-- **C56, error branches.**  A file that does not exist, or that lacks one of the requested columns, makes reading raise. -/
theorem C56_load_raises (L : Loader) (e : Env) (read : String → Option Frame) (pick : ℕ → ℕ → ℕ → List ℕ) (hp : IsChoice pick) (ps : List String) (seed : ℕ) (file : String)
    (hf : file ∈ L.filenames) (h : read file = none ∨ ∃ df p, read file = some df ∧ p ∈ ps ∧ L.name p ∉ df.columns) : ∃ err, load L e read pick ps seed = .error err := by
  cases hr : load L e read pick ps seed with
  | error err => exact ⟨err, rfl⟩
  | ok res =>
    exfalso
    obtain ⟨datas, lps⟩ := res
    obtain ⟨_, _, h3⟩ := C56_load L e read pick hp ps seed datas lps hr
    obtain ⟨i, hi, rfl⟩ := List.getElem_of_mem hf
    obtain ⟨df, data, lp, k1, _, _, idx, f, _, _, _, hcols, _⟩ := h3 i hi
    rcases h with h | ⟨df', p, h, hp, hn⟩
    · rw [h] at k1; cases k1
    · rw [h] at k1
      injection k1 with k1
      subst k1
      exact hn (hcols p hp)

/-- **C56.**  The samples and priors of a file depend only on the file, its position and the seed: reading more files after it does not change them. -/
theorem C56_prefix (L : Loader) (e : Env) (read : String → Option Frame) (pick : ℕ → ℕ → ℕ → List ℕ) (ps : List String) (seed : ℕ) (more : List String)
    (datas : List (List (List XR))) (lps : List (List XR)) (h : load { L with filenames := L.filenames ++ more } e read pick ps seed = .ok (datas, lps)) :
    load L e read pick ps seed = .ok (datas.take L.filenames.length, lps.take L.filenames.length) := by
  have hev : ∀ df s, loadEvent { L with filenames := L.filenames ++ more } e pick ps df s = loadEvent L e pick ps df s := fun df s => rfl
  unfold load at h ⊢
  simp only at h
  generalize hM : ({ L with filenames := L.filenames ++ more } : Loader) = M at h hev
  generalize 0 = k at h ⊢
  generalize L.filenames = files at h ⊢
  clear hM
  induction files generalizing k datas lps with
  | nil => simp [loadFrom]
  | cons event rest ih =>
    rw [List.cons_append] at h
    unfold loadFrom at h ⊢
    cases hr : read event with
    | none => rw [hr] at h; cases h
    | some df =>
      rw [hr] at h
      obtain ⟨⟨data, lp⟩, hx, h⟩ := bind_ok h
      obtain ⟨⟨ds, ls⟩, hy, h⟩ := bind_ok h
      injection h with h
      injection h with h1 h2
      subst h1 h2
      rw [hev] at hx
      simp only [hx, bind, Except.bind]
      rw [ih _ _ _ hy]
      rfl

/-- The group has a mean and a covariance of matching shapes. -/
def Group.Good (g : Group) (m : List XR) (c : List (List XR)) : Prop := g.mean = some m ∧ g.cov = some c ∧ c.length = m.length ∧ ∀ row ∈ c, row.length = m.length

theorem readGroup_spec (g : Group) : (∃ m c, g.Good m c ∧ readGroup g = .ok (m, c)) ∨ (¬ ∃ m c, g.Good m c) ∧ readGroup g = .error .valueError := by
  obtain ⟨mean, cov⟩ := g
  cases mean with
  | none => exact Or.inr ⟨(fun ⟨m, c, h, _⟩ => nomatch h), rfl⟩
  | some m =>
    cases cov with
    | none => exact Or.inr ⟨(fun ⟨m, c, _, h, _⟩ => nomatch h), rfl⟩
    | some c =>
      by_cases h : c.length = m.length ∧ ∀ row ∈ c, row.length = m.length
      · refine Or.inl ⟨m, c, ⟨rfl, rfl, h⟩, ?_⟩
        unfold readGroup
        simp only
        rw [if_pos (by simpa using h)]
      · refine Or.inr ⟨fun ⟨m', c', h1, h2, h3⟩ => h (by injection h1 with h1; injection h2 with h2; subst h1 h2; exact h3), ?_⟩
        unfold readGroup
        simp only
        rw [if_neg (by simpa using h)]

/-- **C56.**  Means and covariances read from an HDF5 file: one of each for every group whose name starts with `event_`, in the order of the file, both from
the same group, the covariance being square of the size of the mean; other groups are skipped. -/
theorem C56_means (filename : String) (f : List (String × Group)) (means : List (List XR)) (covs : List (List (List XR))) (h : readMeanCovariances filename f = .ok (means, covs)) :
    means.length = covs.length ∧ List.Forall₂ (fun kg mc => Group.Good kg.2 mc.1 mc.2) (f.filter fun kg => "event_".toList.isPrefixOf kg.1.toList) (means.zip covs) := by
  unfold readMeanCovariances at h
  split_ifs at h
  induction f generalizing means covs with
  | nil =>
    injection h with h
    injection h with h1 h2
    subst h1 h2
    exact ⟨rfl, .nil⟩
  | cons kg rest ih =>
    obtain ⟨key, g⟩ := kg
    unfold readGroups at h
    by_cases hk : "event_".toList.isPrefixOf key.toList = true
    · rw [hk, Bool.not_true, if_neg Bool.false_ne_true] at h
      obtain ⟨⟨m, c⟩, hg, h⟩ := bind_ok h
      obtain ⟨⟨ms, cs⟩, hrest, h⟩ := bind_ok h
      injection h with h
      injection h with h1 h2
      subst h1 h2
      obtain ⟨k1, k2⟩ := ih ms cs hrest
      rw [List.filter_cons_of_pos (by exact hk)]
      refine ⟨by simp [k1], .cons ?_ k2⟩
      rcases readGroup_spec g with ⟨m', c', hgood, he⟩ | ⟨_, he⟩
      · rw [he] at hg
        injection hg with hg
        injection hg with h1 h2
        subst h1 h2
        exact hgood
      · rw [he] at hg
        cases hg
    · rw [Bool.eq_false_iff.2 hk, Bool.not_false, if_pos rfl] at h
      rw [List.filter_cons_of_neg (by exact hk)]
      exact ih means covs h

/-- **C56, error branches.**  An event group that lacks the mean or the covariance, or whose shapes disagree, and a file name with another extension, raise. -/
theorem C56_means_raises (filename : String) (f : List (String × Group)) :
    ((∃ kg ∈ f, "event_".toList <+: kg.1.toList ∧ ¬ ∃ m c, kg.2.Good m c) → ∃ err, readMeanCovariances filename f = .error err) ∧
    (¬ ".h5".toList <:+ filename.toList → ¬ ".hdf5".toList <:+ filename.toList → readMeanCovariances filename f = .error .assertion) := by
  constructor
  · rintro ⟨kg, hkg, hpre, hbad⟩
    cases hr : readMeanCovariances filename f with
    | error err => exact ⟨err, rfl⟩
    | ok res =>
      exfalso
      obtain ⟨_, hall⟩ := C56_means filename f res.1 res.2 hr
      have hmem : kg ∈ f.filter fun kg => "event_".toList.isPrefixOf kg.1.toList := List.mem_filter.2 ⟨hkg, List.isPrefixOf_iff_prefix.2 hpre⟩
      obtain ⟨i, hi, he⟩ := List.getElem_of_mem hmem
      have := (List.forall₂_iff_get.1 hall).2 i hi (by rw [← (List.forall₂_iff_get.1 hall).1]; exact hi)
      rw [List.get_eq_getElem, he] at this
      exact hbad ⟨_, _, this⟩
  · intro h1 h2
    unfold readMeanCovariances
    rw [if_neg]
    rw [Bool.or_eq_true, List.isSuffixOf_iff_suffix, List.isSuffixOf_iff_suffix]
    rintro (h | h)
    · exact h2 h
    · exact h1 h

/-! ## Non-vacuity -/

/-- A choice of rows: the last ones. -/
def lastRows (_seed total n : ℕ) : List ℕ := (List.range n).map (· + (total - n))

theorem lastRows_choice : IsChoice lastRows := by
  intro seed total n h
  refine ⟨by simp [lastRows], ?_, ?_⟩
  · exact List.Nodup.map (fun a b hab => by simpa using hab) List.nodup_range
  · intro i hi
    simp only [lastRows, List.mem_map, List.mem_range] at hi
    obtain ⟨j, hj, rfl⟩ := hi
    omega

/-- Two files of three samples, of which two each are kept; the second column is requested first. -/
example (e : Env) :
    let df (k : ℕ) : Frame := ⟨["redshift", "m1"], (List.range 3).map fun (i : ℕ) p => if p = "m1" then fin (10 * k + i) else fin 0⟩
    load ⟨["a.dat", "b.dat"], [("mass_1_source", "m1")], some 2, none, false, none⟩ e (fun s => if s = "a.dat" then some (df 0) else if s = "b.dat" then some (df 1) else none)
      lastRows ["mass_1_source", "redshift"] 37 = .ok ([[[fin 1, fin 0], [fin 2, fin 0]], [[fin 11, fin 0], [fin 12, fin 0]]], [[fin 0, fin 0], [fin 0, fin 0]]) := by
  simp [load, loadFrom, loadEvent, validateColumns, subsample, logPrior, distancePrior, massPrior, spinPrior, effectivePrior, chiPrior, lastRows, Loader.name, get?, bind,
    Except.bind, List.range_succ]
  norm_num [add_fin_fin]

/-- The order of the groups is that of the file, and groups that are not events are skipped. -/
example : readMeanCovariances "events.hdf5" [("event_10", ⟨some [fin 1], some [[fin 2]]⟩), ("meta", ⟨none, none⟩), ("event_2", ⟨some [fin 3], some [[fin 4]]⟩)] =
    .ok ([[fin 1], [fin 3]], [[[fin 2]], [[fin 4]]]) := by
  have h1 : (".hdf5".toList.isSuffixOf "events.hdf5".toList) = true := by decide +kernel
  have h2 : ("event_".toList.isPrefixOf "event_10".toList) = true := by decide +kernel
  have h3 : ("event_".toList.isPrefixOf "event_2".toList) = true := by decide +kernel
  have h4 : ("event_".toList.isPrefixOf "meta".toList) = false := by decide +kernel
  simp only [readMeanCovariances, h1, Bool.true_or, if_true, readGroups, h2, h3, h4, Bool.not_true, Bool.not_false, Bool.false_eq_true, if_false]
  simp [readGroup, bind, Except.bind]

/-- The hypotheses of `C56_from_json_fields` and `C56_own_seed` are met. -/
example : ∃ L, fromJson (fun _ => ["b.dat", "a.dat"]) (some [("regex", .str "*.dat"), ("mass_prior", .str "flat-source-components"), ("max_samples", .num 2)]) = .ok L ∧
    L.massPrior = some .sourceComponents ∧ L.maxSamples = some 2 := by
  refine ⟨_, by
    unfold fromJson
    simp [get?, parseAliases, parseMax, parseMass, parseSpin, parseDistance, bind, Except.bind]
    rfl, rfl, rfl⟩

/-- A choice of rows depending on the seed. -/
def seededRows (seed total n : ℕ) : List ℕ := (List.range n).map fun i => (i + seed) % total

/-- Two files of three samples; the second starts one row later than the first. -/
example (e : Env) :
    let df : Frame := ⟨["redshift"], (List.range 3).map fun (i : ℕ) _ => fin i⟩
    load ⟨["a.dat", "b.dat"], [], some 2, none, false, none⟩ e (fun _ => some df) seededRows ["redshift"] 0 =
      .ok ([[[fin 0], [fin 1]], [[fin 1], [fin 2]]], [[fin 0, fin 0], [fin 0, fin 0]]) := by
  simp [load, loadFrom, loadEvent, validateColumns, subsample, logPrior, distancePrior, massPrior, spinPrior, effectivePrior, chiPrior, seededRows, Loader.name, get?, bind,
    Except.bind, List.range_succ]

end GW.Events
