import Verif.Lemmas.SmoothedDensity

/-!
# C96: the density of the smoothed multi-component models

`NSmoothedPowerlawMSmoothedGaussian` and `NBrokenPowerlawMGaussian`, for every choice of the optional pieces, every number of components and every
complete set of hyper-parameters.
-/

namespace GW.Hybrids
open GW XR GW.PyDict GW.Joint GW.Constraints MeasureTheory
open scoped Classical ENNReal

/-! ## The common body -/

/-- Which hyper-parameters the wrapper receives. -/
structure Takes (S : Smoothing) (a : Arguments) (s : Smoothed) : Prop where
  beta : s.num a.beta = S.beta
  delta1 : s.num a.delta1 = S.width1
  delta2 : s.num a.delta2 = S.width2
  logRate : s.num a.logRate = S.logRate
  m1max : s.num a.m1max = S.m1max
  m1min : s.num a.m1min = S.m1min
  m2min : s.num a.m2min = S.m2min

theorem num_of_shared {s : Smoothed} {params : Dict String ℝ} (h : ∀ p ∈ s.shared, get? params p.1 = some p.2) {name : String} (hn : name ∈ s.shared.map (·.1)) {x : ℝ}
    (hx : get? params name = some x) : s.num name = x := by
  unfold Smoothed.num
  cases hg : get? s.shared name with
  | none =>
    exact absurd hn ((PyDict.get?_eq_none_iff _ _).1 hg)
  | some y =>
    have := h _ (PyDict.mem_of_get? hg)
    simp only at this
    rw [hx] at this
    injection this with this
    simp [this]

theorem massLogProb_eq {c : Cosmo.Cosmology} (hc : c.Proper) {dV : ℝ → ℝ} (hV : IsVolume c dV) (big : ℝ) (v : Bool) {a : Arguments} {s : Smoothed} {use : Flag → Bool} {n : ℕ}
    (hb : List.Forall₂ (Begins use n) s.masses s.components) {laws : List (List Law)} (hl : HaveLaws s.components laws) (hp : ∀ ls ∈ laws, ∀ L ∈ ls, L.Proper)
    (hw : ∀ w ∈ s.weights, 0 ≤ w) (hs : s.weights.sum = 1) {m : ℝ} (h1 : s.num a.m1min ≤ m) (h2 : m ≤ s.num a.m1max) :
    IsLog (s.massLogProb c big v a (fin m)) ∧ expR (s.massLogProb c big v a (fin m)) = massMixture dV s.weights laws m := by
  have hev := masses_evaluate hc hV big v hb hl hp m
  have hin : Spin.interval (s.num a.m1min) (s.num a.m1max) (fin m) = true := by
    simp [Spin.interval, h1, h2]
  have := generalMixture_eq v hw hs hev (fun x => match x with
      | .one m => Spin.interval (s.num a.m1min) (s.num a.m1max) m
      | .many _ => false) (by simp [hin])
  rw [List.map_map] at this
  exact ⟨this.1, this.2.1⟩

theorem smoothed_density {c : Cosmo.Cosmology} (hc : c.Proper) {dV : ℝ → ℝ} (hV : IsVolume c dV) (big : ℝ) (v : Bool) {a : Arguments} {s : Smoothed} {use : Flag → Bool} {n : ℕ}
    (hb : List.Forall₂ (Begins use n) s.masses s.components) {laws : List (List Law)} (hl : HaveLaws s.components laws) (hp : ∀ ls ∈ laws, ∀ L ∈ ls, L.Proper)
    (hw : ∀ w ∈ s.weights, 0 ≤ w) (hs : s.weights.sum = 1) {S : Smoothing} (hT : Takes S a s) (hS : S.Proper) (hpos : 0 < S.massTotal (massMixture dV s.weights laws)) :
    ∃ d Z, s.dist c big v a = .ok d ∧ S.IsRatioTotal Z ∧ ∀ (m q : ℝ) (rest : List ℝ), (∀ ls ∈ laws, (m :: rest).length = lawsDim ls) → (∀ ls ∈ laws, AllRegular ls (m :: rest)) →
      IsLog (d.logProb ((m :: rest).map fin) (fin q)) ∧
      expR (d.logProb ((m :: rest).map fin) (fin q)) = S.density (S.massTotal (massMixture dV s.weights laws)) Z (restMixture dV s.weights laws (m :: rest)) m q := by
  obtain ⟨p1, p2, p3, p4, p5⟩ := hS
  have hne : ∀ fs ∈ s.components, fs ≠ [] := by
    intro fs hfs
    obtain ⟨f, -, hf⟩ := forall₂_right hb fs hfs
    obtain ⟨r, rfl⟩ := hf.head
    simp
  have hdim : ∀ ls ∈ laws, lawsDim ls = n := by
    intro ls hls
    obtain ⟨fs, hfs, hL⟩ := forall₂_right hl ls hls
    obtain ⟨f, -, hf⟩ := forall₂_right hb fs hfs
    rw [lawsDim_eq hf.laws hL, hf.length]
  obtain ⟨ds, j1, -, j3⟩ := joinAll_evaluates hc hV big v hne hl hp (x := List.replicate n (1 / 2)) (fun ls hls => by simp [hdim ls hls]) fun ls _ => allRegular_half ls n
  have hany : (ds.any fun d => ds.any fun e => decide (d.shape ≠ e.shape)) = false := by
    rw [Bool.eq_false_iff]
    intro hh
    obtain ⟨x, hx, hh⟩ := List.any_eq_true.1 hh
    obtain ⟨y, hy, hh⟩ := List.any_eq_true.1 hh
    rw [decide_eq_true_eq] at hh
    exact hh (by rw [j3 x hx, j3 y hy])
  set supp : Slice XR → Bool := fun x => ds.any fun d => (d.support x).getD false with hsupp
  set d : Mass.AndRest := {
        restSupport := fun r => supp (.many r)
        restLogProb := fun r => generalMixture v s.weights (ds.map (Full.component v)) supp (.many r)
        beta := s.num a.beta
        delta1 := s.num a.delta1
        delta2 := s.num a.delta2
        logRate := s.num a.logRate
        logZ := Mass.mixtureLogZ (s.massLogProb c big v a) (s.num a.delta1) (s.num a.m1min) (s.num a.m1max)
        m1max := s.num a.m1max
        m1min := s.num a.m1min
        m2min := s.num a.m2min
        validate := v } with hd
  have hdist : s.dist c big v a = .ok d := by
    unfold Smoothed.dist
    rw [j1]
    simp only [hany]
    rfl
  have e1 : d.m1min = S.m1min := hT.m1min
  have e2 : d.m1max = S.m1max := hT.m1max
  have e3 : d.m2min = S.m2min := hT.m2min
  have e4 : d.delta1 = S.width1 := hT.delta1
  have e5 : d.delta2 = S.width2 := hT.delta2
  have e6 : d.logRate = S.logRate := hT.logRate
  have e7 : d.beta = S.beta := hT.beta
  have hratio : d.ratio = S.ratioCurve := by
    funext m q
    simp only [Mass.AndRest.ratio, Smoothing.ratioCurve, e3, e5, e7]
  have hlZ : d.logZ = XR.log (fin (S.massTotal (massMixture dV s.weights laws))) := by
    have := Mass.mixtureLogZ_eq (f := s.massLogProb c big v a) (g := massMixture dV s.weights laws) (delta := s.num a.delta1) (lo := s.num a.m1min) (hi := s.num a.m1max)
      (by rw [hT.delta1]; exact p4) (by rw [hT.m1min, hT.m1max]; exact p2) (fun m h1 h2 => massLogProb_eq hc hV big v hb hl hp hw hs h1 h2)
    have e : d.logZ = Mass.mixtureLogZ (s.massLogProb c big v a) (s.num a.delta1) (s.num a.m1min) (s.num a.m1max) := by rw [hd]
    rw [e, this]
    simp only [Smoothing.massTotal, Smoothing.window, hT.delta1, hT.m1min, hT.m1max]
  obtain ⟨Z, z1, z2, z3⟩ := d.zq_exists (by rw [e1, e2]; exact p2) (by rw [e3]; exact p3) (by rw [e5]; exact p5)
  refine ⟨d, Z, hdist, ⟨z1, fun m k1 k2 => ?_⟩, fun m q rest hx hr => ?_⟩
  · obtain ⟨w, w1, w2, w3⟩ := z2 m (by rw [e1]; exact k1) (by rw [e2]; exact k2)
    rw [hratio, e1, e2] at w2
    exact ⟨w, w1, w2, w3⟩
  · obtain ⟨ds', j1', j2, -⟩ := joinAll_evaluates hc hV big v hne hl hp hx hr
    rw [j1] at j1'
    injection j1' with j1'
    rw [← j1'] at j2
    obtain ⟨g1, g2, g3⟩ := generalMixture_eq v hw hs j2 supp (by
      intro hf x hxd
      rw [hsupp] at hf
      simp only [List.any_eq_false, Bool.not_eq_true] at hf
      exact hf x hxd)
    have := d.logProb_at (by rw [e3]; exact p3) (by rw [e4]; exact p4) (by rw [e5]; exact p5) hpos hlZ z1 z3 m q (rest.map fin) g1 (fun k => by
      change expR (generalMixture v s.weights (ds.map (Full.component v)) supp (.many ((m :: rest).map fin))) = 0
      rw [g2]
      exact g3 k)
    refine ⟨this.1, ?_⟩
    rw [List.map_cons, this.2, e1, e2, e4, e6, hratio]
    have hrest : expR (d.restLogProb (fin m :: rest.map fin)) = restMixture dV s.weights laws (m :: rest) := g2
    rw [hrest]
    rfl

theorem takes_o3 {use : Flag → Bool} {Npl Ng : Nat} {params : Dict String ℝ} {s : Smoothed} (h : nSmoothedPowerlawMSmoothedGaussian use Npl Ng params = .ok s) {S : Smoothing}
    (hS : S.OfO3 params) : Takes S o3Arguments s := by
  obtain ⟨-, h1, h2, -⟩ := smoothedModel_ok o3_tables h
  constructor <;> exact num_of_shared h2 (by rw [h1]; decide +kernel) (by first | exact hS.beta | exact hS.width1 | exact hS.logRate | exact hS.m1max | exact hS.m1min | exact hS.m2min | exact hS.width2)

theorem takes_o4 {use : Flag → Bool} {Nb Ng : Nat} {params : Dict String ℝ} {s : Smoothed} (h : nBrokenPowerlawMGaussian use Nb Ng params = .ok s) {S : Smoothing}
    (hS : S.OfO4 params) : Takes S o4Arguments s := by
  obtain ⟨-, h1, h2, -⟩ := smoothedModel_ok o4_tables h
  constructor <;> exact num_of_shared h2 (by rw [h1]; decide +kernel) (by first | exact hS.beta | exact hS.width1 | exact hS.logRate | exact hS.m1max | exact hS.m1min | exact hS.m2min | exact hS.width2)

theorem begins_o3 {use : Flag → Bool} {Npl Ng : Nat} {params : Dict String ℝ} {s : Smoothed} (h : nSmoothedPowerlawMSmoothedGaussian use Npl Ng params = .ok s) :
    List.Forall₂ (Begins use (smoothedDim use)) s.masses s.components := smoothedModel_begins (by decide +kernel) (by decide +kernel) rfl h

theorem begins_o4 {use : Flag → Bool} {Nb Ng : Nat} {params : Dict String ℝ} {s : Smoothed} (h : nBrokenPowerlawMGaussian use Nb Ng params = .ok s) :
    List.Forall₂ (Begins use (smoothedDim use)) s.masses s.components := smoothedModel_begins (by decide +kernel) (by decide +kernel) rfl h

theorem laws_of_begins {use : Flag → Bool} {n : ℕ} {ms : List Factor} {cs : List (List Factor)} (hb : List.Forall₂ (Begins use n) ms cs) :
    (∃ laws, HaveLaws cs laws) ∧ ∀ laws, HaveLaws cs laws → laws.length = ms.length ∧ ∀ ls ∈ laws, lawsDim ls = n ∧ ∃ L rest, ls = L :: rest ∧ L.dim = 1 := by
  refine ⟨forall₂_exists fun c hcm => forall₂_exists fun f hf => ?_, fun laws hl => ⟨?_, fun ls hls => ?_⟩⟩
  · obtain ⟨g, -, hg⟩ := forall₂_right hb c hcm
    obtain ⟨L, hL, -⟩ := hg.laws f hf
    exact ⟨L, hL⟩
  · rw [← hl.length_eq, hb.length_eq]
  · obtain ⟨fs, hfs, hL⟩ := forall₂_right hl ls hls
    obtain ⟨f, -, hf⟩ := forall₂_right hb fs hfs
    refine ⟨by rw [lawsDim_eq hf.laws hL, hf.length], ?_⟩
    obtain ⟨r, rfl⟩ := hf.head
    cases hL with
    | @cons _ L _ ls h1 _ => exact ⟨L, ls, rfl, (mass_law hf.cls hf.quantities h1).1⟩

/-! ## The properties -/

/-- **C96.**  Every component of every smoothed model that can be built is a list of the laws of the specification, the primary mass first, all with the same number of
coordinates. -/
theorem C96_laws {use : Flag → Bool} {Nb Ng : Nat} {params : Dict String ℝ} {s : Smoothed}
    (h : nSmoothedPowerlawMSmoothedGaussian use Nb Ng params = .ok s ∨ nBrokenPowerlawMGaussian use Nb Ng params = .ok s) :
    (∃ laws, HaveLaws s.components laws) ∧
    ∀ laws, HaveLaws s.components laws → laws.length = Nb + Ng ∧ s.weights.length = Nb + Ng ∧ s.weights.sum = 1 ∧
      ∃ n, ∀ ls ∈ laws, lawsDim ls = n ∧ ∃ L rest, ls = L :: rest ∧ L.dim = 1 := by
  rcases h with h | h
  · obtain ⟨a, b⟩ := laws_of_begins (begins_o3 h)
    obtain ⟨-, -, -, h1, h2, -, h3, -⟩ := smoothedModel_ok o3_tables h
    exact ⟨a, fun laws hl => ⟨by rw [(b laws hl).1, h3], h1, h2, _, (b laws hl).2⟩⟩
  · obtain ⟨a, b⟩ := laws_of_begins (begins_o4 h)
    obtain ⟨-, -, -, h1, h2, -, h3, -⟩ := smoothedModel_ok o4_tables h
    exact ⟨a, fun laws hl => ⟨by rw [(b laws hl).1, h3], h1, h2, _, (b laws hl).2⟩⟩

/-- **C96** (density, `NSmoothedPowerlawMSmoothedGaussian`).  With meaningful hyper-parameters, non-negative weights and some mass between the bounds the model is built and its log
density is a number or `-inf` at every event: the log of the rate times the mixture of the components, its primary mass smoothed and normalised, times the smoothed normalised
power law of the mass ratio; zero outside the bounds. -/
theorem C96_o3_density {c : Cosmo.Cosmology} (hc : c.Proper) {dV : ℝ → ℝ} (hV : IsVolume c dV) (big : ℝ) (v : Bool) {use : Flag → Bool} {Npl Ng : Nat} {params : Dict String ℝ}
    {s : Smoothed} (h : nSmoothedPowerlawMSmoothedGaussian use Npl Ng params = .ok s) (hw : ∀ w ∈ s.weights, 0 ≤ w) {laws : List (List Law)} (hl : HaveLaws s.components laws)
    (hp : ∀ ls ∈ laws, ∀ L ∈ ls, L.Proper) {S : Smoothing} (hS : S.OfO3 params) (hSp : S.Proper) (hpos : 0 < S.massTotal (massMixture dV s.weights laws)) :
    ∃ d Z, o3Population c big v use Npl Ng params = .ok d ∧ S.IsRatioTotal Z ∧
      ∀ (m q : ℝ) (rest : List ℝ), (∀ ls ∈ laws, (m :: rest).length = lawsDim ls) → (∀ ls ∈ laws, AllRegular ls (m :: rest)) →
        IsLog (d.logProb ((m :: rest).map fin) (fin q)) ∧
        expR (d.logProb ((m :: rest).map fin) (fin q)) = S.density (S.massTotal (massMixture dV s.weights laws)) Z (restMixture dV s.weights laws (m :: rest)) m q := by
  obtain ⟨d, Z, h1, h2, h3⟩ := smoothed_density hc hV big v (begins_o3 h) hl hp hw (smoothedModel_ok o3_tables h).2.2.2.2.1 (takes_o3 h hS) hSp hpos
  exact ⟨d, Z, by simp only [o3Population, smoothedPopulation, h, h1], h2, h3⟩

/-- **C96** (density, `NBrokenPowerlawMGaussian`). -/
theorem C96_o4_density {c : Cosmo.Cosmology} (hc : c.Proper) {dV : ℝ → ℝ} (hV : IsVolume c dV) (big : ℝ) (v : Bool) {use : Flag → Bool} {Nb Ng : Nat} {params : Dict String ℝ}
    {s : Smoothed} (h : nBrokenPowerlawMGaussian use Nb Ng params = .ok s) (hw : ∀ w ∈ s.weights, 0 ≤ w) {laws : List (List Law)} (hl : HaveLaws s.components laws)
    (hp : ∀ ls ∈ laws, ∀ L ∈ ls, L.Proper) {S : Smoothing} (hS : S.OfO4 params) (hSp : S.Proper) (hpos : 0 < S.massTotal (massMixture dV s.weights laws)) :
    ∃ d Z, o4Population c big v use Nb Ng params = .ok d ∧ S.IsRatioTotal Z ∧
      ∀ (m q : ℝ) (rest : List ℝ), (∀ ls ∈ laws, (m :: rest).length = lawsDim ls) → (∀ ls ∈ laws, AllRegular ls (m :: rest)) →
        IsLog (d.logProb ((m :: rest).map fin) (fin q)) ∧
        expR (d.logProb ((m :: rest).map fin) (fin q)) = S.density (S.massTotal (massMixture dV s.weights laws)) Z (restMixture dV s.weights laws (m :: rest)) m q := by
  obtain ⟨d, Z, h1, h2, h3⟩ := smoothed_density hc hV big v (begins_o4 h) hl hp hw (smoothedModel_ok o4_tables h).2.2.2.2.1 (takes_o4 h hS) hSp hpos
  exact ⟨d, Z, by simp only [o4Population, smoothedPopulation, h, h1], h2, h3⟩

theorem named_mixture {dV : ℝ → ℝ} {use : Flag → Bool} {n : ℕ} {s : Smoothed} (hb : List.Forall₂ (Begins use n) s.masses s.components) {laws : List (List Law)}
    (hl : HaveLaws s.components laws) {cols : List String} (hcols : ∀ c ∈ s.components, coordinates c = cols) (event : String → ℝ) :
    restMixture dV s.weights laws (cols.map event) = weighted s.weights (List.zipWith (namedDensity dV event) s.components laws) ∧
    ∀ ls ∈ laws, (cols.map event).length = lawsDim ls := by
  have hlaw : ∀ cm ∈ s.components, ∀ f ∈ cm, ∃ L, lawOf f = some L ∧ L.dim = f.quantities.length := by
    intro cm hcm
    obtain ⟨g, -, hg⟩ := forall₂_right hb cm hcm
    exact hg.laws
  constructor
  · unfold restMixture
    congr 1
    have := haveLaws_of_mem hl (P := fun cm ls => productDensity dV ls (cols.map event) = namedDensity dV event cm ls) fun cm hcm ls _ hL => by
      rw [← hcols cm hcm]
      exact productDensity_named dV event (hlaw cm hcm) hL
    exact map_eq_zipWith this
  · intro ls hls
    obtain ⟨cm, hcm, hL⟩ := forall₂_right hl ls hls
    rw [lawsDim_eq (hlaw cm hcm) hL, hcols cm hcm, List.length_map]

/-- The requested columns: the primary mass, others, the mass ratio. -/
theorem smoothedColumns_split (o : Flag → Bool) : ∃ others, smoothedColumns o = "mass_1_source" :: others ++ ["mass_ratio"] := by
  unfold smoothedColumns
  simp only [List.append_assoc, List.cons_append, List.nil_append, List.cons.injEq, true_and]
  simp only [← List.append_assoc]
  exact ⟨_, rfl⟩

theorem columns_dropLast {o : Flag → Bool} {others : List String} (ho : smoothedColumns o = "mass_1_source" :: others ++ ["mass_ratio"]) {cs : List (List Factor)}
    (h : ∀ c ∈ cs, Smoothed.coordinates c = smoothedColumns o) : ∀ c ∈ cs, coordinates c = "mass_1_source" :: others := by
  intro c hc
  have := h c hc
  rw [ho, Smoothed.coordinates] at this
  exact List.append_cancel_right this

/-- **C96** (columns).  For the analyses of `o3_n_pls_m_gs` and `o4_n_bpls_m_gs`: with the columns the command-line options ask for (the primary mass first, the mass ratio
last), each factor of each component is evaluated at the columns it is about, and the wrapper at the primary mass and the mass ratio. -/
theorem C96_named_columns {c : Cosmo.Cosmology} (hc : c.Proper) {dV : ℝ → ℝ} (hV : IsVolume c dV) (big : ℝ) (v : Bool) {o : Flag → Bool} (ho : Exclusive o) {Nb Ng : Nat}
    {params : Dict String ℝ} {s : Smoothed} (hw : ∀ w ∈ s.weights, 0 ≤ w) {laws : List (List Law)} (hl : HaveLaws s.components laws)
    (hp : ∀ ls ∈ laws, ∀ L ∈ ls, L.Proper) {S : Smoothing} (hSp : S.Proper) (hpos : 0 < S.massTotal (massMixture dV s.weights laws)) :
    ∃ others, smoothedColumns o = "mass_1_source" :: others ++ ["mass_ratio"] ∧
    ∀ built, (nSmoothedPowerlawMSmoothedGaussian o Nb Ng params = .ok s ∧ S.OfO3 params ∧ built = o3Population c big v o Nb Ng params) ∨
        (nBrokenPowerlawMGaussian o Nb Ng params = .ok s ∧ S.OfO4 params ∧ built = o4Population c big v o Nb Ng params) →
      ∃ d Z, built = .ok d ∧ S.IsRatioTotal Z ∧ ∀ event : String → ℝ, (∀ ls ∈ laws, AllRegular ls (("mass_1_source" :: others).map event)) →
        IsLog (d.logProb ((("mass_1_source" :: others).map event).map fin) (fin (event "mass_ratio"))) ∧
        expR (d.logProb ((("mass_1_source" :: others).map event).map fin) (fin (event "mass_ratio"))) =
          S.density (S.massTotal (massMixture dV s.weights laws)) Z (weighted s.weights (List.zipWith (namedDensity dV event) s.components laws))
            (event "mass_1_source") (event "mass_ratio") := by
  obtain ⟨others, hcols⟩ := smoothedColumns_split o
  refine ⟨others, hcols, ?_⟩
  rintro built (⟨h, hS, rfl⟩ | ⟨h, hS, rfl⟩)
  · obtain ⟨d, Z, h1, h2, h3⟩ := C96_o3_density hc hV big v h hw hl hp hS hSp hpos
    refine ⟨d, Z, h1, h2, fun event hr => ?_⟩
    obtain ⟨n1, n2⟩ := named_mixture (dV := dV) (begins_o3 h) hl (columns_dropLast hcols (C49_o3_columns_are_coordinates ho h).2.2) event
    have := h3 (event "mass_1_source") (event "mass_ratio") (others.map event) n2 hr
    rw [← List.map_cons (f := event), n1] at this
    exact this
  · obtain ⟨d, Z, h1, h2, h3⟩ := C96_o4_density hc hV big v h hw hl hp hS hSp hpos
    refine ⟨d, Z, h1, h2, fun event hr => ?_⟩
    obtain ⟨n1, n2⟩ := named_mixture (dV := dV) (begins_o4 h) hl (columns_dropLast hcols (C49_o4_columns_are_coordinates ho h).2.2) event
    have := h3 (event "mass_1_source") (event "mass_ratio") (others.map event) n2 hr
    rw [← List.map_cons (f := event), n1] at this
    exact this

/-- **C96** (normalisation).  The total is positive as soon as some component of positive weight has a primary-mass law that is positive at the second of the 1000 masses. -/
theorem C96_total_pos {c : Cosmo.Cosmology} (hc : c.Proper) {dV : ℝ → ℝ} (hV : IsVolume c dV) {weights : List ℝ} (hw : ∀ w ∈ weights, 0 ≤ w) {laws : List (List Law)}
    (hp : ∀ ls ∈ laws, ∀ L ∈ ls, L.Proper) {S : Smoothing} (hSp : S.Proper) {i : ℕ} {w : ℝ} {L : Law} {ls : List Law} (h1 : weights[i]? = some w) (h2 : laws[i]? = some (L :: ls))
    (h3 : 0 < w) (h4 : 0 < L.density dV [S.m1min + (S.m1max - S.m1min) / 999]) : 0 < S.massTotal (massMixture dV weights laws) := by
  obtain ⟨-, p2, -, p4, -⟩ := hSp
  have hterm : ∀ (weights : List ℝ) (laws : List (List Law)), (∀ w ∈ weights, 0 ≤ w) → (∀ ls ∈ laws, ∀ L ∈ ls, L.Proper) → ∀ m, 0 ≤ massMixture dV weights laws m := by
    intro weights laws hw hp m
    refine List.sum_nonneg fun t ht => ?_
    obtain ⟨k, hk, rfl⟩ := List.getElem_of_mem ht
    rw [List.getElem_zipWith]
    refine mul_nonneg (hw _ (List.getElem_mem _)) ?_
    rw [List.getElem_map]
    split
    · rename_i L' _ e
      exact density_nonneg hc hV (hp (laws[k]'(by simp at hk; omega)) (List.getElem_mem _) L' (by rw [e]; simp)) _
    · exact le_rfl
  refine Mass.trapz_pos p2 (by norm_num) (fun x _ _ => mul_nonneg (hterm _ _ hw hp x) (Mass.planck_nonneg _)) ?_
  have e : node S.m1min S.m1max 1000 1 = S.m1min + (S.m1max - S.m1min) / 999 := by
    norm_num [node]
    ring
  rw [e]
  refine mul_pos ?_ (Mass.planck_pos (div_pos (by linarith) p4))
  generalize S.m1min + (S.m1max - S.m1min) / 999 = m at h4
  clear e
  induction i generalizing weights laws with
  | zero =>
    cases weights with
    | nil => simp at h1
    | cons w' ws =>
      cases laws with
      | nil => simp at h2
      | cons l' lss =>
        simp only [List.getElem?_cons_zero, Option.some.injEq] at h1 h2
        subst h1 h2
        have := hterm ws lss (fun w hw' => hw w (by simp [hw'])) (fun ls hls => hp ls (by simp [hls])) m
        simp only [massMixture, weighted, List.map_cons, List.zipWith_cons_cons, List.sum_cons] at this ⊢
        exact add_pos_of_pos_of_nonneg (mul_pos h3 h4) this
  | succ i ih =>
    cases weights with
    | nil => simp at h1
    | cons w' ws =>
      cases laws with
      | nil => simp at h2
      | cons l' lss =>
        have := ih (weights := ws) (laws := lss) (fun w hw' => hw w (by simp [hw'])) (fun ls hls => hp ls (by simp [hls])) (by simpa using h1) (by simpa using h2)
        have h0 := hterm [w'] [l'] (fun w hw' => hw w (by simp at hw'; simp [hw'])) (fun ls hls => hp ls (by simp at hls; simp [hls])) m
        simp only [massMixture, weighted, List.map_cons, List.map_nil, List.zipWith_cons_cons, List.zipWith_nil_left, List.sum_cons, List.sum_nil, add_zero] at this h0 ⊢
        exact add_pos_of_nonneg_of_pos h0 this

/-- **C96** (marginal of the primary mass).  Integrated over the other coordinates a component leaves its primary-mass law times the totals of its other laws: one for every law
except that of the redshift.  So the mass mixture the total is taken of is the primary-mass marginal of the components, up to the redshift totals. -/
theorem C96_marginal {c : Cosmo.Cosmology} (hc : c.Proper) {dV : ℝ → ℝ} (hV : IsVolume c dV) {L : Law} {ls : List Law} (hd : L.dim = 1) (hp : ∀ K ∈ L :: ls, K.Proper) (m : ℝ) :
    integrate (lawsDim ls) (fun rest => ENNReal.ofReal (productDensity dV (L :: ls) (m :: rest))) = ENNReal.ofReal (L.density dV [m]) * (ls.map (Law.total dV)).prod ∧
    ((∀ K ∈ ls, ∀ kappa zMax, K ≠ .redshift kappa zMax) →
      integrate (lawsDim ls) (fun rest => ENNReal.ofReal (productDensity dV (L :: ls) (m :: rest))) = ENNReal.ofReal (L.density dV [m])) := by
  have hpl : ∀ K ∈ ls, K.Proper := fun K hK => hp K (by simp [hK])
  have e : (fun rest => ENNReal.ofReal (productDensity dV (L :: ls) (m :: rest))) =
      fun rest => ENNReal.ofReal (L.density dV [m]) * ENNReal.ofReal (productDensity dV ls rest) := by
    funext rest
    rw [productDensity, hd, ENNReal.ofReal_mul (density_nonneg hc hV (hp L (by simp)) _)]
    rfl
  have h1 : integrate (lawsDim ls) (fun rest => ENNReal.ofReal (productDensity dV (L :: ls) (m :: rest))) = ENNReal.ofReal (L.density dV [m]) * (ls.map (Law.total dV)).prod := by
    rw [e, integrate_const_mul _ ENNReal.ofReal_ne_top, (component_total hc hV hpl).1]
  refine ⟨h1, fun hz => ?_⟩
  rw [e, integrate_const_mul _ ENNReal.ofReal_ne_top, (C95_normalised hc hV hpl).2.2 hz, mul_one]

/-- **C96** (errors).  A hyper-parameter that cannot be looked up is reported as such; nothing else is. -/
theorem C96_lookup_errors (c : Cosmo.Cosmology) (big : ℝ) (v : Bool) {use : Flag → Bool} {Nb Ng : Nat} {params : Dict String ℝ} {e : Err} :
    (o3Population c big v use Nb Ng params = .error (.lookup e) ↔ nSmoothedPowerlawMSmoothedGaussian use Nb Ng params = .error e) ∧
    (o4Population c big v use Nb Ng params = .error (.lookup e) ↔ nBrokenPowerlawMGaussian use Nb Ng params = .error e) := by
  have : ∀ (a : Arguments) (b : Except Err Smoothed), smoothedPopulation c big v a b = .error (.lookup e) ↔ b = .error e := by
    intro a b
    unfold smoothedPopulation
    cases b with
    | error e' => simp
    | ok s =>
      simp only [reduceCtorEq, iff_false]
      cases h : s.dist c big v a with
      | error e' => simp
      | ok d => simp
  exact ⟨this _ _, this _ _⟩

/-- **C96** (weights, violated).  Weights that add up to more than one are accepted: the model is built, the last weight is negative, and every event of the support (every event
at all, without validation) has a density that is not a number. -/
theorem C96_weights_violated (c : Cosmo.Cosmology) (big : ℝ) (v : Bool) {use : Flag → Bool} {Nb Ng : Nat} {params : Dict String ℝ} {s : Smoothed}
    (h : nSmoothedPowerlawMSmoothedGaussian use Nb Ng params = .ok s ∨ nBrokenPowerlawMGaussian use Nb Ng params = .ok s) (hneg : 1 < s.weights.dropLast.sum)
    {a : Arguments} {d : Mass.AndRest} (hd : s.dist c big v a = .ok d) (hw : 0 < s.num a.delta1) (rest : List XR) (q : XR) (hs : v = true → d.support rest q = true) :
    d.logProb rest q = nan := by
  have hcl : s.weights.sum = 1 ∧ s.components ≠ [] := by
    rcases h with h | h
    · obtain ⟨h0, -, -, -, h2, -, -, h3, -⟩ := smoothedModel_ok o3_tables h
      exact ⟨h2, List.length_pos_iff.1 (by omega)⟩
    · obtain ⟨h0, -, -, -, h2, -, -, h3, -⟩ := smoothedModel_ok o4_tables h
      exact ⟨h2, List.length_pos_iff.1 (by omega)⟩
  have hne : s.weights ≠ [] := by
    intro k
    rw [k] at hneg
    simp at hneg
    linarith
  have hlast : ∃ w ∈ s.weights, w < 0 := by
    refine ⟨s.weights.getLast hne, List.getLast_mem _, ?_⟩
    have := List.dropLast_append_getLast hne
    have h2 := hcl.1
    rw [← this, List.sum_append, List.sum_singleton] at h2
    linarith
  unfold Smoothed.dist at hd
  cases hj : joinAll c big v s.components with
  | error e => rw [hj] at hd; simp at hd
  | ok ds =>
    rw [hj] at hd
    simp only at hd
    have hds : ds ≠ [] := by
      rintro rfl
      unfold joinAll at hj
      cases hcs : s.components with
      | nil => exact hcl.2 hcs
      | cons fs cs =>
        rw [hcs, List.mapM_cons] at hj
        simp only [bind, Except.bind, pure, Except.pure] at hj
        split at hj
        · simp at hj
        · split at hj <;> simp at hj
    split_ifs at hd with hany
    simp only [Except.ok.injEq] at hd
    have hr : d.restLogProb rest = Mass.validated v (d.restSupport rest) nan := by
      rw [← hd]
      exact generalMixture_nan v hlast (by simpa using hds) _ _
    have hr' : d.restLogProb rest = nan := by
      rw [hr]
      cases v with
      | false => rfl
      | true =>
        have := hs rfl
        rw [Mass.AndRest.support, Bool.and_eq_true] at this
        rw [this.1]
        rfl
    have hv : d.validate = v := by rw [← hd]
    have hdel : d.delta1 = s.num a.delta1 := by rw [← hd]
    simp only [Mass.AndRest.logProb, hr', nan_add, nan_sub, add_nan, isNegInf_nan, Bool.or_false, hdel, decide_eq_false (not_le.2 hw), select_false, hv]
    cases v with
    | false => rfl
    | true => rw [hs rfl]; rfl

/-! ## Concrete models -/

/-- A spin projection and a redshift. -/
def chiAndRedshift : Flag → Bool
  | .chiP | .redshift => true
  | _ => false

/-- One smoothed power law, one Gaussian. -/
noncomputable def o3Parameters : Dict String ℝ :=
  [("beta", 1), ("delta_m", 4), ("log_rate", 2), ("mmax", 90), ("mmin", 5), ("lambda_0", 7 / 10), ("alpha_pl", 3), ("mmin_pl", 5), ("mmax_pl", 80),
   ("chi_p_loc_pl", 0), ("chi_p_scale_pl", 1 / 2), ("chi_p_low_pl", 0), ("chi_p_high_pl", 1), ("redshift_kappa_pl", 2), ("redshift_z_max_pl", 1),
   ("m1_loc_g", 35), ("m1_scale_g", 4), ("chi_p_loc_g", 0), ("chi_p_scale_g", 1 / 3), ("redshift_kappa_g_0", 3), ("redshift_z_max_g", 2)]

/-- What the constructor builds from them. -/
noncomputable def o3Smoothed : Smoothed := ⟨[("beta", 1), ("delta_m", 4), ("log_rate", 2), ("mmax", 90), ("mmin", 5)], closeWeights [7 / 10],
  [⟨"DoublyTruncatedPowerLaw", ["mass_1_source"], [⟨none, "alpha", some (-3)⟩, ⟨none, "low", some 5⟩, ⟨none, "high", some 80⟩]⟩,
   ⟨"TruncatedNormal", ["mass_1_source"], [⟨some 0, "loc", some 35⟩, ⟨some 0, "scale", some 4⟩, ⟨some 0, "low", none⟩, ⟨some 0, "high", none⟩]⟩],
  [[⟨"DoublyTruncatedPowerLaw", ["mass_1_source"], [⟨none, "alpha", some (-3)⟩, ⟨none, "low", some 5⟩, ⟨none, "high", some 80⟩]⟩,
    ⟨"TruncatedNormal", ["chi_p"], [⟨some 0, "loc", some 0⟩, ⟨some 0, "scale", some (1 / 2)⟩, ⟨some 0, "low", some 0⟩, ⟨some 0, "high", some 1⟩]⟩,
    ⟨"PowerlawRedshift", ["redshift"], [⟨some 0, "kappa", some 2⟩, ⟨some 0, "z_max", some 1⟩]⟩],
   [⟨"TruncatedNormal", ["mass_1_source"], [⟨some 0, "loc", some 35⟩, ⟨some 0, "scale", some 4⟩, ⟨some 0, "low", none⟩, ⟨some 0, "high", none⟩]⟩,
    ⟨"TruncatedNormal", ["chi_p"], [⟨some 0, "loc", some 0⟩, ⟨some 0, "scale", some (1 / 3)⟩, ⟨some 0, "low", none⟩, ⟨some 0, "high", none⟩]⟩,
    ⟨"PowerlawRedshift", ["redshift"], [⟨some 0, "kappa", some 3⟩, ⟨some 0, "z_max", some 2⟩]⟩]]⟩

/-- The laws of that model. -/
noncomputable def o3Laws : List (List Law) :=
  [[.powerlaw (-3) 5 80, .normal 0 (1 / 2) (some 0) (some 1), .redshift 2 1], [.normal 35 4 none none, .normal 0 (1 / 3) none none, .redshift 3 2]]

/-- Its shared hyper-parameters. -/
noncomputable def o3Smoothing : Smoothing := ⟨1, 4, 4, 2, 90, 5, 5⟩

theorem o3Smoothed_eq : nSmoothedPowerlawMSmoothedGaussian chiAndRedshift 1 1 o3Parameters = .ok o3Smoothed := rfl

theorem o3Smoothed_laws : HaveLaws o3Smoothed.components o3Laws := .cons (.cons rfl (.cons rfl (.cons rfl .nil))) (.cons (.cons rfl (.cons rfl (.cons rfl .nil))) .nil)

theorem o3Laws_proper : ∀ ls ∈ o3Laws, ∀ L ∈ ls, L.Proper := by
  simp only [o3Laws, List.mem_cons, List.not_mem_nil, or_false, forall_eq_or_imp, forall_eq, Law.Proper]
  norm_num
  rintro a b ⟨⟩

theorem o3Smoothing_of : o3Smoothing.OfO3 o3Parameters := ⟨rfl, rfl, rfl, rfl, rfl, rfl, rfl⟩

theorem o3Smoothing_proper : o3Smoothing.Proper := by norm_num [Smoothing.Proper, o3Smoothing]

theorem o3Weights : ∀ w ∈ o3Smoothed.weights, 0 ≤ w := by
  simp [o3Smoothed, closeWeights]
  norm_num

theorem normal_pos (dV : ℝ → ℝ) (x : ℝ) : 0 < Law.density dV (.normal 35 4 none none) [x] :=
  ((Spin.has_truncatedNormal (loc := 35) (s := 4) (low := none) (high := none) (by norm_num) (Spin.boundsOk_lt (by rintro a b ⟨⟩)) true).inside x
    (show Spin.tnSupport none none (fin x) = true from Spin.tnSupport_fin.2 (Set.mem_univ x))).1

theorem o3_total_pos {dV : ℝ → ℝ} (hV : IsVolume Cosmo.planck2015 dV) : 0 < o3Smoothing.massTotal (massMixture dV o3Smoothed.weights o3Laws) :=
  C96_total_pos Cosmo.planck2015_proper hV o3Weights o3Laws_proper o3Smoothing_proper (i := 1) (w := 1 - [(7 / 10 : ℝ)].sum) (L := .normal 35 4 none none) rfl rfl (by norm_num)
    (normal_pos dV _)

/-- The example has the density of its laws. -/
example (dV : ℝ → ℝ) (hV : IsVolume Cosmo.planck2015 dV) (big : ℝ) (m chi z q : ℝ) : ∃ d Z, o3Population Cosmo.planck2015 big true chiAndRedshift 1 1 o3Parameters = .ok d ∧
    o3Smoothing.IsRatioTotal Z ∧ expR (d.logProb ([m, chi, z].map fin) (fin q)) =
      o3Smoothing.density (o3Smoothing.massTotal (massMixture dV o3Smoothed.weights o3Laws)) Z
        (7 / 10 * productDensity dV [.powerlaw (-3) 5 80, .normal 0 (1 / 2) (some 0) (some 1), .redshift 2 1] [m, chi, z] +
          3 / 10 * productDensity dV [.normal 35 4 none none, .normal 0 (1 / 3) none none, .redshift 3 2] [m, chi, z]) m q := by
  obtain ⟨d, Z, h1, h2, h3⟩ := C96_o3_density Cosmo.planck2015_proper hV big true o3Smoothed_eq o3Weights o3Smoothed_laws o3Laws_proper o3Smoothing_of o3Smoothing_proper
    (o3_total_pos hV)
  refine ⟨d, Z, h1, h2, ?_⟩
  rw [(h3 m q [chi, z] (by simp [o3Laws, lawsDim, Law.dim]) (by simp [o3Laws, AllRegular, Law.Regular])).2]
  congr 1
  simp only [restMixture, weighted, o3Smoothed, closeWeights, o3Laws, List.map_cons, List.map_nil, List.cons_append, List.nil_append, List.sum_cons, List.sum_nil,
    List.zipWith_cons_cons, List.zipWith_nil_left, add_zero]
  norm_num

/-- Its columns, by name. -/
example (dV : ℝ → ℝ) (hV : IsVolume Cosmo.planck2015 dV) (big : ℝ) : smoothedColumns chiAndRedshift = ["mass_1_source", "chi_p", "redshift", "mass_ratio"] ∧
    ∃ d Z, o3Population Cosmo.planck2015 big true chiAndRedshift 1 1 o3Parameters = .ok d ∧ o3Smoothing.IsRatioTotal Z := by
  refine ⟨rfl, ?_⟩
  obtain ⟨others, -, H⟩ := C96_named_columns Cosmo.planck2015_proper hV big true (o := chiAndRedshift) ⟨by simp [chiAndRedshift], by simp [chiAndRedshift]⟩ (Nb := 1) (Ng := 1)
    (params := o3Parameters) o3Weights o3Smoothed_laws o3Laws_proper o3Smoothing_proper (o3_total_pos hV)
  obtain ⟨d, Z, h1, h2, -⟩ := H _ (.inl ⟨o3Smoothed_eq, o3Smoothing_of, rfl⟩)
  exact ⟨d, Z, h1, h2⟩

/-- One broken power law, one Gaussian; nothing optional. -/
noncomputable def o4Parameters : Dict String ℝ :=
  [("beta", 1), ("delta_m1", 4), ("delta_m2", 3), ("log_rate", 2), ("m1max", 300), ("m1min", 5), ("m2min", 3), ("lambda_0", 7 / 10), ("alpha1_bpl", -2), ("alpha2_bpl", -4),
   ("m1break_bpl", 35), ("m1min_bpl", 5), ("m1max_bpl", 300), ("m1_loc_g", 35), ("m1_scale_g", 4)]

/-- What the constructor builds from them. -/
noncomputable def o4Smoothed : Smoothed := ⟨[("beta", 1), ("delta_m1", 4), ("delta_m2", 3), ("log_rate", 2), ("m1max", 300), ("m1min", 5), ("m2min", 3)], closeWeights [7 / 10],
  [⟨"BrokenPowerlaw", ["mass_1_source"], [⟨none, "alpha1", some (-2)⟩, ⟨none, "alpha2", some (-4)⟩, ⟨none, "mbreak", some 35⟩, ⟨none, "mmin", some 5⟩, ⟨none, "mmax", some 300⟩]⟩,
   ⟨"TruncatedNormal", ["mass_1_source"], [⟨some 0, "loc", some 35⟩, ⟨some 0, "scale", some 4⟩, ⟨some 0, "low", none⟩, ⟨some 0, "high", none⟩]⟩],
  [[⟨"BrokenPowerlaw", ["mass_1_source"], [⟨none, "alpha1", some (-2)⟩, ⟨none, "alpha2", some (-4)⟩, ⟨none, "mbreak", some 35⟩, ⟨none, "mmin", some 5⟩, ⟨none, "mmax", some 300⟩]⟩],
   [⟨"TruncatedNormal", ["mass_1_source"], [⟨some 0, "loc", some 35⟩, ⟨some 0, "scale", some 4⟩, ⟨some 0, "low", none⟩, ⟨some 0, "high", none⟩]⟩]]⟩

/-- The laws of that model. -/
noncomputable def o4Laws : List (List Law) := [[.broken (-2) (-4) 35 5 300], [.normal 35 4 none none]]

/-- Its shared hyper-parameters. -/
noncomputable def o4Smoothing : Smoothing := ⟨1, 4, 3, 2, 300, 5, 3⟩

/-- The example is built, and every event of it has a density. -/
example (dV : ℝ → ℝ) (hV : IsVolume Cosmo.planck2015 dV) (big m q : ℝ) : ∃ d Z, o4Population Cosmo.planck2015 big true (fun _ => false) 1 1 o4Parameters = .ok d ∧
    o4Smoothing.IsRatioTotal Z ∧ IsLog (d.logProb [fin m] (fin q)) := by
  have hl : HaveLaws o4Smoothed.components o4Laws := .cons (.cons rfl .nil) (.cons (.cons rfl .nil) .nil)
  have hp : ∀ ls ∈ o4Laws, ∀ L ∈ ls, L.Proper := by
    simp only [o4Laws, List.mem_cons, List.not_mem_nil, or_false, forall_eq_or_imp, forall_eq, Law.Proper]
    norm_num
    rintro a b ⟨⟩
  have hw : ∀ w ∈ o4Smoothed.weights, 0 ≤ w := by
    simp [o4Smoothed, closeWeights]
    norm_num
  have hS : o4Smoothing.Proper := by norm_num [Smoothing.Proper, o4Smoothing]
  obtain ⟨d, Z, h1, h2, h3⟩ := C96_o4_density Cosmo.planck2015_proper hV big true (use := fun _ => false) (Nb := 1) (Ng := 1) (params := o4Parameters) (s := o4Smoothed) rfl hw hl hp
    (S := o4Smoothing) ⟨rfl, rfl, rfl, rfl, rfl, rfl, rfl⟩ hS
    (C96_total_pos Cosmo.planck2015_proper hV hw hp hS (i := 1) (w := 1 - [(7 / 10 : ℝ)].sum) (L := .normal 35 4 none none) rfl rfl (by norm_num)
      (normal_pos dV _))
  exact ⟨d, Z, h1, h2, (h3 m q [] (by simp [o4Laws, lawsDim, Law.dim]) (by simp [o4Laws, AllRegular, Law.Regular])).1⟩

/-- The first component of the example, integrated over the other coordinates but the redshift. -/
example (dV : ℝ → ℝ) (hV : IsVolume Cosmo.planck2015 dV) (m : ℝ) :
    integrate 1 (fun rest => ENNReal.ofReal (productDensity dV [.powerlaw (-3) 5 80, .normal 0 (1 / 2) (some 0) (some 1)] (m :: rest))) =
      ENNReal.ofReal (Law.density dV (.powerlaw (-3) 5 80) [m]) :=
  (C96_marginal Cosmo.planck2015_proper hV (L := .powerlaw (-3) 5 80) (ls := [.normal 0 (1 / 2) (some 0) (some 1)]) rfl (fun K hK => o3Laws_proper _ (List.mem_cons_self ..) K (by
    simp only [List.mem_cons, List.not_mem_nil, or_false] at hK ⊢
    tauto)) m).2 (by simp)

/-- Two weights of 0.8 for three components: no event has a density. -/
example (big m q : ℝ) : ∃ s d, nSmoothedPowerlawMSmoothedGaussian (fun _ => false) 1 2 (("lambda_1", 4 / 5) :: ("lambda_0", 4 / 5) :: o3Parameters) = .ok s ∧
    s.dist Cosmo.planck2015 big false o3Arguments = .ok d ∧ d.logProb [fin m] (fin q) = nan := by
  refine ⟨⟨[("beta", 1), ("delta_m", 4), ("log_rate", 2), ("mmax", 90), ("mmin", 5)], closeWeights [4 / 5, 4 / 5],
    [⟨"DoublyTruncatedPowerLaw", ["mass_1_source"], [⟨none, "alpha", some (-3)⟩, ⟨none, "low", some 5⟩, ⟨none, "high", some 80⟩]⟩,
     ⟨"TruncatedNormal", ["mass_1_source"], [⟨some 0, "loc", some 35⟩, ⟨some 0, "scale", some 4⟩, ⟨some 0, "low", none⟩, ⟨some 0, "high", none⟩]⟩,
     ⟨"TruncatedNormal", ["mass_1_source"], [⟨some 0, "loc", some 35⟩, ⟨some 0, "scale", some 4⟩, ⟨some 0, "low", none⟩, ⟨some 0, "high", none⟩]⟩],
    [[⟨"DoublyTruncatedPowerLaw", ["mass_1_source"], [⟨none, "alpha", some (-3)⟩, ⟨none, "low", some 5⟩, ⟨none, "high", some 80⟩]⟩],
     [⟨"TruncatedNormal", ["mass_1_source"], [⟨some 0, "loc", some 35⟩, ⟨some 0, "scale", some 4⟩, ⟨some 0, "low", none⟩, ⟨some 0, "high", none⟩]⟩],
     [⟨"TruncatedNormal", ["mass_1_source"], [⟨some 0, "loc", some 35⟩, ⟨some 0, "scale", some 4⟩, ⟨some 0, "low", none⟩, ⟨some 0, "high", none⟩]⟩]]⟩, ?_⟩
  have hd : ∀ s : Smoothed, nSmoothedPowerlawMSmoothedGaussian (fun _ => false) 1 2 (("lambda_1", 4 / 5) :: ("lambda_0", 4 / 5) :: o3Parameters) = .ok s →
      1 < s.weights.dropLast.sum → 0 < s.num o3Arguments.delta1 → (∃ d, s.dist Cosmo.planck2015 big false o3Arguments = .ok d) →
      ∃ d, nSmoothedPowerlawMSmoothedGaussian (fun _ => false) 1 2 (("lambda_1", 4 / 5) :: ("lambda_0", 4 / 5) :: o3Parameters) = .ok s ∧
        s.dist Cosmo.planck2015 big false o3Arguments = .ok d ∧ d.logProb [fin m] (fin q) = nan := by
    rintro s h1 h2 h3 ⟨d, h4⟩
    exact ⟨d, h1, h4, C96_weights_violated Cosmo.planck2015 big false (.inl h1) h2 h4 h3 _ _ (by simp)⟩
  refine hd _ rfl ?_ ?_ ?_
  · norm_num [closeWeights]
  · have e : ∀ s : Smoothed, s.shared = [("beta", 1), ("delta_m", 4), ("log_rate", 2), ("mmax", 90), ("mmin", 5)] → s.num o3Arguments.delta1 = 4 := by
      intro s hs
      unfold Smoothed.num
      rw [hs]
      rfl
    rw [e _ rfl]
    norm_num
  · exact ⟨_, rfl⟩

/-- A missing hyper-parameter. -/
example (big : ℝ) : o3Population Cosmo.planck2015 big true chiAndRedshift 1 0 [] = .error (.lookup (.keyError "beta")) :=
  (C96_lookup_errors Cosmo.planck2015 big true).1.2 rfl

end GW.Hybrids
