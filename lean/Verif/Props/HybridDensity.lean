import Verif.Lemmas.HybridMass

/-!
# C95: the density of `NPowerlawMGaussian`

For every choice of the optional pieces, every number of power-law and Gaussian components and every complete set of hyper-parameters.
-/

namespace GW.Hybrids
open GW XR GW.PyDict GW.Joint GW.Constraints MeasureTheory
open scoped Classical ENNReal

/-! ## Every model has laws -/

/-- The classes, with the number of their coordinates. -/
def classDims : List (String × Nat) :=
  [("PowerlawPrimaryMassRatio", 2), ("BetaFromMeanVar", 1), ("TruncatedNormal", 1), ("TwoTruncatedNormalMixture", 1), ("NDTwoTruncatedNormalMixture", 2),
   ("IndependentSpinOrientationGaussianIsotropic", 2), ("GWTC4EffectiveSpinSkewNormalModel", 1), ("Uniform", 1), ("PowerlawRedshift", 1),
   ("DoublyTruncatedPowerLaw", 1), ("BrokenPowerlaw", 1), ("MinimumTiltModelExtended", 2)]

theorem lawOf_isSome {f : Factor} (h : (f.cls, f.quantities.length) ∈ classDims) : ∃ L, lawOf f = some L ∧ L.dim = f.quantities.length := by
  simp only [classDims, List.mem_cons, List.not_mem_nil, or_false, Prod.mk.injEq] at h
  rcases h with ⟨h1, h2⟩ | ⟨h1, h2⟩ | ⟨h1, h2⟩ | ⟨h1, h2⟩ | ⟨h1, h2⟩ | ⟨h1, h2⟩ | ⟨h1, h2⟩ | ⟨h1, h2⟩ | ⟨h1, h2⟩ | ⟨h1, h2⟩ | ⟨h1, h2⟩ | ⟨h1, h2⟩
  all_goals
    first
    | (obtain ⟨a, b, hq⟩ := List.length_eq_two.1 h2
       unfold lawOf
       rw [h1, hq]
       exact ⟨_, rfl, rfl⟩)
    | (obtain ⟨a, hq⟩ := List.length_eq_one_iff.1 h2
       unfold lawOf
       rw [h1, hq]
       exact ⟨_, rfl, rfl⟩)

theorem info_pl_dims : (infoCollection "pl").all (fun e => (e.2.cls, e.2.quantities.length) ∈ classDims) = true := by decide +kernel
theorem info_g_dims : (infoCollection "g").all (fun e => (e.2.cls, e.2.quantities.length) ∈ classDims) = true := by decide +kernel

theorem makeFactor_law {params : Dict String ℝ} {mk : Maker} {i : Nat} {f : Factor} (hm : (mk.cls, mk.quantities.length) ∈ classDims)
    (h : makeFactor params mk i = .ok f) : ∃ L, lawOf f = some L ∧ L.dim = f.quantities.length := by
  obtain ⟨h1, h2, -⟩ := makeFactor_ok h
  exact lawOf_isSome (by rw [h1, h2]; exact hm)

theorem forall₂_right {α β : Type} {R : α → β → Prop} {l : List α} {l' : List β} (h : List.Forall₂ R l l') : ∀ b ∈ l', ∃ a ∈ l, R a b := by
  induction h with
  | nil => simp
  | @cons a b l l' hd _ ih =>
    intro y hy
    rcases List.mem_cons.1 hy with rfl | hy
    · exact ⟨a, by simp, hd⟩
    · obtain ⟨x, hx, hr⟩ := ih y hy
      exact ⟨x, by simp [hx], hr⟩

theorem loop_laws {params : Dict String ℝ} {i : Nat} {coll : List (Flag × Maker)} {use : Flag → Bool} {fs : List Factor}
    (hc : coll.all (fun e => (e.2.cls, e.2.quantities.length) ∈ classDims) = true)
    (h : List.Forall₂ (fun (e : Flag × Maker) f => makeFactor params e.2 i = .ok f) (coll.filter fun e => use e.1) fs) :
    ∀ f ∈ fs, ∃ L, lawOf f = some L ∧ L.dim = f.quantities.length := by
  intro f hf
  obtain ⟨e, he, hef⟩ := forall₂_right h f hf
  have := List.all_eq_true.1 hc e (List.mem_filter.1 he).1
  exact makeFactor_law (by simpa using this) hef

/-- Every factor of a component, and its number of coordinates. -/
theorem component_laws {use : Flag → Bool} {Npl Ng : Nat} {params : Dict String ℝ} {m : Mixture} (h : nPowerlawMGaussian use Npl Ng params = .ok m) :
    ∀ c ∈ m.components, c ≠ [] ∧ ∀ f ∈ c, ∃ L, lawOf f = some L ∧ L.dim = f.quantities.length := by
  obtain ⟨a, b, hc, ha, hb, hpl, hg, -⟩ := nPowerlawMGaussian_ok h
  intro c hcm
  rw [hc, List.mem_append] at hcm
  rcases hcm with hcm | hcm
  · have hpos : 0 < Npl := ha ▸ List.length_pos_of_mem hcm
    have hbuild := hpl hpos
    unfold buildPl at hbuild
    cases hcr : create Npl params powerlawPrimaryMassRatio with
    | error e => rw [hcr] at hbuild; simp at hbuild
    | ok ms =>
      rw [hcr] at hbuild
      obtain ⟨hl, hms⟩ := create_ok hcr
      obtain ⟨h1, h2⟩ := buildLoop_ok (by simpa using hl) hbuild
      obtain ⟨i, hi, rfl⟩ := List.getElem_of_mem hcm
      have hi' : i < Npl := ha ▸ hi
      obtain ⟨f, hf, hmk⟩ := hms i hi'
      obtain ⟨fs, hfs, hall⟩ := h2 i hi' [f] (by rw [List.getElem?_map, hf]; rfl)
      rw [List.getElem?_eq_getElem hi] at hfs
      injection hfs with hfs
      rw [hfs]
      refine ⟨by simp, fun g hgm => ?_⟩
      rcases List.mem_append.1 hgm with hgm | hgm
      · rw [List.mem_singleton.1 hgm]
        exact makeFactor_law (by decide +kernel) hmk
      · exact loop_laws info_pl_dims hall g hgm
  · have hpos : 0 < Ng := hb ▸ List.length_pos_of_mem hcm
    have hbuild := hg hpos
    unfold buildG at hbuild
    cases hcr : create Ng params (truncatedNormal "mass_1_source" "m1" "g") with
    | error e => rw [hcr] at hbuild; simp at hbuild
    | ok ms =>
      rw [hcr] at hbuild
      simp only at hbuild
      cases hcr2 : create Ng params (truncatedNormal "mass_2_source" "m2" "g") with
      | error e => rw [hcr2] at hbuild; simp at hbuild
      | ok ms2 =>
        rw [hcr2] at hbuild
        obtain ⟨hl, hms⟩ := create_ok hcr
        obtain ⟨hl2, hms2⟩ := create_ok hcr2
        obtain ⟨h1, h2⟩ := buildLoop_ok (by simp [hl, hl2]) hbuild
        obtain ⟨i, hi, rfl⟩ := List.getElem_of_mem hcm
        have hi' : i < Ng := hb ▸ hi
        obtain ⟨f, hf, hmk⟩ := hms i hi'
        obtain ⟨f2, hf2, hmk2⟩ := hms2 i hi'
        obtain ⟨fs, hfs, hall⟩ := h2 i hi' [f, f2] (by rw [List.getElem?_zipWith, hf, hf2])
        rw [List.getElem?_eq_getElem hi] at hfs
        injection hfs with hfs
        rw [hfs]
        refine ⟨by simp, fun g hgm => ?_⟩
        rcases List.mem_append.1 hgm with hgm | hgm
        · rcases List.mem_cons.1 hgm with rfl | hgm
          · exact makeFactor_law (by decide +kernel) hmk
          · rw [List.mem_singleton.1 hgm]
            exact makeFactor_law (by decide +kernel) hmk2
        · exact loop_laws info_g_dims hall g hgm

theorem forall₂_exists {α β : Type} {R : α → β → Prop} {l : List α} (h : ∀ a ∈ l, ∃ b, R a b) : ∃ l', List.Forall₂ R l l' := by
  induction l with
  | nil => exact ⟨[], .nil⟩
  | cons a l ih =>
    obtain ⟨b, hb⟩ := h a (by simp)
    obtain ⟨l', hl⟩ := ih fun x hx => h x (by simp [hx])
    exact ⟨b :: l', .cons hb hl⟩

theorem lawsDim_eq {c : List Factor} {ls : List Law} (hd : ∀ f ∈ c, ∃ L, lawOf f = some L ∧ L.dim = f.quantities.length)
    (h : List.Forall₂ (fun f L => lawOf f = some L) c ls) : lawsDim ls = (coordinates c).length := by
  induction h with
  | nil => rfl
  | @cons f L c ls h1 _ ih =>
    obtain ⟨L', e1, e2⟩ := hd f (by simp)
    rw [h1] at e1
    injection e1 with e1
    have i := ih fun g hg => hd g (by simp [hg])
    simp only [lawsDim, coordinates, List.map_cons, List.sum_cons, List.flatMap_cons, List.length_append] at i ⊢
    rw [e1, e2, i]

theorem haveLaws_of_mem {cs : List (List Factor)} {laws : List (List Law)} (hl : HaveLaws cs laws) {P : List Factor → List Law → Prop}
    (hP : ∀ c ∈ cs, ∀ ls ∈ laws, List.Forall₂ (fun f L => lawOf f = some L) c ls → P c ls) : List.Forall₂ P cs laws := by
  unfold HaveLaws at hl
  induction hl with
  | nil => exact .nil
  | cons hd _ ih => exact .cons (hP _ (by simp) _ (by simp) hd) (ih fun c hc ls hls => hP c (by simp [hc]) ls (by simp [hls]))

theorem coordinates_length {use : Flag → Bool} {Npl Ng : Nat} {params : Dict String ℝ} {m : Mixture} (h : nPowerlawMGaussian use Npl Ng params = .ok m) :
    ∃ n, ∀ c ∈ m.components, (coordinates c).length = n := by
  have dims : ∀ l : List (Flag × Maker), ((l.filter fun e => use e.1).flatMap fun e => e.2.quantities).length =
      (((l.map fun e => (e.1, e.2.quantities.length)).filter fun e => use e.1).map Prod.snd).sum := by
    intro l
    induction l with
    | nil => rfl
    | cons e l ih => by_cases k : use e.1 <;> simp [k, ih]
  have same : (infoCollection "g").map (fun e => (e.1, e.2.quantities.length)) = (infoCollection "pl").map fun e => (e.1, e.2.quantities.length) := rfl
  obtain ⟨h1, h2, h3⟩ := nPowerlawMGaussian_components h
  refine ⟨2 + ((((infoCollection "pl").map fun e => (e.1, e.2.quantities.length)).filter fun e => use e.1).map Prod.snd).sum, fun c hc => ?_⟩
  obtain ⟨i, hi, rfl⟩ := List.getElem_of_mem hc
  rcases lt_or_ge i Npl with k | k
  · obtain ⟨c, e1, -, e2, -⟩ := h2 i k
    rw [List.getElem?_eq_getElem hi] at e1
    injection e1 with e1
    rw [e1, e2, List.length_append, dims]
    rfl
  · obtain ⟨c, e1, -, e2, -⟩ := h3 (i - Npl) (by omega)
    rw [show Npl + (i - Npl) = i by omega, List.getElem?_eq_getElem hi] at e1
    injection e1 with e1
    rw [e1, e2, List.length_append, dims, same]
    rfl

/-- **C95.**  Every component of every model that can be built is a list of the laws of the specification, all of the same number of coordinates. -/
theorem C95_laws {use : Flag → Bool} {Npl Ng : Nat} {params : Dict String ℝ} {m : Mixture} (h : nPowerlawMGaussian use Npl Ng params = .ok m) :
    (∃ laws, HaveLaws m.components laws) ∧
    ∀ laws, HaveLaws m.components laws → laws.length = Npl + Ng ∧ m.logRates.length = Npl + Ng ∧ ∃ n, ∀ ls ∈ laws, lawsDim ls = n := by
  have hc := component_laws h
  refine ⟨forall₂_exists fun c hcm => forall₂_exists fun f hf => ?_, fun laws hl => ⟨?_, ?_, ?_⟩⟩
  · obtain ⟨L, hL, -⟩ := (hc c hcm).2 f hf
    exact ⟨L, hL⟩
  · rw [← hl.length_eq]
    exact (nPowerlawMGaussian_components h).1
  · obtain ⟨_, _, _, _, _, _, _, _, hr, _⟩ := nPowerlawMGaussian_ok h
    exact hr
  · obtain ⟨n, hn⟩ := coordinates_length h
    refine ⟨n, fun ls hls => ?_⟩
    obtain ⟨c, hcm, hL⟩ := forall₂_right hl ls hls
    rw [lawsDim_eq (hc c hcm).2 hL, hn c hcm]

/-! ## The density -/

theorem populationModel_at {c : Cosmo.Cosmology} (hc : c.Proper) {dV : ℝ → ℝ} (hV : IsVolume c dV) (big : ℝ) (v w : Bool) {use : Flag → Bool} {Npl Ng : Nat}
    {params : Dict String ℝ} {m : Mixture} (h : nPowerlawMGaussian use Npl Ng params = .ok m) {laws : List (List Law)} (hl : HaveLaws m.components laws)
    (hp : ∀ ls ∈ laws, ∀ L ∈ ls, L.Proper) {x : List ℝ} (hx : ∀ ls ∈ laws, x.length = lawsDim ls) (hr : ∀ ls ∈ laws, AllRegular ls x) :
    ∃ M, populationModel c big v use Npl Ng params = .ok M ∧ IsLog (M.logProbChecked w (.many (x.map fin))) ∧
      expR (M.logProbChecked w (.many (x.map fin))) = (List.zipWith (fun r ls => Real.exp r * productDensity dV ls x) m.logRates laws).sum := by
  have hcl := component_laws h
  have ev := haveLaws_of_mem hl (P := fun fs ls => ∃ d, Full.join (fs.map (block c big v)) = .ok d ∧
      Full.Evaluates d (.many (x.map fin)) (productDensity dV ls x) ∧ d.shape = some x.length) fun fs hfs ls hls hL =>
    component_evaluates hc hV big v (hcl fs hfs).1 hL (hp ls hls) (hx ls hls) (hr ls hls)
  have key : ∃ ds, joinAll c big v m.components = .ok ds ∧ List.Forall₂ (fun d p => Full.Evaluates d (.many (x.map fin)) p) ds (laws.map fun ls => productDensity dV ls x) ∧
      ∀ d ∈ ds, d.shape = some x.length := by
    unfold joinAll
    generalize m.components = cs at ev
    clear hl hp hx hr hcl h
    induction ev with
    | nil => exact ⟨[], rfl, .nil, by simp⟩
    | @cons fs ls cs laws hd _ ih =>
      obtain ⟨d, e1, e2, e3⟩ := hd
      obtain ⟨ds, i1, i2, i3⟩ := ih
      refine ⟨d :: ds, ?_, .cons e2 i2, ?_⟩
      · rw [List.mapM_cons, e1, i1]
        rfl
      · intro k hk
        rcases List.mem_cons.1 hk with rfl | hk
        · exact e3
        · exact i3 k hk
  obtain ⟨ds, j1, j2, j3⟩ := key
  obtain ⟨_, _, _, _, _, _, _, hpos, hrl, _⟩ := nPowerlawMGaussian_ok h
  have hlen : ds.length = Npl + Ng := by
    rw [j2.length_eq, List.length_map, ← hl.length_eq]
    exact (nPowerlawMGaussian_components h).1
  obtain ⟨M, m1, m2, m3⟩ := mixAll_density v w (rates := m.logRates) (List.length_pos_iff.1 (by omega)) (by omega) x.length j3 j2
  refine ⟨M, ?_, m2, ?_⟩
  · unfold populationModel
    rw [h]
    simp only [j1, m1]
  · rw [m3, List.zipWith_map_right]

theorem allRegular_half (ls : List Law) (n : ℕ) : AllRegular ls (List.replicate n (1 / 2 : ℝ)) := by
  induction ls generalizing n with
  | nil => trivial
  | cons L ls ih =>
    refine ⟨?_, by rw [List.drop_replicate]; exact ih _⟩
    rw [List.take_replicate]
    unfold Law.Regular
    split
    · rename_i mean variance x e
      have : x = 1 / 2 := by
        have : x ∈ List.replicate (min (Law.beta mean variance).dim n) (1 / 2 : ℝ) := by rw [e]; simp
        exact List.eq_of_mem_replicate this
      rw [this]
      exact ⟨fun k => by norm_num at k, fun k => by norm_num at k⟩
    · trivial

/-- **C95** (density).  With meaningful hyper-parameters the model is built, and its log density at every event (away from the end points of a beta law
that blows up there) is a number or `-inf`: the log of the sum, over the components, of the exponential of the log rate times the product of the
densities of the laws of the component, each at its own share of the coordinates. -/
theorem C95_density {c : Cosmo.Cosmology} (hc : c.Proper) {dV : ℝ → ℝ} (hV : IsVolume c dV) (big : ℝ) (v : Bool) {use : Flag → Bool} {Npl Ng : Nat}
    {params : Dict String ℝ} {m : Mixture} (h : nPowerlawMGaussian use Npl Ng params = .ok m) {laws : List (List Law)} (hl : HaveLaws m.components laws)
    (hp : ∀ ls ∈ laws, ∀ L ∈ ls, L.Proper) :
    ∃ M, populationModel c big v use Npl Ng params = .ok M ∧
      ∀ x : List ℝ, (∀ ls ∈ laws, x.length = lawsDim ls) → (∀ ls ∈ laws, AllRegular ls x) →
        IsLog (M.logProbChecked v (.many (x.map fin))) ∧
        expR (M.logProbChecked v (.many (x.map fin))) = (List.zipWith (fun r ls => Real.exp r * productDensity dV ls x) m.logRates laws).sum := by
  obtain ⟨n, hn⟩ := ((C95_laws h).2 laws hl).2.2
  obtain ⟨M, hM, -⟩ := populationModel_at hc hV big v v h hl hp (x := List.replicate n (1 / 2)) (fun ls hls => by simp [hn ls hls])
    fun ls _ => allRegular_half ls n
  refine ⟨M, hM, fun x hx hr => ?_⟩
  obtain ⟨M', e, r⟩ := populationModel_at hc hV big v v h hl hp hx hr
  rw [hM] at e
  injection e with e
  rw [e]
  exact r

theorem productDensity_named (dV : ℝ → ℝ) (event : String → ℝ) {c : List Factor} {ls : List Law}
    (hd : ∀ f ∈ c, ∃ L, lawOf f = some L ∧ L.dim = f.quantities.length) (h : List.Forall₂ (fun f L => lawOf f = some L) c ls) :
    productDensity dV ls ((coordinates c).map event) = namedDensity dV event c ls := by
  induction h with
  | nil => simp [productDensity, namedDensity]
  | @cons f L c ls h1 _ ih =>
    obtain ⟨L', e1, e2⟩ := hd f (by simp)
    rw [h1] at e1
    injection e1 with e1
    rw [← e1] at e2
    have i := ih fun g hg => hd g (by simp [hg])
    have hlen : (f.quantities.map event).length = L.dim := by simp [e2]
    simp only [namedDensity, List.zipWith_cons_cons, List.prod_cons, productDensity, coordinates, List.flatMap_cons, List.map_append] at i ⊢
    rw [List.take_left' hlen, List.drop_left' hlen, i]

theorem map_eq_zipWith {α β γ : Type} {f : β → γ} {g : α → β → γ} {l : List α} {l' : List β} (h : List.Forall₂ (fun a b => f b = g a b) l l') :
    l'.map f = List.zipWith g l l' := by
  induction h with
  | nil => rfl
  | cons hd _ ih => rw [List.map_cons, List.zipWith_cons_cons, hd, ih]

/-- **C95** (columns).  For the analyses of `n_pls_m_gs`: an event whose columns are named by the command-line options is given the sum over the components of rate
times the product, over the factors, of the density of the factor's law at the columns the factor is about. -/
theorem C95_named_columns {c : Cosmo.Cosmology} (hc : c.Proper) {dV : ℝ → ℝ} (hV : IsVolume c dV) (big : ℝ) (v : Bool) {o : Flag → Bool} (ho : Exclusive o)
    {Npl Ng : Nat} {params : Dict String ℝ} {m : Mixture} (h : nPowerlawMGaussian (sageConstants o) Npl Ng params = .ok m) {laws : List (List Law)}
    (hl : HaveLaws m.components laws) (hp : ∀ ls ∈ laws, ∀ L ∈ ls, L.Proper) :
    ∃ M, populationModel c big v (sageConstants o) Npl Ng params = .ok M ∧
      ∀ event : String → ℝ, (∀ ls ∈ laws, AllRegular ls ((sageColumns o).map event)) →
        IsLog (M.logProbChecked v (.many (((sageColumns o).map event).map fin))) ∧
        expR (M.logProbChecked v (.many (((sageColumns o).map event).map fin))) =
          (List.zipWith (fun r p => Real.exp r * p) m.logRates (List.zipWith (namedDensity dV event) m.components laws)).sum := by
  obtain ⟨M, hM, H⟩ := C95_density hc hV big v h hl hp
  have hcols := (C49_columns_are_coordinates ho h).2.2
  have hcl := component_laws h
  refine ⟨M, hM, fun event hr => ?_⟩
  obtain ⟨h1, h2⟩ := H ((sageColumns o).map event) (fun ls hls => by
    obtain ⟨c, hcm, hL⟩ := forall₂_right hl ls hls
    rw [lawsDim_eq (hcl c hcm).2 hL, hcols c hcm, List.length_map]) hr
  refine ⟨h1, ?_⟩
  rw [h2, ← List.zipWith_map_right]
  congr 2
  have := haveLaws_of_mem hl (P := fun cm ls => productDensity dV ls ((sageColumns o).map event) = namedDensity dV event cm ls) fun cm hcm ls _ hL => by
    rw [← hcols cm hcm]
    exact productDensity_named dV event (hcl cm hcm).2 hL
  exact map_eq_zipWith this

/-- **C95** (normalisation).  The density of a component integrates to the product of the totals of its laws: one for every law except that of the
redshift, whose total is the (finite) number of mergers per unit observer time for a local rate of one. -/
theorem C95_normalised {c : Cosmo.Cosmology} (hc : c.Proper) {dV : ℝ → ℝ} (hV : IsVolume c dV) {ls : List Law} (hp : ∀ L ∈ ls, L.Proper) :
    integrate (lawsDim ls) (fun x => ENNReal.ofReal (productDensity dV ls x)) = (ls.map (Law.total dV)).prod ∧ (ls.map (Law.total dV)).prod ≠ ∞ ∧
    ((∀ L ∈ ls, ∀ kappa zMax, L ≠ .redshift kappa zMax) → integrate (lawsDim ls) (fun x => ENNReal.ofReal (productDensity dV ls x)) = 1) := by
  obtain ⟨h1, h2⟩ := component_total hc hV hp
  refine ⟨h1, h2, fun hz => ?_⟩
  rw [h1]
  refine List.prod_eq_one fun t ht => ?_
  obtain ⟨L, hL, rfl⟩ := List.mem_map.1 ht
  unfold Law.total
  split
  · exact absurd rfl (hz _ hL _ _)
  · rfl

/-- **C95** (volume).  The volume the redshift law is about exists and is that of C28. -/
theorem C95_volume {c : Cosmo.Cosmology} (hc : c.Proper) : ∃ dV, IsVolume c dV ∧ ∀ z, 0 ≤ z → ∃ Dc, c.zToDc (fin z) = fin Dc ∧ dV z = 4 * Real.pi / 10 ^ 9 * Dc ^ 2 * c.rate z := by
  choose! Dc w h1 h2 h3 h4 using fun z hz => (Cosmo.C28_volume c hc z hz).2.2
  exact ⟨w, h2, fun z hz => ⟨Dc z, h1 z hz, h4 z hz⟩⟩

/-- **C95** (errors).  A hyper-parameter that cannot be looked up is reported as such; nothing else is. -/
theorem C95_lookup_errors (c : Cosmo.Cosmology) (big : ℝ) (v : Bool) {use : Flag → Bool} {Npl Ng : Nat} {params : Dict String ℝ} {e : Err} :
    populationModel c big v use Npl Ng params = .error (.lookup e) ↔ nPowerlawMGaussian use Npl Ng params = .error e := by
  unfold populationModel
  cases h : nPowerlawMGaussian use Npl Ng params with
  | error e' => simp
  | ok m =>
    simp only [reduceCtorEq, iff_false]
    cases h2 : joinAll c big v m.components with
    | error e' => simp
    | ok ds =>
      simp only
      cases h3 : mixAll v m.logRates ds with
      | error e' => simp
      | ok M => simp

/-- **C95** (order of the masses, violated).  The power-law components give nothing to events whose secondary is heavier than the primary, the Gaussian
components do: their two masses are independent. -/
theorem C95_mass_order_violated {alpha slope mmin mmax loc1 scale1 loc2 scale2 m1 m2 : ℝ} {low1 high1 low2 high2 : Option ℝ} (dV : ℝ → ℝ) (h : m1 < m2)
    (hs1 : 0 < scale1) (hs2 : 0 < scale2) (hb1 : ∀ a b, low1 = some a → high1 = some b → a < b) (hb2 : ∀ a b, low2 = some a → high2 = some b → a < b)
    (hm1 : m1 ∈ Spin.bounds low1 high1) (hm2 : m2 ∈ Spin.bounds low2 high2) :
    productDensity dV [.masses alpha slope mmin mmax] [m1, m2] = 0 ∧ 0 < productDensity dV [.normal loc1 scale1 low1 high1, .normal loc2 scale2 low2 high2] [m1, m2] := by
  have pos : ∀ {loc s x : ℝ} {low high : Option ℝ}, 0 < s → (∀ a b, low = some a → high = some b → a < b) → x ∈ Spin.bounds low high →
      0 < Spin.restrictedNormal loc s (Spin.bounds low high) x := fun hs hb hx =>
    ((Spin.has_truncatedNormal hs (Spin.boundsOk_lt hb) true).inside _ (Spin.tnSupport_fin.2 hx)).1
  constructor
  · simp [productDensity, Law.dim, Law.density, Law.massDensity, not_le.2 h]
  · simpa [productDensity, Law.dim, Law.density] using mul_pos (pos (loc := loc1) hs1 hb1 hm1) (pos (loc := loc2) hs2 hb2 hm2)

/-! ## A concrete model -/

/-- Beta spins and a redshift. -/
def spinsAndRedshift : Flag → Bool
  | .betaSpin | .redshift => true
  | _ => false

/-- One power law, one Gaussian; the redshift of the Gaussian has its own numbered slope. -/
noncomputable def someParameters : Dict String ℝ :=
  [("log_rate_0", 1), ("log_rate_1", 2), ("alpha_pl", 3), ("beta_pl", 1), ("mmin_pl", 5), ("mmax_pl", 80),
   ("a_1_mean_pl", 1 / 2), ("a_1_variance_pl", 1 / 20), ("a_2_mean_pl", 1 / 3), ("a_2_variance_pl", 1 / 30), ("redshift_kappa_pl", 2), ("redshift_z_max_pl", 1),
   ("m1_loc_g", 35), ("m1_scale_g", 4), ("m1_low_g", 5), ("m1_high_g", 100), ("m2_loc_g", 30), ("m2_scale_g", 5), ("m2_low_g", 5),
   ("a_1_mean_g", 1 / 2), ("a_1_variance_g", 1 / 20), ("a_2_mean_g", 1 / 3), ("a_2_variance_g", 1 / 30), ("redshift_kappa_g_0", 3), ("redshift_z_max_g", 2)]

/-- What the constructor builds from them. -/
noncomputable def someMixture : Mixture := ⟨[1,2],
 [[⟨"PowerlawPrimaryMassRatio", ["mass_1_source", "mass_2_source"], [⟨none, "alpha", some 3⟩, ⟨none, "beta", some 1⟩, ⟨none, "mmin", some 5⟩, ⟨none, "mmax", some 80⟩]⟩,
   ⟨"BetaFromMeanVar", ["a_1"], [⟨some 0, "mean", some (1 / 2)⟩, ⟨some 0, "variance", some (1 / 20)⟩]⟩,
   ⟨"BetaFromMeanVar", ["a_2"], [⟨some 0, "mean", some (1 / 3)⟩, ⟨some 0, "variance", some (1 / 30)⟩]⟩,
   ⟨"PowerlawRedshift", ["redshift"], [⟨some 0, "kappa", some 2⟩, ⟨some 0, "z_max", some 1⟩]⟩],
  [⟨"TruncatedNormal", ["mass_1_source"], [⟨some 0, "loc", some 35⟩, ⟨some 0, "scale", some 4⟩, ⟨some 0, "low", some 5⟩, ⟨some 0, "high", some 100⟩]⟩,
   ⟨"TruncatedNormal", ["mass_2_source"], [⟨some 0, "loc", some 30⟩, ⟨some 0, "scale", some 5⟩, ⟨some 0, "low", some 5⟩, ⟨some 0, "high", none⟩]⟩,
   ⟨"BetaFromMeanVar", ["a_1"], [⟨some 0, "mean", some (1 / 2)⟩, ⟨some 0, "variance", some (1 / 20)⟩]⟩,
   ⟨"BetaFromMeanVar", ["a_2"], [⟨some 0, "mean", some (1 / 3)⟩, ⟨some 0, "variance", some (1 / 30)⟩]⟩,
   ⟨"PowerlawRedshift", ["redshift"], [⟨some 0, "kappa", some 3⟩, ⟨some 0, "z_max", some 2⟩]⟩]]⟩

/-- The laws of that model. -/
noncomputable def someLaws : List (List Law) :=
  [[.masses 3 1 5 80, .beta (1 / 2) (1 / 20), .beta (1 / 3) (1 / 30), .redshift 2 1],
   [.normal 35 4 (some 5) (some 100), .normal 30 5 (some 5) none, .beta (1 / 2) (1 / 20), .beta (1 / 3) (1 / 30), .redshift 3 2]]

theorem someMixture_eq : nPowerlawMGaussian spinsAndRedshift 1 1 someParameters = .ok someMixture := rfl

theorem someMixture_laws : HaveLaws someMixture.components someLaws :=
  .cons (.cons rfl (.cons rfl (.cons rfl (.cons rfl .nil)))) (.cons (.cons rfl (.cons rfl (.cons rfl (.cons rfl (.cons rfl .nil))))) .nil)

theorem someLaws_proper : ∀ ls ∈ someLaws, ∀ L ∈ ls, L.Proper := by
  simp only [someLaws, List.mem_cons, List.not_mem_nil, or_false, forall_eq_or_imp, forall_eq, Law.Proper]
  norm_num
  rintro a b - ⟨⟩

/-- The model of the example is built, and it has the density of its laws. -/
example (dV : ℝ → ℝ) (hV : IsVolume Cosmo.planck2015 dV) (big : ℝ) (m1 m2 z : ℝ) :
    ∃ M, populationModel Cosmo.planck2015 big true spinsAndRedshift 1 1 someParameters = .ok M ∧
      expR (M.logProbChecked true (.many ([m1, m2, 1 / 4, 1 / 2, z].map fin))) =
        Real.exp 1 * productDensity dV [.masses 3 1 5 80, .beta (1 / 2) (1 / 20), .beta (1 / 3) (1 / 30), .redshift 2 1] [m1, m2, 1 / 4, 1 / 2, z] +
        Real.exp 2 * productDensity dV [.normal 35 4 (some 5) (some 100), .normal 30 5 (some 5) none, .beta (1 / 2) (1 / 20), .beta (1 / 3) (1 / 30),
          .redshift 3 2] [m1, m2, 1 / 4, 1 / 2, z] := by
  obtain ⟨M, hM, H⟩ := C95_density Cosmo.planck2015_proper hV big true someMixture_eq someMixture_laws someLaws_proper
  refine ⟨M, hM, ?_⟩
  rw [(H [m1, m2, 1 / 4, 1 / 2, z] (by simp [someLaws, lawsDim, Law.dim]) (by
    simp only [someLaws, List.mem_cons, List.not_mem_nil, or_false, forall_eq_or_imp, forall_eq, AllRegular, Law.dim, List.take_succ_cons, List.take_zero,
      List.drop_succ_cons, List.drop_zero, Law.Regular, Full.BetaRegular]
    norm_num)).2]
  simp [someMixture, someLaws]

/-- Its columns are those of the analysis, and a component of it without the redshift law has unit mass. -/
example (dV : ℝ → ℝ) (hV : IsVolume Cosmo.planck2015 dV) (big : ℝ) : Exclusive spinsAndRedshift ∧
    sageColumns spinsAndRedshift = ["mass_1_source", "mass_2_source", "a_1", "a_2", "redshift"] ∧
    (∃ M, populationModel Cosmo.planck2015 big true (sageConstants spinsAndRedshift) 1 1 someParameters = .ok M) ∧
    integrate 4 (fun x => ENNReal.ofReal (productDensity dV [.masses 3 1 5 80, .beta (1 / 2) (1 / 20), .beta (1 / 3) (1 / 30)] x)) = 1 := by
  refine ⟨⟨by simp [spinsAndRedshift], by simp [spinsAndRedshift]⟩, rfl, ?_, ?_⟩
  · obtain ⟨M, hM, -⟩ := C95_named_columns Cosmo.planck2015_proper hV big true (o := spinsAndRedshift) ⟨by simp [spinsAndRedshift], by simp [spinsAndRedshift]⟩
      (Npl := 1) (Ng := 1) (params := someParameters) (m := someMixture) rfl someMixture_laws someLaws_proper
    exact ⟨M, hM⟩
  · refine (C95_normalised Cosmo.planck2015_proper hV (ls := [.masses 3 1 5 80, .beta (1 / 2) (1 / 20), .beta (1 / 3) (1 / 30)]) ?_).2.2 (by simp)
    intro L hL
    refine someLaws_proper _ (List.mem_cons_self ..) L ?_
    simp only [List.mem_cons, List.not_mem_nil, or_false] at hL ⊢
    tauto

/-- A secondary heavier than the primary. -/
example (dV : ℝ → ℝ) : 0 < productDensity dV [.normal 35 4 (some 5) (some 100), .normal 30 5 (some 5) none] [20, 40] :=
  (C95_mass_order_violated (alpha := 3) (slope := 1) (mmin := 5) (mmax := 80) dV (by norm_num) (by norm_num) (by norm_num)
    (by rintro a b ⟨⟩ ⟨⟩; norm_num) (by rintro a b - ⟨⟩) (by simp [Spin.bounds]; norm_num) (by simp [Spin.bounds]; norm_num)).2

/-- A missing hyper-parameter. -/
example (big : ℝ) : populationModel Cosmo.planck2015 big true spinsAndRedshift 1 0 [] = .error (.lookup (.valueError "alpha_pl_0")) :=
  (C95_lookup_errors Cosmo.planck2015 big true).2 rfl

end GW.Hybrids
