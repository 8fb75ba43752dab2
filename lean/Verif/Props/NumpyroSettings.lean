import Verif.Model.NumpyroSettings
import Verif.Lemmas.PyDict
import Mathlib.Tactic.NormNum

/-!
# C73: the settings file of the NumPyro driver
-/

namespace GW.NumpyroSettings
open GW.PyDict (Dict get?)
open GW.Tools (Err)

/-! ## Specification -/

/-- The number of chains a settings file asks for: 1 if it says nothing. -/
def asks : Option J → Option ℕ
  | none => some 1
  | some (.num q) => if q.den = 1 ∧ 0 < q.num then some q.num.toNat else none
  | some (.bool b) => if b then some 1 else none
  | some _ => none

/-- A value Python can iterate over. -/
def Iterable (j : J) : Prop := (∃ l, j = .list l) ∨ (∃ s, j = .str s) ∨ ∃ d, j = .obj d

/-- A value accepted for `dense_mass`: a list has to be one of groups. -/
def DenseOk (o : Option J) : Prop := ∀ l, o = some (.list l) → ∀ x ∈ l, Iterable x

/-- The settings are those of a run: two sections, a method, a number of chains and a possible `dense_mass`. -/
def Valid (settings : J) : Prop :=
  ∃ cfg kernel mcmc m n, settings = .obj cfg ∧ get? cfg "kernel" = some (.obj kernel) ∧ get? cfg "mcmc" = some (.obj mcmc) ∧
    get? mcmc "chain_method" = some m ∧ asks (get? mcmc "num_chains") = some n ∧ DenseOk (get? kernel "dense_mass")

/-! ## Lemmas -/

theorem numChains_asks (o : Option J) (n : ℕ) : numChains o = .ok n ↔ asks o = some n := by
  rcases o with _ | j
  · simp [numChains, asks]
  · cases j with
    | num q =>
      simp only [numChains, asks]
      by_cases h1 : q.den = 1
      · by_cases h2 : q.num = 0
        · simp [h1, h2]
        · by_cases h3 : q.num < 0
          · simp [h1, h2, h3, show ¬ 0 < q.num by omega]
          · simp [h1, h2, h3, show 0 < q.num by omega]
      · simp [h1]
    | bool b => cases b <;> simp [numChains, asks]
    | _ => simp [numChains, asks]

theorem asks_pos (o : Option J) (n : ℕ) (h : asks o = some n) : 0 < n := by
  rcases o with _ | j
  · simp [asks] at h; omega
  · cases j with
    | num q =>
      simp only [asks] at h
      split at h
      · next hq => simp at h; omega
      · simp at h
    | bool b => cases b <;> simp [asks] at h; omega
    | _ => simp [asks] at h

theorem toTuple_ok (j : J) : (∃ t, toTuple j = .ok t) ↔ Iterable j := by cases j <;> simp [toTuple, Iterable]

theorem mapM_ok {α β} (f : α → Except Err β) (l : List α) : (∃ ys, l.mapM f = .ok ys) ↔ ∀ x ∈ l, ∃ y, f x = .ok y := by
  induction l with
  | nil => simp [pure, Except.pure]
  | cons a l ih =>
    rw [List.mapM_cons]
    cases ha : f a with
    | error e => simp [bind, Except.bind, ha]
    | ok y =>
      cases hl : l.mapM f with
      | error e =>
        rw [hl] at ih
        simp only [reduceCtorEq, exists_false, false_iff] at ih
        simp only [bind, Except.bind, reduceCtorEq, exists_false, false_iff]
        intro hall
        exact ih fun x hx => hall x (by simp [hx])
      | ok ys =>
        rw [hl] at ih
        simp only [Except.ok.injEq, exists_eq', true_iff] at ih
        simp only [bind, Except.bind, pure, Except.pure, Except.ok.injEq, exists_eq', true_iff, List.mem_cons, forall_eq_or_imp]
        exact ⟨⟨y, ha⟩, ih⟩

theorem denseMass_ok (kernel : Dict String J) : (∃ d, denseMass kernel = .ok d) ↔ DenseOk (get? kernel "dense_mass") := by
  unfold denseMass DenseOk
  cases h : get? kernel "dense_mass" with
  | none => simp
  | some j =>
    cases j with
    | list l =>
      have := mapM_ok toTuple l
      simp only [toTuple_ok] at this
      simp only [Option.getD_some, Option.some.injEq, J.list.injEq, forall_eq']
      rw [← this]
      cases l.mapM toTuple <;> simp
    | _ => simp

theorem get?_erase (d : Dict String J) (k k' : String) : get? (erase d k) k' = if k' = k then none else get? d k' := by
  induction d with
  | nil => simp [erase, get?]
  | cons p d ih =>
    unfold erase at ih ⊢
    rw [List.filter_cons]
    by_cases hp : p.1 = k
    · rw [if_neg (by simp [hp]), ih]
      split
      · rfl
      · next hne => rw [get?, if_neg (by rw [hp]; exact fun e => hne e.symm)]
    · rw [if_pos (by simp [hp]), get?, get?]
      by_cases hk : p.1 = k'
      · simp [hk, hk ▸ hp]
      · rw [if_neg hk, if_neg hk, ih]

theorem plan_cases (settings : J) (nDevices : ℕ) (p : Plan) (h : plan settings nDevices = .ok p) :
    ∃ cfg kernel mcmc m n dense, settings = .obj cfg ∧ get? cfg "kernel" = some (.obj kernel) ∧ get? cfg "mcmc" = some (.obj mcmc) ∧
      get? mcmc "chain_method" = some m ∧ numChains (get? mcmc "num_chains") = .ok n ∧ denseMass kernel = .ok dense ∧
      p = { dense, kernelArgs := erase kernel "dense_mass", chains := n, batch := Numpyro.batchSize (methodName m) nDevices n
            method := if Numpyro.batchSize (methodName m) nDevices n = 1 then "sequential" else Numpyro.effectiveMethod (methodName m) nDevices
            mcmcArgs := erase (erase mcmc "chain_method") "num_chains" } := by
  unfold plan at h
  split at h
  · next cfg =>
    split at h
    · simp at h
    · simp at h
    · simp at h
    · simp at h
    · next kernel mcmc hk hm =>
      cases hd : denseMass kernel with
      | error e => simp [hd] at h
      | ok dense =>
        simp only [hd, mcmcPlan] at h
        cases hc : get? mcmc "chain_method" with
        | none => simp [hc] at h
        | some m =>
          cases hn : numChains (get? mcmc "num_chains") with
          | error e => simp [hc, hn] at h
          | ok n =>
            simp only [hc, hn, Except.ok.injEq] at h
            exact ⟨cfg, kernel, mcmc, m, n, dense, rfl, hk, hm, hc, hn, hd, h.symm⟩
    · simp at h
  · simp at h

/-! ## C73 -/

/-- C73: exactly the valid settings are accepted, whatever the number of devices. -/
theorem C73_accepted_iff (settings : J) (nDevices : ℕ) : (∃ p, plan settings nDevices = .ok p) ↔ Valid settings := by
  constructor
  · rintro ⟨p, hp⟩
    obtain ⟨cfg, kernel, mcmc, m, n, dense, h1, h2, h3, h4, h5, h6, _⟩ := plan_cases _ _ _ hp
    exact ⟨cfg, kernel, mcmc, m, n, h1, h2, h3, h4, (numChains_asks _ _).1 h5, (denseMass_ok _).1 ⟨dense, h6⟩⟩
  · rintro ⟨cfg, kernel, mcmc, m, n, rfl, h2, h3, h4, h5, h6⟩
    obtain ⟨dense, hd⟩ := (denseMass_ok kernel).2 h6
    have e : plan (.obj cfg) nDevices = mcmcPlan mcmc nDevices dense (erase kernel "dense_mass") := by simp only [plan, h2, h3, hd]
    rw [e]
    simp only [mcmcPlan, h4, (numChains_asks _ _).2 h5]
    exact ⟨_, rfl⟩

/-- C73: a file without one of the sections, or with `null` for it, is refused with a `ValueError`. -/
theorem C73_missing_section (cfg : Dict String J) (nDevices : ℕ) (s : String) (hs : s = "kernel" ∨ s = "mcmc") (h : get? cfg s = none ∨ get? cfg s = some .null) :
    plan (.obj cfg) nDevices = .error .valueError := by
  unfold plan
  rcases hs with rfl | rfl
  · rcases h with h | h <;> simp only [h]
  · cases hk : get? cfg "kernel" with
    | none => simp [hk]
    | some j => rcases h with h | h <;> cases j <;> simp [hk, h]

/-- C73: the run has as many chains as the file asks for, one if it does not say: the batches make up that number, none of them is empty, and one of them is never larger than the
number of devices unless the chains are vectorised. -/
theorem C73_chains (settings : J) (nDevices : ℕ) (hd : 0 < nDevices) (p : Plan) (h : plan settings nDevices = .ok p) :
    (∃ cfg mcmc, settings = .obj cfg ∧ get? cfg "mcmc" = some (.obj mcmc) ∧ asks (get? mcmc "num_chains") = some p.chains) ∧
    0 < p.batch ∧ p.batch ≤ p.chains ∧ p.chains / p.batch * p.batch + p.chains % p.batch = p.chains ∧ (p.method ≠ "vectorized" → p.batch ≤ nDevices) := by
  obtain ⟨cfg, kernel, mcmc, m, n, dense, h1, h2, h3, h4, h5, h6, rfl⟩ := plan_cases _ _ _ h
  have ha := (numChains_asks _ _).1 h5
  have hn := asks_pos _ _ ha
  refine ⟨⟨cfg, mcmc, h1, h3, ha⟩, ?_, ?_, ?_, ?_⟩
  · simp only [Numpyro.batchSize]
    split <;> omega
  · simp only [Numpyro.batchSize]
    split <;> omega
  · exact Nat.div_add_mod' _ _
  · simp only [Numpyro.batchSize]
    split
    · next hv => intro hm; by_cases h1 : n = 1 <;> simp_all; omega
    · intro _
      omega

/-- C73: the method of the chains is always one the library knows: in parallel if there are several devices and several chains, otherwise one after the other unless the file asks for
vectorised chains. -/
theorem C73_method (settings : J) (nDevices : ℕ) (hd : 0 < nDevices) (p : Plan) (h : plan settings nDevices = .ok p) :
    (p.method = "parallel" ↔ 1 < nDevices ∧ 1 < p.chains) ∧ (p.method = "parallel" ∨ p.method = "vectorized" ∨ p.method = "sequential") ∧
    (p.method = "vectorized" ↔ nDevices = 1 ∧ 1 < p.chains ∧ ∃ cfg mcmc, settings = .obj cfg ∧ get? cfg "mcmc" = some (.obj mcmc) ∧ get? mcmc "chain_method" = some (.str "vectorized")) := by
  obtain ⟨cfg, kernel, mcmc, m, n, dense, rfl, h2, h3, h4, h5, h6, rfl⟩ := plan_cases _ _ _ h
  have hn := asks_pos _ _ ((numChains_asks _ _).1 h5)
  have hv : (∃ cfg' mcmc', J.obj cfg = .obj cfg' ∧ get? cfg' "mcmc" = some (.obj mcmc') ∧ get? mcmc' "chain_method" = some (.str "vectorized")) ↔ methodName m = "vectorized" := by
    constructor
    · rintro ⟨c, mc, e, e1, e2⟩
      cases e
      rw [h3] at e1
      cases e1
      rw [h4] at e2
      cases e2
      rfl
    · intro e
      refine ⟨cfg, mcmc, rfl, h3, ?_⟩
      rw [h4]
      cases m <;> simp_all [methodName]
  rw [hv]
  simp only [Numpyro.batchSize, Numpyro.effectiveMethod]
  generalize methodName m = s at *
  by_cases hnd : 1 < nDevices
  · by_cases hp : s = "parallel"
    · subst hp
      by_cases h1 : min n nDevices = 1
      · have : n = 1 := by omega
        subst this
        simp [h1]
      · have : 1 < n := by omega
        simp [h1, hnd, this]
    · by_cases h1 : min n nDevices = 1
      · have : n = 1 := by omega
        subst this
        simp [hp, hnd, h1]
      · have : 1 < n := by omega
        simp [hp, hnd, h1, this]; omega
  · have : nDevices = 1 := by omega
    subst this
    have e1 : min n 1 = 1 := by omega
    by_cases hs : s = "vectorized"
    · subst hs
      by_cases h1 : n = 1
      · subst h1; simp
      · have : 1 < n := by omega
        simp [h1, this]
    · simp [hs, e1]

/-- C73: every other setting reaches the library unchanged, under its name; `dense_mass` is `False` if it is missing, and a list of lists becomes a list of tuples with the same entries. -/
theorem C73_passed (cfg kernel mcmc : Dict String J) (nDevices : ℕ) (hk : get? cfg "kernel" = some (.obj kernel)) (hm : get? cfg "mcmc" = some (.obj mcmc)) (p : Plan)
    (h : plan (.obj cfg) nDevices = .ok p) :
    (∀ k, k ≠ "dense_mass" → get? p.kernelArgs k = get? kernel k) ∧ get? p.kernelArgs "dense_mass" = none ∧
    (∀ k, k ≠ "chain_method" → k ≠ "num_chains" → get? p.mcmcArgs k = get? mcmc k) ∧ get? p.mcmcArgs "chain_method" = none ∧ get? p.mcmcArgs "num_chains" = none ∧
    (get? kernel "dense_mass" = none → p.dense = .asIs (.bool false)) ∧
    (∀ b, get? kernel "dense_mass" = some (.bool b) → p.dense = .asIs (.bool b)) ∧
    (∀ gs : List (List J), get? kernel "dense_mass" = some (.list (gs.map .list)) → p.dense = .blocks gs) := by
  obtain ⟨cfg', kernel', mcmc', m, n, dense, e, h2, h3, h4, h5, h6, rfl⟩ := plan_cases _ _ _ h
  cases e
  rw [hk] at h2
  cases h2
  rw [hm] at h3
  cases h3
  refine ⟨?_, ?_, ?_, ?_, ?_, ?_, ?_, ?_⟩
  · intro k hk; simp [get?_erase, hk]
  · simp [get?_erase]
  · intro k h1 h2; simp [get?_erase, h1, h2]
  · simp [get?_erase]
  · simp [get?_erase]
  · intro e
    simp [denseMass, e] at h6
    exact h6.symm
  · intro b e
    simp [denseMass, e] at h6
    exact h6.symm
  · intro gs e
    have hg : ∀ gs : List (List J), (gs.map J.list).mapM toTuple = .ok gs := by
      intro gs
      induction gs with
      | nil => rfl
      | cons g gs ih => rw [List.map_cons, List.mapM_cons, ih]; rfl
    simp only [denseMass, e, Option.getD_some, hg, Except.ok.injEq] at h6
    exact h6.symm

/-- C73: the template is accepted, and asks for ten chains. -/
theorem C73_template (nDevices : ℕ) : ∃ p, plan template nDevices = .ok p ∧ p.chains = 10 ∧ p.batch = min 10 nDevices := by
  have hv : Valid template := by
    refine ⟨_, _, _, .str "parallel", 10, rfl, rfl, rfl, rfl, ?_, ?_⟩
    · simp [get?, asks]
    · simp [DenseOk, get?]
  obtain ⟨p, hp⟩ := (C73_accepted_iff template nDevices).2 hv
  refine ⟨p, hp, ?_⟩
  obtain ⟨cfg, kernel, mcmc, m, n, dense, h1, h2, h3, h4, h5, h6, rfl⟩ := plan_cases _ _ _ hp
  cases h1
  simp only [get?] at h3
  simp at h3
  subst h3
  simp [get?, numChains] at h4 h5
  subst h4 h5
  exact ⟨rfl, by simp [Numpyro.batchSize, Numpyro.effectiveMethod, methodName]⟩

/-- C73 fails for the method: any other text, or no text at all, is accepted. -/
theorem C73_method_unchecked_violated (m : J) (nDevices : ℕ) : ∃ p, plan (.obj [("kernel", .obj []), ("mcmc", .obj [("chain_method", m)])]) nDevices = .ok p := by
  refine (C73_accepted_iff _ _).2 ⟨_, [], [("chain_method", m)], m, 1, rfl, ?_, ?_, ?_, ?_, ?_⟩ <;> simp [get?, asks, DenseOk]

/-- C73 fails for a file that leaves the method to the library, as it may for all other settings: it is refused, with a `KeyError`. -/
theorem C73_method_missing_violated (nDevices : ℕ) : plan (.obj [("kernel", .obj []), ("mcmc", .obj [])]) nDevices = .error .key := rfl

/-- Settings with groups of parameters meet the hypotheses of `C73_passed`. -/
example : ∃ p, plan (.obj [("kernel", .obj [("dense_mass", .list [.list [.str "a", .str "b"]])]), ("mcmc", .obj [("chain_method", .str "vectorized"), ("num_chains", .num 4)])]) 1 = .ok p ∧
    p.method = "vectorized" ∧ p.batch = 4 := by
  have hn : numChains (some (.num 4)) = .ok 4 := by simp [numChains]
  simp [plan, get?, denseMass, mcmcPlan, hn, toTuple, methodName, pure, Except.pure, bind, Except.bind, Numpyro.batchSize, Numpyro.effectiveMethod]

end GW.NumpyroSettings
