import Verif.Model.Rng
import Verif.Model.Version
import Mathlib.Data.List.Nodup
import Mathlib.Data.List.Basic

/-!
# C74, C75: the keys of an analysis, and the version of the package
-/

namespace GW.Rng
open GW.Tools (Err)

/-! ## C74 -/

/-- `k` with `n` halvings: the state of the generator after `n` readings. -/
def chain (k : Key) : ℕ → Key
  | 0 => k
  | n + 1 => chain (.sub k 0) n

theorem draw_eq (n : ℕ) (k : Key) (s : Option (Option ℤ)) :
    draw n ⟨some k, s⟩ = .ok ((List.range n).map fun i => .sub (chain k i) 1, ⟨some (chain k n), s⟩) := by
  induction n generalizing k with
  | zero => rfl
  | succ n ih =>
    simp only [draw, rngKey, ih, List.range_succ_eq_map, List.map_cons, List.map_map]
    rfl

theorem chain_succ (k : Key) (n : ℕ) : chain k (n + 1) = .sub (chain k n) 0 := by
  induction n generalizing k with
  | zero => rfl
  | succ n ih => rw [chain, ih, chain]

/-- The number of splits that lead to a key. -/
def depth : Key → ℕ
  | .seed _ => 0
  | .sub k _ => depth k + 1

theorem depth_chain (k : Key) (n : ℕ) : depth (chain k n) = depth k + n := by
  induction n with
  | zero => rfl
  | succ n ih => rw [chain_succ, depth, ih]; omega

/-- The seed from which a key descends. -/
def root : Key → ℕ
  | .seed s => s
  | .sub k _ => root k

theorem root_chain (k : Key) (n : ℕ) : root (chain k n) = root k := by
  induction n with
  | zero => rfl
  | succ n ih => rw [chain_succ, root, ih]

/-- C74: which arguments are accepted: a key, or without a key a seed which is an integer and not negative. -/
theorem C74_accepted_iff (key : Arg Key) (seed : Arg ℤ) (st : St) :
    (∃ st', setRngKey key seed st = .ok st') ↔ (∃ k, key = some (some k)) ∨ (key = none ∧ ∃ s, seed = some (some s) ∧ 0 ≤ s) := by
  rcases key with _ | _ | k <;> rcases seed with _ | _ | s <;> simp [setRngKey]
  split <;> simp <;> omega

/-- C74: before a key is set no key can be read. -/
theorem C74_unset (n : ℕ) (s : Option (Option ℤ)) : draw (n + 1) ⟨none, s⟩ = .error .type := rfl

/-- C74: the keys read from one analysis are all different, and different from the one kept for later readings. -/
theorem C74_distinct (st st' : St) (n : ℕ) (ks : List Key) (h : draw n st = .ok (ks, st')) : ks.length = n ∧ ks.Nodup ∧ ∀ k, st'.key = some k → k ∉ ks := by
  rcases st with ⟨_ | k, s⟩
  · cases n with
    | zero =>
      simp only [draw, Except.ok.injEq, Prod.mk.injEq] at h
      obtain ⟨rfl, rfl⟩ := h
      simp
    | succ n => simp [draw, rngKey] at h
  · rw [draw_eq] at h
    simp only [Except.ok.injEq, Prod.mk.injEq] at h
    obtain ⟨rfl, rfl⟩ := h
    refine ⟨by simp, ?_, ?_⟩
    · refine List.Nodup.map ?_ List.nodup_range
      intro i j e
      have := congrArg depth e
      simp only [depth, depth_chain] at this
      omega
    · intro k' e hm
      simp only [Option.some.injEq] at e
      subst e
      obtain ⟨i, hi, e⟩ := List.mem_map.1 hm
      cases n with
      | zero => simp at hi
      | succ n =>
        rw [chain_succ] at e
        injection e with _ e2
        simp at e2

/-- C74: the keys depend on the seed only, not on what the analysis did before; -/
theorem C74_reproducible (seed : ℤ) (n : ℕ) (st₁ st₂ a b : St) (h₁ : setRngKey none (some (some seed)) st₁ = .ok a) (h₂ : setRngKey none (some (some seed)) st₂ = .ok b) :
    draw n a = draw n b := by
  simp only [setRngKey] at h₁ h₂
  split at h₁
  · simp at h₁
  · split at h₂
    · simp at h₂
    · simp only [Except.ok.injEq] at h₁ h₂
      rw [← h₁, ← h₂]

/-- and different seeds give different keys. -/
theorem C74_seeds_independent (s₁ s₂ : ℤ) (hs : s₁ ≠ s₂) (n m : ℕ) (st₁ st₂ a b a' b' : St) (ks ls : List Key)
    (h₁ : setRngKey none (some (some s₁)) st₁ = .ok a) (h₂ : setRngKey none (some (some s₂)) st₂ = .ok b) (d₁ : draw n a = .ok (ks, a')) (d₂ : draw m b = .ok (ls, b')) :
    ∀ k ∈ ks, k ∉ ls := by
  simp only [setRngKey] at h₁ h₂
  split at h₁
  · simp at h₁
  · split at h₂
    · simp at h₂
    · next p₁ p₂ =>
      simp only [Except.ok.injEq] at h₁ h₂
      subst h₁ h₂
      rw [draw_eq] at d₁ d₂
      simp only [Except.ok.injEq, Prod.mk.injEq] at d₁ d₂
      obtain ⟨rfl, _⟩ := d₁
      obtain ⟨rfl, _⟩ := d₂
      intro k hk hl
      obtain ⟨i, _, rfl⟩ := List.mem_map.1 hk
      obtain ⟨j, _, e⟩ := List.mem_map.1 hl
      have := congrArg root e
      simp only [root, root_chain] at this
      omega

/-- C74: an analysis given a seed draws its events with seeds that follow from it, one per event. -/
theorem C74_event_seeds (seed : ℤ) (st a : St) (h : setRngKey none (some (some seed)) st = .ok a) (i : ℕ) : eventSeed a i = .ok (seed + i) := by
  simp only [setRngKey] at h
  split at h
  · simp at h
  · simp only [Except.ok.injEq] at h
    rw [← h]
    rfl

/-- C74 fails for an analysis given a key: the call is accepted, but reading the events fails. -/
theorem C74_key_only_violated (k : Key) (st : St) : ∃ a, setRngKey (some (some k)) none st = .ok a ∧ ∀ i, eventSeed a i = .error .type := ⟨_, rfl, fun _ => rfl⟩

/-- C74 fails for an analysis given both: the seed is recorded, though it is not checked and the keys do not come from it. -/
theorem C74_key_and_seed_violated (k : Key) (s : ℤ) (st : St) : ∃ a, setRngKey (some (some k)) (some (some s)) st = .ok a ∧ a.seed = some (some s) ∧ a.key = some k :=
  ⟨_, rfl, rfl, rfl⟩

/-- Seed 7 meets the hypotheses: three keys. -/
example : (∃ a, setRngKey none (some (some 7)) {} = .ok a ∧ ∃ ks a', draw 3 a = .ok (ks, a') ∧ ks.length = 3) ∧ setRngKey none (some (some (-1))) {} = .error .valueError :=
  ⟨⟨_, rfl, _, _, rfl, rfl⟩, rfl⟩

end GW.Rng

namespace GW.Version
open GW.Tools (Err)

/-! ## C75 -/

/-- C75: without the environment variable, or with `0` or `false` in any mixture of cases, the version is the plain one. -/
theorem C75_release (env hash : Option String) (date : String) (h : env = none ∨ ∃ v, env = some v ∧ (lower v = "0" ∨ lower v = "false")) :
    getVersion env hash date = .ok "0.2.1" := by
  rcases h with rfl | ⟨v, rfl, h | h⟩
  · rfl
  · simp [getVersion, h, base]
  · simp [getVersion, h, base]

/-- C75: a nightly version is the plain one with a suffix: the commit if git knows it, otherwise the day. -/
theorem C75_nightly (v : String) (h : lower v = "1" ∨ lower v = "true") (hash : Option String) (date : String) :
    (∀ c, hash = some c → c ≠ "" → getVersion (some v) hash date = .ok ("0.2.1" ++ ("+g" ++ c))) ∧
    ((hash = none ∨ hash = some "") → getVersion (some v) hash date = .ok ("0.2.1" ++ ("+d" ++ date))) := by
  constructor
  · rintro c rfl hc
    rw [← String.append_assoc]
    rcases h with h | h <;> simp [getVersion, h, base, hc]
  · rw [← String.append_assoc]
    rintro (rfl | rfl) <;> rcases h with h | h <;> simp [getVersion, h, base]

/-- C75: so nightly versions of different commits differ, and differ from the release and from each dated one. -/
theorem C75_distinguishes (v : String) (h : lower v = "1" ∨ lower v = "true") (c₁ c₂ : String) (h₁ : c₁ ≠ "") (h₂ : c₂ ≠ "") (d₁ d₂ d₃ : String) (hc : c₁ ≠ c₂) :
    getVersion (some v) (some c₁) d₁ ≠ getVersion (some v) (some c₂) d₂ ∧ getVersion (some v) (some c₁) d₁ ≠ getVersion (some v) none d₃ ∧
      getVersion (some v) (some c₁) d₁ ≠ getVersion none (some c₁) d₁ := by
  rw [(C75_nightly v h _ d₁).1 c₁ rfl h₁, (C75_nightly v h _ d₂).1 c₂ rfl h₂, (C75_nightly v h _ d₃).2 (.inl rfl), C75_release none _ _ (.inl rfl)]
  refine ⟨?_, ?_, ?_⟩
  · intro e
    simp only [Except.ok.injEq, String.append_right_inj] at e
    exact hc e
  · intro e
    simp only [Except.ok.injEq, String.append_right_inj] at e
    have := congrArg String.toList e
    simp at this
  · intro e
    simp only [Except.ok.injEq] at e
    have := congrArg (fun s => s.toList.length) e
    simp at this

/-- C75 fails for any other value of the variable: the package cannot be imported. -/
theorem C75_import_violated (v : String) (h : lower v ∉ ["1", "0", "true", "false"]) (hash : Option String) (date : String) :
    getVersion (some v) hash date = .error .assertion := by simp only [getVersion, if_pos h]

example : getVersion (some "TRUE") (some "abc") "20250101" = .ok "0.2.1+gabc" ∧ getVersion (some "no") none "20250101" = .error .assertion := by
  constructor <;> decide +kernel

end GW.Version
