import Verif.Model.Key
import Verif.Model.Tools

/-!
# The random number generator of an analysis

Model of `Guru.rng_key` and `Guru.set_rng_key`, `/repo/src/gwkanal/core/guru.py` lines 230–261, and of the use of the seed in `Sage.read_data`,
`/repo/src/gwkanal/core/sage.py` line 95.  (`jrd.PRNGKey` fails for a seed of 64 bits or more and wraps one of 32 bits or more; not modelled.)
-/

namespace GW.Rng
open GW.Tools (Err)

/-- The attributes `_rng_key` and `seed`; `none` before the first call of `set_rng_key`.  The seed is itself optional.
Source: gwkanal/core/guru.py lines 204 and 261. -/
structure St where
  key : Option Key := none
  seed : Option (Option ℤ) := none
deriving DecidableEq, Repr

/-- An argument which is absent (`none`), of a wrong type (`some none`) or a value.  Source: gwkanal/core/guru.py lines 235–260. -/
abbrev Arg (α : Type) := Option (Option α)

/-- `set_rng_key(key=…, seed=…)` (lines 235–261).  A seed of a wrong type given beside a key is stored; here as an absent one. -/
def setRngKey (key : Arg Key) (seed : Arg ℤ) (st : St) : Except Err St :=
  match key, seed with
  | none, none => .error .valueError
  | some none, _ => .error .valueError
  | some (some k), s => .ok { key := some k, seed := some s.join }
  | none, some none => .error .valueError
  | none, some (some s) => if s < 0 then .error .valueError else .ok { st with key := some (.seed s.toNat), seed := some (some s) }

/-- The property `rng_key` (lines 230–233): before `set_rng_key` the attribute is missing. -/
def rngKey (st : St) : Except Err (Key × St) :=
  match st.key with
  | none => .error .type
  | some k => .ok (.sub k 1, { st with key := some (.sub k 0) })

/-- `n` readings of `rng_key`.  Source: gwkanal/core/guru.py lines 230–233. -/
def draw : ℕ → St → Except Err (List Key × St)
  | 0, st => .ok ([], st)
  | n + 1, st =>
    match rngKey st with
    | .error e => .error e
    | .ok (k, st') =>
      match draw n st' with
      | .error e => .error e
      | .ok (ks, st'') => .ok (k :: ks, st'')

/-- The seed of the subsample of event `i`, `seed + i` (`sage.py` line 95, `/repo/src/gwkanal/core/inference_io/_discrete.py` line 153): `None + i` is a `TypeError`. -/
def eventSeed (st : St) (i : ℕ) : Except Err ℤ :=
  match st.seed with
  | some (some s) => .ok (s + i)
  | _ => .error .type

end GW.Rng
