/-!
# PRNG keys

`jax.random.split(k, n)` returns `n` sub-keys.  Keys are modelled as free terms: a sub-key is named by its parent and its position.
Two keys are equal in the model exactly when they are obtained by the same derivation.  (Trusted: the real Threefry generator does not
collide otherwise.)

The position alone matters, not `n`: since JAX 0.5 (`jax_threefry_partitionable`, on by default; `/repo/uv.lock` pins 0.7.2)
`split(k, n)[i]` does not depend on `n`.  In older versions it does, so keys that are distinct here are distinct there as well.
-/

namespace GW

/-- A PRNG key: a seed, or the `i`-th of the keys returned by splitting `k`.  Source: used throughout, e.g. gwkanal/core/guru.py line 259. -/
inductive Key where
  | seed (s : Nat)
  | sub (k : Key) (i : Nat)
deriving DecidableEq, Repr

/-- `jax.random.split(k, n)`.  Source: used throughout, e.g. gwkanal/core/guru.py line 232. -/
def Key.split (k : Key) (n : Nat) : List Key := (List.range n).map (Key.sub k)

end GW
