import Verif.Model.Tools
import Mathlib.Data.Nat.Basic
import Mathlib.Data.Rat.Floor

/-!
# Convergence diagnostics: where the chains are cut

Models of `/repo/src/gwkokab_scripts/r_hat_plot.py` lines 106–148 and `/repo/src/gwkokab_scripts/ess_evolution_plot.py` lines 124–163, which are the same but for the diagnostic.
The diagnostic itself (arviz) is a given function of the chains.  A chain is the list of its draws, a draw the list of its values.
-/

namespace GW.Diagnostics
open GW.Tools (Err)

/-- `np.linspace(a, b, k, dtype=int)` for `a ≤ b`: `k` equidistant points rounded down, the last one `b`; only `a` if `k = 1`.
Source: gwkokab_scripts/r_hat_plot.py line 130, ess_evolution_plot.py line 148. -/
def linspaceInt (a b k : ℕ) : List ℕ :=
  (List.range k).map fun i => if k = 1 then a else if i + 1 = k then b else a + i * (b - a) / (k - 1)

/-- `draw_divisions` (`r_hat_plot.py` line 131, `ess_evolution_plot.py` line 147). -/
def divisions (nDraws nSplit : ℕ) : Except Err (List ℕ) :=
  if nSplit = 0 then .error .zeroDivision else .ok (linspaceInt (nDraws / nSplit) nDraws nSplit)

/-- `data.sel(draw=slice(first_draw + d))` (`r_hat_plot.py` line 137, `ess_evolution_plot.py` line 153), with `first_draw = 0`: a selection by label, so the last label is
included. -/
def upTo {α} (d : ℕ) (chains : List (List α)) : List (List α) := chains.map (·.take (d + 1))

/-- The points of the curves (`r_hat_plot.py` lines 133–145): the division and the diagnostics, one value per parameter, of the draws selected for it.  `nDraws` is the length of
the chains, which `np.array` requires to be equal. -/
def curves {α β} (diagnostic : List (List α) → List β) (chains : List (List α)) (nDraws nSplit : ℕ) : Except Err (List (ℕ × List β)) := do
  let ds ← divisions nDraws nSplit
  return ds.map fun d => (d, diagnostic (upTo d chains))

/-- `labels` (`r_hat_plot.py` line 146): those given, otherwise the names of the files. -/
def labels (given : Option (List String)) (filenames : List String) : List String := given.getD filenames

/-- `plt.plot(…, label=labels)` for `n` curves: a list of another length is refused.
Source: gwkokab_scripts/r_hat_plot.py line 146, ess_evolution_plot.py line 164. -/
def plotLabels (n : ℕ) (ls : List String) : Except Err (List String) := if ls.length = n then .ok ls else .error .valueError

end GW.Diagnostics
