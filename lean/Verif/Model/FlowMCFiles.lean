import Verif.Model.FlowMC

/-!
# The files of a flowMC run, at every moment of the run

Model of what `Sampler.sample` has written when it has called the first `n` strategies: `_save_acceptances`, `_save_chains`, `_save_samples`,
`/repo/src/gwkanal/core/flowMC_based.py` lines 596–646 and 681–803.  A buffer entry that no step has filled is `none`: flowMC fills new buffers with
`-inf`.

Simplifications: a single save is atomic; the row of a step has no entry `-inf`; the average of the acceptances over the chains is not computed (row `i` of the file is the
average of the acceptances of the step that filled entry `i`, and `-inf` if none did).
-/

namespace GW.FlowMC

/-- The four buffers of acceptances.  Source: gwkanal/core/flowMC_based.py lines 260–265 and 274–279. -/
structure Accs where
  trainLocal : List (Option Row)
  trainGlobal : List (Option Row)
  prodLocal : List (Option Row)
  prodGlobal : List (Option Row)
deriving DecidableEq

/-- The effect of one strategy on the acceptances: a stepper stores them at the rows at which it stores its positions, in the buffers
`target_local_accs` and `target_global_accs` stand for.  Source: gwkanal/core/flowMC_based.py lines 300–309, 332–352 and 366–383. -/
def accStep (nl ng : Nat) (st : St) (a : Accs) : Strat → Accs
  | .localStepper =>
    if st.training then { a with trainLocal := write a.trainLocal st.lpos (rows true st.lcalls nl) }
    else { a with prodLocal := write a.prodLocal st.lpos (rows true st.lcalls nl) }
  | .globalStepper =>
    if st.training then { a with trainGlobal := write a.trainGlobal st.gpos (rows false st.gcalls ng) }
    else { a with prodGlobal := write a.prodGlobal st.gpos (rows false st.gcalls ng) }
  | _ => a

/-- The files; `none` if a file has not been written.  A chain file has one row per buffer entry and is the same for every chain, up to the chain; an acceptance
file has the columns of training and production; a row of the sample file is a step of a chain.
Source: gwkanal/core/flowMC_based.py lines 705–711, 747–758, 799–803. -/
structure Disk where
  trainChains : Option (List (Option Row)) := none
  prodChains : Option (List (Option Row)) := none
  localAccs : Option (List (Option (Option Row) × Option (Option Row))) := none
  globalAccs : Option (List (Option (Option Row) × Option (Option Row))) := none
  samples : Option (List (Nat × Option Row)) := none

/-- The two columns of an acceptance file.  Source: gwkanal/core/flowMC_based.py lines 688–711. -/
def accColumns (train prod : List (Option Row)) : List (Option (Option Row) × Option (Option Row)) :=
  let n := max train.length prod.length
  (padTo n train).zip (padTo n prod)

/-- The saves after a strategy.  Source: gwkanal/core/flowMC_based.py lines 609–611 and 637–644. -/
def save (nl ng nChains : Nat) (st : St) (a : Accs) (d : Disk) : Saves → Disk
  | .training => { d with
      localAccs := some (accColumns a.trainLocal a.prodLocal)
      globalAccs := some (accColumns a.trainGlobal a.prodGlobal)
      trainChains := some st.trainBuf }
  | .nothing => d
  | .production => { d with
      localAccs := some (accColumns a.trainLocal a.prodLocal)
      globalAccs := some (accColumns a.trainGlobal a.prodGlobal)
      prodChains := some st.prodBuf
      samples := some (savedSamples nl ng (fun r => r.2.isNone) ((List.range nChains).map fun c => st.prodBuf.map fun r => (c, r))) }

/-- Everything at one moment.  Source: gwkanal/core/flowMC_based.py lines 566–644. -/
structure Moment where
  st : St
  accs : Accs
  disk : Disk

/-- One strategy and its saves.  Source: gwkanal/core/flowMC_based.py lines 601–611, 617–622, 627–644. -/
def Moment.next (nl ng nChains : Nat) (m : Moment) (s : Strat × Saves) : Moment :=
  let st := step nl ng m.st s.1
  let a := accStep nl ng m.st m.accs s.1
  { st := st, accs := a, disk := save nl ng nChains st a m.disk s.2 }

/-- The buffers as allocated and no files.  Source: gwkanal/core/flowMC_based.py lines 243–279. -/
def start (nLocal localThin nGlobal globalThin nTraining nProduction : Nat) : Moment :=
  let st := initial nLocal localThin nGlobal globalThin nTraining nProduction
  { st := st, accs := ⟨st.trainBuf, st.trainBuf, st.prodBuf, st.prodBuf⟩, disk := {} }

/-- The run when it has called `n` strategies, or all of them if there are fewer.  Source: gwkanal/core/flowMC_based.py lines 596–644. -/
def after (nLocal localThin nGlobal globalThin nTraining nProduction nChains n : Nat) : Moment :=
  ((executed (strategyOrder nTraining nProduction)).take n).foldl (Moment.next (nLocal / localThin) (nGlobal / globalThin) nChains)
    (start nLocal localThin nGlobal globalThin nTraining nProduction)

end GW.FlowMC
