import Verif.Model.Adaptation
import Verif.Model.ErrorVariance

/-!
# The simulation loop

Models `/repo/pymcmcstat/MCMC.py:226-411,458-589`: initialisation and expansion of the chains,
`__execute_simulator`, `__update_chain`, `__update_rejected`, and which rows are handed to the
log files.  Not modelled: the progress bar, printing, custom samplers (their list is empty).
-/

namespace Verif
variable {F σ : Type} [PyFloat F] {N n m : ℕ}

/-- Options of a run after `_check_dependent_simulation_options`.
Source: `settings/SimulationOptions.py:172-198`. -/
structure RunOpts (F : Type) extends AdaptOpts F where
  nsimu : ℕ
  adaptint : ℤ
  savesize : ℕ
  lastadapt : ℤ
  updatesigma : Bool

/-- a block of rows written to the log files by one call of `__save_to_log_file`:
rows `start..stop-1` of chain, sschain and (if present) s2chain.
Source: `MCMC.py:458-498`, `MCMC.py:501-525`. -/
structure LogBlock (F : Type) (n m : ℕ) where
  start : ℕ
  stop : ℕ
  chain : List (Vec F n)
  sschain : List (Vec F m)
  s2chain : Option (List (Vec F m))

/-- The arrays in the list `self.__chains` that the logger writes from.  They are the live
chain arrays after `__initialize_chains` (`MCMC.py:246-253`); after `__expand_chains`
(`MCMC.py:258-279`), which binds the attributes to new arrays, they are the arrays of the
earlier run. -/
inductive LogSource (F : Type) (n m : ℕ) where
  | live
  | stale (chain : List (Vec F n)) (sschain : List (Vec F m)) (s2chain : Option (List (Vec F m)))

/-- ghost: what one call of `run_adaptation` was given and returned. Source: `MCMC.py:344-360`. -/
structure AdaptRecord (F : Type) (n : ℕ) where
  /-- the iteration -/
  at_ : ℕ
  before : CovState F n
  after : CovState F n
  /-- the normal draw of the iteration's first proposal -/
  u : Vec F n
  /-- `new_set.alpha` -/
  alpha : Option F

/-- ghost: what one call of `update_error_variance` was given and returned. Source: `MCMC.py:362-366`. -/
structure SigmaRecord (F : Type) (m : ℕ) where
  ss : Vec F m
  before : ErrModel F m
  after : ErrModel F m

/-- ghost: what the samplers were given at the start of one iteration and how they left the random
generator. Source: `MCMC.py:309-331`. -/
structure MoveRecord (F σ : Type) (n m : ℕ) where
  /-- `old_set` -/
  before : ParamSet F n m
  /-- the factor of the proposal covariance -/
  R : Mat F n
  /-- the factors of the stages of delayed rejection -/
  RDR : Slot (List (Mat F n))
  /-- and their inverses -/
  invR : Option (List (Mat F n))
  /-- the state of the random generator -/
  rng : σ
  /-- the state in which the samplers left the random generator -/
  rngAfter : σ

/-- State of `__execute_simulator` between iterations. Source: `MCMC.py:282-411`. -/
structure SimState (F σ : Type) (N n m : ℕ) where
  chainIndex : ℕ
  iiadapt : ℕ
  savecount : ℕ
  lastbin : ℕ
  chain : List (Vec F n)
  sschain : List (Vec F m)
  s2chain : Option (List (Vec F m))
  oldSet : ParamSet F n m
  rejected : Rejected
  cov : CovState F n
  dr : DrCount
  errModel : ErrModel F m
  world : World F σ N
  logSource : LogSource F n m
  logs : List (LogBlock F n m)
  /-- proposal covariances `R'R` written to the covariance log (`covmtx=True`) -/
  covlogs : List (ℕ × ℕ × Mat F n)
  /-- ghost: for each finished iteration the proposals made in it, oldest iteration first -/
  trace : List (List (Try F n))
  /-- ghost: iterations at which `run_adaptation` was called -/
  adaptedAt : List ℕ
  /-- ghost: the calls of `run_adaptation` -/
  adaptLog : List (AdaptRecord F n)
  /-- ghost: the calls of `update_error_variance` -/
  sigmaLog : List (SigmaRecord F m)
  /-- ghost: what the samplers were given, one entry for each finished iteration -/
  moveLog : List (MoveRecord F σ n m)

/-- Everything that does not change during a run. Source: `MCMC.py:282-411`. -/
structure Env (F σ : Type) (N n m : ℕ) where
  problem : Problem F N n m
  rng : Rng σ F
  lapack : Lapack F
  opts : RunOpts F
  /-- rounds granted to the gamma sampler -/
  fuel : ℕ

/-- Outcome of the proposal part of one iteration. Source: `MCMC.py:309-331`. -/
structure Proposal (F σ : Type) (N n m : ℕ) where
  accept : Bool
  newSet : ParamSet F n m
  outbound : Bool
  u : Vec F n
  world : World F σ N
  dr : DrCount
  tries : List (Try F n)

/-- Metropolis step followed, if rejected and `ntry > 1`, by delayed rejection, `MCMC.py:309-329`. -/
def propose (E : Env F σ N n m) (s : SimState F σ N n m) : Except PyErr (Proposal F σ N n m) := do
  let (o, z) ← runMetropolisStep E.problem E.rng s.oldSet s.cov.R s.world
  let t : Try F n := ⟨o.newSet.theta, o.outbound, o.accept⟩
  if 1 < E.opts.ntry ∧ o.accept = false then do
    let (o2, dr, ts) ← runDelayedRejection E.problem E.rng s.oldSet o.newSet s.cov.RDR
      E.opts.ntry s.cov.invR o.world s.dr
    .ok ⟨o2.accept, o2.newSet, o2.outbound, z, o2.world, dr, t :: ts⟩
  else .ok ⟨o.accept, o.newSet, o.outbound, z, o.world, s.dr, [t]⟩

/-- `__update_chain`, `__update_rejected` and the sum-of-squares chain,
`MCMC.py:331-333,558-589`. -/
def record (s : SimState F σ N n m) (p : Proposal F σ N n m) :
    Except PyErr (SimState F σ N n m) := do
  let old := if p.accept then p.newSet else s.oldSet
  let rej : Rejected := if p.accept then s.rejected else
    { total := s.rejected.total + 1, inInterval := s.rejected.inInterval + 1
      outside := s.rejected.outside + if p.outbound then 1 else 0 }
  let chain ← pySet s.chain s.chainIndex old.theta
  let sschain ← pySet s.sschain s.chainIndex old.ss
  .ok { s with
    chain := chain, sschain := sschain, oldSet := old, rejected := rej
    world := p.world, dr := p.dr, trace := s.trace ++ [p.tries]
    moveLog := s.moveLog ++ [⟨s.oldSet, s.cov.R, s.cov.RDR, s.cov.invR, s.world.rng, p.world.rng⟩] }

/-- the adaptation branch of the loop, `MCMC.py:344-359`. -/
def adapt (E : Env F σ N n m) (isimu : ℕ) (s : SimState F σ N n m) (p : Proposal F σ N n m) :
    Except PyErr (SimState F σ N n m) :=
  if 0 < E.opts.adaptint ∧ (s.iiadapt : ℤ) = E.opts.adaptint then do
    let cov ← runAdaptation E.lapack s.cov E.opts.toAdaptOpts isimu s.iiadapt s.rejected
      s.chain s.chainIndex p.u p.newSet.alpha
    .ok { s with
      cov := cov, iiadapt := 0, rejected := { s.rejected with inInterval := 0 }
      adaptedAt := s.adaptedAt ++ [isimu]
      adaptLog := s.adaptLog ++ [⟨isimu, s.cov, cov, p.u, p.newSet.alpha⟩] }
  else .ok s

/-- the error-variance branch of the loop, `MCMC.py:361-365`. -/
def sampleSigma (E : Env F σ N n m) (s : SimState F σ N n m) :
    Except PyErr (SimState F σ N n m) :=
  if E.opts.updatesigma then do
    let (M, r) ← updateErrorVariance E.rng E.fuel s.oldSet.ss s.errModel s.world.rng
    let c ← orRaise s.s2chain .typeError
    let c ← pySet c s.chainIndex M.sigma2
    .ok { s with
      errModel := M, world := { s.world with rng := r }, s2chain := some c
      oldSet := { s.oldSet with sigma2 := M.sigma2 }
      sigmaLog := s.sigmaLog ++ [⟨s.oldSet.ss, s.errModel, M⟩] }
  else .ok s

/-- the block that `__save_chains` writes for rows `start..stop-1`, `MCMC.py:458-525` -/
def mkBlock (s : SimState F σ N n m) (start stop : ℕ) : LogBlock F n m :=
  match s.logSource with
  | .live => ⟨start, stop, pySlice s.chain start stop, pySlice s.sschain start stop,
      s.s2chain.map fun c => pySlice c start stop⟩
  | .stale c ss s2 => ⟨start, stop, pySlice c start stop, pySlice ss start stop,
      s2.map fun c => pySlice c start stop⟩

/-- `np.dot(R.transpose(), R)`. Source: `MCMC.py:383`, `MCMC.py:400`, `structures/ResultsStructure.py:159`. -/
def rtr (R : Mat F n) : Mat F n := matMul (matT R) R

/-- the saving branch of the loop, `MCMC.py:376-387`. -/
def saveStep (E : Env F σ N n m) (isimu : ℕ) (s : SimState F σ N n m) : SimState F σ N n m :=
  if s.savecount = E.opts.savesize then
    { s with
      savecount := 0, lastbin := isimu
      logs := s.logs ++ [mkBlock s (isimu - E.opts.savesize) isimu]
      covlogs := s.covlogs ++ [(isimu - E.opts.savesize, isimu, rtr s.cov.R)] }
  else s

/-- one iteration of the loop of `__execute_simulator`, `MCMC.py:297-387`. -/
def simStep (E : Env F σ N n m) (s : SimState F σ N n m) (isimu : ℕ) :
    Except PyErr (SimState F σ N n m) := do
  let s := { s with
    iiadapt := s.iiadapt + 1, savecount := s.savecount + 1, chainIndex := s.chainIndex + 1 }
  let p ← propose E s
  let s ← record s p
  let s ← adapt E isimu s p
  let s ← sampleSigma E s
  .ok (saveStep E isimu s)

/-- the part after the loop, `MCMC.py:397-404`; `isimu` is the last loop index, which is unbound
(`UnboundLocalError`, a `NameError`) if the loop body never ran. -/
def finish (nsimu : ℕ) (s : SimState F σ N n m) : Except PyErr (SimState F σ N n m) :=
  if nsimu ≤ 1 then .error .nameError
  else
    let isimu := nsimu - 1
    .ok { s with
      logs := s.logs ++ [mkBlock s s.lastbin (isimu + 1)]
      covlogs := s.covlogs ++ [(s.lastbin, isimu, rtr s.cov.R)] }

/-- `__execute_simulator`, `MCMC.py:282-411` (the final assignment to `parameters._value` is
made in `Model/Mcmc.lean`). -/
def executeSimulator (E : Env F σ N n m) (s : SimState F σ N n m) :
    Except PyErr (SimState F σ N n m) := do
  let s := { s with iiadapt := 0, savecount := 0, lastbin := 0, rejected := ⟨0, 0, 0⟩ }
  let s ← (List.range' 1 (E.opts.nsimu - 1)).foldlM (simStep E) s
  finish E.opts.nsimu s

/-- `np.zeros([k, n])`, `MCMC.py:240-241,251,270-271,276` -/
def zeroRows (k : ℕ) : List (Vec F n) := List.replicate k (fun _ => lit 0)

/-- `__initialize_chains`, `MCMC.py:226-255` (with `chainind = 0`). -/
def initializeChains (nsimu : ℕ) (updatesigma : Bool) (init : ParamSet F n m)
    (sigma2 : Vec F m) :
    Except PyErr (List (Vec F n) × List (Vec F m) × Option (List (Vec F m))) := do
  let chain ← pySet (zeroRows nsimu) 0 init.theta
  let sschain ← pySet (zeroRows nsimu) 0 init.ss
  if updatesigma then do
    let s2 ← pySet (zeroRows nsimu) 0 sigma2
    .ok (chain, sschain, some s2)
  else .ok (chain, sschain, none)

/-- `__expand_chains`, `MCMC.py:258-279`; concatenating `None` raises a `ValueError`. -/
def expandChains (nsimu : ℕ) (updatesigma : Bool) (chain : List (Vec F n))
    (sschain : List (Vec F m)) (s2chain : Option (List (Vec F m))) :
    Except PyErr (List (Vec F n) × List (Vec F m) × Option (List (Vec F m))) :=
  if nsimu = 0 then .error .valueError
  else
    let z := nsimu - 1
    let c := chain ++ zeroRows z
    let ss := sschain ++ zeroRows z
    if updatesigma then
      match s2chain with
      | some s2 => .ok (c, ss, some (s2 ++ zeroRows z))
      | none => .error .valueError
    else .ok (c, ss, none)

end Verif
