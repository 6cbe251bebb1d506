import Verif.Model.Simulator
import Verif.Model.Settings

/-!
# The MCMC object

Models `/repo/pymcmcstat/MCMC.py:84-223,414-455`, `settings/ModelParameters.py:85-350` and
`structures/ResultsStructure.py:139-172,210-233` (the entries the properties speak about):
setting up a run, running it, continuing it.

The number `N` of parameters, which of them are sampled (`flags`) and the length `m` of the
array returned by the sum-of-squares function are fixed for the life of the object.
-/

namespace Verif
variable {F σ : Type} [PyFloat F] {N m : ℕ}

/-- `np.flatnonzero(parind)`, `settings/ModelParameters.py:183` -/
def sampledIdx (flags : Fin N → Bool) : List (Fin N) := (List.finRange N).filter flags

/-- `self.npar`, `settings/ModelParameters.py:140` -/
abbrev nS (flags : Fin N → Bool) : ℕ := (sampledIdx flags).length

/-- `self._parind`, `settings/ModelParameters.py:183` -/
def parindOf (flags : Fin N → Bool) : Fin (nS flags) → Fin N := (sampledIdx flags).get

/-- `x[self._parind]`. Source: `MCMC.py:172-223`, `settings/ModelParameters.py:283-292`. -/
def atParind (flags : Fin N → Bool) (x : Vec F N) : Vec F (nS flags) := fun i => x (parindOf flags i)

/-- Entries of the results dictionary that later runs or the properties read,
`structures/ResultsStructure.py:153-172,222-233`. -/
structure Results (F : Type) {N : ℕ} (flags : Fin N → Bool) (m : ℕ) where
  theta : Vec F N
  /-- `results['names']`: names of the sampled parameters -/
  names : List String
  /-- `results['total_rejected']` and `results['rejected_outside_bounds']` are these counts
  divided by `nsimu` -/
  rejected : Rejected
  nsimu : ℕ
  R : Mat F (nS flags)
  qcov : Mat F (nS flags)
  cov : Option (Mat F (nS flags))
  mean : Option (Vec F (nS flags))
  /-- `results['iacce']` and `results['alpha_count']`, only with delayed rejection -/
  dram : Option (List ℤ × ℕ)
  chain : List (Vec F (nS flags))
  sschain : List (Vec F m)
  s2chain : Option (List (Vec F m))

/-- What a results file holds for a restart, `settings/ModelParameters.py:245-250`,
`MCMC.py:155-159` -/
structure Saved (F : Type) where
  parind : List ℕ
  names : List String
  theta : List F
  qcov : Qcov F

/-- What the results file written after a run holds of `results`,
`structures/ResultsStructure.py:60-82,106-118,139-172,341-352` (`json` writes every finite float so
that reading gives it back; the arrays named here are not among those left out). -/
def savedOf {N m : ℕ} {flags : Fin N → Bool} (r : Results F flags m) : Saved F :=
  ⟨(sampledIdx flags).map (·.val), r.names, List.ofFn r.theta, .matrix (nS flags) r.qcov⟩

/-- Options used as they are. Source: `settings/SimulationOptions.py:27-170`. -/
structure ExtraOpts (F : Type) (n : ℕ) where
  burninScale : F
  drscale : List F
  alphatarget : F
  etaparam : F
  qcovAdjust : F
  qcov : Option (Qcov F)
  RDR : Option (List (Mat F n))
  jsonRestart : Option (Saved F)

/-- The arrays in `self.__chains`, `MCMC.py:244-253`. -/
structure Chains (F : Type) (n m : ℕ) where
  chain : List (Vec F n)
  sschain : List (Vec F m)
  s2chain : Option (List (Vec F m))

/-- The functions the user supplies. Source: `settings/ModelSettings.py:26-63`. -/
structure UserFuns (F : Type) (N n m : ℕ) where
  /-- a sum-of-squares function was given -/
  style1 : Bool
  sosFun : Bool → Vec F N → Except PyErr (Vec F m)
  /-- `priorfun(theta, mu, sigma)` -/
  priorFun : Vec F n → Vec F n → Vec F n → F

/-- The `MCMC` object between calls of `run_simulation`, `MCMC.py:68-81`. -/
structure Obj (F : Type) {N : ℕ} (flags : Fin N → Bool) (m : ℕ) where
  specs : Fin N → ParamSpec F
  opts : SimOpts F
  extra : ExtraOpts F (nS flags)
  ms : ModelSettings F
  data : Data
  chainIndex : ℕ
  /-- `self.__chain`, `self.__sschain`, `self.__s2chain` -/
  chains : Chains F (nS flags) m
  /-- the list `self.__chains` (made by `__initialize_chains` only) and whether its arrays are
  still the ones above -/
  logChains : Option (Chains F (nS flags) m)
  covRDR : Slot (List (Mat F (nS flags)))
  /-- `_mcmc_status` is `True` exactly when there are results -/
  results : Option (Results F flags m)

/-- `MCMC.__init__` plus the definition of data, parameters, options and settings,
`MCMC.py:68-81` -/
def newObj {flags : Fin N → Bool} (specs : Fin N → ParamSpec F) (opts : SimOpts F)
    (extra : ExtraOpts F (nS flags)) (ms : ModelSettings F) (data : Data) : Obj F flags m :=
  ⟨specs, opts, extra, ms, data, 0, ⟨[], [], none⟩, none, .missing, none⟩

/-- one round of the inner loop of `_results_to_params`, `settings/ModelParameters.py:257-264` -/
def resultToParam (flags : Fin N → Bool) (name : String) (value : F) (p : Fin N → ParamSpec F) :
    Fin N → ParamSpec F := fun kk =>
  if name = (p kk).name then
    { p kk with
      priorMu := if PyFloat.isnan (p kk).priorMu then (p kk).theta0 else (p kk).priorMu
      theta0 := if flags kk then value else (p kk).theta0 }
  else p kk

/-- `_results_to_params`, `settings/ModelParameters.py:245-264`.  `results['local']` has the same
length as `results['theta']`. -/
def resultsToParams (flags : Fin N → Bool) (parind : List ℕ) (names : List String) (theta : List F)
    (p : Fin N → ParamSpec F) : Except PyErr (Fin N → ParamSpec F) :=
  (List.range parind.length).foldlM (fun p ii => do
    let parii ← pyGet parind ii
    let v ← pyGet theta parii
    let name ← pyGet names ii
    .ok (resultToParam flags name v p)) p

/-- message of `_check_initial_values_wrt_parameter_limits`. Source: `settings/ModelParameters.py:283-291`. -/
def msgInitial : String :=
  "Proposed value outside parameter limits - select new initial parameter values"

/-- `_openparameterstructure`, scan for local parameters, `settings/ModelParameters.py:106-113`:
with more than one batch, a parameter that is not sampled but marked local makes the assignment
of `nbatch` values to `nbatch - 1` places fail. (`nbatch = 0` is treated in the same way.) -/
def scanLocal (flags : Fin N → Bool) (p : Fin N → ParamSpec F) (nbatch : ℕ) : Except PyErr Unit :=
  if (List.finRange N).any (fun k => !flags k && decide ((p k).loc ≠ 0)) && decide (nbatch ≠ 1)
  then .error .valueError else .ok ()

/-- `_check_parameter_limits` and `_check_initial_values_wrt_parameter_limits`,
`settings/ModelParameters.py:267-291` -/
def checkLimits (flags : Fin N → Bool) (p : Fin N → ParamSpec F) : Except PyErr Unit :=
  if (sampledIdx flags).all (fun k => PyFloat.le (p k).minimum (p k).maximum) then
    if isOutside (atParind flags fun k => (p k).theta0) (atParind flags fun k => (p k).minimum)
        (atParind flags fun k => (p k).maximum) then .error (.sysExit msgInitial)
    else .ok ()
  else .error (.sysExit "Proposed limits are incompatible...")

/-- everything `_initialize_simulation` computes that the simulation loop needs. Source: `MCMC.py:172-223`. -/
structure Init (F σ : Type) {N : ℕ} (flags : Fin N → Bool) (m : ℕ) where
  opts : SimOpts F
  ms : ModelSettings F
  errModel : ErrModel F m
  problem : Problem F N (nS flags) m
  cov : CovState F (nS flags)
  initialSet : ParamSet F (nS flags) m
  world : World F σ N

/-- `_initialize_simulation`, `MCMC.py:172-223` (no custom samplers). -/
def initializeSimulation {flags : Fin N → Bool} (U : UserFuns F N (nS flags) m) (L : Lapack F)
    (o : Obj F flags m) (rng : σ) : Except PyErr (Init F σ flags m) := do
  let opts := checkDependentSimulationOptions o.opts o.ms.N0.isSome
  let ms ← checkDependentModelSettings o.ms o.data.n o.data.nbatch
  scanLocal flags o.specs (ms.nbatch.getD 0)
  checkLimits flags o.specs
  let initial : Vec F N := fun k => (o.specs k).theta0
  let mu : Vec F N := fun k => setupPriorMu (o.specs k).priorMu (initial k)
  let sigma : Vec F N := fun k => setupPriorSigma (o.specs k).priorSigma
  let noAdapt : Fin (nS flags) → Bool := fun i =>
    setupAdapting (o.specs (parindOf flags i)).adapt (flags (parindOf flags i))
      != flags (parindOf flags i)
  let theta0 := atParind flags initial
  let q := setupCovarianceMatrix o.extra.qcov sigma initial
  let cov ← initCovState L opts.method opts.ntry.toNat o.extra.drscale o.extra.RDR opts.adascale
    opts.initqcovn q (parindOf flags) noAdapt theta0 o.covRDR
  let problem : Problem F N (nS flags) m :=
    { parind := parindOf flags
      lower := atParind flags fun k => (o.specs k).minimum
      upper := atParind flags fun k => (o.specs k).maximum
      style1 := U.style1, sosFun := U.sosFun
      prior := fun th => U.priorFun th (atParind flags mu) (atParind flags sigma) }
  let (ss, w) ← evaluateSos problem theta0 ⟨rng, initial, []⟩
  let ms ← checkWrtNsos ms m
  let errModel ← toErrModel ms m
  let initialSet : ParamSet F (nS flags) m :=
    ⟨theta0, ss, problem.prior theta0, errModel.sigma2, none⟩
  .ok ⟨opts, ms, errModel, problem, cov, initialSet, w⟩

/-- options of the loop. Source: `settings/SimulationOptions.py:172-198`. -/
def runOpts {n : ℕ} (o : SimOpts F) (e : ExtraOpts F n) : RunOpts F :=
  { burnintime := o.burnintime, burninScale := e.burninScale, ntry := o.ntry.toNat
    drscale := e.drscale, alphatarget := e.alphatarget, etaparam := e.etaparam
    qcovAdjust := e.qcovAdjust, doram := o.doram, nsimu := o.nsimu.toNat
    adaptint := o.adaptint, savesize := o.savesize.toNat, lastadapt := o.lastadapt
    updatesigma := o.updatesigma }

/-- the state in which `__execute_simulator` is entered; the delayed-rejection counters are set
by `_initialize_dr_metrics`, `samplers/DelayedRejection.py:105-113` -/
def startState {flags : Fin N → Bool} (I : Init F σ flags m) (chainIndex : ℕ)
    (c : Chains F (nS flags) m) (src : LogSource F (nS flags) m) : SimState F σ N (nS flags) m :=
  { chainIndex := chainIndex, iiadapt := 0, savecount := 0, lastbin := 0
    chain := c.chain, sschain := c.sschain, s2chain := c.s2chain
    oldSet := I.initialSet, rejected := ⟨0, 0, 0⟩, cov := I.cov
    dr := ⟨List.replicate I.opts.ntry.toNat 0, 0⟩
    errModel := I.errModel, world := I.world, logSource := src, logs := [], covlogs := []
    trace := [], adaptedAt := [], adaptLog := [], sigmaLog := [], moveLog := [] }

/-- the restart from a results file, `MCMC.py:155-159` -/
def loadRestart {flags : Fin N → Bool} (o : Obj F flags m) : Except PyErr (Obj F flags m) :=
  match o.extra.jsonRestart with
  | none => .ok o
  | some r => do
    let specs ← resultsToParams flags r.parind r.names r.theta o.specs
    .ok { o with specs := specs, extra := { o.extra with qcov := some r.qcov } }

/-- `__setup_simulator`, `MCMC.py:130-169`: the initialised run, the loop's start state, and the
object's parameters and options after it. -/
def setupSimulator {flags : Fin N → Bool} (U : UserFuns F N (nS flags) m) (L : Lapack F)
    (o : Obj F flags m) (rng : σ) (usePrevious : Bool) :
    Except PyErr (Obj F flags m × Init F σ flags m × SimState F σ N (nS flags) m) :=
  if usePrevious then
    match o.results with
    | none => .error (.sysExit "No previous results found.  Set use_previous_results to False")
    | some res => do
      let specs ← resultsToParams flags ((sampledIdx flags).map (·.val)) res.names
        (List.ofFn res.theta) o.specs
      let o := { o with specs := specs }
      let I ← initializeSimulation U L o rng
      let (c, ss, s2) ← expandChains I.opts.nsimu.toNat I.opts.updatesigma o.chains.chain
        o.chains.sschain o.chains.s2chain
      let src : LogSource F (nS flags) m := match o.logChains with
        | some lc => .stale lc.chain lc.sschain lc.s2chain
        | none => .live
      .ok (o, I, startState I o.chainIndex ⟨c, ss, s2⟩ src)
  else do
    let o ← loadRestart o
    let I ← initializeSimulation U L o rng
    if I.opts.nsimu < 0 then .error .valueError
    else do
      let (c, ss, s2) ← initializeChains I.opts.nsimu.toNat I.opts.updatesigma I.initialSet
        I.errModel.sigma2
      .ok (o, I, startState I 0 ⟨c, ss, s2⟩ .live)

/-- `add_dram`, `structures/ResultsStructure.py:210-233`: entry 0 of `iacce` is overwritten. -/
def addDram (nsimu : ℕ) (totalRejected : ℕ) (dr : DrCount) : Except PyErr (List ℤ × ℕ) :=
  match dr.iacce with
  | [] => .error .indexError
  | _ :: rest =>
    .ok (((nsimu : ℤ) - totalRejected - (rest.map fun (k : ℕ) => (k : ℤ)).sum)
      :: rest.map fun (k : ℕ) => (k : ℤ), dr.steps)

/-- the delayed-rejection entries, `MCMC.py:437-443`; reading `_RDR` fails if it was never set -/
def dramResults {n : ℕ} (opts : SimOpts F) (s : SimState F σ N n m) :
    Except PyErr (Option (List ℤ × ℕ)) :=
  if 1 < opts.ntry then
    match s.cov.RDR with
    | .missing => .error .attributeError
    | _ => do
      let d ← addDram opts.nsimu.toNat s.rejected.total s.dr
      .ok (some d)
  else .ok none

/-- `add_basic`, `add_dram`, `add_chain`, ... `MCMC.py:414-455` -/
def generateResults {flags : Fin N → Bool} (o : Obj F flags m) (I : Init F σ flags m)
    (s : SimState F σ N (nS flags) m) : Except PyErr (Results F flags m) := do
  let dram ← dramResults I.opts s
  .ok { theta := writeAt (parindOf flags) s.oldSet.theta fun k => (o.specs k).theta0
        names := (sampledIdx flags).map fun k => (o.specs k).name
        rejected := s.rejected, nsimu := I.opts.nsimu.toNat
        R := s.cov.R, qcov := rtr s.cov.R, cov := s.cov.covchain, mean := s.cov.meanchain
        dram := dram, chain := s.chain, sschain := s.sschain, s2chain := s.s2chain }

/-- What one call of `run_simulation` leaves behind: the object, the results, and the final
state of the loop (with its logs and ghost records). Source: `MCMC.py:84-127`. -/
structure RunOut (F σ : Type) {N : ℕ} (flags : Fin N → Bool) (m : ℕ) where
  obj : Obj F flags m
  results : Results F flags m
  final : SimState F σ N (nS flags) m
  init : Init F σ flags m

/-- the settings object after a run: `sigma2` was overwritten in place by the sampler.
Source: `procedures/ErrorVarianceEstimator.py:24-63`, `MCMC.py:172-223`. -/
def settingsAfter (ms : ModelSettings F) (M : ErrModel F m) : ModelSettings F :=
  { ms with sigma2 := some (List.ofFn M.sigma2) }

/-- `run_simulation`, `MCMC.py:84-127` (without progress bar, timing and json export). -/
def runSimulation {flags : Fin N → Bool} (U : UserFuns F N (nS flags) m) (G : Rng σ F)
    (L : Lapack F) (fuel : ℕ) (o : Obj F flags m) (rng : σ) (usePrevious : Bool) :
    Except PyErr (RunOut F σ flags m) := do
  let (o1, I, s0) ← setupSimulator U L o rng usePrevious
  let E : Env F σ N (nS flags) m := ⟨I.problem, G, L, runOpts I.opts o1.extra, fuel⟩
  let s ← executeSimulator E s0
  let res ← generateResults o1 I s
  let live : Chains F (nS flags) m := ⟨s.chain, s.sschain, s.s2chain⟩
  .ok { results := res, final := s, init := I
        obj := { o1 with
          opts := I.opts, ms := settingsAfter I.ms s.errModel
          chainIndex := s.chainIndex, chains := live
          logChains := if usePrevious then o1.logChains else some live
          covRDR := s.cov.RDR, results := some res } }

end Verif
