import Verif.Model.Mcmc

/-!
# What a run prints

Models the console output of `/repo/pymcmcstat/MCMC.py:84-127,282-365,592-663`,
`settings/ModelParameters.py:294-332,371-436`, `samplers/Adaptation.py:54-95,160-181,380-470` and
`utilities/general.py:12-25`: which lines are printed, when, and the numbers in them (before they
are turned into text).

Not modelled: the progress bar (`Model/PlotUtils.lean`), the values shown by
`display_current_mcmc_settings`, lines printed by a run that raises later.
-/

namespace Verif
variable {F σ : Type} [PyFloat F] {N n m : ℕ}

/-- One call of `print`. Source: `MCMC.py:638-663`, `utilities/general.py:12-25`. -/
inductive Line (F : Type) where
  /-- `'If prior variance <= 0, setting to Inf'`, `settings/ModelParameters.py:295` -/
  | priorNote
  /-- `'Sampling these parameters:'` and the column titles, `settings/ModelParameters.py:317-319` -/
  | tableHead
  /-- a line of the parameter table, `settings/ModelParameters.py:320-332`; `squared` is whether `^2`
  is added to the last number, `starred` whether the line ends with `(*)` -/
  | tableRow (name : String) (start lower upper mu sigma : F) (squared starred : Bool)
  /-- the output of `display_current_mcmc_settings`, `MCMC.py:632-634` -/
  | settings
  /-- `'i: {:d}/{:d}'`, `MCMC.py:307` -/
  | iteration (isimu nsimu : ℕ)
  /-- `'i:{} ({},{},{})'`, `MCMC.py:661-663` -/
  | rejections (isimu : ℕ) (total interval outside : F)
  /-- `' (burnin/down) {}'`, `samplers/Adaptation.py:176` -/
  | burninDown (rate : F)
  /-- `' (burnin/up) {}'`, `samplers/Adaptation.py:179-180` -/
  | burninUp (rate : F)
  /-- `'i:{} adapting ({}, {}, {})'`, `samplers/Adaptation.py:71-73` -/
  | adapting (isimu : ℕ) (total interval outside : F)
  /-- `'adjusted covariance matrix'`, `samplers/Adaptation.py:463` -/
  | adjusted
  /-- `'covariance matrix singular, no adaptation {}'`, `samplers/Adaptation.py:468-469` -/
  | singular (rate : F)

/-- `message`, `utilities/general.py:12-25` -/
def message (verbosity level : ℤ) (line : Line F) : List (Line F) :=
  if level ≤ verbosity then [line] else []

/-- `k*d**(-1)*100`, `MCMC.py:662-663`, `samplers/Adaptation.py:72-73,176,180,469` -/
def percent (k d : ℕ) : F := ofInt k * (lit 1 / ofInt d) * lit 100

/-! ### The parameter table -/

/-- a truth value: the Python object `True`/`False`, or an element of a numpy array of type `bool`
(another object, which is not identical with `True`). Source: `settings/ModelParameters.py:404-417`. -/
inductive PyBool where
  | python (b : Bool)
  | numpy (b : Bool)
  deriving DecidableEq

/-- `x is True`. Source: `settings/ModelParameters.py:404-417`. -/
def PyBool.isTrue (x : PyBool) : Bool := decide (x = .python true)

/-- `noadapt_display_setting`, `settings/ModelParameters.py:404-417` -/
def noadaptDisplaySetting (noAdapt : PyBool) : Bool := noAdapt.isTrue

/-- `prior_display_setting`, `settings/ModelParameters.py:421-435` -/
def priorDisplaySetting (x : F) : Bool := !PyFloat.isinf x

/-- `display_parameter_settings`, `settings/ModelParameters.py:299-332`, called from `MCMC.py:189` with
`self.parameters._no_adapt`, a numpy array (`settings/ModelParameters.py:180-185`) -/
def displayParameterSettings (flags : Fin N → Bool) (p : Fin N → ParamSpec F) (verbosity : ℤ) :
    List (Line F) :=
  if 0 < verbosity then
    .tableHead :: (sampledIdx flags).map fun k =>
      .tableRow (p k).name (p k).theta0 (p k).minimum (p k).maximum
        (setupPriorMu (p k).priorMu (p k).theta0) (setupPriorSigma (p k).priorSigma)
        (priorDisplaySetting (setupPriorSigma (p k).priorSigma))
        (noadaptDisplaySetting (.numpy (setupAdapting (p k).adapt (flags k) != flags k)))
  else []

/-- `display_current_mcmc_settings`, `MCMC.py:592-634`, called from `MCMC.py:105-106`:
`display_covariance_settings` reads the attribute `_RDR`
(`procedures/CovarianceProcedures.py:195-201`), which is an `AttributeError` if it was never set. -/
def displayCurrentSettings (verbosity : ℤ) (cov : CovState F n) : Except PyErr (List (Line F)) :=
  if 2 ≤ verbosity then
    match cov.RDR with
    | .missing => .error .attributeError
    | _ => .ok [.settings]
  else .ok []

/-! ### Adaptation -/

/-- `below_burnin_threshold`, `samplers/Adaptation.py:160-181` -/
def burninLines (verbosity : ℤ) (rej : Rejected) (iiadapt : ℕ) : List (Line F) :=
  let rate : F := ofInt rej.inInterval * (lit 1 / ofInt iiadapt)
  if PyFloat.lt (lit (95/100)) rate then message verbosity 2 (.burninDown (percent rej.inInterval iiadapt))
  else if PyFloat.lt rate (lit (5/100)) then
    message verbosity 2 (.burninUp (percent rej.inInterval iiadapt))
  else []

/-- `check_for_singular_cov_matrix` and `adjust_cov_matrix`, `samplers/Adaptation.py:380-403,442-470`,
with what they print -/
def checkForSingularV (L : Lapack F) (verbosity : ℤ) (upcov R : Mat F n) (qcovAdjust qcovScale : F)
    (rej : Rejected) (iiadapt : ℕ) : Mat F n × List (Line F) :=
  match isSemiPosDefChol L upcov with
  | some Ra => (scaleCholesky Ra qcovScale, [])
  | none =>
    match isSemiPosDefChol L (matAdd upcov (matScale matEye qcovAdjust)) with
    | some Ra => (scaleCholesky Ra qcovScale, message verbosity 1 .adjusted)
    | none => (R, message verbosity 0 (.singular (percent rej.inInterval iiadapt)))

/-- `Adaptation.run_adaptation`, `samplers/Adaptation.py:35-95`, with what it prints -/
def runAdaptationV (L : Lapack F) (verbosity : ℤ) (c : CovState F n) (o : AdaptOpts F)
    (isimu iiadapt : ℕ) (rej : Rejected) (chain : List (Vec F n)) (chainind : ℕ) (u : Vec F n)
    (alpha : Option F) : Except PyErr (CovState F n × List (Line F)) :=
  if (isimu : ℤ) < o.burnintime then
    .ok ({ c with
      R := belowBurninThreshold rej iiadapt c.R o.burninScale
      RDR := .pyNone, invR := none }, burninLines verbosity rej iiadapt)
  else do
    let l1 := message verbosity 3 (.adapting isimu (percent rej.total isimu)
      (percent rej.inInterval iiadapt) (percent rej.outside isimu))
    let (covchain, meanchain, wsum) ← updateCovarianceMeanSum
      (pySlice chain c.lastIndex chainind) (some [lit 1]) c.covchain c.meanchain c.wsum
    let upcov ← newCovariance c o isimu covchain u alpha
    let (R, l2) := checkForSingularV L verbosity upcov c.R o.qcovAdjust c.qcovScale rej iiadapt
    let (RDR, invR) ← updateDelayedRejection L R o.ntry o.drscale
    .ok ({ c with
      R := R, covchain := covchain, meanchain := meanchain, wsum := wsum
      lastIndex := isimu, RDR := RDR, invR := invR }, l1 ++ l2)

/-! ### The loop -/

/-- State of `__execute_simulator` between iterations, with the print counter `iiprint`
(`MCMC.py:289,300`) and the lines printed so far. -/
structure Console (F σ : Type) (N n m : ℕ) where
  sim : SimState F σ N n m
  iiprint : ℕ
  lines : List (Line F)

/-- the printing branch of the loop, `MCMC.py:335-342`, `print_rejection_statistics`,
`MCMC.py:638-663`: the new value of `iiprint` and the line. -/
def printRejections (verbosity : ℤ) (printint : Option ℤ) (iiprint isimu iiadapt : ℕ) (rej : Rejected) :
    ℕ × List (Line F) :=
  match printint with
  | none => (iiprint, [])
  | some k =>
    if k ≠ 0 ∧ (iiprint : ℤ) = k then
      (0, message verbosity 2 (.rejections isimu (percent rej.total isimu)
        (percent rej.inInterval iiadapt) (percent rej.outside isimu)))
    else (iiprint, [])

/-- the adaptation branch of the loop, `MCMC.py:344-359`. -/
def adaptV (E : Env F σ N n m) (verbosity : ℤ) (isimu : ℕ) (s : SimState F σ N n m)
    (p : Proposal F σ N n m) : Except PyErr (SimState F σ N n m × List (Line F)) :=
  if 0 < E.opts.adaptint ∧ (s.iiadapt : ℤ) = E.opts.adaptint then do
    let (cov, ls) ← runAdaptationV E.lapack verbosity s.cov E.opts.toAdaptOpts isimu s.iiadapt s.rejected
      s.chain s.chainIndex p.u p.newSet.alpha
    .ok ({ s with
      cov := cov, iiadapt := 0, rejected := { s.rejected with inInterval := 0 }
      adaptedAt := s.adaptedAt ++ [isimu]
      adaptLog := s.adaptLog ++ [⟨isimu, s.cov, cov, p.u, p.newSet.alpha⟩] }, ls)
  else .ok (s, [])

/-- one iteration of the loop of `__execute_simulator`, `MCMC.py:297-387`. -/
def verboseStep (E : Env F σ N n m) (verbosity : ℤ) (printint : Option ℤ) (c : Console F σ N n m)
    (isimu : ℕ) : Except PyErr (Console F σ N n m) := do
  let s := { c.sim with
    iiadapt := c.sim.iiadapt + 1, savecount := c.sim.savecount + 1
    chainIndex := c.sim.chainIndex + 1 }
  let l1 := message verbosity 100 (.iteration isimu E.opts.nsimu)
  let p ← propose E s
  let s ← record s p
  let (iiprint, l2) := printRejections verbosity printint (c.iiprint + 1) isimu s.iiadapt s.rejected
  let (s, l3) ← adaptV E verbosity isimu s p
  let s ← sampleSigma E s
  .ok ⟨saveStep E isimu s, iiprint, c.lines ++ (l1 ++ l2 ++ l3)⟩

/-- `__execute_simulator`, `MCMC.py:282-411`. -/
def verboseSimulator (E : Env F σ N n m) (verbosity : ℤ) (printint : Option ℤ)
    (s : SimState F σ N n m) (lines : List (Line F)) : Except PyErr (Console F σ N n m) := do
  let s := { s with iiadapt := 0, savecount := 0, lastbin := 0, rejected := ⟨0, 0, 0⟩ }
  let c ← (List.range' 1 (E.opts.nsimu - 1)).foldlM (verboseStep E verbosity printint) ⟨s, 0, lines⟩
  let s ← finish E.opts.nsimu c.sim
  .ok { c with sim := s }

/-- `run_simulation`, `MCMC.py:84-127`, with the lines it prints; `verbosity` is
`simulation_options.verbosity`.  (The lines printed in the middle of `_initialize_simulation`,
`MCMC.py:186-189`, do not depend on what it computes after them.) -/
def runVerbose {flags : Fin N → Bool} (U : UserFuns F N (nS flags) m) (G : Rng σ F)
    (L : Lapack F) (fuel : ℕ) (verbosity : ℤ) (o : Obj F flags m) (rng : σ) (usePrevious : Bool) :
    Except PyErr (RunOut F σ flags m × List (Line F)) := do
  let (o1, I, s0) ← setupSimulator U L o rng usePrevious
  let l1 := message verbosity 2 .priorNote ++ displayParameterSettings flags o1.specs verbosity
  let l2 ← displayCurrentSettings verbosity s0.cov
  let E : Env F σ N (nS flags) m := ⟨I.problem, G, L, runOpts I.opts o1.extra, fuel⟩
  let c ← verboseSimulator E verbosity I.opts.printint s0 (l1 ++ l2)
  let s := c.sim
  let res ← generateResults o1 I s
  let live : Chains F (nS flags) m := ⟨s.chain, s.sschain, s.s2chain⟩
  .ok ({ results := res, final := s, init := I
         obj := { o1 with
           opts := I.opts, ms := settingsAfter I.ms s.errModel
           chainIndex := s.chainIndex, chains := live
           logChains := if usePrevious then o1.logChains else some live
           covRDR := s.cov.RDR, results := some res } }, c.lines)

end Verif
