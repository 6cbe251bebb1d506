import Verif.Model.Report
import Verif.Model.ResultEntries

/-! # The results structure as an object

Models the class `ResultsStructure`, `/repo/pymcmcstat/structures/ResultsStructure.py:17-338`: the dictionary, the
flag `basic`, and every method that adds entries, in the order of its assignments, so that a method that raises
leaves the entries it has made so far.  The array of the delayed-rejection counters is stored by reference. -/

namespace Verif
variable {F σ : Type} [PyFloat F] {N n m : ℕ}

/-- a value in the results dictionary; `counters d` is the array `iacce` of the delayed-rejection object number `d`
(stored by reference, `structures/ResultsStructure.py:227`), `other` a value the model does not follow -/
inductive ResVal (F : Type) where
  | nan
  | none
  | flag (b : Bool)
  | int (i : ℤ)
  | real (x : F)
  | indices (l : List ℕ)
  | strings (l : List String)
  | vec (l : List F)
  | rows (l : List (List F))
  | matrices (l : List (List (List F)))
  | counters (d : ℕ)
  | dict (l : List (String × EntryVal F))
  | prior (mu sigma : List F)
  | other

/-- `d[key] = v`: the value is replaced, or the key is new and last.
Source: `structures/ResultsStructure.py:139-338`. -/
def dictPut {V : Type} (d : List (String × V)) (key : String) (v : V) : List (String × V) :=
  if d.any (fun e => e.1 == key) then d.map fun e => if e.1 == key then (key, v) else e else d ++ [(key, v)]

/-- the attributes `results` and `basic`, `structures/ResultsStructure.py:40-42`, and the counters of the
delayed-rejection objects that are passed to `add_dram` -/
structure ResWorld (F : Type) where
  results : List (String × ResVal F)
  basic : Bool
  iacce : ℕ → List ℤ

/-- `ResultsStructure()`, `structures/ResultsStructure.py:40-42` -/
def newResults (iacce : ℕ → List ℤ) : ResWorld F := ⟨[], false, iacce⟩

/-- `self.results[key] = v`. Source: `structures/ResultsStructure.py:139-338`. -/
def ResWorld.put (w : ResWorld F) (key : String) (v : ResVal F) : ResWorld F :=
  { w with results := dictPut w.results key v }

/-- rows of a square array. Source: `structures/ResultsStructure.py:139-338`. -/
def matRows {k : ℕ} (M : Mat F k) : List (List F) := (List.ofFn M).map List.ofFn

/-- what `add_basic` is given, `structures/ResultsStructure.py:140-151` -/
structure BasicArgs (F : Type) (N n : ℕ) where
  nsimu : ℤ
  theta : Vec F N
  parind : Fin n → Fin N
  loc : ResVal F
  names : Fin N → String
  lower : Vec F N
  upper : Vec F N
  total : ℕ
  outside : ℕ
  R : Mat F n
  cov : Option (Mat F n)
  mean : Option (Vec F n)
  qcovScale : F
  simutime : ResVal F
  /-- `covariance._qcovorig`, a square array -/
  qcovorig : (k : ℕ) × Mat F k
  original : ResVal F

/-- an attribute that may be `None`. Source: `structures/ResultsStructure.py:139-338`. -/
def resOrNone {α : Type} (f : α → ResVal F) : Option α → ResVal F
  | some a => f a
  | none => .none

/-- one call of a method that adds entries. Source: `structures/ResultsStructure.py:139-338`. -/
inductive ResCall (F : Type) (N n : ℕ) where
  | basic (a : BasicArgs F N n)
  | updatesigma (flag : Bool) (sigma2 S20 N0 : List F)
  | dram (drscale : List F) (RDR : ResVal F) (total : ℕ) (d : ℕ) (steps : ℕ)
  | prior (mu sigma : List F)
  | options (items : List (String × EntryVal F))
  | model (items : List (String × EntryVal F))
  | chain (rows : List (List F))
  | s2chain (rows : Option (List (List F)))
  | sschain (rows : List (List F))
  | timeStats (mtime drtime adtime : F)
  | rndseq (l : List F)

/-- how a call ends: with a value (`True`, `False` or `None`) or with an exception.
Source: `structures/ResultsStructure.py:139-338`. -/
inductive ResOutcome where
  | returned (r : Option Bool)
  | raised (e : PyErr)
  deriving DecidableEq

/-- `add_basic`, `structures/ResultsStructure.py:139-172`.  `nsimu**(-1)` raises for `nsimu = 0`; the assignment to
`_qcovorig[np.ix_(parind, parind)]` raises if an index is not inside. -/
def addBasic (a : BasicArgs F N n) (w : ResWorld F) : ResWorld F × ResOutcome :=
  let w := w.put "theta" (.vec (List.ofFn a.theta))
  let w := w.put "parind" (.indices ((List.ofFn a.parind).map fun k => k.val))
  let w := w.put "local" a.loc
  if a.nsimu = 0 then (w, .raised .zeroDivision)
  else
    let w := w.put "total_rejected" (.real (ofInt a.total * (lit 1 / ofInt a.nsimu)))
    let w := w.put "rejected_outside_bounds" (.real (ofInt a.outside * (lit 1 / ofInt a.nsimu)))
    let w := w.put "R" (.rows (matRows a.R))
    let w := w.put "qcov" (.rows (matRows (rtr a.R)))
    let w := w.put "cov" (resOrNone (fun M => .rows (matRows M)) a.cov)
    let w := w.put "qcov_scale" (.real a.qcovScale)
    let w := w.put "mean" (resOrNone (fun v => .vec (List.ofFn v)) a.mean)
    let w := w.put "names" (.strings ((List.ofFn a.parind).map a.names))
    let w := w.put "allnames" (.strings (List.ofFn a.names))
    let w := w.put "limits" (.rows [(List.ofFn a.parind).map a.lower, (List.ofFn a.parind).map a.upper])
    let w := w.put "nsimu" (.int a.nsimu)
    let w := w.put "simutime" a.simutime
    if ∀ i, (a.parind i).val < a.qcovorig.1 then
      let w := w.put "qcovorig" (.rows (matRows (ixAssign a.qcovorig.2 (fun i => (a.parind i).val) (rtr a.R))))
      let w := w.put "original_covariance" a.original
      ({ w with basic := true }, .returned none)
    else (w, .raised .indexError)

/-- `add_updatesigma`, `structures/ResultsStructure.py:174-208` (not called by the package) -/
def addUpdatesigma (flag : Bool) (sigma2 S20 N0 : List F) (w : ResWorld F) : ResWorld F :=
  let w := w.put "updatesigma" (.flag flag)
  if flag then ((w.put "sigma2" .nan).put "S20" (.vec S20)).put "N0" (.vec N0)
  else ((w.put "sigma2" (.vec sigma2)).put "S20" .nan).put "N0" .nan

/-- `add_dram`, `structures/ResultsStructure.py:210-233`: entry 0 of the counters is overwritten in place, and the
array itself is stored -/
def addDramCall (drscale : List F) (RDR : ResVal F) (total d steps : ℕ) (w : ResWorld F) : ResWorld F × ResOutcome :=
  if w.basic then
    match w.results.lookup "nsimu" with
    | some (.int nsimu) =>
      let w := w.put "drscale" (.vec drscale)
      match w.iacce d with
      | [] => (w, .raised .indexError)
      | _ :: rest =>
        let w := { w with iacce := fun e => if e = d then (nsimu - total - rest.sum) :: rest else w.iacce e }
        let w := w.put "iacce" (.counters d)
        let w := w.put "alpha_count" (.int steps)
        let w := w.put "RDR" RDR
        (w, .returned (some true))
    | _ => (w, .raised .keyError)
  else (w, .returned (some false))

/-- one call: `add_prior`, `add_options`, `add_model`, `add_chain`, `add_s2chain`, `add_sschain`, `add_time_stats`,
`add_random_number_sequence`, `structures/ResultsStructure.py:235-338`, and those above -/
def resStep (w : ResWorld F) : ResCall F N n → ResWorld F × ResOutcome
  | .basic a => addBasic a w
  | .updatesigma b s S N => (addUpdatesigma b s S N w, .returned none)
  | .dram c R t d k => addDramCall c R t d k w
  | .prior mu sigma => (w.put "prior" (.prior mu sigma), .returned none)
  | .options items => match addOptions items with
    | .ok d => (w.put "simulation_options" (.dict d), .returned none)
    | .error e => (w, .raised e)
  | .model items => match addModel items with
    | .ok d => (w.put "model_settings" (.dict d), .returned none)
    | .error e => (w, .raised e)
  | .chain rows => (w.put "chain" (.rows rows), .returned none)
  | .s2chain rows => (w.put "s2chain" (resOrNone .rows rows), .returned none)
  | .sschain rows => (w.put "sschain" (.rows rows), .returned none)
  | .timeStats a b c => (w.put "time [mh, dr, am]" (.vec [a, b, c]), .returned none)
  | .rndseq l => (w.put "rndseq" (.vec l), .returned none)

/-- any number of calls, those that raise included (the caller handles the exception).
Source: `structures/ResultsStructure.py:139-338`. -/
def resSteps (w : ResWorld F) (cs : List (ResCall F N n)) : ResWorld F := cs.foldl (fun w c => (resStep w c).1) w

/-- calls one after the other, the first exception ends them.
Source: `structures/ResultsStructure.py:139-338`. -/
def resRun (w : ResWorld F) : List (ResCall F N n) → Except PyErr (ResWorld F)
  | [] => .ok w
  | c :: cs => match resStep w c with
    | (w, .returned _) => resRun w cs
    | (_, .raised e) => .error e

/-- the attribute `_RDR` as it is passed to `add_dram`, `MCMC.py:440` (if it was never set the run has ended with an
`AttributeError` there, which is in `dramResults`) -/
def rdrEntry {k : ℕ} : Slot (List (Mat F k)) → ResVal F
  | .some l => .matrices (l.map matRows)
  | _ => .none

/-- the calls of `__generate_simulation_results`, `MCMC.py:425-455`.  The time of the run is not followed, nor are
`local` and the copy of the initial covariance. -/
def runCalls {flags : Fin N → Bool} (out : RunOut F σ flags m) : List (ResCall F N (nS flags)) :=
  [.basic
    { nsimu := out.obj.opts.nsimu, theta := out.results.theta, parind := parindOf flags, loc := .other
      names := fun k => (out.obj.specs k).name, lower := fun k => (out.obj.specs k).minimum
      upper := fun k => (out.obj.specs k).maximum, total := out.final.rejected.total
      outside := out.final.rejected.outside, R := out.final.cov.R, cov := out.final.cov.covchain
      mean := out.final.cov.meanchain, qcovScale := out.final.cov.qcovScale, simutime := .other
      qcovorig := qcovorigOf (setupCovarianceMatrix out.obj.extra.qcov
        (fun k => setupPriorSigma (out.obj.specs k).priorSigma) fun k => (out.obj.specs k).theta0)
      original := .other }] ++
  (if 1 < out.obj.opts.ntry then
    [.dram out.obj.extra.drscale
      (rdrEntry out.final.cov.RDR)
      out.final.rejected.total 0 out.final.dr.steps]
   else []) ++
  [.options (optionItems out.obj.opts out.obj.extra), .model (settingItems out.obj.ms m),
   .prior (List.ofFn (priorEntry out).1) (List.ofFn (priorEntry out).2),
   .chain (out.final.chain.map List.ofFn), .s2chain (out.final.s2chain.map fun l => l.map List.ofFn),
   .sschain (out.final.sschain.map List.ofFn)]

/-- `simulation_results` after a run, `MCMC.py:414-455`; the counters are those of the run -/
def resultsAfter {flags : Fin N → Bool} (out : RunOut F σ flags m) : Except PyErr (ResWorld F) :=
  resRun (newResults fun _ => out.final.dr.iacce.map fun k : ℕ => (k : ℤ)) (runCalls out)

end Verif
