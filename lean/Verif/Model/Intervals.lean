import Verif.Model.Propagation
import Verif.Model.Quantiles
import Mathlib.Algebra.Order.Floor.Semiring
import Mathlib.Algebra.BigOperators.Fin

/-!
# Credible and prediction intervals of all data sets

Model of the class `PredictionIntervals`, `plotting/PredictionIntervals.py:19-584`: preparation
(`setup_prediction_interval_calculation`) and generation (`generate_prediction_intervals`).

Simplifications: numbers are elements of an ordered field (exact arithmetic, no NaN), the square
root and the exponential function are arguments; the data structure holding only data set `ii`
(`_setup_data_structure_for_prediction`) is an element of an arbitrary type, so the data are a list
of such elements; the uniform draws and the normal draws are arguments (`noise ii kk` is the matrix
drawn for sample `kk` of data set `ii`); progress bar and printing are left out.  The array
`results['theta']`, which is changed in place, is passed through the computation and returned.
-/

namespace Verif

/-- a flag given by the user: a Python bool, a string, or anything else (`0`, `None`, …).
Source: `plotting/utilities.py:302-316`. -/
inductive PyFlag where
  | bool (b : Bool)
  | str (s : String)
  | other
  deriving DecidableEq, Repr

/-- `convert_flag_to_boolean`, `plotting/utilities.py:302-316` -/
def convertFlag : PyFlag → PyFlag
  | .str s => if s = "on" then .bool true else if s = "off" then .bool false else .str s
  | f => f

/-- the model function of the user: one for all data sets, or a list with one per data set.
Source: `plotting/PredictionIntervals.py:142-145`, `plotting/PredictionIntervals.py:446-449`. -/
inductive ModelFun (D K : Type) where
  | single (f : D → List K → Except PyErr (ModelOut K))
  | several (fs : List (D → List K → Except PyErr (ModelOut K)))

/-- `modelfunction[ii]` or `modelfunction`, `plotting/PredictionIntervals.py:142-145,446-449` -/
def ModelFun.at {D K : Type} (mf : ModelFun D K) (ii : ℕ) :
    Except PyErr (D → List K → Except PyErr (ModelOut K)) :=
  match mf with
  | .single f => .ok f
  | .several fs => pyGet fs ii

/-- `append_to_nrow_ncol_based_on_shape`, `plotting/utilities.py:279-298` -/
def ModelOut.shape {K : Type} : ModelOut K → ℕ × ℕ
  | .vec y => (y.length, 1)
  | .mat r c _ => (r, c)

/-- the parts of the results dictionary that are read.  `sstype = none`: no such entry.
Source: `plotting/PredictionIntervals.py:104-127`, `plotting/PredictionIntervals.py:294-315`. -/
structure IntResults (K : Type) (N p : ℕ) where
  chain : List (Vec K p)
  s2chain : Option (Σ k : ℕ, List (Fin k → K))
  parind : Fin p → Fin N
  loc : Fin N → ℤ
  theta : Vec K N
  sstype : Option ℤ

/-- the attributes of the object after `setup_prediction_interval_calculation`.
Source: `plotting/PredictionIntervals.py:30-55`. -/
structure IntSetup (K D : Type) (N p : ℕ) where
  chain : List (Vec K p)
  s2chain : Option (Σ k : ℕ, List (Fin k → K))
  parind : Fin p → Fin N
  loc : Fin N → ℤ
  theta : Vec K N
  sstype : ℤ
  data : List D
  modelfun : ModelFun D K
  shapes : List (ℕ × ℕ)
  s2index : Option (List (ℕ × ℕ))

/-- `self.intervals` after the generation: `credible[ii][jj][l][i]` is the limit for data set `ii`,
output column `jj`, level `l` and output row `i`; and the changed array `results['theta']`.
Source: `plotting/PredictionIntervals.py:200-230`, `plotting/PredictionIntervals.py:568-584`. -/
structure IntOut (K : Type) (N : ℕ) where
  credible : List (List (List (List K)))
  prediction : Option (List (List (List (List K))))
  theta : Vec K N

section
variable {K D : Type} {N p : ℕ}

/-- `_determine_shape_of_response`, `plotting/PredictionIntervals.py:131-148`: the model is called
once for every data set, with the complete vector `results['theta']` -/
def determineShape (mf : ModelFun D K) (theta : Vec K N) : ℕ → List D → Except PyErr (List (ℕ × ℕ))
  | _, [] => .ok []
  | ii, d :: ds => do
    let f ← mf.at ii
    let y ← f d (List.ofFn theta)
    let r ← determineShape mf theta (ii + 1) ds
    .ok (y.shape :: r)

/-- `setup_prediction_interval_calculation`, `plotting/PredictionIntervals.py:30-55`, with
`_assign_features_from_results_structure`, lines 104-127 (the model settings in the results being a
dictionary): the first `burnin` rows of both chains are dropped. -/
def setupIntervals (results : IntResults K N p) (data : List D) (mf : ModelFun D K) (burnin : ℕ) :
    Except PyErr (IntSetup K D N p) := do
  let s2chain := results.s2chain.map fun s => (⟨s.1, s.2.drop burnin⟩ : Σ k : ℕ, List (Fin k → K))
  let shapes ← determineShape mf results.theta 0 data
  let s2index ← (match s2chain with
    | none => .ok none
    | some s => (analyzeS2chain s.1 (shapes.map Prod.snd)).map some)
  .ok { chain := results.chain.drop burnin, s2chain := s2chain, parind := results.parind
        loc := results.loc, theta := results.theta, sstype := results.sstype.getD 0
        data := data, modelfun := mf, shapes := shapes, s2index := s2index }

/-- `theta[test]` with `test = set_local_parameters(ii, local)`, `plotting/utilities.py:320-340`,
`plotting/PredictionIntervals.py:451,480,519` -/
def selectLocal (loc : Fin N → ℤ) (ii : ℕ) (theta : Vec K N) : List K :=
  ((List.finRange N).filter fun k => decide (loc k = 0) || decide (loc k = ii)).map theta

/-- `ypred.reshape(nrow, ncol)`, `plotting/PredictionIntervals.py:483,522` -/
def reshapeOut [Zero K] (y : ModelOut K) (nrow ncol : ℕ) : Except PyErr (Fin nrow → Fin ncol → K) :=
  if y.size = nrow * ncol then .ok fun i j => y.flat.getD (i.1 * ncol + j.1) 0
  else .error .valueError

/-- `_calc_credible_ii`, `plotting/PredictionIntervals.py:455-486` -/
def calcCredibleII [Zero K] (parind : Fin p → Fin N) (loc : Fin N → ℤ) (ii : ℕ)
    (f : D → List K → Except PyErr (ModelOut K)) (d : D) (nrow ncol : ℕ) :
    List (Vec K p) → Vec K N → Except PyErr (Vec K N × List (Fin nrow → Fin ncol → K))
  | [], theta => .ok (theta, [])
  | isa :: rest, theta => do
    let theta := setParams parind theta isa
    let y ← f d (selectLocal loc ii theta)
    let y ← reshapeOut y nrow ncol
    let r ← calcCredibleII parind loc ii f d nrow ncol rest theta
    .ok (r.1, y :: r.2)

end

section
variable {K D : Type} [Field K] {N p : ℕ}

/-- `np.matmul(z, np.diagflat(np.sqrt(s2elem)))`, `plotting/PredictionIntervals.py:554,557,560` -/
def noiseTerm (sqrt : K → K) {nrow ncol : ℕ} (s2 : Fin ncol → K) (z : ℕ → ℕ → K) :
    Fin nrow → Fin ncol → K :=
  fun i j => ∑ k : Fin ncol, z i.1 k.1 * (if k = j then sqrt (s2 k) else 0)

/-- `_observation_sample`, `plotting/PredictionIntervals.py:534-564`; `z` is the matrix of normal
draws.  A single error variance is used for all columns. -/
def observationSampleMat (sqrt exp : K → K) {nrow ncol : ℕ} (s2 : List K)
    (y : Fin nrow → Fin ncol → K) (sstype : ℤ) (z : ℕ → ℕ → K) :
    Except PyErr (Fin nrow → Fin ncol → K) := do
  let s2 ← expandS2 s2 ncol
  let e := noiseTerm sqrt (fun k : Fin ncol => s2.getD k.1 0) z
  if sstype = 0 then .ok fun i j => y i j + e i j
  else if sstype = 1 then .ok fun i j => (sqrt (y i j) + e i j) ^ 2
  else if sstype = 2 then .ok fun i j => y i j * exp (e i j)
  else .error (.sysExit "Unknown sstype")

/-- `_calc_credible_and_prediction_ii`, `plotting/PredictionIntervals.py:489-530`; `tests2` are
the rows of error variances, read at the counter `kk` -/
def calcPredictionII (sqrt exp : K → K) (parind : Fin p → Fin N) (loc : Fin N → ℤ) (ii : ℕ)
    (f : D → List K → Except PyErr (ModelOut K)) (d : D) (nrow ncol : ℕ) (sstype : ℤ)
    (noise : ℕ → ℕ → ℕ → K) (tests2 : List (List K)) : ℕ →
    List (Vec K p) → Vec K N → Except PyErr
      (Vec K N × List (Fin nrow → Fin ncol → K) × List (Fin nrow → Fin ncol → K))
  | _, [], theta => .ok (theta, [], [])
  | kk, isa :: rest, theta => do
    let theta := setParams parind theta isa
    let y ← f d (selectLocal loc ii theta)
    let y ← reshapeOut y nrow ncol
    let s2 ← pyGet tests2 kk
    let o ← observationSampleMat sqrt exp s2 y sstype (noise kk)
    let r ← calcPredictionII sqrt exp parind loc ii f d nrow ncol sstype noise tests2 (kk + 1)
      rest theta
    .ok (r.1, y :: r.2.1, o :: r.2.2)

end

section
variable {K D : Type} [Field K] [LinearOrder K] [IsStrictOrderedRing K] [FloorRing K] {N p : ℕ}

/-- `_generate_quantiles`, `plotting/PredictionIntervals.py:568-584` -/
def generateQuantiles {nrow ncol : ℕ} (response : List (Fin nrow → Fin ncol → K)) (lims : List K) :
    Except PyErr (List (List (List K))) :=
  (List.finRange ncol).mapM fun jj =>
    (empiricalQuantiles (response.map fun y i => y i jj) lims).map fun q => q.map List.ofFn

/-- `_calculate_ci_for_data_sets`, `plotting/PredictionIntervals.py:359-387`, with
`_setup_interval_ii`, lines 425-452 -/
def ciForDataSets (S : IntSetup K D N p) (testchain : List (Vec K p)) (lims : List K) :
    ℕ → List D → Vec K N → Except PyErr (Vec K N × List (List (List (List K))))
  | _, [], theta => .ok (theta, [])
  | ii, d :: ds, theta => do
    let sh ← pyGet S.shapes ii
    let f ← S.modelfun.at ii
    let r ← calcCredibleII S.parind S.loc ii f d sh.1 sh.2 testchain theta
    let plim ← generateQuantiles r.2 lims
    let rest ← ciForDataSets S testchain lims (ii + 1) ds r.1
    .ok (rest.1, plim :: rest.2)

/-- `_calculate_ci_and_pi_for_data_sets`, `plotting/PredictionIntervals.py:388-421`; `s2rows` are
the rows `s2chain[iisample]` (as lists), `index` is `self.__s2chain_index` -/
def ciAndPiForDataSets (sqrt exp : K → K) (S : IntSetup K D N p) (testchain : List (Vec K p))
    (s2rows : List (List K)) (index : List (ℕ × ℕ)) (sstype : ℤ) (noise : ℕ → ℕ → ℕ → ℕ → K)
    (lims : List K) : ℕ → List D → Vec K N →
      Except PyErr (Vec K N × List (List (List (List K))) × List (List (List (List K))))
  | _, [], theta => .ok (theta, [], [])
  | ii, d :: ds, theta => do
    let sh ← pyGet S.shapes ii
    let f ← S.modelfun.at ii
    let ci ← pyGet index ii
    let r ← calcPredictionII sqrt exp S.parind S.loc ii f d sh.1 sh.2 sstype (noise ii)
      (s2rows.map fun l => pySlice l ci.1 ci.2) 0 testchain theta
    let plim ← generateQuantiles r.2.1 lims
    let olim ← generateQuantiles r.2.2 lims
    let rest ← ciAndPiForDataSets sqrt exp S testchain s2rows index sstype noise lims (ii + 1) ds r.1
    .ok (rest.1, plim :: rest.2.1, olim :: rest.2.2)

/-- `generate_prediction_intervals`, `plotting/PredictionIntervals.py:200-232`, with
`_setup_generation_requirements`, lines 233-267, and `_check_nsample`, lines 319-333.
`draws` are the uniform draws of `_define_sample_points`. -/
def generateIntervals (sqrt exp : K → K) (S : IntSetup K D N p) (sstype : Option ℤ)
    (nsample : Option ℕ) (calcPredInt : PyFlag) (draws : List K) (noise : ℕ → ℕ → ℕ → ℕ → K) :
    Except PyErr (IntOut K N) := do
  let s2chain := if convertFlag calcPredInt = .bool false then none else S.s2chain
  let lims := setupIntervalLimits s2chain.isSome
  let sstype := setupSstype S.sstype sstype
  let nsample := nsample.getD S.chain.length
  let iisample := (defineSamplePoints nsample S.chain.length draws).1
  let testchain ← iisample.mapM (pyRow S.chain)
  match s2chain with
  | none => do
    let r ← ciForDataSets S testchain lims 0 S.data S.theta
    .ok { credible := r.2, prediction := none, theta := r.1 }
  | some s => do
    let index ← orRaise S.s2index .attributeError
    let s2rows ← iisample.mapM (pyRow s.2)
    let r ← ciAndPiForDataSets sqrt exp S testchain (s2rows.map List.ofFn) index sstype noise lims
      0 S.data S.theta
    .ok { credible := r.2.1, prediction := some r.2.2, theta := r.1 }

end

/-! ### Local parameters -/

/-- the assignment `l[a:b] = v` of a list of numbers to a slice of a numpy array.
Source: `settings/ModelParameters.py:189-207`. -/
def assignSlice (l : List ℤ) (a b : ℕ) (v : List ℤ) : Except PyErr (List ℤ) :=
  if v.length = (pySlice l a b).length then .ok (l.take a ++ v ++ l.drop (max a b))
  else match v with
    | [x] => .ok (l.take a ++ List.replicate (pySlice l a b).length x ++ l.drop (max a b))
    | _ => .error .valueError

/-- the scan for local variables in `_openparameterstructure`, `settings/ModelParameters.py:96-113`,
for `nb + 1` batches: `specs` are the flags `sample` and `local` of the parameters that are still to
be looked at, `ii` is the counter, `l` the array `self._local` -/
def openLocalLoop (nb : ℕ) : List (Bool × ℤ) → ℕ → List ℤ → Except PyErr (List ℤ)
  | [], _, l => .ok l
  | s :: specs, ii, l =>
    if s.1 = false ∧ s.2 ≠ 0 then
      (assignSlice l ii (ii + nb) ((List.range (nb + 1)).map fun k : ℕ => (k : ℤ))).bind fun l =>
        openLocalLoop nb specs (ii + nb + 1) l
    else openLocalLoop nb specs (ii + 1) l

/-- `self._local` (which becomes `results['local']`) for `nb + 1` batches,
`settings/ModelParameters.py:96-113`, `structures/ResultsStructure.py:154` -/
def openLocal (specs : List (Bool × ℤ)) (nb : ℕ) : Except PyErr (List ℤ) :=
  openLocalLoop nb specs 0 (List.replicate specs.length 0)

/-- `scan_for_local_variables`, `settings/ModelParameters.py:189-207` (not called by the code) -/
def scanForLocal (nbatch : ℕ) : List (Bool × ℤ) → List ℤ
  | [] => []
  | s :: specs =>
    if s.1 = true then
      (if s.2 ≠ 0 then (List.range' 1 nbatch).map (fun k : ℕ => (k : ℤ)) else [0])
        ++ scanForLocal nbatch specs
    else scanForLocal nbatch specs

end Verif
