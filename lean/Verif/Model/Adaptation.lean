import Verif.Model.Samplers

/-!
# Adaptation of the proposal covariance

Models `/repo/pymcmcstat/samplers/Adaptation.py` and the part of
`/repo/pymcmcstat/procedures/CovarianceProcedures.py` that a run uses.
-/

namespace Verif
variable {F : Type} [PyFloat F] {n : ℕ}

/-- LAPACK routines used through numpy: `np.linalg.cholesky` (lower factor, or `LinAlgError`)
and `np.linalg.solve(A, np.eye(n))` (or `LinAlgError`).
Source: `samplers/Adaptation.py:420`, `samplers/Adaptation.py:495`, `procedures/CovarianceProcedures.py:167`,
`procedures/CovarianceProcedures.py:175`. -/
structure Lapack (F : Type) where
  cholesky : {n : ℕ} → Mat F n → Option (Mat F n)
  inverse : {n : ℕ} → Mat F n → Option (Mat F n)

/-- Attributes of the `CovarianceProcedures` object that a run reads or writes,
`procedures/CovarianceProcedures.py:36-63`. -/
structure CovState (F : Type) (n : ℕ) where
  R : Mat F n
  RDR : Slot (List (Mat F n))
  invR : Option (List (Mat F n))
  covchain : Option (Mat F n)
  meanchain : Option (Vec F n)
  wsum : Option F
  /-- `_last_index_since_adaptation` -/
  lastIndex : ℕ
  /-- `_qcov`, restricted to the sampled parameters -/
  qcov : Mat F n
  noAdapt : Fin n → Bool
  qcovScale : F

/-- Options used in adaptation, `samplers/Adaptation.py:99-126`. -/
structure AdaptOpts (F : Type) where
  burnintime : ℤ
  burninScale : F
  ntry : ℕ
  drscale : List F
  alphatarget : F
  etaparam : F
  qcovAdjust : F
  doram : Bool

/-- `self.__rejected`, `MCMC.py:294` -/
structure Rejected where
  total : ℕ
  inInterval : ℕ
  outside : ℕ

/-- conversion of a Python int.
Used at `samplers/Adaptation.py:175`, `samplers/Adaptation.py:354`, `procedures/CovarianceProcedures.py:139-145`. -/
def ofInt (k : ℤ) : F := lit (k : ℚ)

/-- `below_burnin_threshold`, `samplers/Adaptation.py:160-182`. -/
def belowBurninThreshold (rej : Rejected) (iiadapt : ℕ) (R : Mat F n) (burninScale : F) : Mat F n :=
  let rate : F := ofInt rej.inInterval * (lit 1 / ofInt iiadapt)
  if PyFloat.lt (lit (95/100)) rate then matScale R (lit 1 / burninScale)
  else if PyFloat.lt rate (lit (5/100)) then matScale R burninScale
  else R

/-- `setup_w_R`, `samplers/Adaptation.py:229-253` (weights; the Cholesky argument `oldR` of
`update_covariance_mean_sum` is never passed by the package and its update is discarded by the
caller, so it is not carried along here; see `cholupdate` for that code). -/
def setupW (w : Option (List F)) (k : ℕ) : List F :=
  let w := w.getD [lit 1]
  match w with
  | [w0] => List.replicate k (lit 1 * w0)
  | w => w

/-- column sums `sum(x[:, i]*w)`, `samplers/Adaptation.py:275` -/
def wColSum (x : List (Vec F n)) (w : List F) (i : Fin n) : F :=
  lsum (List.zipWith (fun xi wi => xi i * wi) x w)

/-- `initialize_covariance_mean_sum`, `samplers/Adaptation.py:257-284`.  The code computes the
lower triangle and mirrors it. -/
def initializeCov (x : List (Vec F n)) (w : List F) : Mat F n × Vec F n × F :=
  let wsum := lsum w
  let xmean : Vec F n := fun i => wColSum x w i * (lit 1 / wsum)
  let entry : Fin n → Fin n → F := fun i j =>
    lsum (List.zipWith (fun xi wi =>
      (xi i - xmean i) * (((xi j - xmean j) * wi) * (lit 1 / (wsum - lit 1)))) x w)
  let xcov : Mat F n :=
    if PyFloat.lt (lit 1) wsum then fun i j => if j ≤ i then entry i j else entry j i
    else fun _ _ => lit 0
  (xcov, xmean, wsum)

/-- one round of the loop of `update_covariance_mean_sum`, `samplers/Adaptation.py:211-224`. -/
def covStep (acc : Mat F n × Vec F n × F) (xw : Vec F n × F) : Mat F n × Vec F n × F :=
  let (oldcov, oldmean, oldwsum) := acc
  let (xi, w) := xw
  let xmean : Vec F n := fun i => oldmean i + w * (lit 1 / (w + oldwsum)) * (xi i - oldmean i)
  let c1 := (oldwsum - lit 1) * (lit 1 / (w + oldwsum - lit 1))
  let c2 := w * oldwsum * (lit 1 / (w + oldwsum - lit 1)) * (lit 1 / (w + oldwsum))
  let xcov : Mat F n := fun i j =>
    c1 * oldcov i j + c2 * ((xi i - oldmean i) * (xi j - oldmean j))
  (xcov, xmean, w + oldwsum)

/-- `update_covariance_mean_sum`, `samplers/Adaptation.py:186-225`.
The loop of the code raises an `IndexError` when there are fewer weights than rows; the
initialisation raises a `ValueError` when the two numbers differ. -/
def updateCovarianceMeanSum (x : List (Vec F n)) (w : Option (List F))
    (oldcov : Option (Mat F n)) (oldmean : Option (Vec F n)) (oldwsum : Option F) :
    Except PyErr (Option (Mat F n) × Option (Vec F n) × Option F) :=
  if x.length = 0 ∨ n = 0 then .ok (oldcov, oldmean, oldwsum)
  else
    let w := setupW w x.length
    match oldcov, oldmean, oldwsum with
    | none, _, _ =>
        if w.length = x.length then
          let (c, mu, s) := initializeCov x w
          .ok (some c, some mu, some s)
        else .error .valueError
    | some c0, some m0, some s0 =>
        if x.length ≤ w.length then
          let (c, mu, s) := (x.zip w).foldl covStep (c0, m0, s0)
          .ok (some c, some mu, some s)
        else .error .indexError
    | some _, _, _ => .error .typeError

/-- `update_cov_via_ram`, `samplers/Adaptation.py:337-357`. -/
def updateCovViaRam (u : Vec F n) (isimu : ℕ) (etaparam alphatarget alpha : F) (R : Mat F n) :
    Mat F n :=
  let nrm := PyFloat.sqrt (normSq u)
  let uu : Vec F n := fun i => u i * (lit 1 / nrm)
  let eta := lit 1 / PyFloat.pow (ofInt isimu) etaparam
  let ram : Mat F n := fun i j =>
    matEye i j + eta * (pyMin (lit 1) alpha - alphatarget) * (uu i * uu j)
  matMul (matMul (matT R) ram) R

/-- `update_cov_from_covchain`, `samplers/Adaptation.py:361-376`. -/
def updateCovFromCovchain (covchain qcov : Mat F n) (noAdapt : Fin n → Bool) : Mat F n :=
  let up1 : Mat F n := fun i j => if noAdapt i then qcov i j else covchain i j
  fun i j => if noAdapt j then qcov i j else up1 i j

/-- `is_semi_pos_def_chol`, `samplers/Adaptation.py:407-423`: the transposed (upper) factor. -/
def isSemiPosDefChol (L : Lapack F) (x : Mat F n) : Option (Mat F n) :=
  (L.cholesky x).map matT

/-- `scale_cholesky_decomposition`, `samplers/Adaptation.py:427-438`. -/
def scaleCholesky (Ra : Mat F n) (qcovScale : F) : Mat F n := matScale Ra qcovScale

/-- `adjust_cov_matrix`, `samplers/Adaptation.py:442-470`. -/
def adjustCovMatrix (L : Lapack F) (upcov R : Mat F n) (qcovAdjust qcovScale : F) : Mat F n :=
  let tmp := matAdd upcov (matScale matEye qcovAdjust)
  match isSemiPosDefChol L tmp with
  | some Ra => scaleCholesky Ra qcovScale
  | none => R

/-- `check_for_singular_cov_matrix`, `samplers/Adaptation.py:380-403`. -/
def checkForSingular (L : Lapack F) (upcov R : Mat F n) (qcovAdjust qcovScale : F) : Mat F n :=
  match isSemiPosDefChol L upcov with
  | some Ra => scaleCholesky Ra qcovScale
  | none => adjustCovMatrix L upcov R qcovAdjust qcovScale

/-- `drscale[min(ii, len(drscale)) - 1]`, `samplers/Adaptation.py:497`,
`procedures/CovarianceProcedures.py:177`; `IndexError` for the empty list. -/
def drscaleAt (drscale : List F) (ii : ℕ) : Except PyErr F :=
  pyGet drscale (min ii drscale.length - 1)

/-- the loop `for ii in range(1, ntry)` of `update_delayed_rejection`,
`samplers/Adaptation.py:496-498`: `k` rounds from index `ii`, last factor and inverse given. -/
def drFactorLoop (drscale : List F) : (k ii : ℕ) → (R iR : Mat F n) →
    Except PyErr (List (Mat F n) × List (Mat F n))
  | 0, _, _, _ => .ok ([], [])
  | k + 1, ii, R, iR => do
      let s ← drscaleAt drscale ii
      let R' := matScale R (lit 1 / s)
      let iR' := matScale iR s
      let (l, il) ← drFactorLoop drscale k (ii + 1) R' iR'
      .ok (R' :: l, iR' :: il)

/-- `update_delayed_rejection`, `samplers/Adaptation.py:474-499`. -/
def updateDelayedRejection (L : Lapack F) (R : Mat F n) (ntry : ℕ) (drscale : List F) :
    Except PyErr (Slot (List (Mat F n)) × Option (List (Mat F n))) :=
  if 1 < ntry then do
    let iR ← orRaise (L.inverse R) .linAlgError
    let (l, il) ← drFactorLoop drscale (ntry - 1) 1 R iR
    .ok (.some (R :: l), some (iR :: il))
  else .ok (.pyNone, none)

/-- the choice between the two updates, `samplers/Adaptation.py:79-84`; `alpha` and `covchain` are
`None` only if the code would fail on them. -/
def newCovariance (c : CovState F n) (o : AdaptOpts F) (isimu : ℕ) (covchain : Option (Mat F n))
    (u : Vec F n) (alpha : Option F) : Except PyErr (Mat F n) :=
  if o.doram then do
    let al ← orRaise alpha .typeError
    .ok (updateCovViaRam u isimu o.etaparam o.alphatarget al c.R)
  else do
    let cc ← orRaise covchain .attributeError
    .ok (updateCovFromCovchain cc c.qcov c.noAdapt)

/-- `Adaptation.run_adaptation`, `samplers/Adaptation.py:35-95`, together with
`_update_covariance_from_adaptation` and
`_update_covariance_for_delayed_rejection_from_adaptation`,
`procedures/CovarianceProcedures.py:65-94`.  `alpha` is `new_set.alpha`. -/
def runAdaptation (L : Lapack F) (c : CovState F n) (o : AdaptOpts F) (isimu iiadapt : ℕ)
    (rej : Rejected) (chain : List (Vec F n)) (chainind : ℕ) (u : Vec F n) (alpha : Option F) :
    Except PyErr (CovState F n) :=
  if (isimu : ℤ) < o.burnintime then
    .ok { c with
      R := belowBurninThreshold rej iiadapt c.R o.burninScale
      RDR := .pyNone, invR := none }
  else do
    let (covchain, meanchain, wsum) ← updateCovarianceMeanSum
      (pySlice chain c.lastIndex chainind) (some [lit 1]) c.covchain c.meanchain c.wsum
    let upcov ← newCovariance c o isimu covchain u alpha
    let R := checkForSingular L upcov c.R o.qcovAdjust c.qcovScale
    let (RDR, invR) ← updateDelayedRejection L R o.ntry o.drscale
    .ok { c with
      R := R, covchain := covchain, meanchain := meanchain, wsum := wsum
      lastIndex := isimu, RDR := RDR, invR := invR }

/-! ### Rank-one update of a Cholesky factor -/

/-- one round of the loop of `cholupdate`, `samplers/Adaptation.py:325-331`. -/
def cholStep (acc : Mat F n × Vec F n) (ii : Fin n) : Mat F n × Vec F n :=
  let (R1, x1) := acc
  let r := PyFloat.sqrt (R1 ii ii * R1 ii ii + x1 ii * x1 ii)
  let c := r * (lit 1 / R1 ii ii)
  let s := x1 ii * (lit 1 / R1 ii ii)
  let R2 : Mat F n := fun i j =>
    if i = ii then
      if j = ii then r
      else if ii < j then (R1 ii j + s * x1 j) * (lit 1 / c)
      else R1 i j
    else R1 i j
  let x2 : Vec F n := fun j => if ii < j then c * x1 j - s * R2 ii j else x1 j
  (R2, x2)

/-- `cholupdate`, `samplers/Adaptation.py:310-333`. -/
def cholupdate (R : Mat F n) (x : Vec F n) : Mat F n :=
  ((List.finRange n).foldl cholStep (R, x)).1

/-- `setup_cholupdate`, `samplers/Adaptation.py:288-305`. -/
def setupCholupdate (R : Mat F n) (oldwsum wsum : F) (oldmean xi : Vec F n) : Mat F n × Vec F n :=
  let f := PyFloat.sqrt ((oldwsum - lit 1) * (lit 1 / (wsum + oldwsum - lit 1)))
  let g := PyFloat.sqrt ((wsum * oldwsum) * (lit 1 / (wsum + oldwsum - lit 1))
    * (lit 1 / (wsum + oldwsum)))
  (fun i j => f * R i j, fun i => (xi i - oldmean i) * g)

/-! ### Set-up of the covariance object -/

/-- the default variances of `setup_covariance_matrix`,
`procedures/CovarianceProcedures.py:127-133`. -/
def defaultVariance (thetasig value : F) : F :=
  let q := thetasig * thetasig
  let q := if PyFloat.isinf q || PyFloat.isnan q then
      (pyAbs value * lit (5/100)) * (pyAbs value * lit (5/100)) else q
  if PyFloat.beq q (lit 0) then lit 1 else q

/-- `__check_adascale`, `procedures/CovarianceProcedures.py:139-145`; `math.sqrt(0)**(-1)` raises
`ZeroDivisionError` (no parameter is sampled). -/
def checkAdascale (adascale : Option F) (npar : ℕ) : Except PyErr F :=
  let dflt : Except PyErr F :=
    if npar = 0 then .error .zeroDivision
    else .ok (lit (24/10) * (lit 1 / PyFloat.sqrt (ofInt npar)))
  match adascale with
  | none => dflt
  | some a => if PyFloat.le a (lit 0) then dflt else .ok a

/-- the loop of `__setup_RDR_matrix` when no `RDR` was given,
`procedures/CovarianceProcedures.py:176-178`: here each inverse is computed afresh. -/
def rdrSetupLoop (L : Lapack F) (drscale : List F) : (k ii : ℕ) → (R : Mat F n) →
    Except PyErr (List (Mat F n) × List (Mat F n))
  | 0, _, _ => .ok ([], [])
  | k + 1, ii, R => do
      let s ← drscaleAt drscale ii
      let R' := matScale R (lit 1 / s)
      let iR' ← orRaise (L.inverse R') .linAlgError
      let (l, il) ← rdrSetupLoop L drscale k (ii + 1) R'
      .ok (R' :: l, iR' :: il)

/-- inverses of the first `ntry` user-supplied factors,
`procedures/CovarianceProcedures.py:180-181`. -/
def rdrInverses (L : Lapack F) (RDR : List (Mat F n)) : (ntry ii : ℕ) →
    Except PyErr (List (Mat F n))
  | 0, _ => .ok []
  | k + 1, ii => do
      let R ← pyGet RDR ii
      let iR ← orRaise (L.inverse R) .linAlgError
      let l ← rdrInverses L RDR k (ii + 1)
      .ok (iR :: l)

/-- `__setup_RDR_matrix`, `procedures/CovarianceProcedures.py:170-183`:
returns `_R`, `_RDR`, `_invR`. -/
def setupRDRMatrix (L : Lapack F) (R : Mat F n) (ntry : ℕ) (drscale : List F)
    (RDR : Option (List (Mat F n))) :
    Except PyErr (Mat F n × List (Mat F n) × List (Mat F n)) :=
  match RDR with
  | none => do
      let iR ← orRaise (L.inverse R) .linAlgError
      let (l, il) ← rdrSetupLoop L drscale (ntry - 1) 1 R
      .ok (R, R :: l, iR :: il)
  | some RDR => do
      let inv ← rdrInverses L RDR ntry 0
      let R0 ← pyGet RDR 0
      .ok (R0, RDR, inv)

/-- the five sampling methods, `settings/SimulationOptions.py:96-102` -/
inductive Method where
  | mh | am | dr | dram | ram
  deriving DecidableEq, Repr

/-- The proposal covariance as it is set up: an array of variances (shape `(1, k)` after
`np.atleast_2d`) or a square matrix, `procedures/CovarianceProcedures.py:136,147-152`. -/
inductive Qcov (F : Type) where
  | variances (k : ℕ) (v : Vec F k)
  | matrix (k : ℕ) (M : Mat F k)

/-- `np.diagflat`.
Used at `procedures/CovarianceProcedures.py:134`, `procedures/CovarianceProcedures.py:156`,
`procedures/CovarianceProcedures.py:158`. -/
def diagflat {k : ℕ} (v : Vec F k) : Mat F k := fun i j => if i = j then v i else lit 0

/-- `setup_covariance_matrix` for `qcov is None`, `procedures/CovarianceProcedures.py:125-137` -/
def setupCovarianceMatrix {N : ℕ} (qcov : Option (Qcov F)) (thetasig value : Vec F N) : Qcov F :=
  match qcov with
  | some q => q
  | none => .matrix N (diagflat fun i => defaultVariance (thetasig i) (value i))

/-- `qcov[np.ix_(parind, parind)]`, `procedures/CovarianceProcedures.py:157-159,163`:
`IndexError` when an index is outside. -/
def ixRestrict {N k : ℕ} (M : Mat F k) (parind : Fin n → Fin N) : Except PyErr (Mat F n) :=
  if h : ∀ i, (parind i : ℕ) < k then .ok fun i j => M ⟨parind i, h i⟩ ⟨parind j, h j⟩
  else .error .indexError

/-- `__setup_R_matrix`, `procedures/CovarianceProcedures.py:147-168`: the factor `_R` and the
restricted covariance `_qcov`.  A `1×1` array counts as variances. -/
def setupRMatrix {N : ℕ} (L : Lapack F) (q : Qcov F) (parind : Fin n → Fin N) :
    Except PyErr (Mat F n × Mat F n) :=
  match q with
  | .variances _ v => do
      let qc ← ixRestrict (diagflat v) parind
      .ok (fun i j => PyFloat.sqrt (qc i j), qc)
  | .matrix k M => do
      let qc ← ixRestrict M parind
      if k = 1 then .ok (fun i j => PyFloat.sqrt (qc i j), qc)
      else if n = 1 then .ok (matT fun i j => PyFloat.sqrt (qc i j), qc)
      else match L.cholesky qc with
        | some c => .ok (matT c, qc)
        | none => .error .linAlgError

/-- `_initialize_covariance_settings` and `_update_covariance_settings`,
`procedures/CovarianceProcedures.py:28-63,96-105`.  `prevRDR` is the attribute `_RDR` left from
an earlier run of the same object; it is only replaced for the methods `dram` and `dr`. -/
def initCovState {N : ℕ} (L : Lapack F) (method : Method) (ntry : ℕ) (drscale : List F)
    (userRDR : Option (List (Mat F n))) (adascale : Option F) (initqcovn : Option F)
    (q : Qcov F) (parind : Fin n → Fin N) (noAdapt : Fin n → Bool) (theta0 : Vec F n)
    (prevRDR : Slot (List (Mat F n))) : Except PyErr (CovState F n) := do
  let scale ← checkAdascale adascale n
  let (R, qcov) ← setupRMatrix L q parind
  let base : CovState F n :=
    { R := R, RDR := prevRDR, invR := none
      covchain := initqcovn.map fun _ => qcov
      meanchain := initqcovn.map fun _ => theta0
      wsum := initqcovn, lastIndex := 0, qcov := qcov, noAdapt := noAdapt
      qcovScale := scale }
  if method = .dram ∨ method = .dr then do
    let (R', l, il) ← setupRDRMatrix L R ntry drscale userRDR
    .ok { base with R := R', RDR := .some l, invR := some il }
  else .ok base

end Verif
