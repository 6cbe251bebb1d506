import Verif.Model.Mcmc
import Mathlib.Order.Defs.LinearOrder
import Mathlib.Data.Rat.Defs
import Mathlib.Data.List.Sort

/-! # What the results report

The entries that `add_basic` makes besides those in `Results`, and the acceptance information that
`chainstats` prints.
-/

namespace Verif
variable {F σ : Type} [PyFloat F] {N m : ℕ}

/-- entries of the results dictionary, `structures/ResultsStructure.py:152-171` -/
structure Report (F : Type) {N : ℕ} (flags : Fin N → Bool) where
  parind : List ℕ
  totalRejected : F
  rejectedOutside : F
  allnames : List String
  /-- `results['limits']` -/
  lower : Vec F (nS flags)
  upper : Vec F (nS flags)
  /-- `results['qcovorig']`, a square matrix with `size` rows -/
  size : ℕ
  qcovorig : Mat F size

/-- `_qcovorig` as it is set up, `procedures/CovarianceProcedures.py:158,162` -/
def qcovorigOf : Qcov F → (k : ℕ) × Mat F k
  | .variances k v => ⟨k, diagflat v⟩
  | .matrix k M => ⟨k, M⟩

/-- `M[np.ix_(parind, parind)] = q`, `structures/ResultsStructure.py:169` (that the indices are
inside is known from the set-up, which reads the same block) -/
def ixAssign {n k : ℕ} (M : Mat F k) (parind : Fin n → ℕ) (q : Mat F n) : Mat F k := fun a b =>
  match (List.finRange n).find? (fun i => parind i == a.val),
      (List.finRange n).find? (fun j => parind j == b.val) with
  | some i, some j => q i j
  | _, _ => M a b

/-- `add_basic`, `structures/ResultsStructure.py:152-171`, for the object after the loop.
`covariance._qcovorig` comes from the covariance that the run was set up with. -/
def reportOf {flags : Fin N → Bool} (out : RunOut F σ flags m) : Report F flags :=
  let q := qcovorigOf (setupCovarianceMatrix out.obj.extra.qcov
    (fun k => setupPriorSigma (out.obj.specs k).priorSigma) fun k => (out.obj.specs k).theta0)
  { parind := (sampledIdx flags).map (·.val)
    totalRejected := ofInt out.results.rejected.total * (lit 1 / ofInt out.results.nsimu)
    rejectedOutside := ofInt out.results.rejected.outside * (lit 1 / ofInt out.results.nsimu)
    allnames := (List.finRange N).map fun k => (out.obj.specs k).name
    lower := atParind flags fun k => (out.obj.specs k).minimum
    upper := atParind flags fun k => (out.obj.specs k).maximum
    size := q.1
    qcovorig := ixAssign q.2 (fun i => (parindOf flags i).val) out.results.qcov }

/-! ### Acceptance information -/

/-- `results['iacce']`: an array after a run, a list after loading a results file.
Source: `chain/ChainStatistics.py:134-193`. -/
inductive Iacce where
  | array (l : List ℤ)
  | list (l : List ℤ)

/-- What `print_chain_acceptance_info` prints (percentages before rounding).
Source: `chain/ChainStatistics.py:134-193`. -/
structure AcceptanceInfo where
  /-- from the results: percentage of every stage; net percentage, net count, number of samples -/
  stages : Option (List ℚ × ℚ × ℤ × ℕ)
  /-- from the chain: percentage, count, number of rows -/
  percent : ℚ
  unique : ℕ
  rows : ℕ

/-- number of neighbours that differ. Source: `chain/ChainStatistics.py:134-193`. -/
def changes {α : Type} [DecidableEq α] : List α → ℕ
  | a :: b :: l => (if b = a then 0 else 1) + changes (b :: l)
  | _ => 0

/-- `np.unique(x).size`: sort, then keep the first of every block of equal values (no NaN).
Source: `chain/ChainStatistics.py:134-193`. -/
def uniqueSize {K : Type} [LinearOrder K] (l : List K) : ℕ :=
  if l = [] then 0 else 1 + changes (l.insertionSort (· ≤ ·))

/-- the part that is printed from the results, `chain/ChainStatistics.py:167-183` -/
def stageInfo (iacce : Option Iacce) (nsimu : Option ℕ) (rows : ℕ) :
    Except PyErr (Option (List ℚ × ℚ × ℤ × ℕ)) :=
  match iacce with
  | none => .ok none
  | some (.list _) => .error .attributeError
  | some (.array l) =>
    let n := nsimu.getD rows
    .ok (some (l.map fun s : ℤ => (s : ℚ) / n * 100, (l.sum : ℚ) / n * 100, l.sum, n))

/-- `print_chain_acceptance_info`, `chain/ChainStatistics.py:134-194`.  `results` are its entries
`iacce` and `nsimu`. -/
def acceptanceInfo {K : Type} [LinearOrder K] {n : ℕ} (chain : List (Fin n → K))
    (results : Option (Option Iacce × Option ℕ)) : Except PyErr AcceptanceInfo := do
  let st ← match results with
    | none => .ok none
    | some (iacce, nsimu) => stageInfo iacce nsimu chain.length
  if h : 0 < n then
    let u := uniqueSize (chain.map fun r => r ⟨0, h⟩)
    if chain.length = 0 then .error .zeroDivision
    else .ok ⟨st, (u : ℚ) / chain.length * 100, u, chain.length⟩
  else .error .indexError

end Verif
