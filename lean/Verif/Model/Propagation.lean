import Verif.Model.Py
import Mathlib.Algebra.Order.Floor.Ring

/-!
# Propagation of the chain through the model

Model of `propagation.py` (`calculate_intervals`, `check_s2chain`, `observation_sample`,
`define_sample_points`) and of the interval generation of `plotting/PredictionIntervals.py`.

Simplifications: the progress bar and printing are left out; the random numbers of
`define_sample_points` are an argument (`draws`); the noise of the observation samples is an
argument.  A numpy array that is changed in place (`results['theta']`) is a value that is passed
through the computation and returned.
-/

namespace Verif

/-- the value of the user's model: a one- or two-dimensional array. Source: `propagation.py:71-85`. -/
inductive ModelOut (F : Type) where
  | vec (y : List F)
  | mat (nrow ncol : ℕ) (y : Fin nrow → Fin ncol → F)

namespace ModelOut
variable {F : Type}

/-- `y.size`. Source: `propagation.py:71-85`. -/
def size : ModelOut F → ℕ
  | vec y => y.length
  | mat r c _ => r * c

/-- `y.reshape(y.size,)`. Source: `propagation.py:71-85`. -/
def flat : ModelOut F → List F
  | vec y => y
  | mat _ _ y => (List.ofFn fun i => List.ofFn (y i)).flatten

/-- the test of `propagation.py:72-75`: two-dimensional, with more than one row and column -/
def isMultiple : ModelOut F → Bool
  | vec _ => false
  | mat r c _ => decide (r ≠ r * c) && decide (c ≠ r * c)

/-- number of columns, `propagation.py:73` -/
def ncol : ModelOut F → Except PyErr ℕ
  | vec _ => .error .nameError
  | mat _ c _ => .ok c

/-- `y[:, jj]`. Source: `propagation.py:21-132`. -/
def col : ModelOut F → ℕ → Except PyErr (List F)
  | vec _, _ => .error .indexError
  | mat _ c y, jj => if h : jj < c then .ok (List.ofFn fun i => y i ⟨jj, h⟩) else .error .indexError

end ModelOut

/-- an error-variance chain: `None`, one value per row, or several values per row.
Source: `propagation.py:446-469`. -/
inductive S2Chain (F : Type) where
  | none
  | one (l : List F)
  | two (k : ℕ) (rows : List (Fin k → F))

/-- what `s2chain[kk]` or `s2chain[kk, jj]` is: a number or a row.
Source: `propagation.py:21-132`, `propagation.py:473-493`. -/
inductive S2Val (F : Type) where
  | num (x : F)
  | row (l : List F)

/-- the parts of the results dictionary that are read; `rest` stands for everything else.
Source: `propagation.py:21-132`. -/
structure PropResults (F R : Type) (N p : ℕ) where
  parind : Fin p → Fin N
  theta : Vec F N
  rest : R

section
variable {F R D : Type} {N p : ℕ}

/-- `q[parind] = row`. Source: `propagation.py:21-132`. -/
def setParams (parind : Fin p → Fin N) (q : Vec F N) (row : Vec F p) : Vec F N :=
  (List.finRange p).foldl (fun q j => Function.update q (parind j) (row j)) q

/-- `check_s2chain`, `propagation.py:446-469`: a number is repeated, a vector of another length
than the chain is repeated as rows, a matrix with one row is repeated (a matrix with another
number of rows than the chain cannot be broadcast, except for a chain of a single row and a matrix of a
single column, which is left out).  `Sum.inl` is a Python float. -/
def checkS2chain [PyFloat F] (s2 : F ⊕ S2Chain F) (nsimu : ℕ) : Except PyErr (S2Chain F) :=
  match s2 with
  | .inl x => .ok (.one (List.replicate nsimu (lit 1 * x)))
  | .inr .none => .ok .none
  | .inr (.one l) =>
    if l.length ≠ nsimu then
      .ok (.two l.length (List.replicate nsimu fun i => l.get i * lit 1))
    else .ok (.one l)
  | .inr (.two k rows) =>
    if rows.length ≠ nsimu then
      match rows with
      | [r] => .ok (.two k (List.replicate nsimu fun i => r i * lit 1))
      | _ => .error .valueError
    else .ok (.two k rows)

/-- the error variance used for output `jj` at round `kk`, `propagation.py:83,103-110`;
`ncol = none` is the branch with a single quantity of interest -/
def s2At (s2 : S2Chain F) (kk : ℕ) (ncol : Option ℕ) (jj : ℕ) : Except PyErr (S2Val F) :=
  match s2 with
  | .none => .error .typeError
  | .one l => (pyGet l kk).map .num
  | .two k rows =>
    if ncol = some k then
      (pyGet rows kk).bind fun r => (pyGet (List.ofFn r) jj).map .num
    else (pyGet rows kk).map fun r => .row (List.ofFn r)

/-- `observation_sample`, `propagation.py:473-493`, for a single error variance `s2`;
`noise` are the normal draws -/
def observationSample [PyFloat F] (s2 : F) (y noise : List F) (sstype : ℤ) :
    Except PyErr (List F) :=
  if sstype = 0 then
    .ok (List.zipWith (fun a z => a + z * PyFloat.sqrt s2) y noise)
  else if sstype = 1 then
    .ok (List.zipWith (fun a z => PyFloat.pow (PyFloat.sqrt a + z * PyFloat.sqrt s2) (lit 2)) y noise)
  else if sstype = 2 then
    .ok (List.zipWith (fun a z => a * PyFloat.exp (z * PyFloat.sqrt s2)) y noise)
  else .error (.sysExit "Unknown sstype")

/-- state of the loop of `calculate_intervals`; `evals` is a ghost: the parameter vectors the
model was called with. Source: `propagation.py:21-132`. -/
structure PropState (F : Type) (N : ℕ) where
  q : Vec F N
  multiple : Bool := false
  ci : List (List F) := []
  pi : List (List F) := []
  cis : Option (List (List (List F))) := none
  pis : Option (List (List (List F))) := none
  evals : List (Vec F N) := []

/-- append `x` to entry `jj` of a list of lists. Source: `propagation.py:21-132`. -/
def appendAt {α : Type} (l : List (List α)) (jj : ℕ) (x : α) : Except PyErr (List (List α)) :=
  (pyGet l jj).bind fun r => pySet l jj (r ++ [x])

/-- the column loop of `propagation.py:97-112` -/
def propColumns (s2 : S2Chain F) (obs : ℕ → ℕ → S2Val F → ModelOut F → Except PyErr (List F))
    (kk : ℕ) (y : ModelOut F) (ncol : ℕ) : List ℕ → List (List (List F)) × List (List (List F)) →
      Except PyErr (List (List (List F)) × List (List (List F)))
  | [], a => .ok a
  | jj :: js, a => do
    let col ← y.col jj
    let cis ← appendAt a.1 jj col
    let pis ← (match s2 with
      | .none => .ok a.2
      | s2 => (s2At s2 kk (some ncol) jj).bind fun v => (obs kk jj v (.vec col)).bind fun o =>
          appendAt a.2 jj o)
    propColumns s2 obs kk y ncol js (cis, pis)

/-- one round of the loop of `calculate_intervals`, `propagation.py:62-112`.  The row used is
`chain[kk, :]`, with the counter `kk` (not the drawn index `isa`). -/
def propStep (parind : Fin p → Fin N) (chain : List (Vec F p)) (data : D)
    (model : Vec F N → D → Except PyErr (ModelOut F)) (s2 : S2Chain F)
    (obs : ℕ → ℕ → S2Val F → ModelOut F → Except PyErr (List F))
    (kk : ℕ) (_isa : ℤ) (st : PropState F N) : Except PyErr (PropState F N) := do
  let row ← pyGet chain kk
  let q := setParams parind st.q row
  let y ← model q data
  let multiple := st.multiple || y.isMultiple
  if multiple = false then
    let ci := st.ci ++ [y.flat]
    let pi ← (match s2 with
      | .none => .ok st.pi
      | s2 => (s2At s2 kk none 0).bind fun v => (obs kk 0 v y).map fun o => st.pi ++ [o])
    .ok { st with q := q, ci := ci, pi := pi, evals := st.evals ++ [q] }
  else
    let ncol ← y.ncol
    let cis ← (if kk = 0 then .ok (List.replicate ncol []) else orRaise st.cis .nameError)
    let pis ← (if kk = 0 then .ok (List.replicate ncol []) else orRaise st.pis .nameError)
    let r ← propColumns s2 obs kk y ncol (List.range ncol) (cis, pis)
    .ok { st with q := q, multiple := true, cis := some r.1, pis := some r.2,
                  evals := st.evals ++ [q] }

/-- the loop `for kk, isa in enumerate(iisample)`, `propagation.py:62-112` -/
def propLoop (parind : Fin p → Fin N) (chain : List (Vec F p)) (data : D)
    (model : Vec F N → D → Except PyErr (ModelOut F)) (s2 : S2Chain F)
    (obs : ℕ → ℕ → S2Val F → ModelOut F → Except PyErr (List F)) :
    ℕ → List ℤ → PropState F N → Except PyErr (PropState F N)
  | _, [], st => .ok st
  | kk, isa :: rest, st => do
    let st' ← propStep parind chain data model s2 obs kk isa st
    propLoop parind chain data model s2 obs (kk + 1) rest st'

/-- `define_sample_points`, `propagation.py:497-517`, and `_define_sample_points`,
`plotting/PredictionIntervals.py:337-357` (the same code); `draws` is `np.random.rand(nsample)` -/
def defineSamplePoints {K : Type} [Field K] [LinearOrder K] [FloorRing K] (nsample nsimu : ℕ)
    (draws : List K) : List ℤ × ℕ :=
  if nsimu ≤ nsample then ((List.range nsimu).map fun k : ℕ => (k : ℤ), nsimu)
  else ((draws.take nsample).map fun u => ⌈u * (nsimu : K)⌉ - 1, nsample)

/-- `calculate_intervals`, `propagation.py:21-130`: the results dictionary after the call (its
array `theta` is changed in place through `q`) and the state at the end of the loop, from which
the returned dictionaries are built.  `iisample` comes from `defineSamplePoints`. -/
def calculateIntervals [PyFloat F] (chain : List (Vec F p)) (results : PropResults F R N p)
    (data : D) (model : Vec F N → D → Except PyErr (ModelOut F)) (s2chain : F ⊕ S2Chain F)
    (obs : ℕ → ℕ → S2Val F → ModelOut F → Except PyErr (List F)) (iisample : List ℤ) :
    Except PyErr (PropResults F R N p × PropState F N) := do
  let s2 ← checkS2chain s2chain chain.length
  let st ← propLoop results.parind chain data model s2 obs 0 iisample { q := results.theta }
  .ok ({ results with theta := st.q }, st)

/-! ### `plotting/PredictionIntervals.py` -/

/-- the row with a Python index that may be negative, `a[i]`.
Source: `plotting/PredictionIntervals.py:360-385`, `plotting/PredictionIntervals.py:388-421`,
`plotting/PredictionIntervals.py:643`. -/
def pyRow {α : Type} (l : List α) (i : ℤ) : Except PyErr α :=
  if 0 ≤ i then pyGet l i.toNat
  else if 0 ≤ i + l.length then pyGet l (i + l.length).toNat
  else .error .indexError

/-- `_calc_credible_ii`, `plotting/PredictionIntervals.py:455-486` for one data set: `testchain`
are the drawn rows; the first component is `theta` (an alias of `results['theta']`) afterwards,
the second the vectors the model was called with (before the selection of local parameters),
the third the responses. -/
def calcCredible (parind : Fin p → Fin N) (data : D)
    (model : Vec F N → D → Except PyErr (ModelOut F)) :
    List (Vec F p) → Vec F N → Except PyErr (Vec F N × List (Vec F N) × List (List F))
  | [], theta => .ok (theta, [], [])
  | isa :: rest, theta => do
    let theta := setParams parind theta isa
    let y ← model theta data
    let r ← calcCredible parind data model rest theta
    .ok (r.1, theta :: r.2.1, y.flat :: r.2.2)

/-- `generate_prediction_intervals` without error variances,
`plotting/PredictionIntervals.py:200-232,359-387`, for one data set: the rows
`chain[iisample, :]` are passed to `_calc_credible_ii` -/
def generateCredible (results : PropResults F R N p) (chain : List (Vec F p)) (data : D)
    (model : Vec F N → D → Except PyErr (ModelOut F)) (iisample : List ℤ) :
    Except PyErr (PropResults F R N p × List (Vec F N) × List (List F)) := do
  let testchain ← iisample.mapM (pyRow chain)
  let r ← calcCredible results.parind data model testchain results.theta
  .ok ({ results with theta := r.1 }, r.2.1, r.2.2)

/-- `_setup_sstype`, `plotting/PredictionIntervals.py:294-315`; `stored` is the type found in the
results dictionary -/
def setupSstype (stored : ℤ) (sstype : Option ℤ) : ℤ :=
  match sstype with
  | none => stored
  | some _ => 0

/-- the branch of `_analyze_s2chain` that gives every column its own error variance,
`plotting/PredictionIntervals.py:176-182`: consecutive ranges -/
def s2Ranges : ℕ → List ℕ → List (ℕ × ℕ)
  | _, [] => []
  | start, c :: cs => (start, start + c) :: s2Ranges (start + c) cs

/-- `_analyze_s2chain`, `plotting/PredictionIntervals.py:152-196`; `n` is the number of columns of
the error-variance chain, `ncol` the number of output columns of each batch -/
def analyzeS2chain (n : ℕ) (ncol : List ℕ) : Except PyErr (List (ℕ × ℕ)) :=
  if n = 1 then .ok (ncol.map fun _ => (0, 1))
  else if ncol.sum = n then .ok (s2Ranges 0 ncol)
  else if n = ncol.length then .ok (s2Ranges 0 (ncol.map fun _ => 1))
  else .error (.sysExit "Unclear data structure: error variances do not match size of model output")

/-- the length check at the start of `_observation_sample`,
`plotting/PredictionIntervals.py:546-552`: `ns` error variances for `ny` output columns -/
def expandS2 {F : Type} (s2 : List F) (ny : ℕ) : Except PyErr (List F) :=
  if s2.length ≠ ny ∧ s2.length = 1 then
    match s2 with
    | x :: _ => .ok (List.replicate ny x)
    | [] => .ok []
  else if s2.length ≠ ny then
    .error (.sysExit "Unclear data structure: error variances do not match size of model output")
  else .ok s2

end

end Verif
