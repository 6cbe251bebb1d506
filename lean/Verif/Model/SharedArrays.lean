import Verif.Model.Settings
import Verif.Model.ErrorVariance

/-!
# The settings of the error variance as shared arrays

Models `/repo/pymcmcstat/settings/ModelSettings.py:26-195` and
`/repo/pymcmcstat/procedures/ErrorVarianceEstimator.py:24-63` once more, this time with the identity and the
number type of the numpy arrays: an array the user passes is kept, not copied, and the draws are written into it.
`Model/Settings.lean` has the same functions on the values only; `Props/SharedArrays.lean` proves that both agree.
-/

namespace Verif
variable {F σ : Type} [PyFloat F] {m : ℕ}

/-- a one-dimensional numpy array: whether it has an integer number type, and its entries.
Source: `settings/ModelSettings.py:66-80`, `settings/ModelSettings.py:82-114`. -/
structure NArr (F : Type) where
  ints : Bool
  vals : List F
  deriving DecidableEq

/-- all arrays that exist; an array object is a position in this list.
Source: `settings/ModelSettings.py:66-80`, `settings/ModelSettings.py:82-114`. -/
abbrev Heap (F : Type) := List (NArr F)

/-- a new array. Source: `settings/ModelSettings.py:66-80`, `settings/ModelSettings.py:82-114`. -/
def Heap.alloc (st : Heap F) (a : NArr F) : Heap F × ℕ := (st ++ [a], st.length)

/-- the entries of an array. Source: `settings/ModelSettings.py:66-80`, `settings/ModelSettings.py:82-114`. -/
def Heap.vals (st : Heap F) (a : ℕ) : List F := (st[a]?.map NArr.vals).getD []

/-- the number that an array stores for `x`: an array of integers takes `int(x)`, which raises for NaN and infinity
(`toInt`). Source: `procedures/ErrorVarianceEstimator.py:24-63`. -/
def storeNumber (toInt : F → Except PyErr ℤ) (ints : Bool) (x : F) : Except PyErr F :=
  if ints then (toInt x).map ofInt else .ok x

/-- `arr[j] = x`. Source: `procedures/ErrorVarianceEstimator.py:24-63`. -/
def NArr.put (toInt : F → Except PyErr ℤ) (arr : NArr F) (j : ℕ) (x : F) : Except PyErr (NArr F) := do
  let y ← storeNumber toInt arr.ints x
  let v ← pySet arr.vals j y
  .ok { arr with vals := v }

/-- `a[j] = x` for the array object `a`. Source: `procedures/ErrorVarianceEstimator.py:24-63`. -/
def Heap.put (toInt : F → Except PyErr ℤ) (st : Heap F) (a j : ℕ) (x : F) : Except PyErr (Heap F) := do
  let arr ← (← pyGet st a).put toInt j x
  .ok (st.set a arr)

/-- what a user can pass for `sigma2`, `N`, `N0` and `S20`.
Source: `settings/ModelSettings.py:66-80`, `settings/ModelSettings.py:82-114`. -/
inductive SettingArg (F : Type) where
  | none
  | int (k : ℤ)
  | float (x : F)
  /-- a list of Python ints and floats -/
  | list (l : List (ℤ ⊕ F))
  /-- an array object -/
  | array (a : ℕ)
  /-- anything else -/
  | other

/-- `np.array(x)` of a list of numbers: integers if all entries are ints, else floats; the array of the empty list
has floats. Source: `settings/ModelSettings.py:66-80`, `settings/ModelSettings.py:82-114`. -/
def npArray (l : List (ℤ ⊕ F)) : NArr F :=
  ⟨!l.isEmpty && l.all Sum.isLeft, l.map (Sum.elim ofInt id)⟩

/-- `_array_type`, `settings/ModelSettings.py:65-80`: the array object for the argument. -/
def arrayType (st : Heap F) : SettingArg F → Except PyErr (Heap F × Option ℕ)
  | .none => .ok (st, none)
  | .int k => let r := st.alloc ⟨true, [ofInt k]⟩; .ok (r.1, some r.2)
  | .float x => let r := st.alloc ⟨false, [x]⟩; .ok (r.1, some r.2)
  | .list l => let r := st.alloc (npArray l); .ok (r.1, some r.2)
  | .array a => .ok (st, some a)
  | .other => .error (.sysExit "Unknown data type - Please use int, ndarray, or list")

/-- the attributes of `ModelSettings` that are arrays, `settings/ModelSettings.py:52-63` -/
structure SharedSettings where
  sigma2 : Option ℕ
  N : Option ℕ
  N0 : Option ℕ
  nbatch : Option ℕ
  S20 : ℕ
  deriving DecidableEq

/-- `define_model_settings`, `settings/ModelSettings.py:26-63`; the default of `S20` is the float NaN. -/
def shareSettings (st : Heap F) (sigma2 N N0 : SettingArg F) (nbatch : Option ℕ) (S20 : SettingArg F) :
    Except PyErr (Heap F × SharedSettings) := do
  let (st, sigma2) ← arrayType st sigma2
  let (st, N) ← arrayType st N
  let (st, N0) ← arrayType st N0
  let (st, S20) ← arrayType st S20
  let S20 ← orRaise S20 .typeError
  .ok (st, ⟨sigma2, N, N0, nbatch, S20⟩)

/-- `_check_number_of_observations`, `settings/ModelSettings.py:117-136`, with the object that is returned: the
new array of the data structure or the user's. -/
def shareObservations (st : Heap F) (udN : ℕ) (dsN : ℕ) : Except PyErr ℕ := do
  let _ ← checkNumberOfObservations (st.vals udN) (st.vals dsN)
  .ok (if arrayEqual (st.vals udN) (st.vals dsN) ∨ (st.vals udN).length < (st.vals dsN).length then dsN else udN)

/-- the defaults for `N0` and `sigma2`, `settings/ModelSettings.py:98-105` -/
def shareDefaults (st : Heap F) (sigma2 N0 : Option ℕ) : Heap F × Option ℕ × ℕ :=
  match N0, sigma2 with
  | none, none => (st ++ [⟨false, [lit 1]⟩, ⟨false, [lit 0]⟩], some st.length, st.length + 1)
  | none, some a => (st ++ [⟨false, [lit 1]⟩], some a, st.length)
  | some b, a => (st, a, b)

/-- the default for `sigma2`, `settings/ModelSettings.py:106-112`; the branch `self.sigma2 = self.S20` is dead -/
def shareSigma2 (st : Heap F) (sigma2 : Option ℕ) (nbatch : ℕ) : Heap F × ℕ :=
  match sigma2 with
  | some a => (st, a)
  | none => st.alloc ⟨false, List.replicate nbatch (lit 1)⟩

/-- `_check_dependent_model_settings`, `settings/ModelSettings.py:82-114`.  `self.N = data.n` makes `N` the list
of the data structure, which is never written to; here it is a new array. -/
def shareDependent (st : Heap F) (s : SharedSettings) (dataN : List ℕ) (dataBatches : ℕ) :
    Except PyErr (Heap F × SharedSettings) := do
  let nbatch := s.nbatch.getD dataBatches
  let p := st.alloc ⟨true, dataN.map fun k : ℕ => ofInt k⟩
  let N ← s.N.elim (.ok p.2) fun udN => shareObservations p.1 udN p.2
  let d := shareDefaults p.1 s.sigma2 s.N0
  let q := shareSigma2 d.1 d.2.1 nbatch
  .ok (q.1, ⟨some q.2, some N, some d.2.2, some nbatch,
    if (q.1.vals s.S20).any PyFloat.isnan then q.2 else s.S20⟩)

/-- `__check_size_of_setting_wrt_nsos`, `settings/ModelSettings.py:161-184`: the product with `np.ones(nsos)` is a
new array of floats. -/
def shareSize (st : Heap F) (a : ℕ) (nsos : ℕ) : Except PyErr (Heap F × ℕ) :=
  if (st.vals a).length = 1 then
    .ok (st.alloc ⟨false, List.replicate nsos (lit 1 * (st.vals a).headD (lit 0))⟩)
  else if (st.vals a).length > nsos then .error (.sysExit msgSize)
  else if (st.vals a).length < nsos then .error (.sysExit msgSize)
  else .ok (st, a)

/-- `__check_size_of_observations_wrt_nsos`, `settings/ModelSettings.py:187-195` -/
def shareSizeN (st : Heap F) (a : ℕ) (nsos : ℕ) : Except PyErr (Heap F × ℕ) := do
  let N ← checkSizeOfObservations (st.vals a) nsos
  .ok (if (st.vals a).length = 1 ∨ (nsos = 1 ∧ (st.vals a).length > 1) then st.alloc ⟨false, N⟩ else (st, a))

/-- `_check_dependent_model_settings_wrt_nsos`, `settings/ModelSettings.py:138-158` -/
def shareWrtNsos (st : Heap F) (s : SharedSettings) (nsos : ℕ) : Except PyErr (Heap F × SharedSettings) := do
  let (st, S20) ← shareSize st s.S20 nsos
  let (st, N0) ← shareSize st (← orRaise s.N0 .typeError) nsos
  let (st, sigma2) ← shareSize st (← orRaise s.sigma2 .typeError) nsos
  let (st, N) ← shareSizeN st (← orRaise s.N .typeError) nsos
  .ok (st, { s with S20 := S20, N0 := some N0, sigma2 := some sigma2, N := some N })

/-- one round of `update_error_variance`, `procedures/ErrorVarianceEstimator.py:60-62`, on the array objects -/
def shareStep (toInt : F → Except PyErr ℤ) (G : Rng σ F) (fuel : ℕ) (N0 S20 N sigma2 : ℕ) (ss : Vec F m)
    (acc : Heap F × σ) (jj : Fin m) : Except PyErr (Heap F × σ) := do
  let (st, s) := acc
  let n0 ← pyGet (st.vals N0) jj
  let Nj ← pyGet (st.vals N) jj
  let s20 ← pyGet (st.vals S20) jj
  let (g, s1) ← gammar G fuel (lit (1/2) * (n0 + Nj)) (lit 2 * (lit 1 / (n0 * s20 + ss jj))) s
  let st ← st.put toInt sigma2 jj (lit 1 / g)
  .ok (st, s1)

/-- `update_error_variance`, `procedures/ErrorVarianceEstimator.py:24-63`, on the array objects; a setting that is
`None` raises when it is indexed. -/
def shareUpdate (toInt : F → Except PyErr ℤ) (G : Rng σ F) (fuel : ℕ) (s : SharedSettings) (ss : Vec F m)
    (st : Heap F) (r : σ) : Except PyErr (Heap F × σ) := do
  let N0 ← orRaise s.N0 .typeError
  let N ← orRaise s.N .typeError
  let sigma2 ← orRaise s.sigma2 .typeError
  (List.finRange m).foldlM (shareStep toInt G fuel N0 s.S20 N sigma2 ss) (st, r)

/-- The calls of `update_error_variance` in a run (`MCMC.py:361-365`), one for each pair of sums of squares and
generator state; what else the run does in between leaves the arrays alone. -/
def shareUpdates (toInt : F → Except PyErr ℤ) (G : Rng σ F) (fuel : ℕ) (s : SharedSettings)
    (calls : List (Vec F m × σ)) (st : Heap F) : Except PyErr (Heap F) :=
  calls.foldlM (fun st c => (shareUpdate toInt G fuel s c.1 st c.2).map Prod.fst) st

/-- A run as far as the arrays of the settings are concerned: the checks of the set-up (`MCMC.py:178-212`) and the
updates of the loop.  The result also has the attributes of `model_settings` after the run, which are the arrays of
`results['model_settings']` (`structures/ResultsStructure.py:268-283`: the dictionary is new, the arrays are not). -/
def shareRun (toInt : F → Except PyErr ℤ) (G : Rng σ F) (fuel : ℕ) (dataN : List ℕ) (dataBatches : ℕ)
    (s : SharedSettings) (calls : List (Vec F m × σ)) (st : Heap F) : Except PyErr (Heap F × SharedSettings) := do
  let (st, s) ← shareDependent st s dataN dataBatches
  let (st, s) ← shareWrtNsos st s m
  let st ← shareUpdates toInt G fuel s calls st
  .ok (st, s)

/-- one run of an object: the numbers of observations and of data sets (`data.n`, `get_number_of_batches`), and the
calls of `update_error_variance`. Source: `MCMC.py:84-127`, `procedures/ErrorVarianceEstimator.py:24-63`. -/
structure SharedRun (F σ : Type) (m : ℕ) where
  dataN : List ℕ
  dataBatches : ℕ
  calls : List (Vec F m × σ)

/-- Runs of one object, one after the other (`MCMC.py:84-127`): the settings object is kept from run to run. -/
def shareSession (toInt : F → Except PyErr ℤ) (G : Rng σ F) (fuel : ℕ) (runs : List (SharedRun F σ m))
    (st : Heap F) (s : SharedSettings) : Except PyErr (Heap F × SharedSettings) :=
  runs.foldlM (fun p r => shareRun toInt G fuel r.dataN r.dataBatches p.2 r.calls p.1) (st, s)

end Verif
