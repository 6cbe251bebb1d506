import Verif.Model.Adaptation
import Verif.Model.ErrorVariance

/-!
# Settings

Models `/repo/pymcmcstat/settings/SimulationOptions.py`, `settings/ModelSettings.py`,
`settings/ModelParameters.py`, `settings/DataStructure.py`.
-/

namespace Verif
variable {F : Type} [PyFloat F]

/-! ### Simulation options -/

/-- one row of `method_dictionary`, `settings/SimulationOptions.py:96-102` (without `adascale`) -/
structure MethodRow where
  adaptint : ℤ
  ntry : ℤ
  doram : Bool

/-- `method_dictionary`, `settings/SimulationOptions.py:96-102` -/
def methodDictionary : Method → MethodRow
  | .mh => ⟨0, 1, false⟩
  | .am => ⟨100, 1, false⟩
  | .dr => ⟨0, 2, false⟩
  | .dram => ⟨100, 2, false⟩
  | .ram => ⟨1, 1, true⟩

/-- Arguments of `define_simulation_options` that the model uses,
`settings/SimulationOptions.py:27-39`; `none` is Python's `None`. -/
structure OptArgs (F : Type) where
  nsimu : ℤ := 10000
  adaptint : Option ℤ := none
  ntry : Option ℤ := none
  method : Method := .dram
  printint : Option ℤ := none
  lastadapt : ℤ := 0
  burnintime : ℤ := 0
  updatesigma : Bool := false
  adascale : Option F := none
  doram : Option Bool := none
  savesize : ℤ := 0
  saveToBin : Bool := false
  saveToTxt : Bool := false
  saveToJson : Bool := false
  saveLightly : Bool := false
  initqcovn : Option F := none

/-- The options object.
Source: `settings/SimulationOptions.py:27-170`, `settings/SimulationOptions.py:172-198`. -/
structure SimOpts (F : Type) where
  nsimu : ℤ
  adaptint : ℤ
  ntry : ℤ
  method : Method
  printint : Option ℤ
  lastadapt : ℤ
  burnintime : ℤ
  updatesigma : Bool
  adascale : Option F
  doram : Bool
  savesize : ℤ
  saveToBin : Bool
  saveToTxt : Bool
  saveToJson : Bool
  saveLightly : Bool
  initqcovn : Option F
  dodram : Bool

/-- `check_lightly_save`, `settings/SimulationOptions.py:219-239` -/
def checkLightlySave (saveLightly saveToJson saveToBin saveToTxt : Bool) : Bool :=
  if saveToJson then (if saveToBin || saveToTxt then true else false) else saveLightly

/-- `define_simulation_options`, `settings/SimulationOptions.py:96-170` -/
def defineSimulationOptions (a : OptArgs F) : SimOpts F :=
  let row := methodDictionary a.method
  { nsimu := a.nsimu
    adaptint := match a.adaptint with
      | none => row.adaptint
      | some k => if a.method = .mh ∨ a.method = .dr then row.adaptint else k
    ntry := a.ntry.getD row.ntry
    method := a.method
    printint := a.printint
    lastadapt := a.lastadapt
    burnintime := a.burnintime
    updatesigma := a.updatesigma
    adascale := match a.adascale with
      | none => if a.method = .ram then some (lit 1) else none
      | some s => some s
    doram := a.doram.getD row.doram
    savesize := a.savesize
    saveToBin := a.saveToBin
    saveToTxt := a.saveToTxt
    saveToJson := a.saveToJson
    saveLightly := checkLightlySave a.saveLightly a.saveToJson a.saveToBin a.saveToTxt
    initqcovn := a.initqcovn
    dodram := false }

/-- `_check_dependent_simulation_options`, `settings/SimulationOptions.py:172-198`;
`n0Given` is `model.N0 is not None`. -/
def checkDependentSimulationOptions (o : SimOpts F) (n0Given : Bool) : SimOpts F :=
  { o with
    savesize := if o.savesize ≤ 0 ∨ o.savesize > o.nsimu then o.nsimu else o.savesize
    dodram := decide (o.ntry > 1)
    lastadapt := if o.lastadapt < 1 then o.nsimu else o.lastadapt
    printint := match o.printint with
      | none => some (max 100 (min 1000 o.adaptint))
      | some k => some k
    updatesigma := if n0Given then true else o.updatesigma }

/-! ### Data -/

/-- What the user passes as `x` or `y`, reduced to what decides the stored shape:
a numpy array with its shape, a Python scalar, or a Python list of `len` numbers.
Source: `settings/DataStructure.py:42-99`, `settings/DataStructure.py:102-114`. -/
inductive DataArg where
  | array (shape : List ℕ)
  | scalar
  | pyList (len : ℕ)
  deriving DecidableEq, Repr

/-- `_convert_to_numpy_array`, `settings/DataStructure.py:102-114`: anything that is not an
array is wrapped as `np.array([xy])`. -/
def convertToNumpyArray : DataArg → List ℕ
  | .array sh => sh
  | .scalar => [1]
  | .pyList k => [1, k]

/-- `_convert_numpy_array_to_2d`, `settings/DataStructure.py:117-129`; shapes of two axes. -/
def convertNumpyArrayTo2d (shape : List ℕ) : ℕ × ℕ :=
  match shape with
  | [r, c] => (r, c)
  | sh => (sh.prod, 1)

/-- `DataStructure`, `settings/DataStructure.py:34-40`, shapes only. -/
structure Data where
  xshape : List (ℕ × ℕ) := []
  shape : List (ℕ × ℕ) := []
  n : List ℕ := []
  weight : List ℚ := []
  udo : List ℤ := []

/-- `add_data_set`, `settings/DataStructure.py:42-99`: `self.n` is only appended to when the
argument `n` is `None`. -/
def addDataSet (d : Data) (x y : DataArg) (n : Option ℕ := none) (weight : ℚ := 1)
    (udo : ℤ := 0) : Data :=
  let xs := convertNumpyArrayTo2d (convertToNumpyArray x)
  let ys := convertNumpyArrayTo2d (convertToNumpyArray y)
  { xshape := d.xshape ++ [xs]
    n := match n with
      | some _ => d.n
      | none => d.n ++ [if ys.1 * ys.2 = 1 then 1 else ys.1]
    shape := d.shape ++ [ys]
    weight := d.weight ++ [weight]
    udo := d.udo ++ [udo] }

/-- `get_number_of_batches`, `settings/DataStructure.py:131-147` -/
def Data.nbatch (d : Data) : ℕ := d.shape.length

/-- `get_number_of_data_sets`, `settings/DataStructure.py:149-173` -/
def Data.ndatasets (d : Data) : ℕ := (d.shape.map Prod.snd).sum

/-- `get_number_of_observations`, `settings/DataStructure.py:175-190` -/
def Data.nobs (d : Data) : ℕ := d.n.sum

/-! ### Model settings -/

/-- `ModelSettings`, the error-variance settings, `settings/ModelSettings.py:48-63`; `none` is
Python's `None`. `s20Alias` says that the attribute `S20` is the same array object as `sigma2`
(then the field `S20` is not meaningful). -/
structure ModelSettings (F : Type) where
  sigma2 : Option (List F)
  N : Option (List F)
  N0 : Option (List F)
  nbatch : Option ℕ
  S20 : List F
  s20Alias : Bool

/-- `define_model_settings`, `settings/ModelSettings.py:26-63`; `S20` defaults to NaN. -/
def defineModelSettings (sigma2 N N0 : Option (List F)) (nbatch : Option ℕ)
    (S20 : Option (List F)) : ModelSettings F :=
  ⟨sigma2, N, N0, nbatch, S20.getD [PyFloat.nan], false⟩

/-- the array behind the attribute `S20`. Source: `settings/ModelSettings.py:82-114`. -/
def ModelSettings.s20Now (s : ModelSettings F) : List F :=
  if s.s20Alias then s.sigma2.getD [] else s.S20

/-- `np.array_equal` on one-dimensional arrays. Source: `settings/ModelSettings.py:117-136`. -/
def arrayEqual (a b : List F) : Bool :=
  a.length = b.length && (List.zipWith PyFloat.beq a b).all id

/-- message of the `sys.exit` calls in `_check_number_of_observations`.
Source: `settings/ModelSettings.py:117-136`. -/
def msgN : String := "User defined N; estimate based on data structure differs. Possible error?"

/-- `_check_number_of_observations`, `settings/ModelSettings.py:117-136` -/
def checkNumberOfObservations (udN dsN : List F) : Except PyErr (List F) :=
  if arrayEqual udN dsN then .ok dsN
  else if dsN.length > udN.length ∧ udN.length = 1 then
    match udN with
    | [u] => if dsN.all (fun d => PyFloat.beq d u) then .ok dsN else .error (.sysExit msgN)
    | _ => .error (.sysExit msgN)
  else if udN.length > dsN.length ∧ dsN.length = 1 then
    match dsN with
    | [d] => if udN.all (fun u => PyFloat.beq d u) then .ok udN else .error (.sysExit msgN)
    | _ => .error (.sysExit msgN)
  else .error (.sysExit msgN)

/-- the defaults for `N0` and `sigma2`, `settings/ModelSettings.py:98-105` -/
def defaultN0 (sigma2 N0 : Option (List F)) : Option (List F) × List F :=
  match N0 with
  | none => match sigma2 with
    | none => (some [lit 1], [lit 0])
    | some v => (some v, [lit 1])
  | some n0 => (sigma2, n0)

/-- `_check_dependent_model_settings`, `settings/ModelSettings.py:82-114`.  The guard
`not(np.isnan(self.S20)).any` on line 109 refers to the bound method `any` without calling
it, so it is constantly false. -/
def checkDependentModelSettings (s : ModelSettings F) (dataN : List ℕ) (dataBatches : ℕ) :
    Except PyErr (ModelSettings F) := do
  let nbatch := s.nbatch.getD dataBatches
  let dsN : List F := dataN.map fun k : ℕ => ofInt k
  let N ← s.N.elim (.ok dsN) fun udN => checkNumberOfObservations udN dsN
  let (sigma2, N0) := defaultN0 s.sigma2 s.N0
  -- the branch `self.sigma2 = self.S20` is dead
  let sigma2 := sigma2.getD (List.replicate nbatch (lit 1))
  let s1 : ModelSettings F :=
    { s with sigma2 := some sigma2, N := some N, N0 := some N0, nbatch := some nbatch }
  .ok (if s1.s20Now.any PyFloat.isnan then { s1 with s20Alias := true } else s1)

/-- messages of the `sys.exit` calls of the size checks.
Source: `settings/ModelSettings.py:161-184`, `settings/ModelSettings.py:187-195`. -/
def msgSize : String := "SOS function returns nsos elements. Expect same number of elements in S20, N0, sigma2"

/-- `__check_size_of_setting_wrt_nsos`, `settings/ModelSettings.py:161-184`.  The flag in the
result says whether a new array was made. -/
def checkSizeOfSetting (x : List F) (nsos : ℕ) : Except PyErr (List F × Bool) :=
  match x with
  | [x0] => .ok (List.replicate nsos (lit 1 * x0), true)
  | x =>
    if x.length > nsos then .error (.sysExit msgSize)
    else if x.length < nsos then .error (.sysExit msgSize)
    else .ok (x, false)

/-- `__check_size_of_observations_wrt_nsos`, `settings/ModelSettings.py:187-195` -/
def checkSizeOfObservations (N : List F) (nsos : ℕ) : Except PyErr (List F) :=
  match N with
  | [N0] => .ok (List.replicate nsos (lit 1 * N0))
  | N =>
    if N.length < nsos ∧ N.length > 1 then .error (.sysExit "Unclear data structure!")
    else if nsos = 1 ∧ N.length > 1 then .ok [lsum N]
    else .ok N

/-- `_check_dependent_model_settings_wrt_nsos`, `settings/ModelSettings.py:138-158`.
A missing setting (`None`) would be a `TypeError` in `len`. -/
def checkWrtNsos (s : ModelSettings F) (nsos : ℕ) : Except PyErr (ModelSettings F) := do
  let (S20, fresh1) ← checkSizeOfSetting s.s20Now nsos
  let (N0, _) ← checkSizeOfSetting (← orRaise s.N0 .typeError) nsos
  let (sigma2, fresh2) ← checkSizeOfSetting (← orRaise s.sigma2 .typeError) nsos
  let N ← checkSizeOfObservations (← orRaise s.N .typeError) nsos
  .ok { s with
    S20 := S20, N0 := some N0, sigma2 := some sigma2, N := some N
    s20Alias := s.s20Alias && !fresh1 && !fresh2 }

/-- reading the checked settings as arrays of length `nsos`.
Source: `settings/ModelSettings.py:138-158`, `procedures/ErrorVarianceEstimator.py:24-63`. -/
def toErrModel (s : ModelSettings F) (m : ℕ) : Except PyErr (ErrModel F m) :=
  match s.sigma2, s.N0, s.N with
  | some s2, some n0, some N =>
    if h : s2.length = m ∧ n0.length = m ∧ s.S20.length = m then
      .ok { N0 := fun i => n0.get (i.cast h.2.1.symm), N := N
            S20 := if s.s20Alias then .aliasSigma2 else .own fun i => s.S20.get (i.cast h.2.2.symm)
            sigma2 := fun i => s2.get (i.cast h.1.symm) }
    else .error .valueError
  | _, _, _ => .error .typeError

/-! ### Model parameters -/

/-- an entry of `ModelParameters.parameters`, `settings/ModelParameters.py:71-81` -/
structure ParamSpec (F : Type) where
  name : String
  theta0 : F
  minimum : F
  maximum : F
  priorMu : F
  priorSigma : F
  sample : Bool
  loc : ℤ
  adapt : Bool

/-- `generate_default_name`, `settings/ModelParameters.py:354-367` -/
def generateDefaultName (k : ℕ) : String := "$p_{" ++ toString k ++ "}$"

/-- `add_model_parameter`, `settings/ModelParameters.py:46-82` -/
def addModelParameter (ps : List (ParamSpec F)) (name : Option String) (theta0 : Option F)
    (minimum maximum priorMu priorSigma : F) (sample : Bool) (loc : ℤ) (adapt : Bool) :
    List (ParamSpec F) :=
  ps ++ [⟨name.getD (generateDefaultName ps.length), theta0.getD (lit 1), minimum, maximum,
    priorMu, priorSigma, sample, loc, adapt⟩]

/-- `setup_prior_mu`, `settings/ModelParameters.py:211-225` -/
def setupPriorMu (mu value : F) : F := if PyFloat.isnan mu then value else mu

/-- `setup_prior_sigma`, `settings/ModelParameters.py:229-242`, followed by
`_check_prior_sigma` (`settings/ModelParameters.py:294-296,335-350`) -/
def setupPriorSigma (sigma : F) : F :=
  let s := if PyFloat.beq sigma (lit 0) then PyFloat.inf else sigma
  if PyFloat.le s (lit 0) then PyFloat.inf else s

/-- `setup_adapting`, `settings/ModelParameters.py:143-160` -/
def setupAdapting (adapt sample : Bool) : Bool := if sample then adapt else false

/-- `np.flatnonzero` of the boolean array `_parind`. Source: `settings/ModelParameters.py:183-184`. -/
def flatnonzero (l : List Bool) : List ℕ :=
  (List.range l.length).filter fun i => l[i]? = some true

end Verif
