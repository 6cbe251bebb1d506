import Verif.Model.Mcmc
import Verif.Model.LogFiles

/-!
# Parallel chains

Models `/repo/pymcmcstat/ParallelMCMC.py` (setup, initial values, worker pool) and the parts of
`/repo/pymcmcstat/chain/ChainProcessing.py` that load parallel runs and combine chains.

Not modelled: printing, creation of directories, pickling of the objects sent to the workers
(taken to be exact), `display_individual_chain_statistics`.
-/

namespace Verif
variable {F σ : Type} [PyFloat F] {N m : ℕ}

/-! ### Initial values -/

/-- lower limit for the initial values, `ParallelMCMC.py:190-195` -/
def featureLow (p : ParamSpec F) : F :=
  if PyFloat.beq p.minimum (-PyFloat.inf) then p.theta0 - lit 100 * pyAbs p.theta0 else p.minimum

/-- upper limit for the initial values, `ParallelMCMC.py:191,196-198` -/
def featureUpp (p : ParamSpec F) : F :=
  if PyFloat.beq p.maximum PyFloat.inf then p.theta0 + lit 100 * pyAbs p.theta0 else p.maximum

/-- `get_parameter_features`, `ParallelMCMC.py:172-199`; the number of parameters is `N` -/
def getParameterFeatures (specs : Fin N → ParamSpec F) : Vec F N × Vec F N :=
  (fun k => featureLow (specs k), fun k => featureUpp (specs k))

/-- `generate_initial_values`, `ParallelMCMC.py:237-253`; `u` holds the uniform numbers, one row per
chain -/
def generateInitialValues (u : List (Vec F N)) (low upp : Vec F N) : List (Vec F N) :=
  u.map fun r k => low k + (upp k - low k) * r k

/-- the array of initial values a user passes: rows of `k` columns. Source: `ParallelMCMC.py:257-283`. -/
structure UserValues (F : Type) where
  k : ℕ
  rows : List (Vec F k)

/-- message of the `sys.exit` call. Source: `ParallelMCMC.py:304-305`. -/
def msgParallel : String := "Initial values are not within parameter limits."

/-- `check_shape_of_users_initial_values` and `check_users_initial_values_wrt_limits`,
`ParallelMCMC.py:257-308`.  Too many columns are cut off.  Too few cannot be compared with the limits
(`ValueError`), except that a single column is compared with all of them; the loop
`ParallelMCMC.py:82-83` then runs out of columns (`IndexError`, if there are any rows). -/
def checkUsersInitialValues (v : UserValues F) (low upp : Vec F N) : Except PyErr (List (Vec F N)) :=
  if h : N ≤ v.k then
    let rows : List (Vec F N) := v.rows.map fun r i => r ⟨i, by omega⟩
    if rows.any fun r => isOutside r low upp then .error (.sysExit msgParallel) else .ok rows
  else if h1 : v.k = 1 then
    if v.rows.any fun r => isOutside (fun _ => r ⟨0, by omega⟩) low upp then
      .error (.sysExit msgParallel)
    else if v.rows.length = 0 then .ok [] else .error .indexError
  else .error .valueError

/-- `check_initial_values`, `ParallelMCMC.py:203-233`: the initial values; their number is the
number of chains.  `u` are the uniform numbers drawn for `num_chain` chains. -/
def checkInitialValues (user : Option (UserValues F)) (u : List (Vec F N)) (low upp : Vec F N) :
    Except PyErr (List (Vec F N)) :=
  match user with
  | none => .ok (generateInitialValues u low upp)
  | some v => checkUsersInitialValues v low upp

/-- `check_options_output`, `ParallelMCMC.py:312-325` -/
def checkOptionsOutput (o : SimOpts F) : SimOpts F :=
  if !o.saveToTxt && !o.saveToBin && !o.saveToJson then { o with saveToBin := true } else o

/-- `str('chain_{}'.format(ii))`, `ParallelMCMC.py:74` -/
def chainDir (ii : ℕ) : List Char := "chain_".toList ++ dec ii

/-- one element of `self.parmc`: the object and the folder it writes to, `ParallelMCMC.py:67-83` -/
structure ParChain (F : Type) {N : ℕ} (flags : Fin N → Bool) (m : ℕ) where
  obj : Obj F flags m
  dir : List Char

/-- `setup_parallel_simulation`, `ParallelMCMC.py:34-83`.  `restart ii` is what the restart file of
chain `ii` holds, if there is one (`ParallelMCMC.py:77-79,413-428`); `u` the uniform numbers. -/
def setupParallel {flags : Fin N → Bool} (o : Obj F flags m) (user : Option (UserValues F))
    (u : List (Vec F N)) (restart : ℕ → Option (Saved F)) :
    Except PyErr (List (ParChain F flags m)) := do
  let lim := getParameterFeatures o.specs
  let opts := checkOptionsOutput o.opts
  let init ← checkInitialValues user u lim.1 lim.2
  .ok (init.mapIdx fun ii row =>
    { obj := newObj (fun k => { o.specs k with theta0 := row k }) opts
        { o.extra with jsonRestart := restart ii } o.ms o.data
      dir := chainDir ii })

/-! ### The worker pool -/

/-- What the pool records of one task: the state of the random number generator when it starts,
its result, and the state when it ends. Source: `ParallelMCMC.py:85-114`, `ParallelMCMC.py:341-353`. -/
structure TaskRecord (W σ ρ : Type) where
  worker : W
  before : σ
  result : ρ
  after : σ

/-- `Pool(processes=num_cores).map(run_serial_simulation, parmc)`, `ParallelMCMC.py:103-106,340-353`.
The workers are forked: each starts with a copy of the parent's random number generator, and keeps
its own from task to task.  `sched` is the order in which tasks are taken and by which worker;
`run` runs one task from a generator state. -/
def poolRun {W τ ρ : Type} [DecidableEq W] (run : τ → σ → ρ × σ) :
    (states : W → σ) → (sched : List (W × τ)) → List (TaskRecord W σ ρ)
  | _, [] => []
  | states, (w, t) :: rest =>
    let r := run t (states w)
    ⟨w, states w, r.1, r.2⟩ :: poolRun run (Function.update states w r.2) rest

/-! ### Loading -/

/-- `'chain_' in cf`. Source: `chain/ChainProcessing.py:242`. -/
def hasChain (cf : List Char) : Bool := cf.tails.any fun t => "chain_".toList.isPrefixOf t

/-- `check_parallel_directory_contents`, `chain/ChainProcessing.py:229-246` -/
def checkParallelDirectoryContents (isdir : List Char → Bool) (cf : List (List Char)) :
    List (List Char) :=
  (cf.filter fun f => isdir f && hasChain f).insertionSort (· ≤ ·)

/-- `read_in_parallel_json_results_files`, `chain/ChainProcessing.py:211-226`; `json f` is what is
loaded from the results file in folder `f` -/
def readInParallelJson {ρ : Type} (listdir : List (List Char)) (isdir : List Char → Bool)
    (json : List Char → Except PyErr ρ) : Except PyErr (List ρ) :=
  (checkParallelDirectoryContents isdir listdir).mapM json

/-- `read_in_parallel_savedir_files`, `chain/ChainProcessing.py:178-208`; `logs f` is what is read
from the log files in folder `f` -/
def readInParallelSavedir {ρ : Type} (listdir : List (List Char)) (isdir : List Char → Bool)
    (logs : List Char → ρ) : List ρ :=
  (checkParallelDirectoryContents isdir listdir).map logs

/-- a loaded results dictionary: its chains (`none`: no key `chain`), and everything else.
Source: `chain/ChainProcessing.py:100-133`. -/
structure LoadedRes (χ ρ : Type) where
  chains : Option χ
  rest : ρ

/-- `load_parallel_simulation_results`, `ParallelMCMC.py:376-409` and
`chain/ChainProcessing.py:100-133`: whether the chains are in the json file is decided by the last
dictionary; if they are, `out` is never assigned.  Without any folder `pr` is never assigned. -/
def loadParallel {χ ρ : Type} (listdir : List (List Char)) (isdir : List Char → Bool)
    (json : List Char → Except PyErr (LoadedRes χ ρ)) (logs : List Char → χ) :
    Except PyErr (List (LoadedRes χ ρ)) := do
  let pres ← readInParallelJson listdir isdir json
  match pres.getLast? with
  | none => .error .nameError
  | some pr =>
    match pr.chains with
    | some _ => .error .nameError
    | none =>
      .ok ((pres.zip (readInParallelSavedir listdir isdir logs)).map fun x =>
        { x.1 with chains := some x.2 })

/-! ### Combining -/

/-- the entries of one results dictionary that combining reads.
Source: `chain/ChainProcessing.py:378-398`, `chain/ChainProcessing.py:402-417`. -/
structure ChainRes (F : Type) (n : ℕ) where
  nsimu : ℕ
  chain : List (Vec F n)

/-- `int(pr['nsimu']*burnin_percentage/100)`, `chain/ChainProcessing.py:391`, with exact division -/
def burninOf {n : ℕ} (pr : ChainRes F n) (pct : ℕ) : ℕ := pr.nsimu * pct / 100

/-- `pr['chain'][burnin:, :]`, `chain/ChainProcessing.py:393` -/
def afterBurnin {n : ℕ} (pr : ChainRes F n) (pct : ℕ) : List (Vec F n) :=
  pr.chain.drop (burninOf pr pct)

/-- `str('Chain {}'.format(ii))`, `chain/ChainProcessing.py:397` -/
def chainLabel (ii : ℕ) : List Char := "Chain ".toList ++ dec ii

/-- the loop of `generate_combined_chain_with_index`, `chain/ChainProcessing.py:389-397`, from the
second dictionary on -/
def combineLoop {n : ℕ} (pct : ℕ) : ℕ → List (ChainRes F n) → List (Vec F n) → List (List Char) →
    List (Vec F n) × List (List Char)
  | _, [], c, index => (c, index)
  | ii, pr :: rest, c, index =>
    combineLoop pct (ii + 1) rest (c ++ afterBurnin pr pct)
      (index ++ List.replicate (afterBurnin pr pct).length (chainLabel ii))

/-- `generate_combined_chain_with_index`, `chain/ChainProcessing.py:378-398`; without any dictionary
`combined_chain` is never assigned -/
def generateCombinedChain {n : ℕ} (pres : List (ChainRes F n)) (pct : ℕ) :
    Except PyErr (List (Vec F n) × List (List Char)) :=
  match pres with
  | [] => .error .nameError
  | pr :: rest =>
    .ok (combineLoop pct 1 rest (afterBurnin pr pct)
      (List.replicate (afterBurnin pr pct).length (chainLabel 0)))

/-- `generate_chain_list`, `chain/ChainProcessing.py:402-417` -/
def generateChainList {n : ℕ} (pres : List (ChainRes F n)) (pct : ℕ) : List (List (Vec F n)) :=
  pres.map fun pr => afterBurnin pr pct

end Verif
