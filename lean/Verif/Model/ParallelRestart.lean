import Verif.Model.Parallel
import Verif.Model.Storage

/-!
# Parallel runs started from the results of an earlier parallel run

Models `/repo/pymcmcstat/ParallelMCMC.py:66-83,355-372,413-428`, the place to which a chain of a
parallel run writes its results (`/repo/pymcmcstat/structures/ResultsStructure.py:45-78,104-117`),
and its use by the next run.

Simplified: a path is its text, so that the two texts of one file are two files; of a results file
only the entries are kept that a restart reads (`Saved`); a path of a results file that cannot be
written is not considered.
-/

namespace Verif
variable {F σ : Type} [PyFloat F] {N m : ℕ}

/-- files with their paths. Source: `ParallelMCMC.py:34-83`, `ParallelMCMC.py:413-428`. -/
abbrev JsonFiles (F : Type) := List (List Char × Saved F)

/-- `simulation_options.savedir` of chain `ii`, `ParallelMCMC.py:74-75` -/
def chainSavedir (parallelDir : List Char) (ii : ℕ) : List Char :=
  parallelDir ++ "/".toList ++ chainDir ii

/-- `simulation_options.results_filename` of chain `ii`, `ParallelMCMC.py:76` -/
def chainResultsFilename (ii : ℕ) : List Char := chainDir ii ++ ".json".toList

/-- `os.path.join(savedir, filename)`, `structures/ResultsStructure.py:55,74` (for a directory name
that does not end in a separator and a file name that does not begin with one) -/
def resultsPath (savedir filename : List Char) : List Char := savedir ++ "/".toList ++ filename

/-- the export at the end of the run of chain `ii`, `MCMC.py:118-127`,
`structures/ResultsStructure.py:45-78`: nothing unless `save_to_json` -/
def exportChain {flags : Fin N → Bool} (parallelDir : List Char) (ii : ℕ) (opts : SimOpts F)
    (res : Results F flags m) (files : JsonFiles F) : JsonFiles F :=
  if opts.saveToJson then
    writeFile files (resultsPath (chainSavedir parallelDir ii) (chainResultsFilename ii)) (savedOf res)
  else files

/-- `check_for_restart_file`, `ParallelMCMC.py:413-428` -/
def checkForRestartFile (files : JsonFiles F) (jsonRestart : Option (List Char))
    (chainDir : List Char) : Option (List Char) :=
  match jsonRestart with
  | some dir =>
    let path := dir ++ "/".toList ++ chainDir ++ "/".toList ++ chainDir ++ ".json".toList
    if path ∈ files.map Prod.fst then some path else none
  | none => none

/-- what `MCMC.run_simulation` of chain `ii` finds in its restart file.
Source: `ParallelMCMC.py:34-83`, `ParallelMCMC.py:413-428`. -/
def restartOf (files : JsonFiles F) (jsonRestart : Option (List Char)) (ii : ℕ) :
    Option (Saved F) :=
  (checkForRestartFile files jsonRestart (chainDir ii)).bind fun path => files.lookup path

/-- The user's object after `setup_parallel_simulation`, `ParallelMCMC.py:48-50,151-169,312-325`: its attributes are
used as they are, and `check_options_output` writes to its options.  Everything else is copied
(`ParallelMCMC.py:69-73,81`). -/
def objAfterSetup {flags : Fin N → Bool} (o : Obj F flags m) : Obj F flags m :=
  { o with opts := checkOptionsOutput o.opts }

/-- `assign_number_of_cores`, `ParallelMCMC.py:355-372` -/
def assignNumberOfCores (numCores cpuCount : ℤ) : ℤ :=
  if numCores > cpuCount then cpuCount else numCores

end Verif
