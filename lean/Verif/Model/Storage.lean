import Verif.Model.LogFiles
import Verif.Model.Mcmc

/-!
# Saving and loading the results of a run

Model of the export of results (`structures/ResultsStructure.py:45-101,341-352`, `MCMC.py:115-123`)
and of `chain/ChainProcessing.py:55-96,136-178` (`load_serial_simulation_results`,
`read_in_savedir_files`), and of the log of proposal covariances (`MCMC.py:527-556`).

Simplified: json reproduces the saved entries exactly (arrays come back as arrays of the same shape);
the entries other than the chains are one element of an arbitrary type; the log files have the names
that were given for them when the run was set up; `load_serial_simulation_results` also returns what
is in the log of covariances, which is left out here; comparing an array with `[]`
(`chain/ChainProcessing.py:90`) is taken to be false, as with numpy before 1.25.
-/

namespace Verif

/-- the exceptions of loading: `FileNotFoundError`, `json.JSONDecodeError`, `TypeError`.
Source: `chain/ChainProcessing.py:56-96`, `chain/ChainProcessing.py:358-374`. -/
inductive LoadErr where
  | fileNotFound | notJson | typeError
  deriving DecidableEq

/-- what stands for a chain in a dictionary: `None`, the empty list, or an array.
Source: `chain/ChainProcessing.py:56-96`, `chain/ChainProcessing.py:136-178`. -/
inductive ArrVal (F : Type) where
  | pyNone
  | emptyList
  | array (a : NdArray F)

/-- a results dictionary as it is saved: `chain`, `sschain`, `s2chain` (`none`: these keys are
missing), and everything else.
Source: `structures/ResultsStructure.py:45-56`, `structures/ResultsStructure.py:59-78`,
`structures/ResultsStructure.py:104-117`. -/
structure ResFile (F ρ : Type) where
  chains : Option (ArrVal F × ArrVal F × ArrVal F)
  rest : ρ

/-- the dictionary returned by `load_serial_simulation_results`; `rest = none`: it was empty before
the chains were added. Source: `chain/ChainProcessing.py:56-96`. -/
structure LoadedRun (F ρ : Type) where
  chain : ArrVal F
  sschain : ArrVal F
  s2chain : ArrVal F
  rest : Option ρ

/-- a file of results: a dictionary, or something that is not json.
Source: `structures/ResultsStructure.py:104-117`. -/
abbrev ResFiles (F ρ : Type) := List (List Char × Option (ResFile F ρ))

/-- a two-dimensional array.
Source: `chain/ChainProcessing.py:136-178`, `chain/ChainProcessing.py:249-290`,
`chain/ChainProcessing.py:293-315`. -/
def asArray {F : Type} {n : ℕ} (rows : List (Vec F n)) : NdArray F :=
  ⟨[rows.length, n], rows.flatMap List.ofFn⟩

/-- an optional array: `None` if there is none.
Source: `chain/ChainProcessing.py:136-178`, `chain/ChainProcessing.py:249-290`,
`chain/ChainProcessing.py:293-315`. -/
def orNone {F : Type} {n : ℕ} : Option (List (Vec F n)) → ArrVal F
  | none => .pyNone
  | some rows => .array (asArray rows)

/-- the value of a failed read: the empty list.
Source: `chain/ChainProcessing.py:136-178`, `chain/ChainProcessing.py:249-290`,
`chain/ChainProcessing.py:293-315`. -/
def orEmpty {F : Type} : Option (NdArray F) → ArrVal F
  | none => .emptyList
  | some a => .array a

/-- `determine_filename`, `structures/ResultsStructure.py:81-101` -/
def determineFilename (resultsFilename : Option (List Char)) (datestr : List Char) : List Char :=
  match resultsFilename with
  | none => datestr ++ "_".toList ++ "mcmc_simulation.json".toList
  | some f => f

/-- opening a file for writing: it is replaced, or new. Source: `structures/ResultsStructure.py:104-117`. -/
def writeFile {α : Type} (dir : List (List Char × α)) (name : List Char) (c : α) :
    List (List Char × α) :=
  if name ∈ dir.map Prod.fst then dir.map fun f => if f.1 = name then (name, c) else f
  else dir ++ [(name, c)]

section
variable {F : Type} [PyFloat F] {N m : ℕ} {flags : Fin N → Bool} {ρ : Type}

/-- the dictionary that is saved, `structures/ResultsStructure.py:45-78,341-352`: without the chains
if it is saved lightly -/
def savedDict (res : Results F flags m) (rest : ρ) (lightly : Bool) : ResFile F ρ :=
  { chains := if lightly then none
      else some (.array (asArray res.chain), .array (asArray res.sschain), orNone res.s2chain)
    rest := rest }

/-- the export at the end of `run_simulation`, `MCMC.py:115-123` -/
def exportResults (opts : SimOpts F) (resultsFilename : Option (List Char)) (datestr : List Char)
    (res : Results F flags m) (rest : ρ) (dir : ResFiles F ρ) : ResFiles F ρ :=
  if opts.saveToJson then
    writeFile dir (determineFilename resultsFilename datestr)
      (some (savedDict res rest opts.saveLightly))
  else dir

end

/-- the extension the user asks for.
Source: `chain/ChainProcessing.py:136-178`, `chain/ChainProcessing.py:249-290`,
`chain/ChainProcessing.py:293-315`. -/
inductive Ext where
  | h5 | txt | unknown
  deriving DecidableEq

section
variable {F : Type} [PyFloat F] {n m : ℕ} {ρ : Type}

/-- `read_in_savedir_files`, `chain/ChainProcessing.py:136-178`: chain, sum-of-squares chain and
error-variance chain; `none` for an unknown extension -/
def readInSavedir (ext : Ext) (txt : TxtLogs F n m) (bin : BinLogs F n m) :
    Option (ArrVal F × ArrVal F × ArrVal F) :=
  match ext with
  | .h5 => some (orEmpty ((readInBinFile bin.chain).map asArray),
      orEmpty ((readInBinFile bin.sschain).map asArray),
      orEmpty ((readInBinFile bin.s2chain).map asArray))
  | .txt => some (orEmpty (readInTxtFile txt.chain), orEmpty (readInTxtFile txt.sschain),
      orEmpty (readInTxtFile txt.s2chain))
  | .unknown => none

/-- `item.endswith('.json')`. Source: `chain/ChainProcessing.py:73`. -/
def endsWithJson (name : List Char) : Bool := ".json".toList.isSuffixOf name

/-- `load_json_object(savedir + os.sep + json_file)`, `chain/ChainProcessing.py:76-77` -/
def loadJson (dir : ResFiles F ρ) (name : List Char) : Except LoadErr (ResFile F ρ) :=
  match dir.lookup name with
  | none => .error .fileNotFound
  | some none => .error .notJson
  | some (some r) => .ok r

/-- the file that is loaded, `chain/ChainProcessing.py:71-75`: the first in the listing that ends in
`.json`, else the one the caller named -/
def chooseJson (listing : List (List Char)) (jsonFile : Option (List Char)) : Option (List Char) :=
  match listing.find? endsWithJson with
  | some f => some f
  | none => jsonFile

/-- the chains of a dictionary, read from the log files if the dictionary has none,
`chain/ChainProcessing.py:83-95`; `out['chain']` of `None` is a `TypeError` -/
def fillChains (chains : Option (ArrVal F × ArrVal F × ArrVal F))
    (logs : Option (ArrVal F × ArrVal F × ArrVal F)) (rest : Option ρ) :
    Except LoadErr (LoadedRun F ρ) :=
  match chains with
  | some c => .ok ⟨c.1, c.2.1, c.2.2, rest⟩
  | none => match logs with
    | some c => .ok ⟨c.1, c.2.1, c.2.2, rest⟩
    | none => .error .typeError

/-- `load_serial_simulation_results`, `chain/ChainProcessing.py:56-96`.  `dir` are the result files
in the order of `os.listdir`. -/
def loadSerial (dir : ResFiles F ρ) (txt : TxtLogs F n m) (bin : BinLogs F n m)
    (jsonFile : Option (List Char)) (ext : Ext) : Except LoadErr (LoadedRun F ρ) :=
  match chooseJson (dir.map Prod.fst) jsonFile with
  | some f => (loadJson dir f).bind fun r =>
      fillChains r.chains (readInSavedir ext txt bin) (some r.rest)
  | none => fillChains none (readInSavedir ext txt bin) none

end

/-! ### The log of proposal covariances -/

section
variable {F : Type} [PyFloat F] {n : ℕ}

/-- `__save_covmtx_chain` for text files, `MCMC.py:527-556`: the rows of the matrix are appended -/
def saveCovTxt (f : TxtFile F n) (c : ℕ × ℕ × Mat F n) : TxtFile F n :=
  saveToTxtFile f (List.ofFn c.2.2)

/-- `__save_covmtx_chain` for HDF5 files, `MCMC.py:527-556` -/
def saveCovBin (f : BinFile F n) (c : ℕ × ℕ × Mat F n) : Except PyErr (BinFile F n) :=
  saveToBinFile f (datasetName c.1 c.2.1) (List.ofFn c.2.2)

end

end Verif
