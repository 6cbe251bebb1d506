import Verif.Model.LogFiles

/-! # The index of the log files and `print_log_files`

Models the lines that `__save_to_log_file` adds to `binlogfile.txt` and `txtlogfile.txt` (`MCMC.py:470-489`), one for
every block of rows, and `chain/ChainProcessing.py:15-52` (`print_log_files`).
-/

namespace Verif
variable {F : Type} [PyFloat F] {n m : ℕ}

/-- what a directory entry is: a text file, a file that is no text (an HDF5 file starts with the byte `0x89`, which
no UTF-8 text does), or a directory. Source: `chain/ChainProcessing.py:15-52`. -/
inductive FileBody where
  | text (t : List Char)
  | binary
  | folder
  deriving DecidableEq

/-- the entries of a directory in the order of `os.listdir`. Source: `chain/ChainProcessing.py:15-52`. -/
abbrev Folder := List (List Char × FileBody)

/-- `_add_to_log`, `chain/ChainProcessing.py:336-338`: the file is opened for appending and created if it does not
exist (that the name may belong to a directory is not modelled) -/
def addToLog : Folder → List Char → List Char → Folder
  | [], name, s => [(name, .text s)]
  | (n', b) :: d, name, s =>
      if n' = name then (n', match b with | .text t => .text (t ++ s) | b => b) :: d
      else (n', b) :: addToLog d name s

/-- `str('{}\t{}\t{}\n'.format(binstr, start, end-1))`, `MCMC.py:476,489`; `stamp` is the text of the clock -/
def indexLine (stamp : List Char) (start stop : ℕ) : List Char :=
  stamp ++ ['\t'] ++ dec start ++ ['\t'] ++ dec (stop - 1) ++ ['\n']

/-- the names of the two index files, `MCMC.py:474,487` -/
def binIndex : List Char := "binlogfile.txt".toList
@[inherit_doc binIndex] def txtIndex : List Char := "txtlogfile.txt".toList

/-- what `__save_to_log_file`, `MCMC.py:470-489`, adds to the index for block number `k`; `bin`, `txt` are the options
`save_to_bin`, `save_to_txt`; `clock k` are the two readings of the clock -/
def saveIndex (bin txt : Bool) (clock : ℕ → List Char × List Char) (d : Folder) (k start stop : ℕ) : Folder :=
  let d := if bin then addToLog d binIndex (indexLine (clock k).1 start stop) else d
  if txt then addToLog d txtIndex (indexLine (clock k).2 start stop) else d

/-- the index after all blocks of a run. Source: `MCMC.py:374-400`, `MCMC.py:458-498`. -/
def saveIndexes (bin txt : Bool) (clock : ℕ → List Char × List Char) (d : Folder) :
    (k : ℕ) → List (LogBlock F n m) → Folder
  | _, [] => d
  | k, b :: bs => saveIndexes bin txt clock (saveIndex bin txt clock d k b.start b.stop) (k + 1) bs

/-- `os.path.join(savedir, file)`, `chain/ChainProcessing.py:331-333` (`savedir` does not end in a slash) -/
def joinPath (savedir file : List Char) : List Char := savedir ++ ['/'] ++ file

/-- one round of the loop of `print_log_files`, `chain/ChainProcessing.py:45-52`: path and text that are printed.
Reading a file that is no text raises `UnicodeDecodeError`, a `ValueError`. -/
def printLogFile (savedir : List Char) (x : List Char × FileBody) : Except PyErr (List Char × List Char) :=
  match x.2 with
  | .text t => .ok (joinPath savedir x.1, t)
  | .binary => .error .valueError
  | .folder => .error (.userError "IsADirectoryError")

/-- `print_log_files`, `chain/ChainProcessing.py:15-52`: all files whose name contains `log` -/
def printLogFiles (savedir : List Char) (d : Folder) : Except PyErr (List (List Char × List Char)) :=
  (d.filter fun x => decide ("log".toList <:+: x.1)).mapM (printLogFile savedir)

end Verif
