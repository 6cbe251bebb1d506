import Verif.Model.Simulator
import Mathlib.Data.List.Sort

/-!
# Log files

Models `/repo/pymcmcstat/MCMC.py:458-525` (`__save_to_log_file`, `__save_chains`) and
`/repo/pymcmcstat/chain/ChainProcessing.py:249-350` (writing and reading text and HDF5 logs).

The library calls `np.savetxt`, `np.loadtxt`, `h5py.File`, `create_dataset`, `keys` are modelled by
what they do to lists of rows; number formatting (`'%.18e'`, binary doubles) is exact.
-/

namespace Verif
variable {F : Type} [PyFloat F] {n m : ℕ}

/-- a numpy array: shape and entries in row-major order.
Source: `chain/ChainProcessing.py:249-290`, `chain/ChainProcessing.py:293-315`. -/
structure NdArray (F : Type) where
  shape : List ℕ
  data : List F

/-- A text file that holds rows, `none` if it does not exist.
Source: `chain/ChainProcessing.py:293-315`, `chain/ChainProcessing.py:347-350`. -/
abbrev TxtFile (F : Type) (n : ℕ) := Option (List (Vec F n))

/-- `_save_to_txt_file`, `chain/ChainProcessing.py:347-350`: the file is opened for appending. -/
def saveToTxtFile (f : TxtFile F n) (mtx : List (Vec F n)) : TxtFile F n := some (f.getD [] ++ mtx)

/-- `np.loadtxt`: axes of length one are removed; a file without numbers gives shape `(0,)`.
Used at `chain/ChainProcessing.py:307`. -/
def loadtxt (rows : List (Vec F n)) : NdArray F :=
  { shape := if rows.length * n = 0 then [0] else [rows.length, n].filter (· ≠ 1)
    data := rows.flatMap List.ofFn }

/-- `read_in_txt_file`, `chain/ChainProcessing.py:293-315`; `none` is the empty list that stands
for a missing file. -/
def readInTxtFile (f : TxtFile F n) : Option (NdArray F) := f.map loadtxt

/-- An HDF5 file that holds named data sets in the order of their creation, `none` if it does not
exist. Source: `chain/ChainProcessing.py:249-290`, `chain/ChainProcessing.py:341-344`. -/
abbrev BinFile (F : Type) (n : ℕ) := Option (List (List Char × List (Vec F n)))

/-- the decimal representation, `'{}'.format(k)` for a natural number. Source: `MCMC.py:458-498`. -/
def dec (k : ℕ) : List Char := Nat.toDigits 10 k

/-- `str('{}_{}_{}'.format('nsimu', start, end-1))`, `MCMC.py:522` -/
def datasetName (start stop : ℕ) : List Char :=
  "nsimu".toList ++ ['_'] ++ dec start ++ ['_'] ++ dec (stop - 1)

/-- `_save_to_bin_file`, `chain/ChainProcessing.py:341-344`: a second data set with the same name
is refused by `create_dataset`. -/
def saveToBinFile (f : BinFile F n) (name : List Char) (mtx : List (Vec F n)) :
    Except PyErr (BinFile F n) :=
  if name ∈ (f.getD []).map Prod.fst then .error .valueError
  else .ok (some (f.getD [] ++ [(name, mtx)]))

/-- `hf.keys()` lists the data sets by name in byte order. Source: `chain/ChainProcessing.py:249-290`. -/
def h5sorted (f : List (List Char × List (Vec F n))) : List (List Char × List (Vec F n)) :=
  f.insertionSort fun x y => x.1 ≤ y.1

/-- `out[a:b, :] = rows` for a two-dimensional array with the same columns: a single row is
broadcast, any other mismatch of lengths is a `ValueError`. Source: `chain/ChainProcessing.py:249-290`. -/
def assignRows {α : Type} (out : List α) (a b : ℕ) (rows : List α) : Except PyErr (List α) :=
  let w := min b out.length - min a out.length
  if rows.length = w then .ok (out.take a ++ rows ++ out.drop (a + w))
  else match rows with
    | [r] => .ok (out.take a ++ List.replicate w r ++ out.drop (a + w))
    | _ => .error .valueError

/-- the loop of `read_in_bin_file`, `chain/ChainProcessing.py:273-281`, from the second data set on:
`prev` is the number of rows of the data set before; the window moves by `prev` but keeps its
length -/
def readLoop {α : Type} : (out : List α) → (a b prev : ℕ) → List (List α) → Except PyErr (List α)
  | out, _, _, _, [] => .ok out
  | out, a, b, prev, rows :: rest => do
      let out ← assignRows out (a + prev) (b + prev) rows
      readLoop out (a + prev) (b + prev) rows.length rest

/-- the merging of the data sets, `chain/ChainProcessing.py:263-281`; without any data set
`sh[0, 1]` is an `IndexError` -/
def mergeDatasets (ds : List (List (Vec F n))) : Except PyErr (List (Vec F n)) :=
  match ds with
  | [] => .error .indexError
  | d :: rest => do
      let out : List (Vec F n) := zeroRows (ds.map List.length).sum
      let out ← assignRows out 0 d.length d
      readLoop out 0 d.length d.length rest

/-- `read_in_bin_file`, `chain/ChainProcessing.py:249-290`; any exception gives the empty list,
here `none` -/
def readInBinFile (f : BinFile F n) : Option (List (Vec F n)) :=
  match f with
  | none => none
  | some ds => (mergeDatasets ((h5sorted ds).map Prod.snd)).toOption

/-- the log files of a run in one format. Source: `MCMC.py:458-498`, `MCMC.py:501-525`. -/
structure TxtLogs (F : Type) (n m : ℕ) where
  chain : TxtFile F n
  sschain : TxtFile F m
  s2chain : TxtFile F m

/-- `__save_chains` for text files, `MCMC.py:506-524`; the error-variance chain is in the list of
chains only when it exists (`MCMC.py:244-253`) -/
def saveTxt (d : TxtLogs F n m) (b : LogBlock F n m) : TxtLogs F n m :=
  { chain := saveToTxtFile d.chain b.chain
    sschain := saveToTxtFile d.sschain b.sschain
    s2chain := match b.s2chain with
      | some s2 => saveToTxtFile d.s2chain s2
      | none => d.s2chain }

/-- the log files of a run in HDF5 format. Source: `MCMC.py:458-498`, `MCMC.py:501-525`. -/
structure BinLogs (F : Type) (n m : ℕ) where
  chain : BinFile F n
  sschain : BinFile F m
  s2chain : BinFile F m

/-- the error-variance part of `saveBin`. Source: `MCMC.py:458-498`, `MCMC.py:501-525`. -/
def saveBinS2 (f : BinFile F m) (name : List Char) (s2 : Option (List (Vec F m))) :
    Except PyErr (BinFile F m) :=
  match s2 with
  | some s2 => saveToBinFile f name s2
  | none => .ok f

/-- `__save_chains` for HDF5 files, `MCMC.py:506-524` -/
def saveBin (d : BinLogs F n m) (b : LogBlock F n m) : Except PyErr (BinLogs F n m) := do
  let chain ← saveToBinFile d.chain (datasetName b.start b.stop) b.chain
  let sschain ← saveToBinFile d.sschain (datasetName b.start b.stop) b.sschain
  let s2chain ← saveBinS2 d.s2chain (datasetName b.start b.stop) b.s2chain
  .ok ⟨chain, sschain, s2chain⟩

end Verif
