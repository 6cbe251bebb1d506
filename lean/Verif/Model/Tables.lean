import Verif.Model.ChainStats
import Verif.Model.NumberText
import Verif.Model.PlotUtils

/-!
# Tables of statistics

Models the printing of `chainstats` and the assembling of the dictionary of `gelman_rubin`,
`/repo/pymcmcstat/chain/ChainStatistics.py:22-130,369-413,470-490`, with the parameter names.
The results dictionary enters only through its entry `names`; a missing entry is not modelled.
-/

namespace Verif

/-- a parameter name. Source: `chain/ChainStatistics.py:470-490`. -/
abbrev ParName := List Char

/-- the entry `names` of a results dictionary: a list, or `None`. Source: `chain/ChainStatistics.py:470-490`. -/
abbrev ResultNames := Option (List ParName)

/-- `get_parameter_names`, `chain/ChainStatistics.py:470-490`: the names, and the entry `names` of the
results afterwards (`extend_names_to_match_nparam` appends to the list it is given,
`plotting/utilities.py:117-122`). -/
def getParameterNames (nparam : ℕ) : Option ResultNames → List ParName × Option ResultNames
  | none => (generateDefaultNames nparam, none)
  | some none => (extendNames none nparam, some none)
  | some (some l) => (extendNames (some l) nparam, some (some (extendNames (some l) nparam)))

section
variable {F : Type} [PyFloat F] {p : ℕ}

/-- one line of the table, `chain/ChainStatistics.py:107-114`; `val` is the exact value of a float -/
def statLine (val : F → PyNum) (name : ParName) (mean std mcerr tau g : F) : List Char :=
  padLeft 10 name ++ (": ".toList ++ (formatNumber (val mean) ++ (' ' :: (formatNumber (val std) ++
    (' ' :: (formatNumber (val mcerr) ++ (' ' :: (formatNumber (val tau) ++
      (' ' :: formatNumber (val g))))))))))

/-- `meanii[ii]` and so on: `IndexError` outside. Source: `chain/ChainStatistics.py:73-130`. -/
def vecGet (v : Vec F p) (ii : ℕ) : Except PyErr F :=
  if h : ii < p then .ok (v ⟨ii, h⟩) else .error .indexError

/-- `print_chain_statistics`, `chain/ChainStatistics.py:73-130`: the lines of the table without its
head. -/
def printChainStatistics (val : F → PyNum) (names : List ParName) (st : Stats F p) :
    Except PyErr (List (List Char)) :=
  (List.range names.length).mapM fun ii => do
    let name ← pyGet names ii
    let mean ← vecGet st.mean ii
    let std ← vecGet st.std ii
    let mcerr ← vecGet st.mcerr ii
    let tau ← pyGet st.iact ii
    let g ← pyGet st.geweke ii
    .ok (statLine val name mean std mcerr tau.1 g.2)

/-- what a call of `chainstats` does: the dictionary it can return, the lines of its table, and the
entry `names` of the results afterwards. Source: `chain/ChainStatistics.py:22-70`. -/
structure StatsRun (F : Type) (p : ℕ) where
  stats : Stats F p
  table : List (List Char)
  names : Option ResultNames

/-- `chainstats`, `chain/ChainStatistics.py:22-70`, of a chain with `p` columns -/
def chainstatsRun {K : Type} [Field K] [LinearOrder K] [FloorRing K] (hann : ℕ → ℕ → F)
    (cdf : F → F) (iact : List F → Except PyErr (F × ℕ)) (val : F → PyNum)
    (chain : Option (List (Vec F p))) (results : Option ResultNames) :
    Except PyErr (Option (StatsRun F p)) := do
  let (names, results') := getParameterNames p results
  match ← chainstats (K := K) hann cdf iact chain with
  | none => .ok none
  | some st => do
    let table ← printChainStatistics val names st
    .ok (some ⟨st, table, results'⟩)

/-! ### Gelman-Rubin -/

/-- assignment `d[k] = v` to a dictionary (insertion order is kept).
Source: `chain/ChainStatistics.py:416-452`, `chain/ChainStatistics.py:369-413`. -/
def assocSet {α : Type} (d : List (ParName × α)) (k : ParName) (v : α) : List (ParName × α) :=
  if d.any (fun e => e.1 == k) then d.map (fun e => if e.1 == k then (k, v) else e) else d ++ [(k, v)]

/-- the columns `chains[jj][:, ii]`, `chain/ChainStatistics.py:402-405` -/
def parameterColumns (nsimu : ℕ) (chains : List (List (Vec F p))) (ii : ℕ) :
    Except PyErr (List (List F)) :=
  chains.mapM fun c =>
    if h : ii < p then chainColumn nsimu c ⟨ii, h⟩ else .error .indexError

/-- `gelman_rubin(chains, names, results)`, `chain/ChainStatistics.py:369-413`: the dictionary, and the
entry `names` of the results afterwards. -/
def gelmanRubinNamed (chains : List (List (Vec F p))) (names : Option (List ParName))
    (results : Option ResultNames) : Except PyErr (List (ParName × Psrf F) × Option ResultNames) := do
  let c0 ← pyGet chains 0
  let nsimu := c0.length
  let (names, results') := match names with
    | some l => (l, results)
    | none => getParameterNames p results
  if chains.length < 2 then .error .valueError
  else do
    let par ← names.zipIdx.foldlM (fun d ni => do
      let tmp ← parameterColumns nsimu chains ni.2
      .ok (assocSet d ni.1 tmp)) []
    let psrf ← names.foldlM (fun d name => do
      let x ← orRaise (par.lookup name) .keyError
      let r ← calculatePsrf x nsimu chains.length
      .ok (assocSet d name r)) []
    .ok (psrf, results')

end

end Verif
