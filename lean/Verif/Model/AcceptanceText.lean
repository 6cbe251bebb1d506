import Verif.Model.NumberText
import Verif.Model.Report

/-!
# The text of the acceptance information

Models what `print_chain_acceptance_info`, `/repo/pymcmcstat/chain/ChainStatistics.py:134-194`, prints: the
lines in order, and the exception that may end the output.  The quotients are exact (`PyNum` of the exact
value); dividing an integer of an array by zero gives `nan` or an infinity.
-/

namespace Verif

/-- `stage/nsimu * 100` for an integer of an array, `chain/ChainStatistics.py:177,179` -/
def percentNum (k : ℤ) (n : ℕ) : PyNum :=
  if n = 0 then (if k = 0 then .nan else .inf (decide (k < 0))) else .fin ((k : ℚ) / n * 100)

/-- `'{:4.2f}'.format(x)`. Source: `chain/ChainStatistics.py:177-179`, `chain/ChainStatistics.py:185`. -/
def fixed42 : PyNum → List Char
  | .nan => padLeft 4 "nan".toList
  | .inf neg => padLeft 4 ((if neg then ['-'] else []) ++ "inf".toList)
  | .negZero => padLeft 4 ('-' :: fixed2 0)
  | .fin x => padLeft 4 ((if x < 0 then ['-'] else []) ++ fixed2 |x|)

/-- `'{:d}'.format(k)`. Source: `chain/ChainStatistics.py:177-180`, `chain/ChainStatistics.py:185-187`. -/
def intText (k : ℤ) : List Char := (if k < 0 then ['-'] else []) ++ dec k.natAbs

/-- `k*'-'`, `chain/ChainStatistics.py:174,181,189,193` -/
def dashes (k : ℕ) : List Char := List.replicate k '-'

/-- the line of a stage, `chain/ChainStatistics.py:177` -/
def stageLine (stage : ℕ) (p : PyNum) : List Char :=
  "Stage ".toList ++ dec stage ++ ": ".toList ++ fixed42 p ++ ['%']

/-- the line of a net rate, `chain/ChainStatistics.py:178-180,185-187` -/
def netLine (p : PyNum) (count : ℤ) (n : ℕ) : List Char :=
  "Net    : ".toList ++ fixed42 p ++ "% -> ".toList ++ intText count ++ ['/'] ++ dec n

/-- the part printed from the results, `chain/ChainStatistics.py:168-182`: the lines, the exception, and
`flag`.  A list (after loading a file) has no `sum`, and its integers cannot be divided by zero. -/
def resultLines (iacce : Option Iacce) (nsimu : Option ℕ) (rows : ℕ) :
    List (List Char) × Option PyErr × Bool :=
  let n := nsimu.getD rows
  let head := [dashes 15, "Results dictionary:".toList]
  let stages := fun l : List ℤ => l.zipIdx.map fun s => stageLine (s.2 + 1) (percentNum s.1 n)
  match iacce with
  | none => ([], none, false)
  | some (.list l) =>
    if n = 0 ∧ l ≠ [] then (head, some .zeroDivision, false)
    else (head ++ stages l, some .attributeError, false)
  | some (.array l) =>
    (head ++ stages l ++ [netLine (percentNum l.sum n) l.sum n, dashes 15], none, true)

/-- the part printed from the chain, `chain/ChainStatistics.py:183-193` -/
def chainLines {K : Type} [LinearOrder K] {n : ℕ} (chain : List (Fin n → K)) (flag : Bool) :
    List (List Char) × Option PyErr :=
  let head := "Chain provided:".toList
  if h : 0 < n then
    let u := uniqueSize (chain.map fun r => r ⟨0, h⟩)
    if chain.length = 0 then ([head], some .zeroDivision)
    else ([head, netLine (.fin ((u : ℚ) / chain.length * 100)) u chain.length] ++
      (if flag then [dashes 15, "Note, the net acceptance rate from the results dictionary".toList,
        "may be different if you only provided a subset of the chain,".toList,
        "e.g., removed the first part for burnin-in.".toList] else []) ++ [dashes 30], none)
  else ([head], some .indexError)

/-- `print_chain_acceptance_info`, `chain/ChainStatistics.py:134-194`: all lines printed, and the exception
if it raises one.  `results` are its entries `iacce` and `nsimu`. -/
def acceptanceLines {K : Type} [LinearOrder K] {n : ℕ} (chain : List (Fin n → K))
    (results : Option (Option Iacce × Option ℕ)) : List (List Char) × Option PyErr :=
  let first := "Acceptance rate information".toList
  let (ls, e, flag) := match results with
    | none => ([], none, false)
    | some (iacce, nsimu) => resultLines iacce nsimu chain.length
  match e with
  | some err => (first :: ls, some err)
  | none =>
    let (cs, e') := chainLines chain flag
    (first :: ls ++ cs, e')

end Verif
