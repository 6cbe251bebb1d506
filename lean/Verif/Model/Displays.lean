import Verif.Model.PlotUtils
import Verif.Model.Tables

/-!
# Display settings and the printed Gelman-Rubin diagnostic

Model of `setup_display_settings` of `/repo/pymcmcstat/propagation.py` and
`PredictionIntervals._setup_display_settings`, and of what `gelman_rubin` prints.
-/

namespace Verif

/-- a setting that is no dictionary: a text or a number.
Source: `propagation.py:542-581`, `plotting/PredictionIntervals.py:659-684`. -/
inductive DispVal where
  | txt (s : String)
  | num (x : ℚ)
deriving DecidableEq

/-- settings of a drawing call. Source: `propagation.py:542-581`, `plotting/PredictionIntervals.py:659-684`. -/
abbrev Disp := SVal String DispVal

/-- a dictionary with texts and numbers as values.
Source: `propagation.py:542-581`, `plotting/PredictionIntervals.py:659-684`. -/
def Disp.ofList (l : List (String × DispVal)) : Disp :=
  .dict (l.map Prod.fst) fun k => match l.lookup k with
    | some v => .leaf v
    | none => .none

/-- the default settings of `propagation.py:557-561` -/
def propIntervalDisplay : Disp :=
  .ofList [("linestyle", .txt ":"), ("linewidth", .num 1), ("alpha", .num 1), ("edgecolor", .txt "k")]
/-- the default settings of `propagation.py:564-570` -/
def propModelDisplay : Disp :=
  .ofList [("linestyle", .txt "-"), ("color", .txt "k"), ("marker", .txt ""), ("linewidth", .num 2),
    ("markersize", .num 5), ("label", .txt "Model")]
/-- the default settings of `propagation.py:573-579` -/
def propDataDisplay : Disp :=
  .ofList [("linestyle", .txt ""), ("color", .txt "b"), ("marker", .txt "."), ("linewidth", .num 1),
    ("markersize", .num 5), ("label", .txt "Data")]

/-- `setup_display_settings(interval_display, model_display, data_display)`,
`propagation.py:542-581` -/
def setupDisplaySettings (interval model data : Disp) : Except PyErr (Disp × Disp × Disp) := do
  let i ← checkSettings propIntervalDisplay interval
  let m ← checkSettings propModelDisplay model
  let d ← checkSettings propDataDisplay data
  .ok (i, m, d)

/-- the default settings of `plotting/PredictionIntervals.py:674` -/
def predIntervalDisplay : Disp :=
  .ofList [("linestyle", .txt ":"), ("linewidth", .num 1), ("alpha", .num (1/2)), ("edgecolor", .txt "k")]
/-- the default settings of `plotting/PredictionIntervals.py:677-678` -/
def predModelDisplay : Disp :=
  .ofList [("linestyle", .txt "-"), ("color", .txt "r"), ("marker", .txt ""), ("linewidth", .num 2),
    ("markersize", .num 5), ("label", .txt "model")]
/-- the default settings of `plotting/PredictionIntervals.py:681-682` -/
def predDataDisplay : Disp :=
  .ofList [("linestyle", .txt ""), ("color", .txt "b"), ("marker", .txt "."), ("linewidth", .num 1),
    ("markersize", .num 5), ("label", .txt "data")]

/-- `_setup_display_settings(interval_display, model_display, data_display)`,
`plotting/PredictionIntervals.py:659-684` -/
def predSetupDisplaySettings (interval model data : Disp) : Except PyErr (Disp × Disp × Disp) := do
  let i ← checkSettings predIntervalDisplay interval
  let m ← checkSettings predModelDisplay model
  let d ← checkSettings predDataDisplay data
  .ok (i, m, d)

/-! ### Printed diagnostic -/

section
variable {F : Type} [PyFloat F] {p : ℕ}

/-- the items of the dictionary of `calculate_psrf`, in their order, `chain/ChainStatistics.py:452` -/
def Psrf.items (r : Psrf F) : List (List Char × F) :=
  [("R".toList, r.R), ("B".toList, r.B), ("W".toList, r.W), ("V".toList, r.V), ("neff".toList, r.neff)]

/-- `display_gelman_rubin(psrf)`, `chain/ChainStatistics.py:456-466`: the lines printed; `txt` is
`str` of a float -/
def displayGelmanRubin (txt : F → List Char) (psrf : List (ParName × Psrf F)) : List (List Char) :=
  psrf.flatMap fun e => ("Parameter: ".toList ++ e.1) ::
    e.2.items.map fun kv => "  ".toList ++ kv.1 ++ " = ".toList ++ txt kv.2

/-- `gelman_rubin(chains, names, results, display)`, `chain/ChainStatistics.py:369-413`: the
dictionary and the lines printed -/
def gelmanRubinShown (txt : F → List Char) (chains : List (List (Vec F p)))
    (names : Option (List ParName)) (results : Option ResultNames) (display : Bool) :
    Except PyErr (List (ParName × Psrf F) × List (List Char)) := do
  let r ← gelmanRubinNamed chains names results
  .ok (r.1, if display then displayGelmanRubin txt r.1 else [])

end

end Verif
