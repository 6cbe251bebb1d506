import Verif.Model.Panels

/-! # `plot_chain_metrics`

Model of `plotting/MCMCPlotting.py:196-226`: path and histogram of the chain of one parameter.
-/

namespace Verif
variable {F : Type}

/-- the argument `name`, `plotting/MCMCPlotting.py:196,205`: documented as a string; `None` is the default, and a
list of names is accepted as well -/
inductive NameArg where
  | none
  | str (s : List Char)
  | list (l : List (List Char))

/-- the text of a list of strings in `'{}'.format(...)`: `['a', 'b']` (for names without quotation marks and
backslashes). Source: `plotting/MCMCPlotting.py:196-226`. -/
def listText (l : List (List Char)) : List Char :=
  "[".toList ++ ", ".toList.intercalate (l.map fun s => "'".toList ++ s ++ "'".toList) ++ "]".toList

/-- `generate_names(nparam=1, names=name)`, `plotting/MCMCPlotting.py:208`, `plotting/utilities.py:48-54,119-121`, and
the text that the result has in a label.  A string is taken as it is (its length is compared with 1, and nothing is
appended if it is longer); the empty string has no `append`. -/
def metricsName : NameArg → Except PyErr (List Char)
  | .none => .ok (listText (generateNames 1 Option.none))
  | .str [] => .error .attributeError
  | .str s => .ok s
  | .list l => .ok (listText (generateNames 1 (some l)))

/-- the two subplots of `plot_chain_metrics` and its title. Source: `plotting/MCMCPlotting.py:196-226`. -/
structure MetricsFigure (F : Type) where
  suptitle : List Char
  path : Panel (List (ℕ × F))
  histogram : Panel (List F)

/-- `plot_chain_metrics`, `plotting/MCMCPlotting.py:196-226`; `chain` is one-dimensional -/
def plotChainMetrics (chain : List F) (name : NameArg) : Except PyErr (MetricsFigure F) := do
  let name ← metricsName name
  .ok { suptitle := "Chain metrics for ".toList ++ name
        path := { rows := 2, cols := 1, index := 1, content := (List.range chain.length).zip chain
                  xlabel := "Iterations".toList, ylabel := name ++ "-chain".toList }
        histogram := { rows := 2, cols := 1, index := 2, content := chain
                       xlabel := name, ylabel := "Histogram of ".toList ++ name ++ "-chain".toList } }

end Verif
