import Verif.Model.Intervals
import Verif.Model.IntervalPlots

/-!
# Plots of the class `PredictionIntervals`

Model of `plot_prediction_intervals`, `plotting/PredictionIntervals.py:588-828`.

What pyplot shows is a function from axes to the list of what was drawn there, in the order of the calls; axes that
do not exist show nothing.  Axes are named by their figure and their place in it.
Simplified: the name `'Batch # {} | Column # {}'` of a figure is the pair of its numbers, a label
`'95% CI'` is its percentage and its kind, a title is its numbers; line styles, legend, figure size and layout are
left out; the removal of overlapping axes by `plt.subplot`
in some versions of matplotlib is left out (only the axes drawn on are described); a call that raises an
exception has no result, though what it drew before stays visible.  `np.int`
(`plotting/PredictionIntervals.py:826`) is taken as `int`; newer versions of numpy do not have it.
-/

namespace Verif

/-- the arrays of a data set, `dataii.xdata[0]` and `dataii.ydata[0]`; both have two dimensions,
`settings/DataStructure.py:79-87` -/
structure PlotData (K : Type) where
  nx : ℕ
  cx : ℕ
  x : Fin nx → Fin cx → K
  ny : ℕ
  cy : ℕ
  y : Fin ny → Fin cy → K

/-- what is drawn on axes. Source: `plotting/PredictionIntervals.py:588-656`. -/
inductive Painted (K : Type) where
  | band (kind : IntKind) (label : ℕ) (colour : String) (time lo hi : List K)
  | model (time y : List K)
  | data (x y : List K)
  | title (batch : Option ℕ) (column : ℕ)
  deriving DecidableEq

/-- axes: the numbers in the name of the figure, then the number of subplots and the place of the axes,
`plt.subplot(ny, 1, jj+1)`.
Source: `plotting/PredictionIntervals.py:588-656`, `plotting/PredictionIntervals.py:701-719`. -/
abbrev AxesName := (ℕ × ℕ) × ℕ × ℕ

/-- what pyplot shows.
Source: `plotting/PredictionIntervals.py:588-656`, `plotting/PredictionIntervals.py:701-719`. -/
abbrev Canvas (K : Type) := AxesName → List (Painted K)

/-- drawing on axes: `plt.figure(name)` and `plt.subplot(ny, 1, jj+1)`
(`plotting/PredictionIntervals.py:714-716`) open the figure and the axes of this name if there are none and
otherwise make the existing ones current, so everything is added to what is there -/
def paint {K : Type} (cv : Canvas K) (a : AxesName × List (Painted K)) : Canvas K := fun b =>
  if b = a.1 then cv b ++ a.2 else cv b

/-- `_check_prediction_interval_flag`, `plotting/PredictionIntervals.py:768-783` -/
def checkPredFlag {α : Type} (flag : PyFlag) (pred : Option α) : Option α :=
  if convertFlag flag = .bool false then none else pred

/-- `_setup_interval_colors`, `plotting/PredictionIntervals.py:687-698` -/
def intervalColours (pred : Bool) : List String × List String :=
  if pred then (["#c7e9b4"], ["#225ea8"])
  else (["#253494", "#1d91c0", "#7fcdbb", "#c7e9b4"], [])

/-- `dataii.xdata[0].reshape(dataii.xdata[0].shape[0], )`, `plotting/PredictionIntervals.py:632` -/
def PlotData.time {K : Type} (d : PlotData K) : Except PyErr (List K) :=
  if d.nx * d.cx = d.nx then .ok (List.ofFn fun i => List.ofFn (d.x i)).flatten
  else .error .valueError

/-- one `fill_between`; the curves have to be as long as `time`.
Source: `plotting/PredictionIntervals.py:588-656`. -/
def fillBetween {K : Type} (kind : IntKind) (label : ℕ) (colour : String) (time lo hi : List K) :
    Except PyErr (Painted K) := do
  let _ ← sameLength time.length lo.length
  let _ ← sameLength time.length hi.length
  .ok (.band kind label colour time lo hi)

/-- the prediction band, `plotting/PredictionIntervals.py:638-640` -/
def paintPred {K : Type} (pred : Option (List (List (List (List K))))) (plabels : List ℕ) (picolor : List String)
    (ii jj : ℕ) (time : List K) : Except PyErr (List (Painted K)) :=
  match pred with
  | none => .ok []
  | some pred => do
    let cols ← pyGet pred ii
    let lines ← pyGet cols jj
    let lo ← pyGet lines 0
    let hi ← pyRow lines (-1)
    let colour ← pyGet picolor 0
    let label ← pyGet plabels 0
    let b ← fillBetween .pi label colour time lo hi
    .ok [b]

/-- the credible bands, `plotting/PredictionIntervals.py:642-644` -/
def paintCred {K : Type} (nn : ℕ) (clabels : List ℕ) (cicolor : List String) (lines : List (List K))
    (time : List K) : Except PyErr (List (Painted K)) :=
  (List.range (nn - 1)).mapM fun kk => do
    let lo ← pyGet lines kk
    let hi ← pyRow lines (-(kk : ℤ) - 1)
    let colour ← pyGet cicolor kk
    let label ← pyGet clabels kk
    fillBetween .ci label colour time lo hi

/-- the observations, `plotting/PredictionIntervals.py:648-649`: column `jj` of `ydata[0]` against `xdata[0]` (which
has one column, or `time` would have failed) -/
def paintData {K : Type} (adddata : Bool) (d : PlotData K) (time : List K) (jj : ℕ) :
    Except PyErr (List (Painted K)) :=
  if adddata then
    if h : jj < d.cy then do
      let _ ← sameLength d.nx d.ny
      .ok [.data time (List.ofFn fun i => d.y i ⟨jj, h⟩)]
    else .error .indexError
  else .ok []

/-- `_add_batch_column_title`, `plotting/PredictionIntervals.py:722-736` -/
def batchTitle {K : Type} (nbatch ny ii jj : ℕ) : List (Painted K) :=
  if 1 < nbatch then [.title (some ii) jj] else if 1 < ny then [.title none jj] else []

/-- the body of the loop over the columns, `plotting/PredictionIntervals.py:633-655`: the axes and what is drawn on
them -/
def paintColumn {K : Type} (pred : Option (List (List (List (List K))))) (nn : ℕ) (labels : List ℕ × List ℕ)
    (colours : List String × List String) (nbatch : ℕ) (d : PlotData K) (adddata : Bool) (ii : ℕ) (time : List K)
    (credlims : List (List (List K))) (jj : ℕ) : Except PyErr (AxesName × List (Painted K)) := do
  let pis ← paintPred pred labels.2 colours.2 ii jj time
  let lines ← pyGet credlims jj
  let cis ← paintCred nn labels.1 colours.1 lines time
  let med ← pyGet lines (nn - 1)
  let _ ← sameLength time.length med.length
  let dat ← paintData adddata d time jj
  .ok (((ii, jj), credlims.length, jj + 1),
    pis ++ cis ++ [.model time med] ++ dat ++ batchTitle nbatch credlims.length ii jj)

/-- the loop over the data sets, `plotting/PredictionIntervals.py:626-655` -/
def paintBatches {K : Type} (cred : List (List (List (List K)))) (pred : Option (List (List (List (List K)))))
    (nn : ℕ) (labels : List ℕ × List ℕ) (colours : List String × List String) (data : List (PlotData K))
    (adddata : Bool) : Except PyErr (List (List (AxesName × List (Painted K)))) :=
  (List.range data.length).mapM fun ii => do
    let credlims ← pyGet cred ii
    let d ← pyGet data ii
    let time ← d.time
    (List.range credlims.length).mapM
      (paintColumn pred nn labels colours cred.length d adddata ii time credlims)

/-- `plot_prediction_intervals`, `plotting/PredictionIntervals.py:588-656`, with `_setup_interval_plotting`,
lines 739-764: the axes returned, and what pyplot shows afterwards -/
def plotPredictionIntervals {K : Type} (cred : List (List (List (List K))))
    (pred : Option (List (List (List (List K))))) (data : List (PlotData K)) (plotPredInt : PyFlag) (adddata : Bool)
    (cv : Canvas K) : Except PyErr (List AxesName × Canvas K) := do
  let pred := checkPredFlag plotPredInt pred
  let cred0 ← pyGet cred 0
  let lines0 ← pyGet cred0 0
  let nn := (setupCountingMetrics lines0.length).1
  let labels := setupLabels pred.isSome (setupCountingMetrics lines0.length).2
  let panels ← paintBatches cred pred nn labels (intervalColours pred.isSome) data adddata
  .ok (panels.flatten.map Prod.fst, panels.flatten.foldl paint cv)

end Verif
