import Verif.Model.Py
import Mathlib.Algebra.Order.Floor.Ring
import Mathlib.Data.List.Sort

/-!
# Quantiles and interval limits

Model of `plotting/utilities.py:344-362` (`empirical_quantiles`), `propagation.py:521-539`
(`generate_quantiles`, the same code), the limits of `propagation.py:635-647` and the limits,
labels and bands of `plotting/PredictionIntervals.py`.

Simplification: numbers are elements of an ordered field (exact arithmetic, no NaN).  The
rounding of the interpolation is not modelled.
-/

namespace Verif

section
variable {K : Type} [Field K] [LinearOrder K] [FloorSemiring K] {c : ℕ}

/-- Evaluation of scipy's linear `interp1d(range(n), ys)` at a point `t` with `0 ≤ t ≤ n - 1`
(used at `plotting/utilities.py:359,362`, `propagation.py:536,539`):
`x_new_indices = searchsorted(x, t)`, clipped to `1 … n-1`; `lo = i - 1`, `hi = i`;
`slope = (y_hi - y_lo)/(x_hi - x_lo)`; `slope*(t - x_lo) + y_lo`. -/
def interpAt (ys : List K) (t : K) : K :=
  let hi := max 1 (min (ys.length - 1) ⌈t⌉₊)
  let lo := hi - 1
  (ys.getD hi 0 - ys.getD lo 0) / ((hi : K) - (lo : K)) * (t - (lo : K)) + ys.getD lo 0

/-- `empirical_quantiles(x, p)`, `plotting/utilities.py:344-362`, and
`generate_quantiles(x, p)`, `propagation.py:521-539`.  `x` is given by rows; `np.sort(x, 0)` sorts
every column.  `interp1d` refuses fewer than two points, evaluation outside `[0, n-1]` raises
`ValueError` (`bounds_error`).  (Recent scipy versions accept one point and return NaN.) -/
def empiricalQuantiles (x : List (Fin c → K)) (p : List K) :
    Except PyErr (List (Fin c → K)) :=
  if x.length < 2 then .error .valueError
  else if p.any (fun q => decide (((x.length : K) - 1) * q < 0) ||
      decide ((x.length : K) - 1 < ((x.length : K) - 1) * q)) then .error .valueError
  else .ok (p.map fun q => fun j =>
    interpAt ((x.map fun r => r j).insertionSort (· ≤ ·)) (((x.length : K) - 1) * q))

/-- `_check_limits`, `propagation.py:635-639`: the user's limits (or the defaults) in decreasing
order -/
def checkIntervalLimits (limits : Option (List K)) (default : List K) : List K :=
  (limits.getD default).insertionSort (· ≥ ·)

/-- `_convert_limits`, `propagation.py:642-647` -/
def convertLimits (limits : List K) : List (List K) :=
  limits.map fun l => [1 / 2 - l / 100 / 2, 1 / 2 + l / 100 / 2]

/-- the quantiles drawn as bands by `plot_intervals`, `propagation.py:245-254`: one
`generate_quantiles` call per entry of the converted limits -/
def intervalBands (credible : List (Fin c → K)) (limits : Option (List K)) (default : List K) :
    Except PyErr (List (List (Fin c → K))) :=
  (convertLimits (checkIntervalLimits limits default)).mapM (empiricalQuantiles credible)

end

section
variable {K : Type} [Field K]

/-- `_setup_interval_limits`, `plotting/PredictionIntervals.py:271-291`; the argument says whether
error variances are used -/
def setupIntervalLimits (s2chain : Bool) : List K :=
  if s2chain then [25 / 1000, 1 / 2, 975 / 1000]
  else [5 / 1000, 25 / 1000, 5 / 100, 25 / 100, 1 / 2, 75 / 100, 9 / 10, 975 / 1000, 995 / 1000]

end

/-- `_setup_counting_metrics`, `plotting/PredictionIntervals.py:810-828`:
number of the median line and number of bands, from the number of lines -/
def setupCountingMetrics (nlines : ℕ) : ℕ × ℕ := ((nlines + 1) / 2, (nlines + 1) / 2 - 1)

/-- `_setup_labels`, `plotting/PredictionIntervals.py:787-806`: the percentages in the labels of
the credible bands (`'99% CI'` is 99) and of the prediction band -/
def setupLabels (prediction : Bool) (nlines : ℕ) : List ℕ × List ℕ :=
  if prediction then ([95], [95])
  else if nlines = 1 then ([95], [95])
  else ([99, 95, 90, 50], [95])

/-- the credible bands of `plot_prediction_intervals`, `plotting/PredictionIntervals.py:642-644`:
for `kk in range(0, nn - 1)` the band between line `kk` and line `-kk - 1`, with label `kk`;
`lines` are the quantile curves (or the quantile levels) in the order of the limits -/
def drawnBands {α : Type} (lines : List α) (prediction : Bool) :
    Except PyErr (List (α × α × ℕ)) :=
  let nn := (setupCountingMetrics lines.length).1
  let nlines := (setupCountingMetrics lines.length).2
  (List.range (nn - 1)).mapM fun kk => do
    let a ← pyGet lines kk
    let b ← pyGet lines.reverse kk
    let l ← pyGet (setupLabels prediction nlines).1 kk
    .ok (a, b, l)

end Verif
