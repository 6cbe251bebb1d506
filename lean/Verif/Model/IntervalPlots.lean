import Verif.Model.Quantiles

/-!
# Plots of propagation intervals

Model of `propagation.py:136-443` (`plot_intervals`, `plot_3d_intervals`) and of the settings they
use (`propagation.py:584-674`).

A figure is the list of what is drawn, in the order of the calls.  Simplified: line styles, legend
and figure sizes are left out; a label `'{}% {}'.format(limit, inttype)` is the pair of its limit
and its type; a colour taken from a colour map is the map and the normalised position in it; the
arrays of the credible and prediction samples have `c` columns, the times and observations are
one-dimensional.
-/

namespace Verif

/-- the type of an interval: credible or prediction.
Source: `propagation.py:584-621`, `propagation.py:625-632`. -/
inductive IntKind where
  | ci | pi
  deriving DecidableEq

/-- a colour map: the user's, or the defaults `cm.autumn` and `cm.winter`. Source: `propagation.py:668-674`. -/
inductive CMap (M : Type) where
  | user (m : M) | autumn | winter

/-- a colour: the user's, or a position in a colour map. Source: `propagation.py:584-621`. -/
inductive Colour (K κ M : Type) where
  | user (c : κ)
  | mapped (m : CMap M) (x : K)

/-- the dictionaries `ciset` and `piset` of the caller; `none` is a missing key or `None` (and for
the whole dictionary `None`), which mean the same: `propagation.py:635-639,650-657` -/
structure IntervalSet (K κ M : Type) where
  limits : Option (List K) := none
  cmap : Option M := none
  colors : Option (List κ) := none

section
variable {K κ M : Type} [Field K] [LinearOrder K] [FloorSemiring K] {c : ℕ}

/-- `mplcolor.Normalize(vmin, vmax)(x)`. Source: `propagation.py:660-665`. -/
def normalize (vmin vmax x : K) : K := if vmin = vmax then 0 else (x - vmin) / (vmax - vmin)

/-- `__setup_cmap_norm`, `propagation.py:660-665`; `min` of an empty list is a `ValueError` -/
def setupCmapNorm (limits : List K) : Except PyErr (K → K) :=
  match limits with
  | [] => .error .valueError
  | [_] => .ok (normalize 0 100)
  | a :: l => .ok (normalize (l.foldl min a) (l.foldl max a))

/-- `__setup_default_cmap`, `propagation.py:668-674` -/
def setupDefaultCmap (cmap : Option M) (kind : IntKind) : CMap M :=
  match cmap with
  | some m => .user m
  | none => if kind = .ci then .autumn else .winter

/-- `setup_interval_colors`, `propagation.py:584-621`; `limits` are already sorted -/
def setupIntervalColors (limits : List K) (cmap : Option M) (colors : Option (List κ))
    (kind : IntKind) : Except PyErr (List (Colour K κ M)) := do
  let norm ← setupCmapNorm limits
  match colors with
  | none => .ok (limits.map fun l => .mapped (setupDefaultCmap cmap kind) (norm l))
  | some cs =>
    if cs.length = limits.length then .ok (cs.map .user)
    else .ok (limits.map fun l => .mapped (setupDefaultCmap cmap kind) (norm l))

/-- what is drawn by `plot_intervals`. Source: `propagation.py:136-274`. -/
inductive Drawn (K κ M : Type) (c : ℕ) where
  | band (kind : IntKind) (limit : K) (colour : Colour K κ M) (time : List K) (lo hi : Fin c → K)
  | model (time : List K) (y : Fin c → K)
  | data (x y : List K)

/-- `generate_quantiles(x, np.array(quantile))` for a list of two limits: the two curves.
Source: `propagation.py:136-274`, `propagation.py:521-539`. -/
def twoCurves (x : List (Fin c → K)) (quantile : List K) :
    Except PyErr ((Fin c → K) × (Fin c → K)) := do
  let v ← empiricalQuantiles x quantile
  let lo ← pyGet v 0
  let hi ← pyGet v 1
  .ok (lo, hi)

/-- the loops `propagation.py:245-248,251-254` (and the first part of those of
`propagation.py:391-401,408-418`): for every entry of `quantiles` the two curves, with the colour and
the limit of the label at the same place -/
def bandCurves (x : List (Fin c → K)) (limits : List K) (colours : List (Colour K κ M)) :
    Except PyErr (List (K × Colour K κ M × (Fin c → K) × (Fin c → K))) :=
  (List.range limits.length).mapM fun ii => do
    let quantile ← pyGet (convertLimits limits) ii
    let q ← twoCurves x quantile
    let colour ← pyGet colours ii
    let label ← pyGet limits ii
    .ok (label, colour, q.1, q.2)

/-- the samples an interval is computed from: a missing array (`None`) has no `shape`.
Source: `propagation.py:136-274`. -/
def samplesOf (x : Option (List (Fin c → K))) : Except PyErr (List (Fin c → K)) :=
  orRaise x .attributeError

/-- `ax.plot(x, y)` and `ax.fill_between(x, y1, y2)` refuse arguments of different lengths.
Source: `propagation.py:136-274`. -/
def sameLength (a b : ℕ) : Except PyErr Unit := if a = b then .ok () else .error .valueError

/-- the bands of one type in `plot_intervals`, `propagation.py:243-254`.  (There is
at least one limit, see `setupCmapNorm`, so the samples are used.) -/
def drawBands (kind : IntKind) (on : Bool) (x : Option (List (Fin c → K))) (time : List K)
    (limits : List K) (colours : List (Colour K κ M)) : Except PyErr (List (Drawn K κ M c)) := do
  if on = false then .ok []
  else
    let x ← samplesOf x
    let bs ← bandCurves x limits colours
    let _ ← sameLength time.length c
    .ok (bs.map fun b => .band kind b.1 b.2.1 time b.2.2.1 b.2.2.2)

/-- the median curve, `propagation.py:257,425` -/
def medianCurve (x : List (Fin c → K)) : Except PyErr (Fin c → K) := do
  let v ← empiricalQuantiles x [1 / 2]
  pyGet v 0

/-- the data of `plot_intervals`, `propagation.py:260-266` -/
def drawData (adddata : Option Bool) (time : List K) (xdata ydata : Option (List K)) :
    Except PyErr (List (Drawn K κ M c)) :=
  match ydata with
  | none => .ok []
  | some y =>
    let adddata := if adddata = none then some true else adddata
    if adddata = some true then
      let x := xdata.getD time
      (sameLength x.length y.length).map fun _ => [.data x y]
    else .ok []

/-- the settings part, `propagation.py:213-238` and `propagation.py:357-382` (the same code): the
sorted limits and the colours of one type of interval -/
def setupIset (limits : List K) (iset : IntervalSet K κ M) (kind : IntKind) :
    Except PyErr (List K × List (Colour K κ M)) := do
  let l := checkIntervalLimits iset.limits limits
  let colours ← setupIntervalColors l iset.cmap iset.colors kind
  .ok (l, colours)

/-- A figure of intervals, and the lists of limits the caller passed as they are after the call:
`limits`, `ciset['limits']`, `piset['limits']`.
Source: `propagation.py:136-274`, `propagation.py:635-639`, `propagation.py:642-647`, `propagation.py:650-657`. -/
structure IntervalFigure (K D : Type) where
  drawn : List D
  limitsArg : List K
  ciLimitsArg : Option (List K)
  piLimitsArg : Option (List K)

/-- the caller's `limits` after the call: `limits.sort(reverse=True)`, `propagation.py:638`, sorts
the list object itself, if one of the two types uses it -/
def limitsAfter (limits : List K) (ciset piset : IntervalSet K κ M) : List K :=
  if ciset.limits.isNone || piset.limits.isNone then limits.insertionSort (· ≥ ·) else limits

/-- the caller's `ciset['limits']` after the call.
Source: `propagation.py:136-274`, `propagation.py:635-639`, `propagation.py:642-647`, `propagation.py:650-657`. -/
def isetLimitsAfter (iset : IntervalSet K κ M) : Option (List K) :=
  iset.limits.map fun l => l.insertionSort (· ≥ ·)

/-- the curve part of `plot_intervals`, `propagation.py:255-258` -/
def drawModel (on : Bool) (credible : List (Fin c → K)) (time : List K) :
    Except PyErr (List (Drawn K κ M c)) := do
  if on = false then .ok []
  else
    let y ← medianCurve credible
    let _ ← sameLength time.length c
    .ok [.model time y]

/-- `plot_intervals`, `propagation.py:136-274` -/
def plotIntervals (credible : List (Fin c → K)) (prediction : Option (List (Fin c → K)))
    (time : List K) (ydata xdata : Option (List K)) (limits : List K) (adddata : Option Bool)
    (addmodel addcredible addprediction : Bool) (ciset piset : IntervalSet K κ M) :
    Except PyErr (IntervalFigure K (Drawn K κ M c)) := do
  let ci ← setupIset limits ciset .ci
  let pi ← setupIset limits piset .pi
  let d1 ← drawBands .pi addprediction prediction time pi.1 pi.2
  let d2 ← drawBands .ci addcredible (some credible) time ci.1 ci.2
  let d3 ← drawModel addmodel credible time
  let d4 ← drawData adddata time xdata ydata
  .ok { drawn := d1 ++ d2 ++ d3 ++ d4
        limitsArg := limitsAfter limits ciset piset
        ciLimitsArg := isetLimitsAfter ciset
        piLimitsArg := isetLimitsAfter piset }

/-! ### Three dimensions -/

/-- what is drawn by `plot_3d_intervals`. Source: `propagation.py:278-443`. -/
inductive Drawn3 (K κ M : Type) where
  | polygon (kind : IntKind) (limit : K) (colour : Colour K κ M) (verts : List ((K × K) × K))
  | model (pts : List ((K × K) × K))
  | data (pts : List ((K × K) × K))

/-- the corners of the polygon, `propagation.py:394-398`: along the lower curve and back along the
upper one; `zip` stops at the shorter list -/
def polygonOf (time : List (K × K)) (lo hi : Fin c → K) : List ((K × K) × K) :=
  (time ++ time.reverse).zip (List.ofFn lo ++ ((List.ofFn hi).take time.length).reverse)

/-- the polygons of one type in `plot_3d_intervals`, `propagation.py:389-422`.  `pi[1][rev]`, with
`rev` running over the indices of `time`, is out of range if there are more times than columns. -/
def drawPolygons (kind : IntKind) (on : Bool) (x : Option (List (Fin c → K))) (time : List (K × K))
    (limits : List K) (colours : List (Colour K κ M)) : Except PyErr (List (Drawn3 K κ M)) := do
  if on = false then .ok []
  else
    let x ← samplesOf x
    let bs ← bandCurves x limits colours
    if c < time.length then .error .indexError
    else .ok (bs.map fun b => .polygon kind b.1 b.2.1 (polygonOf time b.2.2.1 b.2.2.2))

/-- the curve of `plot_3d_intervals`, `propagation.py:423-426` -/
def drawModel3 (on : Bool) (credible : List (Fin c → K)) (time : List (K × K)) :
    Except PyErr (List (Drawn3 K κ M)) := do
  if on = false then .ok []
  else
    let y ← medianCurve credible
    let _ ← sameLength time.length c
    .ok [.model (time.zip (List.ofFn y))]

/-- the data of `plot_3d_intervals`, `propagation.py:427-435`: the observations are always reshaped
to the number of times (`ValueError` if there are more or fewer); `None` has no `reshape` -/
def drawData3 (adddata : Option Bool) (time : List (K × K)) (xdata : Option (List (K × K)))
    (ydata : Option (List K)) : Except PyErr (List (Drawn3 K κ M)) := do
  let adddata := if ydata.isSome && adddata.isNone then some true else adddata
  if adddata = some true then
    let y ← orRaise ydata .attributeError
    let _ ← sameLength y.length time.length
    let x := xdata.getD time
    let _ ← sameLength x.length y.length
    .ok [.data (x.zip y)]
  else .ok []

/-- `plot_3d_intervals`, `propagation.py:278-443` -/
def plot3dIntervals (credible : List (Fin c → K)) (prediction : Option (List (Fin c → K)))
    (time : List (K × K)) (ydata : Option (List K)) (xdata : Option (List (K × K))) (limits : List K)
    (adddata : Option Bool) (addmodel addcredible addprediction : Bool)
    (ciset piset : IntervalSet K κ M) : Except PyErr (IntervalFigure K (Drawn3 K κ M)) := do
  let ci ← setupIset limits ciset .ci
  let pi ← setupIset limits piset .pi
  let d1 ← drawPolygons .pi addprediction prediction time pi.1 pi.2
  let d2 ← drawPolygons .ci addcredible (some credible) time ci.1 ci.2
  let d3 ← drawModel3 addmodel credible time
  let d4 ← drawData3 adddata time xdata ydata
  .ok { drawn := d1 ++ d2 ++ d3 ++ d4
        limitsArg := limitsAfter limits ciset piset
        ciLimitsArg := isetLimitsAfter ciset
        piLimitsArg := isetLimitsAfter piset }

end

end Verif
