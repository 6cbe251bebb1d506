import Verif.Model.PlotUtils

/-!
# Plots of the chains

Model of `plotting/MCMCPlotting.py` (density, histogram, chain and pairwise panels) and of
`plotting/utilities.py:126-150,181-212` (`make_x_grid`, `gaussian_density_function`,
`scale_bandwidth`).

A figure is the list of what is drawn into its subplots, in the order of the calls.  Simplified:
marker styles, tick labels, margins and figure sizes are left out; the kernel density estimate of
statsmodels is an argument; numbers are exact.
-/

namespace Verif

/-- what is drawn into one subplot: the arguments of `plt.subplot`, the points or values, and the
texts (empty if none).
Source: `plotting/MCMCPlotting.py:33-70`, `plotting/MCMCPlotting.py:76-100`, `plotting/MCMCPlotting.py:106-140`,
`plotting/MCMCPlotting.py:146-190`. -/
structure Panel (α : Type) where
  rows : ℤ
  cols : ℤ
  index : ℤ
  content : α
  xlabel : List Char := []
  ylabel : List Char := []
  title : List Char := []

/-- a figure, and the list of names the caller passed, as it is after the call.
Source: `plotting/MCMCPlotting.py:33-70`, `plotting/MCMCPlotting.py:76-100`, `plotting/MCMCPlotting.py:106-140`,
`plotting/MCMCPlotting.py:146-190`. -/
structure Figure (α : Type) where
  panels : List (Panel α)
  namesArg : Option (List (List Char))

/-- `plt.subplot(rows, cols, index)` refuses an index outside the grid.
Source: `plotting/MCMCPlotting.py:33-70`, `plotting/MCMCPlotting.py:76-100`, `plotting/MCMCPlotting.py:106-140`,
`plotting/MCMCPlotting.py:146-190`. -/
def subplot (rows cols index : ℤ) : Except PyErr Unit :=
  if 1 ≤ index ∧ index ≤ rows * cols then .ok () else .error .valueError

/-- the caller's list of names after `generate_names`, `plotting/utilities.py:50-54,117-122`: the
missing names are appended to the list object itself -/
def namesAfter (nparam : ℕ) (names : Option (List (List Char))) : Option (List (List Char)) :=
  names.map fun l => if l.length ≠ nparam then extendNames (some l) nparam else l

section
variable {F : Type} {p : ℕ}

/-- one subplot of `plot_chain_panel`, `plotting/MCMCPlotting.py:129-138` -/
def chainPanelAt (chains : List (Fin p → F)) (inds : List ℕ) (g : ℤ × ℤ) (names : List (List Char))
    (ii : Fin p) : Except PyErr (Panel (List (ℕ × F))) := do
  let chain ← inds.mapM fun i => (pyGet chains i).map fun r => r ii
  let _ ← subplot g.1 g.2 (ii + 1)
  let name ← pyGet names ii
  .ok { rows := g.1, cols := g.2, index := ii + 1, content := inds.zip chain
        xlabel := if (ii : ℤ) + 1 ≤ g.1 * g.2 - g.2 then [] else "Iteration".toList
        ylabel := name }

/-- `plot_chain_panel`, `plotting/MCMCPlotting.py:106-140` -/
noncomputable def plotChainPanel (chains : List (Fin p → F)) (names : Option (List (List Char)))
    (skip maxpoints : ℕ) : Except PyErr (Figure (List (ℕ × F))) := do
  let inds ← setupSubsample skip maxpoints chains.length
  let panels ← (List.finRange p).mapM
    (chainPanelAt chains inds (generateSubplotGrid p) (generateNames p names))
  .ok ⟨panels, namesAfter p names⟩

/-- one subplot of `plot_histogram_panel`, `plotting/MCMCPlotting.py:91-99` -/
def histogramPanelAt (chains : List (Fin p → F)) (g : ℤ × ℤ) (names : List (List Char))
    (ii : Fin p) : Except PyErr (Panel (List F)) := do
  let _ ← subplot g.1 g.2 (ii + 1)
  let name ← pyGet names ii
  .ok { rows := g.1, cols := g.2, index := ii + 1, content := chains.map fun r => r ii
        xlabel := name }

/-- `plot_histogram_panel`, `plotting/MCMCPlotting.py:76-100` -/
noncomputable def plotHistogramPanel (chains : List (Fin p → F)) (names : Option (List (List Char))) :
    Except PyErr (Figure (List F)) := do
  let panels ← (List.finRange p).mapM
    (histogramPanelAt chains (generateSubplotGrid p) (generateNames p names))
  .ok ⟨panels, namesAfter p names⟩

/-- `chains[inds, k]`, `plotting/MCMCPlotting.py:171-172` -/
def columnAt (chains : List (Fin p → F)) (inds : List ℕ) (k : ℕ) : Except PyErr (List F) :=
  inds.mapM fun i => (pyGet chains i).bind fun r => pyGet (List.ofFn r) k

/-- one subplot of `plot_pairwise_correlation_panel`, `plotting/MCMCPlotting.py:171-187`.  (Both
names are looked up in every round here; `generate_names` never gives too few.) -/
def pairPanelAt (chains : List (Fin p → F)) (inds : List ℕ) (names : List (List Char))
    (jj ii : ℕ) : Except PyErr (Panel (List (F × F))) := do
  let chain1 ← columnAt chains inds (ii - 1)
  let chain2 ← columnAt chains inds (jj - 1)
  let index : ℤ := ((jj : ℤ) - 2) * ((p : ℤ) - 1) + ii
  let _ ← subplot ((p : ℤ) - 1) ((p : ℤ) - 1) index
  let ynm ← pyGet names (jj - 1)
  let xnm ← pyGet names (ii - 1)
  .ok { rows := (p : ℤ) - 1, cols := (p : ℤ) - 1, index := index, content := chain1.zip chain2
        ylabel := if ii = 1 then ynm else []
        xlabel := if ii = jj - 1 ∧ p = 2 then xnm else []
        title := if ii = jj - 1 ∧ p ≠ 2 then xnm else [] }

/-- the pairs `(jj, ii)` in the order of the loops, `plotting/MCMCPlotting.py:169-170` -/
def pairLoop (p : ℕ) : List (ℕ × ℕ) :=
  (List.range' 2 (p - 1)).flatMap fun jj => (List.range' 1 (jj - 1)).map fun ii => (jj, ii)

/-- `plot_pairwise_correlation_panel`, `plotting/MCMCPlotting.py:146-190` -/
def plotPairwise (chains : List (Fin p → F)) (names : Option (List (List Char)))
    (skip maxpoints : ℕ) : Except PyErr (Figure (List (F × F))) := do
  let inds ← setupSubsample skip maxpoints chains.length
  let panels ← (pairLoop p).mapM fun x =>
    pairPanelAt chains inds (generateNames p names) x.1 x.2
  .ok ⟨panels, namesAfter p names⟩

end

/-! ### Grid of the density plots -/

/-- `np.mean` of a column. Used at `plotting/utilities.py:126-150`. -/
noncomputable def meanOf (x : List ℝ) : ℝ := x.sum / x.length

/-- `np.std(x, ddof=1)`; one value gives `0/0`, here `none` for NaN. Used at `plotting/utilities.py:126-150`. -/
noncomputable def stdOf (x : List ℝ) : Option ℝ :=
  if x.length ≤ 1 then none
  else some (Real.sqrt ((x.map fun v => (v - meanOf x) ^ 2).sum / ((x.length : ℝ) - 1)))

/-- `np.linspace(a, b, npts)`; NaN ends give NaN. Used at `plotting/utilities.py:126-150`. -/
noncomputable def linspace (a b : Option ℝ) (npts : ℕ) : List (Option ℝ) :=
  (List.range npts).map fun i : ℕ => a.bind fun a => b.map fun b =>
    if npts ≤ 1 then a else a + i * ((b - a) / ((npts : ℝ) - 1))

/-- `make_x_grid`, `plotting/utilities.py:126-150`: `min` of an empty array is a `ValueError` -/
noncomputable def makeXGrid (x : List ℝ) (npts : ℕ) : Except PyErr (List (Option ℝ)) :=
  match x with
  | [] => .error .valueError
  | a :: l =>
    let xmin := l.foldl min a
    let xmax := l.foldl max a
    let xxrange := xmax - xmin
    if 200 < x.length then
      .ok (linspace (some (xmin - 8 / 100 * xxrange)) (some (xmax + 8 / 100 * xxrange)) npts)
    else
      .ok (linspace ((stdOf x).map fun s => meanOf x - 4 * s) ((stdOf x).map fun s => meanOf x + 4 * s)
        npts)

/-- what is drawn for one density: the sample the estimate is computed from, the curve, and whether
there is a histogram of the same sample. Source: `plotting/MCMCPlotting.py:33-70`. -/
structure DensityCurve where
  sample : List ℝ
  curve : List (Option ℝ × ℝ)
  hist : Bool

section
variable {p : ℕ}

/-- one subplot of `plot_density_panel`, `plotting/MCMCPlotting.py:51-66`; `kde` is
`KDEMultivariate(chain, …).pdf` -/
noncomputable def densityPanelAt (kde : List ℝ → Option ℝ → ℝ) (chains : List (Fin p → ℝ))
    (g : ℤ × ℤ) (names : List (List Char)) (hist : Bool) (ii : Fin p) :
    Except PyErr (Panel DensityCurve) := do
  let chain := chains.map fun r => r ii
  let grid ← makeXGrid chain 100
  let _ ← subplot g.1 g.2 (ii + 1)
  let name ← pyGet names ii
  .ok { rows := g.1, cols := g.2, index := ii + 1
        content := ⟨chain, grid.map fun t => (t, kde chain t), hist⟩
        xlabel := name
        ylabel := "$\\pi$(".toList ++ name ++ "$|M^{data}$)".toList }

/-- `plot_density_panel`, `plotting/MCMCPlotting.py:33-70` -/
noncomputable def plotDensityPanel (kde : List ℝ → Option ℝ → ℝ) (chains : List (Fin p → ℝ))
    (names : Option (List (List Char))) (hist : Bool) : Except PyErr (Figure DensityCurve) := do
  let panels ← (List.finRange p).mapM
    (densityPanelAt kde chains (generateSubplotGrid p) (generateNames p names) hist)
  .ok ⟨panels, namesAfter p names⟩

end

/-! ### Normal density and bandwidth -/

/-- `gaussian_density_function`, `plotting/utilities.py:181-194`: `math.sqrt` refuses negative
numbers, `1/0` is a `ZeroDivisionError` -/
noncomputable def gaussianDensity (x mu sigma2 : ℝ) : Except PyErr ℝ :=
  if 2 * Real.pi * sigma2 < 0 then .error .valueError
  else if Real.sqrt (2 * Real.pi * sigma2) = 0 then .error .zeroDivision
  else .ok (1 / Real.sqrt (2 * Real.pi * sigma2) * Real.exp (-(1 / 2) * (x - mu) ^ 2 / sigma2))

/-- `scale_bandwidth`, `plotting/utilities.py:197-212`, for a column.  (`iqrange` needs two values,
so the standard deviation is a number.) -/
noncomputable def scaleBandwidth (x : List ℝ) : Except PyErr ℝ := do
  let q ← iqrange x
  let s ← orRaise (stdOf x) .valueError
  if q ≤ 0 then .ok (106 / 100 * (s * (x.length : ℝ) ^ (-(1 / 5) : ℝ)))
  else .ok (106 / 100 * (min s (q / (134 / 100)) * (x.length : ℝ) ^ (-(1 / 5) : ℝ)))

end Verif
