import Verif.Model.Py
import Mathlib.Algebra.Order.Floor.Ring
import Mathlib.Analysis.SpecialFunctions.Trigonometric.Basic

/-!
# Chain statistics

Model of `chain/ChainStatistics.py`.

Simplifications: sums of arrays are taken from left to right (numpy sums long arrays pairwise), the squared norm
of the Hanning window is the sum of its squares (no square root in between),
printing is left out, the fractions of `geweke` are elements of an ordered field (exact
products), and the autocorrelation time is computed with exact real arithmetic.
-/

namespace Verif

section
variable {F : Type} [PyFloat F]

/-- `np.mean(x)` of a one-dimensional array.
Used at `chain/ChainStatistics.py:46`, `chain/ChainStatistics.py:222`, `chain/ChainStatistics.py:259-260`,
`chain/ChainStatistics.py:439-441`. -/
def npMean (l : List F) : F := lsum l / lit l.length

/-- `np.var(x, ddof=1)` of a one-dimensional array.
Used at `chain/ChainStatistics.py:439`, `chain/ChainStatistics.py:441`. -/
def npVar1 (l : List F) : F :=
  lsum (l.map fun a => (a - npMean l) * (a - npMean l)) / lit ((l.length : ℚ) - 1)

/-! ### Gelman-Rubin -/

/-- the dictionary returned by `calculate_psrf`, `chain/ChainStatistics.py:452` -/
structure Psrf (F : Type) where
  R : F
  B : F
  W : F
  V : F
  neff : F

/-- `calculate_psrf(x, nsimu, nchains)`, `chain/ChainStatistics.py:416-452`; `x` is the list of the
columns (chains).  The quotients of Python ints raise `ZeroDivisionError` for no rows or no
chains. -/
def calculatePsrf (x : List (List F)) (nsimu nchains : ℕ) : Except PyErr (Psrf F) :=
  if nsimu = 0 ∨ nchains = 0 then .error .zeroDivision
  else
    let n : ℚ := nsimu
    let m : ℚ := nchains
    let Bpn := npVar1 (x.map npMean)
    let W := npMean (x.map npVar1)
    let S := lit (n - 1) / lit n * W + Bpn
    let R := lit (m + 1) / lit m * S / W - lit (n - 1) / lit m / lit n
    let V := R * W
    let B := Bpn * lit n
    .ok { R := PyFloat.sqrt R, B := B, W := W, V := V,
          neff := pyMin (lit (m * n) * V / B) (lit (m * n)) }

/-- column `ii` of a chain assigned to a column of `np.zeros([nsimu, nchains])`,
`chain/ChainStatistics.py:404-405`: another length is refused unless it is one (broadcast) -/
def chainColumn {p : ℕ} (nsimu : ℕ) (chain : List (Vec F p)) (ii : Fin p) : Except PyErr (List F) :=
  if chain.length = nsimu then .ok (chain.map fun r => r ii)
  else if chain.length = 1 then .ok ((List.replicate nsimu chain).flatten.map fun r => r ii)
  else .error .valueError

/-- `gelman_rubin`, `chain/ChainStatistics.py:369-413`, for a list of chains with `p` columns and
default (distinct) names: one entry per parameter. -/
def gelmanRubin {p : ℕ} (chains : List (List (Vec F p))) : Except PyErr (List (Psrf F)) := do
  let c0 ← pyGet chains 0
  if chains.length < 2 then .error .valueError
  else do
    let par ← (List.finRange p).mapM fun ii => chains.mapM fun c => chainColumn c0.length c ii
    par.mapM fun cols => calculatePsrf cols c0.length chains.length

/-! ### Batch means -/

/-- the batch size, `chain/ChainStatistics.py:209-212`: the user's or `max(10, np.fix(nsimu/20))` -/
def batchSize (nsimu : ℕ) (b : Option ℤ) : ℤ := b.getD (max 10 ((nsimu / 20 : ℕ) : ℤ))

/-- `inds = np.arange(0, nsimu+1, b)`, `chain/ChainStatistics.py:214` -/
def batchInds (nsimu : ℕ) (b : ℤ) : Except PyErr (List ℕ) :=
  if b = 0 then .error .zeroDivision
  else if b < 0 then .ok []
  else .ok ((List.range (nsimu / b.toNat + 1)).map (· * b.toNat))

/-- `batch_mean_standard_deviation`, `chain/ChainStatistics.py:197-225` -/
def batchMeanStd {p : ℕ} (chain : List (Vec F p)) (b : Option ℤ) : Except PyErr (Vec F p) := do
  let bs := batchSize chain.length b
  let inds ← batchInds chain.length bs
  let nb := inds.length - 1
  if nb < 2 then .error (.sysExit "too few batches")
  else
    let y : List (Vec F p) := (List.range nb).map fun ii => fun j =>
      npMean ((pySlice chain (inds.getD ii 0) (inds.getD (ii + 1) 0)).map fun r => r j)
    .ok fun j => PyFloat.sqrt
      (lsum (y.map fun r => (r j - npMean (chain.map fun r => r j)) *
          (r j - npMean (chain.map fun r => r j))) / lit ((nb : ℚ) - 1) * lit bs)

/-! ### Geweke -/

/-- a Python slice bound: negative ones count from the end, all are cut to `0 … len`.
Source: `chain/ChainStatistics.py:259-260`. -/
def sliceBound (len : ℕ) (i : ℤ) : ℕ :=
  if 0 ≤ i then min i.toNat len else (i + len).toNat

/-- `na`, `nb` and the check of their sizes, `chain/ChainStatistics.py:251-257` -/
def gewekeWindows {K : Type} [Field K] [LinearOrder K] [FloorRing K] (a b : K) (nsimu : ℕ) :
    Except PyErr (ℤ × ℤ) :=
  let na : ℤ := ⌊a * nsimu⌋
  let nb : ℤ := nsimu - ⌊b * nsimu⌋
  if na + nb ≥ nsimu then .error (.sysExit "na + nb > nsimu") else .ok (na, nb)

/-- the rows of `chain[0:na, :]` and `chain[nb:nsimu+1, :]`, as positions,
`chain/ChainStatistics.py:259-260` -/
def gewekeRows (nsimu : ℕ) (w : ℤ × ℤ) : List ℕ × List ℕ :=
  (List.range (sliceBound nsimu w.1),
   (List.range nsimu).drop (sliceBound nsimu w.2))

/-- value at frequency zero of `power_spectral_density_using_hanning_window(x, m)`,
`chain/ChainStatistics.py:287-327`, for `m = len(x)`.  Component 0 of a discrete Fourier transform
is the sum.  `hann nw i` is entry `i` of the window of length `nw` (line 305).  The branch
`n < nw` (lines 307-309) is never taken because `nw` is a quarter of `n`. -/
def spectrumAtZero (hann : ℕ → ℕ → F) (x : List F) : Except PyErr F :=
  let m := x.length
  let nw := m / 4
  let noverlap := nw / 2
  if nw - noverlap = 0 then .error .zeroDivision
  else do
    let k := (m - noverlap) / (nw - noverlap)
    let kmu := lit k * lsum ((List.range nw).map fun i => hann nw i * hann nw i)
    let ws ← (List.range k).mapM fun ii => (List.range nw).mapM fun i =>
      (pyGet x (ii * (nw - noverlap) + i)).map fun v => hann nw i * v
    let y := lsum (ws.map fun w => lsum w * lsum w)
    if m / 2 = 0 then .error .indexError else .ok (y * (lit 1 / kmu))

/-- the diagnostic of one column for given windows, `chain/ChainStatistics.py:258-265`; `cdf` is
`scipy.stats.norm.cdf` -/
def gewekeColumn (hann : ℕ → ℕ → F) (cdf : F → F) (x : List F) (w : ℤ × ℤ) :
    Except PyErr (F × F) := do
  let xa := x.take (sliceBound x.length w.1)
  let xb := x.drop (sliceBound x.length w.2)
  let sa ← spectrumAtZero hann xa
  let sb ← spectrumAtZero hann xb
  let z := (npMean xa - npMean xb) /
    PyFloat.sqrt (sa / lit w.1 + sb / lit ((x.length : ℚ) - w.2))
  .ok (z, lit 2 * (lit 1 - cdf (pyAbs z)))

/-- `geweke(chain, a, b)`, `chain/ChainStatistics.py:229-266`: `z` and `p` of every column -/
def geweke {K : Type} [Field K] [LinearOrder K] [FloorRing K] {p : ℕ} (hann : ℕ → ℕ → F)
    (cdf : F → F) (chain : List (Vec F p)) (a b : K) : Except PyErr (List (F × F)) := do
  let w ← gewekeWindows a b chain.length
  (List.finRange p).mapM fun j => gewekeColumn hann cdf (chain.map fun r => r j) w

/-- the dictionary returned by `chainstats`, `chain/ChainStatistics.py:63-68` -/
structure Stats (F : Type) (p : ℕ) where
  mean : Vec F p
  std : Vec F p
  bmstd : Vec F p
  mcerr : Vec F p
  geweke : List (F × F)
  iact : List (F × ℕ)

/-- `chainstats(chain, returnstats=True)`, `chain/ChainStatistics.py:22-70`, without the printing;
`iact` is `integrated_autocorrelation_time` of one column.  A missing chain gives no statistics
(only a message). -/
def chainstats {K : Type} [Field K] [LinearOrder K] [FloorRing K] {p : ℕ} (hann : ℕ → ℕ → F)
    (cdf : F → F) (iact : List F → Except PyErr (F × ℕ)) :
    Option (List (Vec F p)) → Except PyErr (Option (Stats F p))
  | none => .ok none
  | some chain => do
    let col : Fin p → List F := fun j => chain.map fun r => r j
    let bmstd ← batchMeanStd chain none
    let g ← geweke hann cdf chain (1 / 10 : K) (1 / 2 : K)
    let t ← (List.finRange p).mapM fun j => iact (col j)
    .ok (some
      { mean := fun j => npMean (col j)
        std := fun j => PyFloat.sqrt
          (npMean ((col j).map fun a => (a - npMean (col j)) * (a - npMean (col j))))
        bmstd := bmstd
        mcerr := fun j => bmstd j / PyFloat.sqrt (lit chain.length)
        geweke := g
        iact := t })

end

/-! ### Integrated autocorrelation time -/

/-- squared absolute values of the discrete Fourier transform of a column, with the value at
frequency zero replaced by zero, `chain/ChainStatistics.py:345-351` -/
noncomputable def periodogram (x : List ℝ) (k : ℕ) : ℝ :=
  if k = 0 then 0 else
    (∑ t ∈ Finset.range x.length, x.getD t 0 * Real.cos (2 * Real.pi * k * t / x.length)) ^ 2 +
    (-∑ t ∈ Finset.range x.length, x.getD t 0 * Real.sin (2 * Real.pi * k * t / x.length)) ^ 2

/-- `np.real(fft(xmag, axis=0))`, `chain/ChainStatistics.py:352` -/
noncomputable def periodogramTransform (x : List ℝ) (i : ℕ) : ℝ :=
  ∑ k ∈ Finset.range x.length, periodogram x k * Real.cos (2 * Real.pi * i * k / x.length)

open Classical in
/-- the window search, `chain/ChainStatistics.py:357-365`; the result is `tau` and `m` -/
noncomputable def windowSearch (rho : ℕ → ℝ) : ℕ → ℕ → ℝ → ℝ × ℕ
  | 0, _, _ => (0, 0)
  | fuel + 1, ii, snum =>
    let snum' := snum + rho ii - 1 / 6
    if snum' < 0 then (2 * (snum' + (ii : ℝ) / 6), ii + 1) else windowSearch rho fuel (ii + 1) snum'

open Classical in
/-- `integrated_autocorrelation_time`, `chain/ChainStatistics.py:330-365`, one column.  The
transform refuses an empty chain; for one row the variance is `0/0` and no window is found. -/
noncomputable def autocorrelationTime (x : List ℝ) : Except PyErr (ℝ × ℕ) :=
  if x.length = 0 then .error .valueError
  else if x.length = 1 then .ok (0, 0)
  else
    let var := periodogramTransform x 0 / x.length / ((x.length : ℝ) - 1)
    if var = 0 then .ok (0, 0)
    else .ok (windowSearch (fun i => periodogramTransform x i / periodogramTransform x 0)
      x.length 0 (-1 / 3))

end Verif
