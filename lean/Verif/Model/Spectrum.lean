import Mathlib.Analysis.SpecialFunctions.Trigonometric.Basic
import Verif.Model.Py

/-!
# Power spectral density

Models `power_spectral_density_using_hanning_window`, `/repo/pymcmcstat/chain/ChainStatistics.py:287-326`, for
all frequencies, over the reals.  `scipy.fftpack.fft` is the discrete Fourier transform of its first
`nfft` arguments (filled up with zeros), and refuses `nfft = 0`.
-/

namespace Verif

/-- the window, `chain/ChainStatistics.py:305` -/
noncomputable def hannWindow (nw i : ℕ) : ℝ := 1 / 2 * (1 - Real.cos (2 * Real.pi * (i + 1) / (nw + 1)))

/-- `np.abs(fft(v, nfft)**2)[j]`, `chain/ChainStatistics.py:319` -/
noncomputable def fftPower (v : List ℝ) (nfft j : ℕ) : ℝ :=
  ((List.range nfft).map fun t => v.getD t 0 * Real.cos (2 * Real.pi * j * t / nfft)).sum ^ 2 +
  ((List.range nfft).map fun t => v.getD t 0 * Real.sin (2 * Real.pi * j * t / nfft)).sum ^ 2

/-- `power_spectral_density_using_hanning_window(x, nfft, nw)`, `chain/ChainStatistics.py:287-326`: the entries
of the returned column.  In the branch `n < nw` (line 308) `x[nw+1]` is never an entry of `x`.
`np.linalg.norm(w)**2` is the sum of squares. -/
noncomputable def powerSpectrum (x : List ℝ) (nfft nw : Option ℕ) : Except PyErr (List ℝ) :=
  let nfft := nfft.getD (min x.length 256)
  let nw := nw.getD (nfft / 4)
  let noverlap := nw / 2
  if x.length < nw then .error .indexError
  else if nw - noverlap = 0 then .error .zeroDivision
  else if nfft = 0 then .error .valueError
  else do
    let k := (x.length - noverlap) / (nw - noverlap)
    let kmu := (k : ℝ) * ((List.range nw).map fun i => hannWindow nw i ^ 2).sum
    let ws ← (List.range k).mapM fun ii => (List.range nw).mapM fun i =>
      (pyGet x (ii * (nw - noverlap) + i)).map fun v => hannWindow nw i * v
    .ok ((List.range (nfft / 2)).map fun j => (ws.map fun w => fftPower w nfft j).sum * (1 / kmu))

end Verif
