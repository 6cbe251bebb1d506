import Verif.Model.Report
import Mathlib.Algebra.Order.Floor.Ring
import Mathlib.Algebra.Order.Field.Rat
import Mathlib.Data.Rat.Floor

/-! # The reported covariance for covariances given as arrays of integers

`np.atleast_2d(qcov[:])`, `np.copy` and `np.diagflat` (`procedures/CovarianceProcedures.py:136,158,162`) keep the
type of the entries.  If the user gives an array of integers, `_qcovorig` is one, and the assignment
`covariance._qcovorig[np.ix_(...)] = self.results['qcov']` (`structures/ResultsStructure.py:169`) converts the
numbers to integers.  `Model/Report.lean` is the case of an array of floating-point numbers.
-/

namespace Verif
variable {F σ : Type} [PyFloat F] {N m : ℕ}

/-- the conversion of numpy from floating-point numbers to integers: towards zero (exact numbers; not modelled are
`nan`, `inf` and numbers beyond the integer type, for which numpy gives no defined result).
Source: `structures/ResultsStructure.py:169-170`. -/
def truncRat (x : ℚ) : ℚ := if 0 ≤ x then ⌊x⌋ else ⌈x⌉

/-- `results['qcovorig']`, `structures/ResultsStructure.py:169-170`, if the covariance of the user is an array of
integers: the block of the sampled parameters is converted by `trunc` -/
def reportOfInt {flags : Fin N → Bool} (trunc : F → F) (out : RunOut F σ flags m) : Report F flags :=
  let q := qcovorigOf (setupCovarianceMatrix out.obj.extra.qcov
    (fun k => setupPriorSigma (out.obj.specs k).priorSigma) fun k => (out.obj.specs k).theta0)
  { reportOf out with
    size := q.1
    qcovorig := ixAssign q.2 (fun i => (parindOf flags i).val) fun i j => trunc (out.results.qcov i j) }

end Verif
