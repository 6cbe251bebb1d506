import Verif.Model.Py
import Mathlib.Algebra.BigOperators.Group.List.Basic

/-! # Vocabulary for statements about sample moments

Weighted mean and covariance of a list of rows, as in a textbook. -/

namespace Verif
variable {n : ℕ}

/-- sum of the weights of a weighted sample -/
def wSum (l : List ((Fin n → ℝ) × ℝ)) : ℝ := (l.map Prod.snd).sum

/-- weighted sample mean -/
noncomputable def wMean (l : List ((Fin n → ℝ) × ℝ)) (i : Fin n) : ℝ :=
  (l.map fun p => p.2 * p.1 i).sum / wSum l

/-- weighted sum of squares and products about the point `c` -/
def wScatter (c : Fin n → ℝ) (l : List ((Fin n → ℝ) × ℝ)) (i j : Fin n) : ℝ :=
  (l.map fun p => p.2 * ((p.1 i - c i) * (p.1 j - c j))).sum

/-- weighted sample covariance, with denominator (sum of weights - 1) -/
noncomputable def wCov (l : List ((Fin n → ℝ) × ℝ)) (i j : Fin n) : ℝ :=
  wScatter (wMean l) l i j / (wSum l - 1)

/-- sample mean of rows -/
noncomputable def sampleMean (rows : List (Fin n → ℝ)) (i : Fin n) : ℝ :=
  (rows.map fun r => r i).sum / rows.length

/-- unbiased sample covariance of rows (zero for a single row) -/
noncomputable def sampleCov (rows : List (Fin n → ℝ)) (i j : Fin n) : ℝ :=
  (rows.map fun r => (r i - sampleMean rows i) * (r j - sampleMean rows j)).sum / (rows.length - 1)

/-- an array of the code with finite entries -/
def finVec (r : Fin n → ℝ) : Vec XR n := fun i => .fin (r i)
/-- a matrix of the code with finite entries -/
def finMat (M : Fin n → Fin n → ℝ) : Mat XR n := fun i j => .fin (M i j)

/-- the rows of a weighted sample as the code gets them -/
def rowsOf (l : List ((Fin n → ℝ) × ℝ)) : List (Vec XR n) := l.map fun p => finVec p.1
/-- the weights of a weighted sample as the code gets them -/
def weightsOf (l : List ((Fin n → ℝ) × ℝ)) : List XR := l.map fun p => .fin p.2

end Verif
