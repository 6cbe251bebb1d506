import Verif.Model.Settings

/-!
# The package's own prior and sum-of-squares functions

Model of `PriorFunction.default_priorfun` and `SumOfSquares.mcmc_sos_function`, which are used when
the user supplies no function.
-/

namespace Verif
variable {F : Type} [PyFloat F]

/-- `default_priorfun(theta, mu, sigma)`, `procedures/PriorFunction.py:33-52` -/
def defaultPriorfun {n : ℕ} (theta mu sigma : Vec F n) : F :=
  vsum fun i => (mu i - theta i) / sigma i * ((mu i - theta i) / sigma i)

/-- A numpy array with one or two axes.  An array with one axis is given as a single row, as numpy
treats it when it is combined with an array with two axes; a number is a 1×1 array.
Source: `procedures/SumOfSquares.py:71-105`, `procedures/PriorFunction.py:34-52`. -/
structure Arr (F : Type) where
  rows : ℕ
  cols : ℕ
  val : ℕ → ℕ → F

/-- numpy's rule for two lengths of one axis.
Source: `procedures/SumOfSquares.py:71-105`, `procedures/PriorFunction.py:34-52`. -/
def broadcastLen (a b : ℕ) : Except PyErr ℕ :=
  if a = b then .ok a else if a = 1 then .ok b else if b = 1 then .ok a else .error .valueError

/-- the index used in an axis of length `len`.
Source: `procedures/SumOfSquares.py:71-105`, `procedures/PriorFunction.py:34-52`. -/
def broadcastIdx (len i : ℕ) : ℕ := if len = 1 then 0 else i

/-- `weight*(ydata-ymodel)**2`, `procedures/SumOfSquares.py:104` -/
def weightedSquares (weight : F) (y ym : Arr F) : Except PyErr (Arr F) := do
  let r ← broadcastLen y.rows ym.rows
  let c ← broadcastLen y.cols ym.cols
  let d : ℕ → ℕ → F := fun i j => y.val (broadcastIdx y.rows i) (broadcastIdx y.cols j) -
    ym.val (broadcastIdx ym.rows i) (broadcastIdx ym.cols j)
  .ok ⟨r, c, fun i j => weight * (d i j * d i j)⟩

/-- `ss[ibatch] += sum(a)`, `procedures/SumOfSquares.py:104`: Python's `sum` adds the rows; one number
can be assigned only if there is one column.  (No rows: the sum is the number 0.) -/
def batchSum (a : Arr F) : Except PyErr F :=
  if a.rows = 0 then .ok (lit 0 + lit 0)
  else if a.cols = 1 then .ok (lit 0 + lsum ((List.range a.rows).map fun i => a.val i 0))
  else .error .valueError

/-- one data set: `data.xdata[i]`, `data.ydata[i]`, `data.weight[i]`.
Source: `procedures/SumOfSquares.py:71-105`, `settings/DataStructure.py:42-99`. -/
structure Batch (X F : Type) where
  xdata : X
  ydata : Arr F
  weight : F

/-- `mcmc_sos_function(theta, data, nbatch, model_function)`, `procedures/SumOfSquares.py:71-105` -/
def mcmcSosFunction {X T : Type} (theta : T) (data : List (Batch X F)) (nbatch : ℕ)
    (model : X → T → Except PyErr (Arr F)) : Except PyErr (List F) :=
  (List.range nbatch).mapM fun ibatch => do
    let b ← pyGet data ibatch
    let ym ← model b.xdata theta
    let sq ← weightedSquares b.weight b.ydata ym
    batchSum sq

end Verif
