import Mathlib.Data.Real.Basic
import Mathlib.Analysis.Real.Sqrt
import Mathlib.Analysis.SpecialFunctions.Exp
import Mathlib.Analysis.SpecialFunctions.Log.Basic
import Mathlib.Analysis.SpecialFunctions.Pow.Real

/-!
# Python values used by the model

Exceptions, floating point operations, arrays, the random number generator.
This file models the Python / numpy runtime that all of `/repo/pymcmcstat` uses; it does not
correspond to a particular file of the repository.
-/

namespace Verif

/-- Python exceptions (and `sys.exit`) as values.  `outOfFuel` stands for a `while` loop that
has not ended within the number of rounds the model was given. `userError` is an exception
raised by a function the user supplied.
Used at `MCMC.py:153`, `samplers/Adaptation.py:422`, `settings/ModelSettings.py:80`,
`settings/ModelSettings.py:125`. -/
inductive PyErr where
  | indexError | valueError | typeError | keyError | attributeError | nameError
  | linAlgError | zeroDivision | sysExit (msg : String) | userError (msg : String) | outOfFuel
  deriving DecidableEq, Repr

/-- Float operations used by the samplers (Python floats and elements of numpy float arrays).
There are **no laws**: a theorem about every `[PyFloat F]` covers IEEE doubles with rounding,
infinities and NaN.  `lt`, `le`, `beq` are the Python comparisons.
Used at `samplers/Metropolis.py:79-83`, `samplers/utilities.py:15-32`, `samplers/utilities.py:105-117`,
`samplers/utilities.py:121-133`, `samplers/Adaptation.py:160-182`, `samplers/Adaptation.py:337-357`,
`procedures/ErrorVarianceEstimator.py:106-134`. -/
class PyFloat (F : Type) extends Add F, Sub F, Mul F, Div F, Neg F where
  /-- literals of the source, and conversions of Python ints -/
  lit : ℚ → F
  sqrt : F → F
  exp : F → F
  log : F → F
  /-- `x ** y` -/
  pow : F → F → F
  inf : F
  nan : F
  isnan : F → Bool
  isinf : F → Bool
  lt : F → F → Bool
  le : F → F → Bool
  beq : F → F → Bool

export PyFloat (lit)

/-- Python's `min(a, b)`: `b` if `b < a`, else `a`.
Used at `samplers/Adaptation.py:355`, `samplers/DelayedRejection.py:150`. -/
def pyMin {F : Type} [PyFloat F] (a b : F) : F := if PyFloat.lt b a then b else a

/-- Python's `abs` on floats.
Used at `procedures/CovarianceProcedures.py:132`, `ParallelMCMC.py:194`, `ParallelMCMC.py:197`. -/
def pyAbs {F : Type} [PyFloat F] (a : F) : F := if PyFloat.lt a (lit 0) then -a else a

/-- one-dimensional numpy array of known length.
Used at `structures/ParameterSet.py:10-28`, `samplers/utilities.py:15-32`. -/
abbrev Vec (F : Type) (n : ℕ) := Fin n → F
/-- two-dimensional square numpy array of known size.
Used at `structures/ParameterSet.py:10-28`, `samplers/utilities.py:15-32`. -/
abbrev Mat (F : Type) (n : ℕ) := Fin n → Fin n → F

section arrays
variable {F : Type} [PyFloat F] {n : ℕ}

/-- `x.sum()`, and Python's `sum(x)`: left to right, starting from 0.
Used at `samplers/Metropolis.py:80-81`, `samplers/DelayedRejection.py:144-145`. -/
def lsum (l : List F) : F := l.foldl (· + ·) (lit 0)
/-- `x.sum()`. Used at `samplers/Metropolis.py:80-81`, `samplers/DelayedRejection.py:144-145`. -/
def vsum (x : Vec F n) : F := lsum (List.ofFn x)
/-- `np.dot(z, R)` for a row vector `z`.
Used at `samplers/utilities.py:30`, `samplers/DelayedRejection.py:176`. -/
def vecMat (z : Vec F n) (R : Mat F n) : Vec F n := fun j => vsum fun i => z i * R i j
/-- `np.dot(A, B)`. Used at `samplers/Adaptation.py:355-356`, `MCMC.py:383`. -/
def matMul (A B : Mat F n) : Mat F n := fun i j => vsum fun k => A i k * B k j
/-- `A.transpose()`. Used at `samplers/Adaptation.py:355-356`, `MCMC.py:383`. -/
def matT (A : Mat F n) : Mat F n := fun i j => A j i
/-- `A * s` for a scalar `s`. Used at `samplers/Adaptation.py:177`, `samplers/Adaptation.py:460`. -/
def matScale (A : Mat F n) (s : F) : Mat F n := fun i j => A i j * s
/-- `A + B`. Used at `samplers/Adaptation.py:355`, `samplers/Adaptation.py:460`. -/
def matAdd (A B : Mat F n) : Mat F n := fun i j => A i j + B i j
/-- `np.eye(n)`. Used at `samplers/Adaptation.py:355`, `samplers/Adaptation.py:460`. -/
def matEye : Mat F n := fun i j => if i = j then lit 1 else lit 0

end arrays

/-- assignment `l[i] = x` to a row of an array: `IndexError` outside.
Used at `MCMC.py:282-411`, `MCMC.py:558-576`. -/
def pySet {α : Type} (l : List α) (i : ℕ) (x : α) : Except PyErr (List α) :=
  if i < l.length then .ok (l.set i x) else .error .indexError

/-- read `l[i]` with a non-negative index: `IndexError` outside.
Used at `samplers/DelayedRejection.py:50-55`, `samplers/DelayedRejection.py:181-195`. -/
def pyGet {α : Type} (l : List α) (i : ℕ) : Except PyErr α :=
  match l[i]? with
  | some x => .ok x
  | none => .error .indexError

/-- use of a value that may be `None`, raising `e` if it is.
Used at `samplers/Adaptation.py:35-95`, `samplers/Adaptation.py:495`, `procedures/CovarianceProcedures.py:175`. -/
def orRaise {α : Type} (o : Option α) (e : PyErr) : Except PyErr α :=
  match o with
  | some x => .ok x
  | none => .error e

/-- the slice `l[a:b]` with non-negative bounds. Used at `samplers/Adaptation.py:35-95`, `MCMC.py:501-525`. -/
def pySlice {α : Type} (l : List α) (a b : ℕ) : List α := (l.take b).drop a

/-- numpy's global random generator: a state and the two kinds of draws the samplers make.
Used at `samplers/utilities.py:29`, `samplers/utilities.py:115`, `samplers/utilities.py:130`,
`procedures/ErrorVarianceEstimator.py:106-135`. -/
structure Rng (σ F : Type) where
  /-- `np.random.randn(1, n)` -/
  randn : (n : ℕ) → σ → Vec F n × σ
  /-- `np.random.rand(1, 1)`, `np.random.rand(1)` -/
  rand : σ → F × σ

/-! ### Extended reals with the IEEE rules for special values -/

/-- Real numbers plus `nan`, `-inf`, `+inf`.  Arithmetic on finite values is exact
(no rounding, no signed zero); the special values follow IEEE 754.
Used at `samplers/Metropolis.py:79-83`, `samplers/utilities.py:105-117`, `samplers/utilities.py:121-133`,
`samplers/DelayedRejection.py:116-152`, `samplers/DelayedRejection.py:156-177`,
`procedures/ErrorVarianceEstimator.py:106-134`. -/
inductive XR where
  | nan | ninf | fin (x : ℝ) | pinf

namespace XR
open Classical

noncomputable section

/-- `-x`. Used at `samplers/Metropolis.py:80-83`. -/
def neg : XR → XR
  | nan => nan | ninf => pinf | fin x => fin (-x) | pinf => ninf

/-- `x + y`. Used at `samplers/utilities.py:30`. -/
def add : XR → XR → XR
  | nan, _ => nan | _, nan => nan
  | fin x, fin y => fin (x + y)
  | pinf, ninf => nan | ninf, pinf => nan
  | pinf, _ => pinf | _, pinf => pinf
  | ninf, _ => ninf | _, ninf => ninf

/-- infinity times a finite factor. Used at `samplers/Metropolis.py:80-83`. -/
def infMul (x : ℝ) : XR := if 0 < x then pinf else if x < 0 then ninf else nan

/-- `x * y`. Used at `samplers/Metropolis.py:80-83`. -/
def mul : XR → XR → XR
  | nan, _ => nan | _, nan => nan
  | fin x, fin y => fin (x * y)
  | pinf, fin x => infMul x | fin x, pinf => infMul x
  | ninf, fin x => neg (infMul x) | fin x, ninf => neg (infMul x)
  | pinf, pinf => pinf | ninf, ninf => pinf
  | pinf, ninf => ninf | ninf, pinf => ninf

/-- numpy division: `x/0` is signed infinity or nan, `inf/0` is `inf`.
Used at `samplers/Metropolis.py:80-81`. -/
def div : XR → XR → XR
  | nan, _ => nan | _, nan => nan
  | fin x, fin y => if y = 0 then infMul x else fin (x / y)
  | fin _, _ => fin 0
  | pinf, fin y => if y < 0 then ninf else pinf
  | ninf, fin y => if y < 0 then pinf else ninf
  | _, _ => nan

/-- `np.sqrt`. Used at `procedures/CovarianceProcedures.py:139-145`. -/
def sqrt : XR → XR
  | nan => nan | ninf => nan | pinf => pinf
  | fin x => if x < 0 then nan else fin (Real.sqrt x)

/-- `np.exp`. Used at `samplers/DelayedRejection.py:150`. -/
def exp : XR → XR
  | nan => nan | ninf => fin 0 | pinf => pinf
  | fin x => fin (Real.exp x)

/-- `np.log`. Used at `samplers/utilities.py:130`, `procedures/ErrorVarianceEstimator.py:131`. -/
def log : XR → XR
  | nan => nan | ninf => nan | pinf => pinf
  | fin x => if x < 0 then nan else if x = 0 then ninf else fin (Real.log x)

/-- `x ** y`; only finite non-negative bases with finite exponents are given a finite value.
Used at `procedures/ErrorVarianceEstimator.py:115-120`, `samplers/Adaptation.py:354`. -/
def pow : XR → XR → XR
  | fin x, fin y =>
      if 0 < x then fin (x ^ y)
      else if x = 0 then (if 0 < y then fin 0 else if y = 0 then fin 1 else pinf)
      else nan
  | _, _ => nan

/-- `x < y`, false if one is nan. Used at `samplers/utilities.py:115`, `samplers/utilities.py:130`. -/
def lt : XR → XR → Bool
  | nan, _ => false | _, nan => false
  | fin x, fin y => decide (x < y)
  | ninf, ninf => false | ninf, _ => true
  | _, ninf => false
  | pinf, _ => false | _, pinf => true

/-- `x == y`, false if one is nan. Used at `settings/ModelSettings.py:119-133`. -/
def beq : XR → XR → Bool
  | fin x, fin y => decide (x = y)
  | ninf, ninf => true | pinf, pinf => true
  | _, _ => false

/-- these operations as the operations of the samplers.
Used at `samplers/Metropolis.py:79-83`, `samplers/utilities.py:105-117`, `samplers/utilities.py:121-133`,
`samplers/DelayedRejection.py:116-152`, `samplers/DelayedRejection.py:156-177`,
`procedures/ErrorVarianceEstimator.py:106-134`. -/
instance : PyFloat XR where
  lit q := fin q
  add := add
  sub a b := add a (neg b)
  mul := mul
  div := div
  neg := neg
  sqrt := sqrt
  exp := exp
  log := log
  pow := pow
  inf := pinf
  nan := nan
  isnan | nan => true | _ => false
  isinf | pinf => true | ninf => true | _ => false
  lt := lt
  le a b := lt a b || beq a b
  beq := beq

end
end XR
end Verif
