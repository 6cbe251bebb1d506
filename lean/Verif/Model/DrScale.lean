import Verif.Model.Adaptation

/-! # The scales of the delayed rejection stages, by the type of the numbers given

`drscale` is kept as the user gives it (`settings/SimulationOptions.py:141`), and its entries are raised to the power
`-1`.  That depends on the type of the entry.  `Model/Adaptation.lean` is the case of floating-point numbers.
-/

namespace Verif
variable {F : Type} [PyFloat F] {n : ℕ}

/-- the forms of `drscale` (`settings/SimulationOptions.py:30,141`): a list of Python numbers, an array of
floating-point numbers, an array of integers; all hold the numbers as members of `F` -/
inductive DrScale (F : Type) where
  | list (l : List F)
  | floatArray (l : List F)
  | intArray (l : List F)

/-- the numbers in `drscale`.
Source: `samplers/Adaptation.py:474-499`, `procedures/CovarianceProcedures.py:170-183`. -/
def DrScale.values : DrScale F → List F
  | .list l => l
  | .floatArray l => l
  | .intArray l => l

/-- `drscale[min(ii, len(drscale))-1]**(-1)`, `procedures/CovarianceProcedures.py:177`,
`samplers/Adaptation.py:497`.  Python numbers: `ZeroDivisionError` for zero.  Array of integers: numpy raises
`ValueError` ("Integers to negative integer powers are not allowed"). -/
def DrScale.invAt (d : DrScale F) (ii : ℕ) : Except PyErr F := do
  let s ← drscaleAt d.values ii
  match d with
  | .list _ => if PyFloat.beq s (lit 0) then .error .zeroDivision else .ok (lit 1 / s)
  | .floatArray _ => .ok (lit 1 / s)
  | .intArray _ => .error .valueError

/-- the loop of `__setup_RDR_matrix`, `procedures/CovarianceProcedures.py:176-178` -/
def rdrSetupLoopOf (L : Lapack F) (d : DrScale F) : (k ii : ℕ) → (R : Mat F n) →
    Except PyErr (List (Mat F n) × List (Mat F n))
  | 0, _, _ => .ok ([], [])
  | k + 1, ii, R => do
      let s ← d.invAt ii
      let R' := matScale R s
      let iR' ← orRaise (L.inverse R') .linAlgError
      let (l, il) ← rdrSetupLoopOf L d k (ii + 1) R'
      .ok (R' :: l, iR' :: il)

/-- `__setup_RDR_matrix`, `procedures/CovarianceProcedures.py:170-183` -/
def setupRDRMatrixOf (L : Lapack F) (R : Mat F n) (ntry : ℕ) (d : DrScale F)
    (RDR : Option (List (Mat F n))) :
    Except PyErr (Mat F n × List (Mat F n) × List (Mat F n)) :=
  match RDR with
  | none => do
      let iR ← orRaise (L.inverse R) .linAlgError
      let (l, il) ← rdrSetupLoopOf L d (ntry - 1) 1 R
      .ok (R, R :: l, iR :: il)
  | some RDR => do
      let inv ← rdrInverses L RDR ntry 0
      let R0 ← pyGet RDR 0
      .ok (R0, RDR, inv)

/-- the loop of `update_delayed_rejection`, `samplers/Adaptation.py:496-498` -/
def drFactorLoopOf (d : DrScale F) : (k ii : ℕ) → (R iR : Mat F n) →
    Except PyErr (List (Mat F n) × List (Mat F n))
  | 0, _, _, _ => .ok ([], [])
  | k + 1, ii, R, iR => do
      let v ← d.invAt ii
      let s ← drscaleAt d.values ii
      let R' := matScale R v
      let iR' := matScale iR s
      let (l, il) ← drFactorLoopOf d k (ii + 1) R' iR'
      .ok (R' :: l, iR' :: il)

/-- `update_delayed_rejection`, `samplers/Adaptation.py:474-499` -/
def updateDelayedRejectionOf (L : Lapack F) (R : Mat F n) (ntry : ℕ) (d : DrScale F) :
    Except PyErr (Slot (List (Mat F n)) × Option (List (Mat F n))) :=
  if 1 < ntry then do
    let iR ← orRaise (L.inverse R) .linAlgError
    let (l, il) ← drFactorLoopOf d (ntry - 1) 1 R iR
    .ok (.some (R :: l), some (iR :: il))
  else .ok (.pyNone, none)

end Verif
