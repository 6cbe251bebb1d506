import Verif.Model.Mcmc

/-! # A small concrete problem

Used only in the examples beside the theorems, to show that their hypotheses can be met.  The
numbers are rationals with crude stand-ins for the transcendental functions (the theorems that use
this file hold for every choice of the float operations); everything can be computed.
-/

namespace Verif

/-- used in the examples: a computation that succeeds has a result -/
theorem exists_ok {ε α : Type} {x : Except ε α} (h : x.toOption.isSome = true) :
    ∃ a, x = .ok a := by
  cases x with
  | ok a => exact ⟨a, rfl⟩
  | error e => simp [Except.toOption] at h

/-- used in the examples: a computation that succeeds with a result for which `p` holds -/
theorem exists_ok_and {ε α : Type} {x : Except ε α} (p : α → Bool)
    (h : x.toOption.map p = some true) : ∃ a, x = .ok a ∧ p a = true := by
  cases x with
  | ok a => exact ⟨a, rfl, by simpa [Except.toOption] using h⟩
  | error e => simp [Except.toOption] at h

end Verif

namespace Verif.Toy

/-- rationals as "floats" -/
instance : PyFloat ℚ where
  lit q := q
  sqrt x := x
  exp x := 1 + x
  log x := x - 1
  pow x _ := x
  inf := 1000000
  nan := -1000000
  isnan x := decide (x = -1000000)
  isinf x := decide (x = 1000000)
  lt a b := decide (a < b)
  le a b := decide (a ≤ b)
  beq a b := decide (a = b)

/-- a generator that walks through a table of draws -/
def rng : Rng ℕ ℚ where
  randn _ s := (fun i => ([1, -2, 1, 3, -1] : List ℚ).getD ((s + i.val) % 5) 0, s + 1)
  rand s := (([1/4, 3/4, 1/8] : List ℚ).getD (s % 3) 0, s + 1)

/-- stand-ins for LAPACK -/
def lapack : Lapack ℚ := ⟨fun M => some M, fun M => some M⟩

/-- three parameters, the second is not sampled -/
def flags : Fin 3 → Bool := ![true, false, true]

def spec (name : String) (v : ℚ) (s : Bool) : ParamSpec ℚ := ⟨name, v, -2, 4, -1000000, 1000000, s, 0, true⟩

def specs : Fin 3 → ParamSpec ℚ := ![spec "a" 1 true, spec "b" 7 false, spec "c" 2 true]

/-- sum of squares of all three parameters -/
def user : UserFuns ℚ 3 (nS flags) 1 where
  style1 := true
  sosFun _ v := .ok fun _ => v 0 * v 0 + v 1 * v 1 + v 2 * v 2
  priorFun _ _ _ := 0

def extra : ExtraOpts ℚ (nS flags) :=
  ⟨10, [5, 4, 3], 1/4, 7/10, 1/1000, some (.matrix 3 fun i j => if i = j then 1 else 0), none, none⟩

def opts (method : Method) (nsimu : ℤ) : SimOpts ℚ :=
  defineSimulationOptions { method := method, nsimu := nsimu, savesize := 2 }

def settings : ModelSettings ℚ := defineModelSettings none none none none none

def data : Data := addDataSet {} (.array [5]) (.array [5])

/-- the object before any run -/
def obj (method : Method) (nsimu : ℤ) : Obj ℚ flags 1 :=
  newObj specs (opts method nsimu) extra settings data

/-- a run from scratch -/
def run (method : Method) (nsimu : ℤ) : Except PyErr (RunOut ℚ ℕ flags 1) :=
  runSimulation user rng lapack 100 (obj method nsimu) 0 false

end Verif.Toy

namespace Verif.Toy

/-- a run from scratch with error-variance sampling, then new options, then a continuation of the
same object -/
def twice (method : Method) (nsimu nsimu2 : ℤ) :
    Except PyErr (RunOut ℚ ℕ flags 1 × RunOut ℚ ℕ flags 1) := do
  let a ← runSimulation user rng lapack 100
    (newObj specs { opts method nsimu with updatesigma := true } extra settings data) 0 false
  let b ← runSimulation user rng lapack 100
    { a.obj with opts := { opts method nsimu2 with updatesigma := true }, extra := extra } 3 true
  .ok (a, b)

end Verif.Toy
