import Verif.Model.Mcmc

/-! # Vocabulary for statements about runs

Nothing here refers to the inner workings of the model: only to the user's parameter table, the
user's functions and what a run returns.
-/

namespace Verif
variable {F σ : Type} [PyFloat F] {N m : ℕ}

/-- The full parameter vector `v` belongs to the chain row `row`: read at the sampled parameters
in their order it is the row, everywhere else it has the value the user gave. -/
def BelongsTo (flags : Fin N → Bool) (specs : Fin N → ParamSpec F) (row : Vec F (nS flags))
    (v : Vec F N) : Prop :=
  ((List.finRange N).filter flags).map v = List.ofFn row ∧
  ∀ k, flags k = false → v k = (specs k).theta0

/-- The user's sum-of-squares function has the value `ss` at the full vector `v`: a function
supplied as sum-of-squares function is called with the keyword argument `custom` first, and
without it if it does not take it (a `TypeError`). -/
def SosValue {n : ℕ} (U : UserFuns F N n m) (v : Vec F N) (ss : Vec F m) : Prop :=
  if U.style1 then
    U.sosFun true v = .ok ss ∨ (U.sosFun true v = .error .typeError ∧ U.sosFun false v = .ok ss)
  else U.sosFun false v = .ok ss

/-- No entry of the row compares below the lower or above the upper limit of its parameter. -/
def InLimits (flags : Fin N → Bool) (specs : Fin N → ParamSpec F) (row : Vec F (nS flags)) : Prop :=
  ∀ i : Fin (nS flags), ∀ k : Fin N, ((List.finRange N).filter flags)[i.val]? = some k →
    PyFloat.lt (row i) (specs k).minimum = false ∧ PyFloat.lt (specs k).maximum (row i) = false

/-- `mu` and `sigma` are the centre and the width of the prior as the user gave them: the prior mean,
or the initial value where none was given (NaN); the prior standard deviation, infinite where it is
zero or negative. -/
def UserPrior (flags : Fin N → Bool) (specs : Fin N → ParamSpec F) (mu sigma : Vec F (nS flags)) : Prop :=
  ∀ i k, ((List.finRange N).filter flags)[i.val]? = some k →
    ((PyFloat.isnan (specs k).priorMu = false → mu i = (specs k).priorMu) ∧
     (PyFloat.isnan (specs k).priorMu = true → mu i = (specs k).theta0)) ∧
    (PyFloat.beq (specs k).priorSigma (lit 0) = false →
      PyFloat.le (specs k).priorSigma (lit 0) = false → sigma i = (specs k).priorSigma) ∧
    (PyFloat.beq (specs k).priorSigma (lit 0) = true ∨
      PyFloat.le (specs k).priorSigma (lit 0) = true → sigma i = PyFloat.inf)

/-- The logarithm of the unnormalised posterior density for sums of squares `ss`, error variances
`sigma2` and the value `prior` of the prior function (minus twice the logarithm of the prior). -/
def logPosterior {m : ℕ} (ss sigma2 : Vec F m) (prior : F) : F :=
  lit (-1/2) * vsum (fun i => ss i / sigma2 i) + lit (-1/2) * prior

/-- The states of an `MCMC` object: it starts as the user set it up, the user may define the
simulation options anew, and it may be run (from scratch or continued), each time with any
random generator. -/
inductive Reachable {flags : Fin N → Bool} (U : UserFuns F N (nS flags) m) (o0 : Obj F flags m) :
    Obj F flags m → Prop
  | start : Reachable U o0 o0
  | options {o : Obj F flags m} (a : OptArgs F) (e : ExtraOpts F (nS flags)) :
      Reachable U o0 o → Reachable U o0 { o with opts := defineSimulationOptions a, extra := e }
  | run {o : Obj F flags m} {σ : Type} (G : Rng σ F) (L : Lapack F) (fuel : ℕ) (rng : σ)
      (usePrevious : Bool) (out : RunOut F σ flags m) :
      Reachable U o0 o → runSimulation U G L fuel o rng usePrevious = .ok out →
      Reachable U o0 out.obj

/-- A move: the row repeats the one before if no proposal of the iteration was accepted; otherwise
it is the accepted proposal, which is the last one made in the iteration and lies inside. -/
def Move {n : ℕ} (prev row : Vec F n) (proposals : List (Try F n)) : Prop :=
  (row = prev ∧ ∀ t ∈ proposals, t.accepted = false) ∨
  ∃ pre t, proposals = pre ++ [t] ∧ t.accepted = true ∧ t.outside = false ∧ row = t.theta ∧
    ∀ u ∈ pre, u.accepted = false

/-- a move that was rejected: no proposal of the iteration was accepted -/
def Rejection {n : ℕ} (ts : List (Try F n)) : Bool := ts.all fun t => !t.accepted

/-- a move accepted at stage `k + 1`: exactly `k + 1` proposals were made, one of them accepted -/
def AcceptedAtStage {n : ℕ} (k : ℕ) (ts : List (Try F n)) : Bool :=
  decide (ts.length = k + 1) && !Rejection ts

end Verif
