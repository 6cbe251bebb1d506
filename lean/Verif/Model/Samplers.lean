import Verif.Model.Py

/-!
# Metropolis and delayed rejection

Models `/repo/pymcmcstat/samplers/utilities.py`, `samplers/Metropolis.py`,
`samplers/DelayedRejection.py`, `structures/ParameterSet.py` and
`procedures/SumOfSquares.py` (evaluation).
-/

namespace Verif
variable {F σ : Type} [PyFloat F] {N n m : ℕ}

/-- `structures/ParameterSet.py:11-24`.  `ss` of a set outside the limits is the scalar
`np.inf` in the code; here it is the constant array (every use divides it by the array
`sigma2` and sums, which broadcasts).  `alpha` is `None` until set. -/
structure ParamSet (F : Type) (n m : ℕ) where
  theta : Vec F n
  ss : Vec F m
  prior : F
  sigma2 : Vec F m
  alpha : Option F

/-- What a run needs to know about the user's problem: `settings/ModelParameters.py`
(`_parind`, limits restricted to the sampled parameters), `procedures/SumOfSquares.py:26-41`
and `procedures/PriorFunction.py:22-31`.
`N` parameters, `n` of them sampled, sum-of-squares arrays of length `m`. -/
structure Problem (F : Type) (N n m : ℕ) where
  /-- position of each sampled parameter in the full parameter vector -/
  parind : Fin n → Fin N
  lower : Vec F n
  upper : Vec F n
  /-- `sos_style == 1` (the user gave a sum-of-squares function) or `4` -/
  style1 : Bool
  /-- the user's function; the flag says whether the keyword `custom` is passed.
  For `sos_style == 4` it is the default function with the user's model function. -/
  sosFun : Bool → Vec F N → Except PyErr (Vec F m)
  /-- `PriorFunction.evaluate_prior`, `procedures/PriorFunction.py:54-61` -/
  prior : Vec F n → F

/-- The mutable surroundings of a step: numpy's generator, the array `SumOfSquares.value`
and (ghost, for stating properties) the list of all argument vectors the user's
sum-of-squares function has been called with, newest first.
Source: `procedures/SumOfSquares.py:43-68`, `samplers/Metropolis.py:40-88`. -/
structure World (F σ : Type) (N : ℕ) where
  rng : σ
  value : Vec F N
  calls : List (Vec F N)

/-- `self.value[self.parind] = theta`, `procedures/SumOfSquares.py:54`.
(With pairwise different indices the order of the writes does not matter; as in numpy the
last write wins.) -/
def writeAt (parind : Fin n → Fin N) (theta : Vec F n) (value : Vec F N) : Vec F N :=
  fun k => match (List.finRange n).reverse.find? (fun i => parind i = k) with
    | some i => theta i
    | none => value k

/-- `SumOfSquares.evaluate_sos_function`, `procedures/SumOfSquares.py:43-68`.
Style 1 calls with the keyword first and again without it on `TypeError`. -/
def evaluateSos (P : Problem F N n m) (theta : Vec F n) (w : World F σ N) :
    Except PyErr (Vec F m × World F σ N) :=
  let value := writeAt P.parind theta w.value
  if P.style1 then
    match P.sosFun true value with
    | .ok ss => .ok (ss, { w with value := value, calls := value :: w.calls })
    | .error .typeError =>
        match P.sosFun false value with
        | .ok ss => .ok (ss, { w with value := value, calls := value :: value :: w.calls })
        | .error e => .error e
    | .error e => .error e
  else
    match P.sosFun false value with
    | .ok ss => .ok (ss, { w with value := value, calls := value :: w.calls })
    | .error e => .error e

/-- `sample_candidate_from_gaussian_proposal`, `samplers/utilities.py:15-32`. -/
def sampleCandidate (G : Rng σ F) (oldpar : Vec F n) (R : Mat F n) (w : World F σ N) :
    Vec F n × Vec F n × World F σ N :=
  let d := G.randn n w.rng
  (fun j => oldpar j + vecMat d.1 R j, d.1, { w with rng := d.2 })

/-- `is_sample_outside_bounds`, `samplers/utilities.py:36-52`. -/
def isOutside (theta lower upper : Vec F n) : Bool :=
  (List.finRange n).any (fun i => PyFloat.lt (theta i) (lower i)) ||
  (List.finRange n).any (fun i => PyFloat.lt (upper i) (theta i))

/-- `set_outside_bounds`, `samplers/utilities.py:85-101`. -/
def setOutsideBounds (s : ParamSet F n m) : ParamSet F n m :=
  { s with alpha := some (lit 0), prior := lit 0, ss := fun _ => PyFloat.inf }

/-- `posterior_ratio_acceptance_test`, `samplers/utilities.py:105-117`: the uniform number is
only drawn when `alpha >= 1` fails. -/
def posteriorRatioTest (G : Rng σ F) (alpha : F) (w : World F σ N) : Bool × World F σ N :=
  if PyFloat.le (lit 1) alpha then (true, w)
  else
    let d := G.rand w.rng
    (PyFloat.lt d.1 alpha, { w with rng := d.2 })

/-- `log_posterior_ratio_acceptance_test`, `samplers/utilities.py:121-133`. -/
def logPosteriorRatioTest (G : Rng σ F) (alpha : F) (w : World F σ N) : Bool × World F σ N :=
  let d := G.rand w.rng
  (PyFloat.lt (PyFloat.log d.1) alpha, { w with rng := d.2 })

/-- `calculate_log_posterior_ratio`, `samplers/utilities.py:137-170`. -/
def calcLogPosteriorRatio (loglikestar loglike logpriorstar logprior : F) : F :=
  loglikestar + logpriorstar - (loglike + logprior)

/-- `-0.5*(ss/sigma2).sum()`, `samplers/Metropolis.py:80-81`, `samplers/DelayedRejection.py:144-145`. -/
def logLike (ss sigma2 : Vec F m) : F := lit (-1/2) * vsum (fun i => ss i / sigma2 i)

/-- Result of a Metropolis step or of delayed rejection.
Source: `samplers/Metropolis.py:40-88`, `samplers/DelayedRejection.py:28-79`. -/
structure StepOut (F σ : Type) (N n m : ℕ) where
  accept : Bool
  newSet : ParamSet F n m
  outbound : Bool
  world : World F σ N

/-- `Metropolis.run_metropolis_step`, `samplers/Metropolis.py:40-88`.  The second component is
`npar_sample_from_normal`. -/
def runMetropolisStep (P : Problem F N n m) (G : Rng σ F) (old : ParamSet F n m)
    (R : Mat F n) (w : World F σ N) : Except PyErr (StepOut F σ N n m × Vec F n) :=
  let c := sampleCandidate G old.theta R w
  let newpar := c.1
  let z := c.2.1
  let w1 := c.2.2
  if isOutside newpar P.lower P.upper then
    -- newset = ParameterSet(theta=newpar, sigma2=sigma2); set_outside_bounds fills the rest
    let s : ParamSet F n m :=
      setOutsideBounds ⟨newpar, fun _ => PyFloat.inf, lit 0, old.sigma2, none⟩
    .ok (⟨false, s, true, w1⟩, z)
  else do
    let newprior := P.prior newpar
    let e ← evaluateSos P newpar w1
    let ss1 := e.1
    let alpha := calcLogPosteriorRatio (logLike ss1 old.sigma2) (logLike old.ss old.sigma2)
      (lit (-1/2) * newprior) (lit (-1/2) * old.prior)
    let t := logPosteriorRatioTest G alpha e.2
    .ok (⟨t.1, ⟨newpar, ss1, newprior, old.sigma2, some alpha⟩, false, t.2⟩, z)

/-! ### Delayed rejection -/

/-- squared Euclidean norm, `np.linalg.norm(v)**2` in `samplers/DelayedRejection.py:176`
(the root and the square are not executed separately here). -/
def normSq (v : Vec F n) : F := vsum fun i => v i * v i

/-- `nth_stage_log_proposal_ratio` with `extract_state_elements`,
`samplers/DelayedRejection.py:156-194`. -/
def nthStageLogProposalRatio (iq : ℕ) (path : List (ParamSet F n m)) (invR : List (Mat F n)) :
    Except PyErr F :=
  let stage := path.length - 1 - 1
  if stage = iq then .ok (lit 0)
  else do
    let iR ← pyGet invR iq
    let y1 ← pyGet path 0
    let y2 ← pyGet path (iq + 1)
    let y3 ← pyGet path (stage + 1)
    let y4 ← pyGet path (stage - iq)
    .ok (lit (-1/2) *
      (normSq (vecMat (fun i => y4.theta i - y3.theta i) iR)
        - normSq (vecMat (fun i => y2.theta i - y1.theta i) iR)))

/-- lines 140-152 of `alphafun`, `samplers/DelayedRejection.py`: everything after the loop over
the earlier stages, given the two products `a1`, `a2`. Source: `samplers/DelayedRejection.py:140-152`. -/
def alphaFinal (path : List (ParamSet F n m)) (invR : List (Mat F n)) (a1 a2 : F) :
    Except PyErr F := do
  let x1 ← pyGet path 0
  let x2 ← pyGet path (path.length - 1)
  let y0 := calcLogPosteriorRatio (logLike x2.ss x2.sigma2) (logLike x1.ss x1.sigma2)
      (lit (-1/2) * x2.prior) (lit (-1/2) * x1.prior)
  let y ← (List.range (path.length - 1)).foldlM
      (fun y kk => do let z ← nthStageLogProposalRatio kk path invR; .ok (y + z)) y0
  -- min(np.ones(1), np.exp(y)*a2*(a1**(-1)))
  .ok (pyMin (lit 1) (PyFloat.exp y * a2 * (lit 1 / a1)))

/-- the `for kk in range(0, stage - 1)` loop of `alphafun`, `samplers/DelayedRejection.py:132-139`,
over the remaining indices.  `rec` is the recursive call `self.alphafun(_, invR)` (with the call
counter as state).  `none` is the early `return` of zero. -/
def alphaLoop (rec : List (ParamSet F n m) → ℕ → Except PyErr (F × ℕ))
    (path : List (ParamSet F n m)) :
    List ℕ → F → F → ℕ → Except PyErr (Option (F × F) × ℕ)
  | [], a1, a2, cnt => .ok (some (a1, a2), cnt)
  | kk :: kks, a1, a2, cnt => do
    -- trypath[0:(kk + 2)]
    let t1 ← rec (path.take (kk + 2)) cnt
    let a1' := a1 * (lit 1 - t1.1)
    -- trypath[stage:stage - kk - 2:-1]
    let t2 ← rec (path.reverse.take (kk + 2)) t1.2
    let a2' := a2 * (lit 1 - t2.1)
    if PyFloat.beq a2' (lit 0) then .ok (none, t2.2)
    else alphaLoop rec path kks a1' a2' t2.2

/-- what `alphafun` returns after its loop, `samplers/DelayedRejection.py:137-152` -/
def alphaTail (path : List (ParamSet F n m)) (invR : List (Mat F n)) (a : Option (F × F)) :
    Except PyErr F :=
  match a with
  | none => .ok (lit 0)
  | some (a1, a2) => alphaFinal path invR a1 a2

/-- `DelayedRejection.alphafun`, `samplers/DelayedRejection.py:116-152`, with a bound on the depth
of the recursion. The last natural number is `self.dr_step_counter`. -/
def alphaDepth (invR : List (Mat F n)) :
    ℕ → List (ParamSet F n m) → ℕ → Except PyErr (F × ℕ)
  | 0, _, _ => .error .outOfFuel
  | d + 1, path, cnt => do
    let r ← alphaLoop (alphaDepth invR d) path (List.range (path.length - 1 - 1)) (lit 1) (lit 1)
      (cnt + 1)
    let al ← alphaTail path invR r.1
    .ok (al, r.2)

/-- `DelayedRejection.alphafun`, `samplers/DelayedRejection.py:116-152`.  Each recursive call is
made on a shorter path (`alphaDepth_eq` in `Lemmas/Alpha.lean` shows that the depth bound is
immaterial). -/
def alphafun (path : List (ParamSet F n m)) (invR : List (Mat F n)) (cnt : ℕ) :
    Except PyErr (F × ℕ) :=
  alphaDepth invR (path.length + 1) path cnt

/-- The delayed-rejection factors as an attribute of the covariance object: never assigned
(`missing`), assigned `None`, or a list of matrices.
Source: `procedures/CovarianceProcedures.py:170-183`, `procedures/CovarianceProcedures.py:85-94`,
`samplers/DelayedRejection.py:50-55`. -/
inductive Slot (α : Type) where
  | missing | pyNone | some (a : α)

/-- reading the attribute and indexing it with `[i]`.
Source: `procedures/CovarianceProcedures.py:170-183`, `procedures/CovarianceProcedures.py:85-94`,
`samplers/DelayedRejection.py:50-55`. -/
def Slot.index {α : Type} (s : Slot (List α)) (i : ℕ) : Except PyErr α :=
  match s with
  | .missing => .error .attributeError
  | .pyNone => .error .typeError
  | .some l => pyGet l i

/-- counters of the delayed-rejection object, `samplers/DelayedRejection.py:105-113` -/
structure DrCount where
  iacce : List ℕ
  steps : ℕ

/-- one proposal made during an iteration (ghost record for stating properties).
Source: `samplers/DelayedRejection.py:28-79`. -/
structure Try (F : Type) (n : ℕ) where
  theta : Vec F n
  outside : Bool
  accepted : Bool

/-- Result of the delayed-rejection loop: the step result, counters, and the tries made.
Source: `samplers/DelayedRejection.py:28-79`. -/
structure DrOut (F σ : Type) (N n m : ℕ) where
  accept : Bool
  /-- unbound before the first round -/
  outSet : Option (ParamSet F n m × Bool)
  world : World F σ N
  count : DrCount
  tries : List (Try F n)

/-- The `while accept is False and itry < ntry` loop of `run_delayed_rejection`,
`samplers/DelayedRejection.py:51-79`; `left` is `ntry - itry`, the matrices are `RDR`, `invR`. -/
def drLoop (P : Problem F N n m) (G : Rng σ F) (old : ParamSet F n m) (sigma2 : Vec F m)
    (RDR : Slot (List (Mat F n))) (invR : Option (List (Mat F n))) :
    (left : ℕ) → (itry : ℕ) → (path : List (ParamSet F n m)) → DrOut F σ N n m →
    Except PyErr (DrOut F σ N n m)
  | 0, _, _, o => .ok o
  | left + 1, itry, path, o => do
      let itry := itry + 1
      let R ← RDR.index (itry - 1)
      let cand := sampleCandidate G old.theta R o.world
      let theta := cand.1
      let w1 := cand.2.2
      if isOutside theta P.lower P.upper then
        let next : ParamSet F n m :=
          setOutsideBounds ⟨theta, fun _ => PyFloat.inf, lit 0, sigma2, none⟩
        drLoop P G old sigma2 RDR invR left itry (path ++ [next])
          { o with outSet := some (old, true), world := w1, tries := o.tries ++ [⟨theta, true, false⟩] }
      else
        let e ← evaluateSos P theta w1
        let next : ParamSet F n m := ⟨theta, e.1, P.prior theta, sigma2, none⟩
        -- `invR` is `None` only together with a missing or `None` `RDR`, which has failed above;
        -- the code would fail in `invR[iq]` inside alphafun
        let inv ← orRaise invR .typeError
        let ac ← alphafun (path ++ [next]) inv o.count.steps
        let next := { next with alpha := some ac.1 }
        let test := posteriorRatioTest G ac.1 e.2
        let accept := test.1
        let old_iacce ← pyGet o.count.iacce (itry - 1)
        let iacce ← pySet o.count.iacce (itry - 1) (old_iacce + if accept then 1 else 0)
        let out : DrOut F σ N n m :=
          ⟨accept, some (if accept then next else old, false), test.2, ⟨iacce, ac.2⟩,
            o.tries ++ [⟨theta, false, accept⟩]⟩
        if accept then .ok out
        else drLoop P G old sigma2 RDR invR left itry (path ++ [next]) out

/-- `DelayedRejection.run_delayed_rejection`, `samplers/DelayedRejection.py:28-79`. -/
def runDelayedRejection (P : Problem F N n m) (G : Rng σ F) (old new : ParamSet F n m)
    (RDR : Slot (List (Mat F n))) (ntry : ℕ) (invR : Option (List (Mat F n)))
    (w : World F σ N) (count : DrCount) :
    Except PyErr (StepOut F σ N n m × DrCount × List (Try F n)) := do
  let o ← drLoop P G old new.sigma2 RDR invR (ntry - 1) 1 [old, new] ⟨false, none, w, count, []⟩
  match o.outSet with
  | some (s, ob) => .ok (⟨o.accept, s, ob, o.world⟩, o.count, o.tries)
  | none => .error .nameError

end Verif
