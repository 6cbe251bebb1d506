import Verif.Model.Samplers

/-!
# Error variance

Models `/repo/pymcmcstat/procedures/ErrorVarianceEstimator.py`.
-/

namespace Verif
variable {F σ : Type} [PyFloat F] {m : ℕ}

/-- The inner loop `while 1: x = randn; v = 1 + c*x; if v > 0: break`,
`procedures/ErrorVarianceEstimator.py:122-126`. -/
def mtInner (G : Rng σ F) (c : F) : (fuel : ℕ) → σ → Except PyErr (F × F × σ)
  | 0, _ => .error .outOfFuel
  | k + 1, s =>
      let (z, s1) := G.randn 1 s
      let x := z 0
      let v := lit 1 + c * x
      if PyFloat.lt (lit 0) v then .ok (x, v, s1) else mtInner G c k s1

/-- The quick accept test, `procedures/ErrorVarianceEstimator.py:129`. -/
def mtQuick (x u : F) : Bool :=
  PyFloat.lt u (lit 1 - lit (331/10000) * (x * x * x * x))

/-- The exact accept test, `procedures/ErrorVarianceEstimator.py:131`; `v` is already cubed. -/
def mtExact (d x v u : F) : Bool :=
  PyFloat.lt (PyFloat.log u) (lit (1/2) * (x * x) + d * (lit 1 - v + PyFloat.log v))

/-- The outer loop, `procedures/ErrorVarianceEstimator.py:121-132`; returns the cubed `v`. -/
def mtOuter (G : Rng σ F) (c d : F) : (fuel : ℕ) → σ → Except PyErr (F × σ)
  | 0, _ => .error .outOfFuel
  | k + 1, s => do
      let (x, v, s1) ← mtInner G c (k + 1) s
      let v := v * v * v
      let (u, s2) := G.rand s1
      if mtQuick x u then .ok (v, s2)
      else if mtExact d x v u then .ok (v, s2)
      else mtOuter G c d k s2

/-- `_gammar_mt1`, `procedures/ErrorVarianceEstimator.py:106-134`. -/
def gammarMt1 (G : Rng σ F) : (fuel : ℕ) → (a b : F) → σ → Except PyErr (F × σ)
  | 0, _, _, _ => .error .outOfFuel
  | k + 1, a, b, s =>
      if PyFloat.lt a (lit 1) then do
        let (y, s1) ← gammarMt1 G k (lit 1 + a) b s
        let (u, s2) := G.rand s1
        .ok (y * PyFloat.pow u (lit 1 / a), s2)
      else do
        let d := a - lit (1/3)
        let c := lit 1 / PyFloat.sqrt (lit 9 * d)
        let (v, s1) ← mtOuter G c d (k + 1) s
        .ok (b * d * v, s1)

/-- `gammar(1, 1, a, b)`, `procedures/ErrorVarianceEstimator.py:65-104` (a single deviate, the
only use in the package). -/
def gammar (G : Rng σ F) (fuel : ℕ) (a b : F) (s : σ) : Except PyErr (F × σ) :=
  if PyFloat.le a (lit 0) then .ok (lit 0, s) else gammarMt1 G fuel a b s

/-- Where `model.S20` is stored: an array of its own, or the very array `model.sigma2`
(`settings/ModelSettings.py`: the assignment `self.S20 = self.sigma2` without a copy).
Source: `settings/ModelSettings.py:82-114`. -/
inductive S20Ref (F : Type) (m : ℕ) where
  | own (v : Vec F m)
  | aliasSigma2

/-- Error-variance part of the model settings object.  `sigma2`, `S20` and `N0` have been
checked to have one entry per sum-of-squares element; `N` may have another length
(`settings/ModelSettings.py:187-195`). -/
structure ErrModel (F : Type) (m : ℕ) where
  N0 : Vec F m
  N : List F
  S20 : S20Ref F m
  sigma2 : Vec F m

/-- `model.S20[jj]`, read now. Source: `procedures/ErrorVarianceEstimator.py:24-63`. -/
def ErrModel.s20 (M : ErrModel F m) : Vec F m :=
  match M.S20 with
  | .own v => v
  | .aliasSigma2 => M.sigma2

/-- one round of `update_error_variance`, `procedures/ErrorVarianceEstimator.py:60-62`:
`sigma2[jj] = ...` in place. -/
def sigmaStep (G : Rng σ F) (fuel : ℕ) (ss : Vec F m) (acc : ErrModel F m × σ) (jj : Fin m) :
    Except PyErr (ErrModel F m × σ) := do
  let (M, s) := acc
  let Nj ← pyGet M.N jj
  let (g, s1) ← gammar G fuel (lit (1/2) * (M.N0 jj + Nj))
    (lit 2 * (lit 1 / (M.N0 jj * M.s20 jj + ss jj))) s
  .ok ({ M with sigma2 := Function.update M.sigma2 jj (lit 1 / g) }, s1)

/-- `update_error_variance`, `procedures/ErrorVarianceEstimator.py:24-63`. -/
def updateErrorVariance (G : Rng σ F) (fuel : ℕ) (ss : Vec F m) (M : ErrModel F m) (s : σ) :
    Except PyErr (ErrModel F m × σ) :=
  (List.finRange m).foldlM (sigmaStep G fuel ss) (M, s)

end Verif
