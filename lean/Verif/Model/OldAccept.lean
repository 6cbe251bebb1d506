import Verif.Model.Samplers

/-!
# Functions kept for older programs

Model of `Metropolis.calculate_posterior_ratio` and of `acceptance_test`, which the package itself no
longer calls.
-/

namespace Verif
variable {F : Type} [PyFloat F] {σ : Type} {N : ℕ}

/-- a value of a prior function: a number, or an array of numbers (the default prior function returns
an array with one number, `procedures/PriorFunction.py:51-52`) -/
inductive PriorVal (F : Type) where
  | num (a : F)
  | arr (l : List F)

/-- `a + x` for a number `a`. Source: `samplers/Metropolis.py:113-166`. -/
def PriorVal.addTo (a : F) : PriorVal F → PriorVal F
  | .num b => .num (a + b)
  | .arr l => .arr (l.map (a + ·))

/-- `x - y`; arrays of different lengths are refused unless one has length one.
Source: `samplers/Metropolis.py:113-166`. -/
def PriorVal.sub : PriorVal F → PriorVal F → Except PyErr (PriorVal F)
  | .num a, .num b => .ok (.num (a - b))
  | .arr l, .num b => .ok (.arr (l.map (· - b)))
  | .num a, .arr r => .ok (.arr (r.map (a - ·)))
  | .arr l, .arr r =>
    if l.length = r.length then .ok (.arr (List.zipWith (· - ·) l r))
    else match l, r with
      | [a], r => .ok (.arr (r.map (a - ·)))
      | l, [b] => .ok (.arr (l.map (· - b)))
      | _, _ => .error .valueError

/-- `calculate_posterior_ratio(ss1, ss2, sigma2, newprior, oldprior)`, `samplers/Metropolis.py:113-166`.
`sigma2**(-1)` is `1 / sigma2`.  `sum(alpha)` of a number raises `TypeError`. -/
def calculatePosteriorRatio {m : ℕ} (ss1 ss2 sigma2 : Vec F m) (newprior oldprior : PriorVal F) :
    Except PyErr F := do
  let d ← PriorVal.sub (PriorVal.addTo (vsum fun i => (ss1 i - ss2 i) * (lit 1 / sigma2 i)) newprior) oldprior
  match d with
  | .num _ => .error .typeError
  | .arr l => .ok (lsum (l.map fun x => PyFloat.exp (lit (-1/2) * x)))

/-- `acceptance_test(alpha)`, `samplers/utilities.py:56-81`: the line printed, and the decision -/
def acceptanceTest (G : Rng σ F) (alpha : F) (w : World F σ N) : String × Bool × World F σ N :=
  ("This function was deprecated in v1.8.0",
    if PyFloat.le (lit 1) alpha then (true, w)
    else
      let d := G.rand w.rng
      (PyFloat.lt d.1 alpha, { w with rng := d.2 }))

end Verif
