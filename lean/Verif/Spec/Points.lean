import Verif.Model.Samplers
import Mathlib.Algebra.BigOperators.Group.Finset.Basic

/-! # Vocabulary for statements about acceptance probabilities

Nothing here refers to how the code computes anything: a point of parameter space with its
posterior density, a Gaussian proposal density, and when a value of the code's `ParameterSet`
stands for a point. -/

namespace Verif
open Finset

/-- A point of parameter space.  `logpost` is the logarithm of the (unnormalised) posterior
density at the point, `none` outside the limits, where the density is 0. -/
structure Point (n : ℕ) where
  theta : Fin n → ℝ
  logpost : Option ℝ

/-- posterior density (unnormalised) -/
noncomputable def Point.density {n : ℕ} (p : Point n) : ℝ :=
  match p.logpost with
  | none => 0
  | some e => Real.exp e

/-- Density (unnormalised) at `y` of the Gaussian proposal from `x` whose precision matrix is
`W Wᵀ`.  The normalising constant depends on `W` only. -/
noncomputable def gauss {n : ℕ} (W : Fin n → Fin n → ℝ) (x y : Fin n → ℝ) : ℝ :=
  Real.exp (-(1 / 2) * ∑ j, (∑ i, (y i - x i) * W i j) ^ 2)

/-- The parameter set `s` of the code stands for the point `p`: finite parameter values, positive
finite error variances, and either finite sums of squares and prior value with
`logpost = -1/2 ∑ ss/σ² - prior/2`, or (outside the limits) infinite sums of squares. -/
structure Represents {n m : ℕ} (s : ParamSet XR n m) (p : Point n) : Prop where
  theta : s.theta = fun i => XR.fin (p.theta i)
  energy : ∃ v : Fin m → ℝ, (∀ i, 0 < v i) ∧ s.sigma2 = (fun i => XR.fin (v i)) ∧
    match p.logpost with
    | none => s.ss = (fun _ => XR.pinf) ∧ s.prior = XR.fin 0
    | some e => ∃ (q : Fin m → ℝ) (r : ℝ), s.ss = (fun i => XR.fin (q i)) ∧
        s.prior = XR.fin r ∧ e = -(1 / 2) * ∑ i, q i / v i - 1 / 2 * r

end Verif
