import Verif.Model.Py
import Mathlib.Probability.Distributions.Gaussian.Real
import Mathlib.MeasureTheory.Constructions.Pi
import Mathlib.MeasureTheory.Group.Measure

/-! # Random generators that do what they promise

Nothing here refers to the code under study; `Rng` is the interface of `numpy.random` that it uses. -/

namespace Verif
open MeasureTheory

/-- the law of `n` independent standard normal numbers -/
noncomputable def normalLaw (n : ℕ) : Measure (Fin n → ℝ) :=
  Measure.pi fun _ => ProbabilityTheory.gaussianReal 0 1

/-- the law of a number drawn uniformly from `[0, 1)` -/
noncomputable def uniformLaw : Measure ℝ := volume.restrict (Set.Ico 0 1)

/-- The generator `G` is ideal if its state has law `μ`: a call of `randn` for `n` numbers gives `n`
independent standard normal numbers, a call of `rand` gives a number uniform on `[0, 1)`, and
what the generator gives in later calls is independent of the numbers given so far: the new state
is independent of the numbers given and again has law `μ`. -/
structure IdealRng {σ : Type} [MeasurableSpace σ] (G : Rng σ XR) (n : ℕ) (μ : Measure σ) where
  z : σ → Fin n → ℝ
  afterZ : σ → σ
  u : σ → ℝ
  afterU : σ → σ
  randn : ∀ s, G.randn n s = (fun i => .fin (z s i), afterZ s)
  rand : ∀ s, G.rand s = (.fin (u s), afterU s)
  range : ∀ s, 0 ≤ u s ∧ u s < 1
  lawZ : MeasurePreserving (fun s => (z s, afterZ s)) μ ((normalLaw n).prod μ)
  lawU : MeasurePreserving (fun s => (u s, afterU s)) μ (uniformLaw.prod μ)

end Verif
