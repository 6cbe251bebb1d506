import Verif.Model.Samplers
import Verif.Model.ErrorVariance

/-! # Vocabulary for statements about the proposals of one iteration

Written with what an iteration is given: the row it starts from, the factors of its stages, a test
`inside` for the limits, the relation `sos` between sampled values and sums of squares, the value
`prior` of the prior, and the random generator `G`.  Only the acceptance probability of a path of
proposals is the one of the code (`alphafun`); what that is, is the subject of C09 and C78. -/

namespace Verif
variable {F σ : Type} [PyFloat F] {n m : ℕ}

/-- What the samplers know about a proposal outside the limits: an infinite sum of squares. -/
def outsideSet (theta : Vec F n) (sigma2 : Vec F m) : ParamSet F n m :=
  ⟨theta, fun _ => PyFloat.inf, lit 0, sigma2, none⟩

/-- Stages `k + 1, …, k + left` of delayed rejection after the rejected proposals `path`, which
starts with the row itself.  The stages find the generator in state `s`, make the proposals `ts` and
leave the generator in state `s'`.  Stage `k + 1` proposes the row plus a normal draw times the factor
with index `k`.  A proposal outside the limits is rejected without a draw of a uniform number.  Inside,
the acceptance probability `α` of the path is computed; if it is at least 1 the proposal is
accepted without a draw, otherwise a uniform number is drawn and compared with it.  After an accepted
proposal no other is made. -/
def Stages (inside : Vec F n → Prop) (sos : Vec F n → Vec F m → Prop) (prior : Vec F n → F)
    (G : Rng σ F) (theta : Vec F n) (sigma2 : Vec F m) (RDR : Slot (List (Mat F n)))
    (invR : Option (List (Mat F n))) :
    (left k : ℕ) → (path : List (ParamSet F n m)) → (s : σ) → (ts : List (Try F n)) → (s' : σ) → Prop
  | 0, _, _, s, ts, s' => ts = [] ∧ s' = s
  | left + 1, k, path, s, ts, s' => ∃ l R t ts', RDR = .some l ∧ l[k]? = some R ∧ ts = t :: ts' ∧
      (∀ i, t.theta i = theta i + vsum fun j => (G.randn n s).1 j * R j i) ∧
      (¬ inside t.theta → t.accepted = false ∧
        Stages inside sos prior G theta sigma2 RDR invR left (k + 1)
          (path ++ [outsideSet t.theta sigma2]) (G.randn n s).2 ts' s') ∧
      (inside t.theta → ∃ ss inv α c c', sos t.theta ss ∧ invR = some inv ∧
        alphafun (path ++ [⟨t.theta, ss, prior t.theta, sigma2, none⟩]) inv c = .ok (α, c') ∧
        (PyFloat.le (lit 1) α = true →
          t.accepted = true ∧ ts' = [] ∧ s' = (G.randn n s).2) ∧
        (PyFloat.le (lit 1) α = false →
          t.accepted = PyFloat.lt (G.rand (G.randn n s).2).1 α ∧
          (t.accepted = true → ts' = [] ∧ s' = (G.rand (G.randn n s).2).2) ∧
          (t.accepted = false → Stages inside sos prior G theta sigma2 RDR invR left (k + 1)
            (path ++ [⟨t.theta, ss, prior t.theta, sigma2, none⟩])
            (G.rand (G.randn n s).2).2 ts' s')))

/-- All proposals of an iteration with at most `ntry` stages: the Metropolis step (normal draw, then
inside the limits a uniform draw whose logarithm is compared with the log posterior ratio), after a
rejection the stages of delayed rejection. -/
def Iteration (inside : Vec F n → Prop) (sos : Vec F n → Vec F m → Prop) (prior : Vec F n → F)
    (G : Rng σ F) (row : ParamSet F n m) (R : Mat F n) (RDR : Slot (List (Mat F n)))
    (invR : Option (List (Mat F n))) (ntry : ℕ) (s : σ) (ts : List (Try F n)) (s' : σ) : Prop :=
  ∃ t ts', ts = t :: ts' ∧
    (∀ i, t.theta i = row.theta i + vsum fun j => (G.randn n s).1 j * R j i) ∧
    (¬ inside t.theta → t.accepted = false ∧
      Stages inside sos prior G row.theta row.sigma2 RDR invR (ntry - 1) 1
        [{ row with alpha := none }, outsideSet t.theta row.sigma2] (G.randn n s).2 ts' s') ∧
    (inside t.theta → ∃ ss, sos t.theta ss ∧
      t.accepted = PyFloat.lt (PyFloat.log (G.rand (G.randn n s).2).1)
        (lit (-1/2) * vsum (fun i => ss i / row.sigma2 i) + lit (-1/2) * prior t.theta
          - (lit (-1/2) * vsum (fun i => row.ss i / row.sigma2 i) + lit (-1/2) * row.prior)) ∧
      (t.accepted = true → ts' = [] ∧ s' = (G.rand (G.randn n s).2).2) ∧
      (t.accepted = false → Stages inside sos prior G row.theta row.sigma2 RDR invR (ntry - 1) 1
        [{ row with alpha := none }, ⟨t.theta, ss, prior t.theta, row.sigma2, none⟩]
        (G.rand (G.randn n s).2).2 ts' s'))

/-- Error variances `x` drawn one after the other, from generator state `s` to `s'`: the
`j`-th is the reciprocal of a deviate of the package's gamma generator with shape
`(N0 + N)/2` and scale `2/(N0*S20 + SS)`. -/
def VarianceDraws (G : Rng σ F) (fuel : ℕ) (N0 S20 SS : Vec F m) (Nj : List F) (s : σ) (x : Vec F m)
    (s' : σ) : Prop :=
  ∃ st : ℕ → σ, st 0 = s ∧ st m = s' ∧ ∀ j : Fin m, ∃ N g, Nj[(j : ℕ)]? = some N ∧
    gammar G fuel (lit (1/2) * (N0 j + N)) (lit 2 * (lit 1 / (N0 j * S20 j + SS j))) (st j)
      = .ok (g, st (j + 1)) ∧ x j = lit 1 / g

end Verif
