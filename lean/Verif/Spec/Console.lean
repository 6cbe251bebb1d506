import Verif.Model.Console
import Verif.Spec.Run

/-! # Vocabulary for statements about what a run prints -/

namespace Verif
variable {F σ : Type} [PyFloat F] {N n m : ℕ}

/-- `a` of `b` in percent, as computed by the code -/
def percentage (a b : ℕ) : F := lit (a : ℚ) * (lit 1 / lit (b : ℚ)) * lit 100

/-- the last of the listed iterations before iteration `i` (`0` if there is none) -/
def lastBefore (l : List ℕ) (i : ℕ) : ℕ := (l.filter (· < i)).getLast?.getD 0

/-- a rejected move whose last proposal was outside the limits -/
def RejectedOutside (ts : List (Try F n)) : Bool :=
  Rejection ts && ts.getLast?.any fun t => t.outside

/-- rejected moves among the first `i`, in percent -/
def totalShare (trace : List (List (Try F n))) (i : ℕ) : F :=
  percentage ((trace.take i).countP Rejection) i

/-- rejected moves among those after the last adaptation before `i`, up to `i`, in percent -/
def intervalShare (trace : List (List (Try F n))) (adaptedAt : List ℕ) (i : ℕ) : F :=
  percentage (((trace.take i).drop (lastBefore adaptedAt i)).countP Rejection) (i - lastBefore adaptedAt i)

/-- moves among the first `i` that were rejected with the last proposal outside, in percent -/
def outsideShare (trace : List (List (Try F n))) (i : ℕ) : F :=
  percentage ((trace.take i).countP RejectedOutside) i

/-- a line of the periodic report of the rejections -/
def Line.report? : Line F → Option (ℕ × F × F × F)
  | .rejections i a b c => some (i, a, b, c)
  | _ => none

/-- a line about an adaptation -/
def Line.ofAdaptation : Line F → Bool
  | .burninDown _ | .burninUp _ | .adapting .. | .adjusted | .singular _ => true
  | _ => false

/-- a line of the table of parameters: name; start, limits, prior mean and width; `^2`, `(*)` -/
def Line.row? : Line F → Option (String × List F × Bool × Bool)
  | .tableRow nm a b c d e f g => some (nm, [a, b, c, d, e], f, g)
  | _ => none

/-- The covariance from which an adaptation after the burn-in starts: the covariance of the chain,
except for rows and columns of parameters not to be adapted, which keep their entries; for the
robust adaptive method `R'(1 + η (min(1, α) - α*) uu'/|u|²)R` with the acceptance probability `α` of the
iteration and the normal draw `u` of its first proposal. -/
def AdaptedFrom (doram : Bool) (etaparam alphatarget : F) (r : AdaptRecord F n) (V : Mat F n) : Prop :=
  (doram = false → ∃ C, r.after.covchain = some C ∧
    ∀ i j, V i j = if r.before.noAdapt i || r.before.noAdapt j then r.before.qcov i j else C i j) ∧
  (doram = true → ∃ al, r.alpha = some al ∧ ∀ i j,
    let w : Vec F n := fun k => r.u k * (lit 1 / PyFloat.sqrt (vsum fun l => r.u l * r.u l))
    let c : F := lit 1 / PyFloat.pow (lit (r.at_ : ℚ)) etaparam * (pyMin (lit 1) al - alphatarget)
    V i j = vsum fun k => (vsum fun l => r.before.R l i *
      ((if l = k then lit 1 else lit 0) + c * (w l * w k))) * r.before.R k j)

/-- The lines printed about the adaptation `r` of a run, and what they say about it.

In the burn-in: whether the proposal was made smaller, larger or left as it is, with the share of
rejected moves since the last adaptation.  After it: a line at verbosity 3; then nothing if the
new covariance has a Cholesky factor, "adjusted covariance matrix" if only the shifted one has, and
"covariance matrix singular, no adaptation" if neither has; the new proposal factor is the scaled
factor found, or the old one. -/
def Reported (L : Lapack F) (burnintime : ℤ) (burninScale qcovAdjust etaparam alphatarget : F)
    (doram : Bool) (v : ℤ)
    (trace : List (List (Try F n))) (adaptedAt : List ℕ) (r : AdaptRecord F n) (ls : List (Line F)) : Prop :=
  if (r.at_ : ℤ) < burnintime then
    let a := ((trace.take r.at_).drop (lastBefore adaptedAt r.at_)).countP Rejection
    let rate : F := lit (a : ℚ) * (lit 1 / lit ((r.at_ - lastBefore adaptedAt r.at_ : ℕ) : ℚ))
    if PyFloat.lt (lit (95/100)) rate then
      (∀ i j, r.after.R i j = r.before.R i j * (lit 1 / burninScale)) ∧
      ls = if 2 ≤ v then [.burninDown (intervalShare trace adaptedAt r.at_)] else []
    else if PyFloat.lt rate (lit (5/100)) then
      (∀ i j, r.after.R i j = r.before.R i j * burninScale) ∧
      ls = if 2 ≤ v then [.burninUp (intervalShare trace adaptedAt r.at_)] else []
    else r.after.R = r.before.R ∧ ls = []
  else
    ∃ (V : Mat F n) (rest : List (Line F)), AdaptedFrom doram etaparam alphatarget r V ∧
      ls = (if 3 ≤ v then [Line.adapting r.at_ (totalShare trace r.at_)
        (intervalShare trace adaptedAt r.at_) (outsideShare trace r.at_)] else []) ++ rest ∧
      ((∃ A, L.cholesky V = some A ∧ (∀ i j, r.after.R i j = A j i * r.before.qcovScale) ∧ rest = []) ∨
       (L.cholesky V = none ∧ ∃ A,
         L.cholesky (fun i j => V i j + (if i = j then lit 1 else lit 0) * qcovAdjust) = some A ∧
         (∀ i j, r.after.R i j = A j i * r.before.qcovScale) ∧
         rest = if 1 ≤ v then [Line.adjusted] else []) ∨
       (L.cholesky V = none ∧
         L.cholesky (fun i j => V i j + (if i = j then lit 1 else lit 0) * qcovAdjust) = none ∧
         r.after.R = r.before.R ∧
         rest = if 0 ≤ v then [Line.singular (intervalShare trace adaptedAt r.at_)] else []))

end Verif
