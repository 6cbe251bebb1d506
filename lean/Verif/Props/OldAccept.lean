import Verif.Model.OldAccept
import Verif.Model.DefaultFuns
import Verif.Lemmas.XR
import Mathlib.Tactic.Ring
import Mathlib.Tactic.NormNum
import Mathlib.Tactic.Linarith
import Mathlib.Tactic.FieldSimp
import Mathlib.Tactic.Positivity
import Mathlib.Tactic.GCongr
import Mathlib.Tactic.FinCases
import Mathlib.Tactic.IntervalCases
import Mathlib.Tactic.LinearCombination

/-! # C145: the functions kept for older programs decide as the step in use -/

set_option linter.unusedSectionVars false

namespace Verif
open XR

variable {σ : Type} {N : ℕ}

/-- the values a prior function may return for the number `a` so that `calculate_posterior_ratio` works:
an array with this number -/
def PriorVal.IsOne (p : PriorVal XR) (a : ℝ) : Prop := p = .arr [fin a]

/-- a prior function may also return the bare number -/
def PriorVal.IsNum (p : PriorVal XR) (a : ℝ) : Prop := p = .num (fin a)

/-- **C145, ratio.** For finite sums of squares, error variances other than zero and finite values of the
prior function, at least one of them an array (as that of the default prior function),
`calculate_posterior_ratio` is the exponential of the logarithm of the ratio with which the Metropolis
step decides. -/
theorem C145_ratio_partial {m : ℕ} (ss1 ss2 s2 : Fin m → ℝ) (hs : ∀ i, s2 i ≠ 0) (p1 p0 : ℝ)
    {newprior oldprior : PriorVal XR}
    (hp : newprior.IsOne p1 ∧ oldprior.IsOne p0 ∨ newprior.IsOne p1 ∧ oldprior.IsNum p0 ∨
      newprior.IsNum p1 ∧ oldprior.IsOne p0) :
    ∃ a, a = -(1 / 2) * (∑ i, (ss1 i - ss2 i) / s2 i + p1 - p0) ∧
      calculatePosteriorRatio (fun i => fin (ss1 i)) (fun i => fin (ss2 i)) (fun i => fin (s2 i))
        newprior oldprior = .ok (fin (Real.exp a)) ∧
      calcLogPosteriorRatio (logLike (fun i => fin (ss1 i)) fun i => fin (s2 i))
        (logLike (fun i => fin (ss2 i)) fun i => fin (s2 i)) (lit (-1/2) * fin p1)
        (lit (-1/2) * fin p0) = fin a := by
  refine ⟨_, rfl, ?_, ?_⟩
  · have e : (vsum fun i => (fin (ss1 i) - fin (ss2 i)) * (lit 1 / fin (s2 i)) : XR) =
        fin (∑ i, (ss1 i - ss2 i) / s2 i) := by
      rw [← vsum_fin]
      congr 1
      funext i
      rw [fin_sub, lit_eq, fin_div (hs i), fin_mul]
      push_cast
      congr 1
      ring
    have key : ∀ x : ℝ, lsum ([fin x].map fun x : XR => PyFloat.exp (lit (-1/2) * x)) =
        fin (Real.exp (-(1 / 2) * x)) := by
      intro x
      have : ([fin x].map fun x : XR => PyFloat.exp (lit (-1/2) * x)) =
          [Real.exp (-(1 / 2) * x)].map fin := by
        simp only [List.map_cons, List.map_nil, lit_eq, fin_mul, exp_fin]
        push_cast
        congr 3
        ring
      rw [this, lsum_fin]
      simp
    unfold calculatePosteriorRatio
    rw [e]
    rcases hp with ⟨h1, h2⟩ | ⟨h1, h2⟩ | ⟨h1, h2⟩ <;> rw [h1, h2] <;>
      exact congrArg Except.ok (key (∑ i, (ss1 i - ss2 i) / s2 i + p1 - p0))
  · have e : ∀ s : Fin m → ℝ, logLike (fun i => fin (s i)) (fun i => fin (s2 i)) =
        fin (-(1 / 2) * ∑ i, s i / s2 i) := by
      intro s
      unfold logLike
      have : (fun i => fin (s i) / fin (s2 i)) = fun i => fin (s i / s2 i) := by
        funext i; rw [fin_div (hs i)]
      rw [this, vsum_fin, lit_eq, fin_mul]
      push_cast
      congr 1
      ring
    unfold calcLogPosteriorRatio
    rw [e, e, lit_eq, fin_mul, fin_mul, fin_add, fin_add, fin_sub]
    congr 1
    have : ∑ i, (ss1 i - ss2 i) / s2 i = ∑ i, ss1 i / s2 i - ∑ i, ss2 i / s2 i := by
      rw [← Finset.sum_sub_distrib]
      exact Finset.sum_congr rfl fun i _ => by ring
    rw [this]
    push_cast
    ring

/-- **C145 is false for prior functions that return numbers**: `calculate_posterior_ratio` raises
`TypeError`. -/
theorem C145_number_refuted {F : Type} [PyFloat F] {m : ℕ} (ss1 ss2 s2 : Vec F m) (p1 p0 : F) :
    calculatePosteriorRatio ss1 ss2 s2 (.num p1) (.num p0) = .error .typeError := rfl

/-- **C145, decision.** For every value `a` of the logarithm of the ratio (infinite and NaN included)
and every uniform number in [0, 1), `acceptance_test` of the exponential of `a`, and also the test of
delayed rejection, accepts exactly if the test of the Metropolis step accepts `a`. -/
theorem C145_decision (G : Rng σ XR) (w : World XR σ N) {u : ℝ} (hu : (G.rand w.rng).1 = fin u)
    (h0 : 0 ≤ u) (h1 : u < 1) (a : XR) :
    (acceptanceTest G (PyFloat.exp a) w).2.1 = (logPosteriorRatioTest G a w).1 ∧
    (posteriorRatioTest G (PyFloat.exp a) w).1 = (logPosteriorRatioTest G a w).1 := by
  have key : (acceptanceTest G (PyFloat.exp a) w).2.1 = (logPosteriorRatioTest G a w).1 := by
    unfold acceptanceTest logPosteriorRatioTest
    simp only
    rw [hu]
    rcases h0.eq_or_lt with rfl | h0
    · have hl : PyFloat.log (fin 0) = (ninf : XR) := by
        show XR.log (fin 0) = ninf
        simp [XR.log]
      rw [hl]
      cases a with
      | nan => rfl
      | ninf =>
        have e : PyFloat.exp (ninf : XR) = fin 0 := rfl
        have : PyFloat.lt (ninf : XR) ninf = false := rfl
        rw [e, this, if_neg (by simp)]
        simp
      | pinf => rfl
      | fin a =>
        have : PyFloat.lt (ninf : XR) (fin a) = true := rfl
        rw [this, exp_fin]
        split
        · rfl
        · simp [Real.exp_pos]
    · rw [log_fin h0]
      cases a with
      | nan => rfl
      | ninf =>
        have e : PyFloat.exp (ninf : XR) = fin 0 := rfl
        have : PyFloat.lt (fin (Real.log u)) (ninf : XR) = false := rfl
        rw [e, this, if_neg (by simp)]
        simpa using h0.le
      | pinf => rfl
      | fin a =>
        rw [exp_fin]
        by_cases h : Real.log u < a
        · have : PyFloat.lt (fin (Real.log u)) (fin a) = true := by simpa using h
          rw [this]
          split
          · rfl
          · simpa using (Real.log_lt_iff_lt_exp h0).1 h
        · have : PyFloat.lt (fin (Real.log u)) (fin a) = false := by simpa using h
          rw [this]
          have hle : Real.exp a ≤ u := by
            rw [← Real.le_log_iff_exp_le h0]; exact not_lt.1 h
          rw [if_neg (by simpa using hle.trans_lt h1)]
          simpa using hle
  exact ⟨key, by rw [← key]; rfl⟩

/-- A log ratio of −1 and a draw of one half. -/
example : (acceptanceTest (⟨fun _ s => (fun _ => fin 0, s), fun s => (fin (1 / 2), s)⟩ : Rng Unit XR) (PyFloat.exp (fin (-1))) (⟨(), fun _ => fin 0, []⟩ : World XR Unit 1)).2.1 =
    (logPosteriorRatioTest (⟨fun _ s => (fun _ => fin 0, s), fun s => (fin (1 / 2), s)⟩ : Rng Unit XR) (fin (-1)) (⟨(), fun _ => fin 0, []⟩ : World XR Unit 1)).1 :=
  (C145_decision _ _ (u := 1 / 2) rfl (by norm_num) (by norm_num) _).1

/-- **C145, random numbers.** `acceptance_test` draws a uniform number exactly if `alpha >= 1` fails;
the test of the Metropolis step always draws one. -/
theorem C145_draws {F : Type} [PyFloat F] (G : Rng σ F) (w : World F σ N) (a b : F) :
    (acceptanceTest G a w).2.2.rng = (if PyFloat.le (lit 1) a then w.rng else (G.rand w.rng).2) ∧
    (logPosteriorRatioTest G b w).2.rng = (G.rand w.rng).2 := by
  refine ⟨?_, rfl⟩
  unfold acceptanceTest
  simp only
  split <;> rfl

/-- two sums of squares and the prior of the default prior function: the ratio is `exp(-1)` -/
example : calculatePosteriorRatio (fun i => fin ((![4, 6] : Fin 2 → ℝ) i)) (fun i => fin ((![2, 6] : Fin 2 → ℝ) i))
    (fun i => fin ((![2, 1] : Fin 2 → ℝ) i)) (.arr [fin 3]) (.arr [fin 2]) = .ok (fin (Real.exp (-1))) := by
  obtain ⟨a, ha, h, -⟩ := C145_ratio_partial ![4, 6] ![2, 6] ![2, 1]
    (by intro i; fin_cases i <;> norm_num) 3 2 (newprior := .arr [fin 3]) (oldprior := .arr [fin 2])
    (.inl ⟨rfl, rfl⟩)
  rw [h, ha, Fin.sum_univ_two]
  norm_num

end Verif
