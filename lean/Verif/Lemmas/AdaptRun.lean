import Verif.Lemmas.CovRun
import Verif.Spec.LinAlg

/-! # All adaptations of a run -/

set_option linter.unusedSectionVars false

namespace Verif
variable {F σ : Type} [PyFloat F] {N m : ℕ} {flags : Fin N → Bool}

/-- Setting up a run changes no extra option but the covariance. -/
theorem setup_extra {U : UserFuns F N (nS flags) m} {L : Lapack F} {o o1 : Obj F flags m}
    {rng : σ} {up : Bool} {I : Init F σ flags m} {s0 : SimState F σ N (nS flags) m}
    (h : setupSimulator U L o rng up = .ok (o1, I, s0)) :
    o1.extra = { o.extra with qcov := o1.extra.qcov } := by
  cases up with
  | false =>
    have h1 := (setup_fresh h).2.2.2.2.2.2.2.2.2
    unfold loadRestart at h1
    split at h1
    · cases h1; rfl
    · obtain ⟨specs, _, h1⟩ := bind_ok.1 h1
      cases h1; rfl
  | true =>
    have := (setup_continue h).2.2.2.2.2.2.2.2.2
    rw [this]

/-- What is known about each adaptation of a run. -/
structure RunAdaptSpec (L : Lapack F) (o : Obj F flags m) (I : Init F σ flags m)
    (r : AdaptRecord F (nS flags)) : Prop where
  qcov : r.before.qcov = I.cov.qcov
  noAdapt : r.before.noAdapt = noAdaptOf flags o.specs
  qcovScale : r.before.qcovScale = I.cov.qcovScale
  spec : o.opts.burnintime ≤ r.at_ → ∃ seg, AdaptSpec L (runOpts I.opts o.extra).toAdaptOpts r.at_ seg
    r.u r.alpha r.before r.after
  pos : 0 < r.at_

theorem run_adapt {U : UserFuns F N (nS flags) m} {o : Obj F flags m} {G : Rng σ F}
    {L : Lapack F} {fuel : ℕ} {rng : σ} {up : Bool} {out : RunOut F σ flags m}
    (h : runSimulation U G L fuel o rng up = .ok out) :
    ∀ r ∈ out.final.adaptLog, RunAdaptSpec L o out.init r := by
  obtain ⟨o1, I, s0, hst, rfl, hc0, h1, h2, _, hinit⟩ := run_cov h
  have hex := setup_extra h1
  have hro : (runOpts out.init.opts o1.extra).toAdaptOpts = (runOpts out.init.opts o.extra).toAdaptOpts := by
    rw [hex]; rfl
  obtain ⟨_, _, _, _, _, _, hna⟩ := initCovState_ok hinit
  have hna' : out.init.cov.noAdapt = noAdaptOf flags o.specs := by
    rw [hna]
    funext i
    unfold noAdaptOf
    rw [hst.same.adapt]
  have hb : out.init.opts.burnintime = o.opts.burnintime := by
    rw [hst.init.opts, hst.opts]; rfl
  refine (adaptLog_inv (fun _ c => c.qcov = out.init.cov.qcov ∧
    c.noAdapt = noAdaptOf flags o.specs ∧ c.qcovScale = out.init.cov.qcovScale)
    (RunAdaptSpec L o out.init) ?_ hst.adaptLog (fun _ _ h => h) ?_ h2).2
  · rw [hc0]; exact ⟨rfl, hna', rfl⟩
  · intro i c c' ii rej chain ci u alpha hi _ ⟨q1, q2, q3⟩ hrun
    rcases runAdaptation_ok hrun with ⟨hlt, hc⟩ | ⟨hle, hc⟩
    · refine ⟨by rw [hc]; exact ⟨q1, q2, q3⟩, q1, q2, q3, fun hle => ?_, hi⟩
      have hlt : (i : ℤ) < out.init.opts.burnintime := hlt
      dsimp only at hle
      omega
    · refine ⟨⟨hc.qcov.trans q1, hc.noAdapt.trans q2, hc.qcovScale.trans q3⟩, q1, q2, q3, fun _ => ⟨pySlice chain c.lastIndex ci, ?_⟩, hi⟩
      rw [← hro]
      exact hc

end Verif
