import Verif.Props.Valid

/-! # C70: a continuation completes

In exact arithmetic the continuation that C70 shows to be set up also runs to its end, so that any number of
continuations can follow one another.
-/

set_option linter.unusedSectionVars false

namespace Verif
open Matrix
variable {σ : Type} {N m : ℕ} {flags : Fin N → Bool}

/-- **C70**, exact arithmetic: a problem that can be run from scratch with some options (`ValidProblem`) can be
continued with them after any history of runs whose chain is finite and in which the error variances were sampled.  The
continuation returns a finite chain and samples the error variances again, so that it can be continued in turn.
The only exception is that of C64: the rejection loop of the gamma generator may go on for longer than `fuel`. -/
theorem C70_continues_partial {U : UserFuns XR N (nS flags) m} {G : Rng σ XR} {L : Lapack XR} {fuel : ℕ}
    {o0 o : Obj XR flags m} (h0 : o0.results = none) (hre : Reachable U o0 o) (hrun : o.results.isSome)
    (hs2 : o.chains.s2chain.isSome) (hch : ∀ row ∈ o.chains.chain, ∃ r, row = finVec r)
    (hm : 0 < m) (hd : o0.data.n.length = 1 ∨ m ≠ 1)
    (hnd : (((List.finRange N).filter flags).map fun k => (o0.specs k).name).Nodup)
    (a : OptArgs XR) (e : ExtraOpts XR (nS flags)) (hq : e.qcov.isSome)
    (hx : ExactInputs G L { o0 with opts := defineSimulationOptions a, extra := e })
    (hv : ValidProblem U { o0 with opts := defineSimulationOptions a, extra := e }) (rng : σ) :
    (∃ out, runSimulation U G L fuel { o with opts := defineSimulationOptions a, extra := e } rng true = .ok out ∧
      (∀ row ∈ out.obj.chains.chain, ∃ r, row = finVec r) ∧ out.obj.chains.s2chain.isSome ∧
      out.obj.results.isSome ∧ Reachable U o0 out.obj) ∨
    runSimulation U G L fuel { o with opts := defineSimulationOptions a, extra := e } rng true = .error .outOfFuel := by
  obtain ⟨I, s0, t, Q, h, ht, hQ, hpd⟩ := valid_setup hx hv rng
  obtain ⟨o1, I1, s1, h1, hq1, _, hth⟩ := C70_continuation_set_up_partial (L := L) (rng := rng) h0 hre hrun hs2
    hv.observations hm hd (by intro k _; simp [ofInt]) hnd a e hq hv.noRestart h
  obtain ⟨t1, ht1⟩ := hch _ (List.mem_of_getElem? hth)
  obtain ⟨hdata, _, hset⟩ := reachable_settled (show o0.ms.N = none from hv.observations) h0 hre
  have hx' : ExactInputs G L { o with opts := defineSimulationOptions a, extra := e } :=
    ⟨hx.lapack, hx.draws, hx.adjust, hx.burnin, hx.drscale, hx.noRam, hx.weight, hx.scale, hx.RDR⟩
  rcases C65_continued_run_returns (fuel := fuel) (o0 := o0) hx' h1 h0 (.options a e hre) hch hv.nsimu hv.sampled hv.sos
    hv.delayed (show o.data.n ≠ [] by rw [hdata]; exact hv.data) (t := t1) ht1 (hq1.trans hQ) hpd with
    ⟨out, h2, h3, _⟩ | ⟨h2, _⟩
  · refine .inl ⟨out, h2, ?_, ?_, ?_, .run _ _ _ _ _ _ (.options a e hre) h2⟩
    all_goals obtain ⟨p1, p2, p3, r1, r2, r3, r4, r5⟩ := runSimulation_ok h2
    · obtain ⟨_, _, _, _, _, g1, _, g2, _⟩ := generateResults_ok r3
      rw [r5, ← g1]; exact h3
    · obtain ⟨_, _, _, _, _, g1, _, g2, _⟩ := generateResults_ok r3
      rw [r5, ← g2]
      obtain ⟨l, hl, _⟩ := (hset hrun).N0
      exact (run_updatesigma h2).2.1 (.inl (show o.ms.N0.isSome by rw [hl]; rfl))
    · rw [r5]; rfl
  · exact .inr h2

/-- the hypotheses can be met: a run and two continuations of it -/
example : ∃ out out',
    runSimulation XRun.user XRun.rng exactLapack 1 (XRun.obj XRun.contArgs) () false = .ok out ∧
    runSimulation XRun.user XRun.rng exactLapack 1
      { out.obj with opts := defineSimulationOptions XRun.contArgs, extra := XRun.extra 1 1 } () true = .ok out' ∧
    ∀ fuel, (∃ out'', runSimulation XRun.user XRun.rng exactLapack fuel
        { out'.obj with opts := defineSimulationOptions XRun.contArgs, extra := XRun.extra 1 1 } () true = .ok out'' ∧
        ∀ row ∈ out''.obj.chains.chain, ∃ r, row = finVec r) ∨
      runSimulation XRun.user XRun.rng exactLapack fuel
        { out'.obj with opts := defineSimulationOptions XRun.contArgs, extra := XRun.extra 1 1 } () true =
          .error .outOfFuel := by
  obtain ⟨out, out', h, h', hf⟩ := XRun.cont_runs
  refine ⟨out, out', h, h', fun fuel => ?_⟩
  have hre : Reachable XRun.user (XRun.obj XRun.contArgs) out'.obj :=
    .run _ _ _ _ _ _ (.options _ _ (.run _ _ _ _ _ _ .start h)) h'
  obtain ⟨p1, p2, p3, r1, r2, r3, r4, r5⟩ := runSimulation_ok h'
  obtain ⟨_, _, _, _, _, g1, _, g2, _⟩ := generateResults_ok r3
  have hs2 : out'.obj.chains.s2chain.isSome := by
    rw [r5, ← g2]
    exact (run_updatesigma h').2.1 (.inr rfl)
  rcases C70_continues_partial (fuel := fuel) (G := XRun.rng) (L := exactLapack) rfl hre (by rw [r5]; rfl) hs2
    (by rw [r5, ← g1]; exact hf) one_pos (.inl rfl) (by decide) XRun.contArgs (XRun.extra 1 1) rfl
    (XRun.cont_inputs rfl rfl) { 
      nsimu := by change (1 : ℤ) < 5; decide
      sampled := by decide
      initial := fun _ => ⟨_, rfl⟩
      limits := fun k _ => by simp [XRun.obj, newObj, XRun.specs]
      localFit := .inl rfl
      sos := fun v => by simp [XRun.user]
      data := show XRun.data.n ≠ [] by decide
      settings := ⟨fun v hv => by cases hv; exact .inl rfl, nofun, nofun,
        .inr (.inl rfl), .inl (show XRun.data.n.length ≤ 1 by decide)⟩
      settingsFresh := rfl
      observations := rfl
      covariance := .inl ⟨fun _ => 1, rfl, fun _ => one_pos⟩
      drscale := by change [XR.fin 5] ≠ []; simp
      factors := nofun
      delayed := fun h => absurd h (by change ¬ (1 : ℤ) < 1; decide)
      noRestart := rfl } () with ⟨out'', k1, k2, _⟩ | k
  · exact .inl ⟨out'', k1, k2⟩
  · exact .inr k

end Verif
