import Verif.Lemmas.Run

/-! # Error-variance chain of a run -/

set_option linter.unusedSectionVars false

namespace Verif
variable {F σ : Type} [PyFloat F] {N m : ℕ} {flags : Fin N → Bool}

/-- Without error-variance sampling nothing about the error variance changes. -/
theorem executeSimulator_no_sigma {n : ℕ} {E : Env F σ N n m} {s s' : SimState F σ N n m}
    (hu : E.opts.updatesigma = false) (h : executeSimulator E s = .ok s') :
    s'.errModel = s.errModel ∧ s'.s2chain = s.s2chain := by
  obtain ⟨hn, s1, hP, hfin⟩ := executeSimulator_inv
    (P := fun _ a => a.errModel = s.errModel ∧ a.s2chain = s.s2chain) ⟨rfl, rfl⟩
    (fun i a b p hi _ hP hp => by
      have he := hp.errModel
      rw [if_neg (by simp [hu])] at he
      exact ⟨he.1.trans hP.1, he.2.1.trans hP.2⟩) h
  rw [hfin]; exact hP

/-- With it, the error-variance chain exists. -/
theorem executeSimulator_sigma {n : ℕ} {E : Env F σ N n m} {s s' : SimState F σ N n m}
    (hu : E.opts.updatesigma = true) (h : executeSimulator E s = .ok s') :
    s'.s2chain.isSome := by
  have h' := h
  unfold executeSimulator at h'
  obtain ⟨hn, s1, hP, hfin⟩ := executeSimulator_inv
    (P := fun i a => 1 < i → a.s2chain.isSome) (fun h => absurd h (by omega))
    (fun i a b p hi _ hP hp _ => by
      have he := hp.errModel
      rw [if_pos hu] at he
      obtain ⟨c, r, _, _, h2, _⟩ := he
      rw [h2]; rfl) h
  rw [hfin]; exact hP hn

theorem run_updatesigma {U : UserFuns F N (nS flags) m} {o : Obj F flags m}
    {G : Rng σ F} {L : Lapack F} {fuel : ℕ} {rng : σ} {up : Bool}
    {out : RunOut F σ flags m} (h : runSimulation U G L fuel o rng up = .ok out) :
    (o.ms.N0 = none → o.opts.updatesigma = false →
      out.final.errModel = out.init.errModel ∧ out.results.s2chain = none) ∧
    (o.ms.N0.isSome ∨ o.opts.updatesigma = true → out.results.s2chain.isSome) ∧
    out.obj.ms.N0.isSome := by
  obtain ⟨o1, I, s0, h1, h2, h3, h4, h5⟩ := runSimulation_ok h
  have hst : StartSpec U o o1 rng I s0 ∧ (I.opts.updatesigma = false → s0.s2chain = none) := by
    cases up with
    | false =>
      obtain ⟨h, _, _, _, _, e, _⟩ := setup_fresh h1
      exact ⟨h, fun hu => by rw [e, hu]; rfl⟩
    | true =>
      obtain ⟨h, _, _, _, _, e, _⟩ := setup_continue h1
      exact ⟨h, fun hu => by rw [e, hu]; rfl⟩
  obtain ⟨hst, hs2⟩ := hst
  have hr := (generateResults_ok h3).2.2.2.2.2.2.2.1
  have hopt : I.opts.updatesigma = if o.ms.N0.isSome then true else o.opts.updatesigma := by
    rw [hst.init.opts, hst.opts, hst.ms]; rfl
  refine ⟨fun hn hu => ?_, fun hor => ?_, ?_⟩
  · have hu' : I.opts.updatesigma = false := by rw [hopt, hn, hu]; rfl
    obtain ⟨e1, e2⟩ := executeSimulator_no_sigma (E := ⟨I.problem, G, L, runOpts I.opts o1.extra, fuel⟩)
      hu' h2
    exact ⟨by rw [e1, hst.errModel, h4], by rw [hr, e2, hs2 hu']⟩
  · have hu' : I.opts.updatesigma = true := by
      rw [hopt]; rcases hor with h | h <;> simp [h]
    rw [hr]
    exact executeSimulator_sigma (E := ⟨I.problem, G, L, runOpts I.opts o1.extra, fuel⟩) hu' h2
  · obtain ⟨ms1, _, _, e⟩ := hst.init.ms
    rw [h5]
    dsimp only
    unfold settingsAfter
    dsimp only
    unfold toErrModel at e
    split at e
    · rename_i hN0 _; rw [hN0]; rfl
    · cases e

end Verif
