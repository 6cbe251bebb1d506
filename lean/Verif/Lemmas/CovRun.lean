import Verif.Lemmas.Run
import Verif.Lemmas.Loop

/-! # The covariance object of a run -/

set_option linter.unusedSectionVars false

namespace Verif
variable {F σ : Type} [PyFloat F] {N m : ℕ} {flags : Fin N → Bool}

/-- whether a sampled parameter is excluded from adaptation -/
def noAdaptOf (flags : Fin N → Bool) (specs : Fin N → ParamSpec F) : Fin (nS flags) → Bool :=
  fun i => !(specs (parindOf flags i)).adapt

theorem initializeSimulation_cov {U : UserFuns F N (nS flags) m} {L : Lapack F}
    {o : Obj F flags m} {rng : σ} {I : Init F σ flags m}
    (h : initializeSimulation U L o rng = .ok I) :
    initCovState L I.opts.method I.opts.ntry.toNat o.extra.drscale o.extra.RDR I.opts.adascale
      I.opts.initqcovn
      (setupCovarianceMatrix o.extra.qcov (fun k => setupPriorSigma (o.specs k).priorSigma)
        (fun k => (o.specs k).theta0))
      (parindOf flags) (noAdaptOf flags o.specs) I.initialSet.theta o.covRDR = .ok I.cov := by
  unfold initializeSimulation at h
  rw [bind_ok] at h
  obtain ⟨ms1, hms1, h⟩ := h
  rw [bind_ok] at h
  obtain ⟨_, _, h⟩ := h
  rw [bind_ok] at h
  obtain ⟨_, hlim, h⟩ := h
  rw [bind_ok] at h
  obtain ⟨cov, hcov, h⟩ := h
  rw [bind_ok] at h
  obtain ⟨⟨ss, w⟩, hsos, h⟩ := h
  rw [bind_ok] at h
  obtain ⟨ms2, hms2, h⟩ := h
  rw [bind_ok] at h
  obtain ⟨M, hM, h⟩ := h
  cases h
  rw [← hcov]
  dsimp only
  congr 1
  funext i
  unfold noAdaptOf
  simp [setupAdapting, flags_parindOf]

theorem setupSimulator_init {U : UserFuns F N (nS flags) m} {L : Lapack F} {o o1 : Obj F flags m}
    {rng : σ} {up : Bool} {I : Init F σ flags m} {s0 : SimState F σ N (nS flags) m}
    (h : setupSimulator U L o rng up = .ok (o1, I, s0)) :
    initializeSimulation U L o1 rng = .ok I := by
  cases up with
  | false => exact (setup_fresh h).2.2.2.2.2.2.2.2.1
  | true =>
    unfold setupSimulator at h
    rw [if_pos rfl] at h
    split at h
    · cases h
    · rw [bind_ok] at h
      obtain ⟨specs, h1, h⟩ := h
      rw [bind_ok] at h
      obtain ⟨I', h2, h⟩ := h
      rw [bind_ok] at h
      obtain ⟨c, h3, h⟩ := h
      cases h
      exact h2

theorem setup_start {U : UserFuns F N (nS flags) m} {L : Lapack F} {o o1 : Obj F flags m}
    {rng : σ} {up : Bool} {I : Init F σ flags m} {s0 : SimState F σ N (nS flags) m}
    (h : setupSimulator U L o rng up = .ok (o1, I, s0)) :
    StartSpec U o o1 rng I s0 ∧ 0 < I.opts.nsimu := by
  cases up with
  | false => exact ⟨(setup_fresh h).1, (setup_fresh h).2.1⟩
  | true => exact ⟨(setup_continue h).1, (setup_continue h).2.1⟩

theorem initCovState_ok {n : ℕ} {L : Lapack F} {method : Method} {ntry : ℕ} {drscale : List F}
    {userRDR : Option (List (Mat F n))} {adascale : Option F} {initqcovn : Option F}
    {q : Qcov F} {parind : Fin n → Fin N} {noAdapt : Fin n → Bool} {theta0 : Vec F n}
    {prevRDR : Slot (List (Mat F n))} {c : CovState F n}
    (h : initCovState L method ntry drscale userRDR adascale initqcovn q parind noAdapt theta0
      prevRDR = .ok c) :
    checkAdascale adascale n = .ok c.qcovScale ∧
    (∃ R, setupRMatrix L q parind = .ok (R, c.qcov) ∧
      if method = .dram ∨ method = .dr then
        ∃ l il, setupRDRMatrix L R ntry drscale userRDR = .ok (c.R, l, il) ∧
          c.RDR = .some l ∧ c.invR = some il
      else c.R = R ∧ c.RDR = prevRDR ∧ c.invR = none) ∧
    c.covchain = (initqcovn.map fun _ => c.qcov) ∧ c.meanchain = (initqcovn.map fun _ => theta0) ∧
    c.wsum = initqcovn ∧ c.lastIndex = 0 ∧ c.noAdapt = noAdapt := by
  unfold initCovState at h
  obtain ⟨scale, h1, h⟩ := bind_ok.1 h
  obtain ⟨⟨R, qc⟩, h2, h⟩ := bind_ok.1 h
  dsimp only at h
  split at h
  · rename_i hm
    obtain ⟨⟨R', l, il⟩, h3, h⟩ := bind_ok.1 h
    cases h
    refine ⟨h1, ⟨R, h2, ?_⟩, rfl, rfl, rfl, rfl, rfl⟩
    rw [if_pos hm]
    exact ⟨l, il, h3, rfl, rfl⟩
  · rename_i hm
    cases h
    refine ⟨h1, ⟨R, h2, ?_⟩, rfl, rfl, rfl, rfl, rfl⟩
    rw [if_neg hm]
    exact ⟨rfl, rfl, rfl⟩

/-- The covariance object at the start of a run. -/
theorem run_cov {U : UserFuns F N (nS flags) m} {o : Obj F flags m} {G : Rng σ F}
    {L : Lapack F} {fuel : ℕ} {rng : σ} {up : Bool} {out : RunOut F σ flags m}
    (h : runSimulation U G L fuel o rng up = .ok out) :
    ∃ o1 I s0, StartSpec U o o1 rng I s0 ∧ out.init = I ∧ s0.cov = out.init.cov ∧
      setupSimulator U L o rng up = .ok (o1, I, s0) ∧
      executeSimulator ⟨I.problem, G, L, runOpts I.opts o1.extra, fuel⟩ s0 = .ok out.final ∧
      out.results.chain = out.final.chain ∧
      initCovState L I.opts.method I.opts.ntry.toNat o1.extra.drscale o1.extra.RDR I.opts.adascale
      I.opts.initqcovn
      (setupCovarianceMatrix o1.extra.qcov (fun k => setupPriorSigma (o1.specs k).priorSigma)
        (fun k => (o1.specs k).theta0))
      (parindOf flags) (noAdaptOf flags o1.specs) I.initialSet.theta o1.covRDR = .ok I.cov := by
  obtain ⟨o1, I, s0, h1, h2, h3, h4, h5⟩ := runSimulation_ok h
  have hst := (setup_start h1).1
  exact ⟨o1, I, s0, hst, h4, by rw [hst.cov, h4], h1, h2, (generateResults_ok h3).2.2.2.2.2.1,
    initializeSimulation_cov (setupSimulator_init h1)⟩

/-- What a successful adaptation after the burn-in has done. -/
structure AdaptSpec {n : ℕ} (L : Lapack F) (o : AdaptOpts F) (i : ℕ) (seg : List (Vec F n))
    (u : Vec F n) (alpha : Option F) (c c' : CovState F n) : Prop where
  update : updateCovarianceMeanSum seg (some [lit 1]) c.covchain c.meanchain c.wsum =
    .ok (c'.covchain, c'.meanchain, c'.wsum)
  factor : ∃ upcov, newCovariance c o i c'.covchain u alpha = .ok upcov ∧
    c'.R = checkForSingular L upcov c.R o.qcovAdjust c.qcovScale
  dr : updateDelayedRejection L c'.R o.ntry o.drscale = .ok (c'.RDR, c'.invR)
  lastIndex : c'.lastIndex = i
  qcov : c'.qcov = c.qcov
  noAdapt : c'.noAdapt = c.noAdapt
  qcovScale : c'.qcovScale = c.qcovScale

theorem runAdaptation_ok {n : ℕ} {L : Lapack F} {c c' : CovState F n} {o : AdaptOpts F}
    {i ii : ℕ} {rej : Rejected} {chain : List (Vec F n)} {ci : ℕ} {u : Vec F n} {alpha : Option F}
    (h : runAdaptation L c o i ii rej chain ci u alpha = .ok c') :
    ((i : ℤ) < o.burnintime ∧ c' = { c with
      R := belowBurninThreshold rej ii c.R o.burninScale
      RDR := .pyNone, invR := none }) ∨
    (o.burnintime ≤ (i : ℤ) ∧ AdaptSpec L o i (pySlice chain c.lastIndex ci) u alpha c c') := by
  unfold runAdaptation at h
  split at h
  · rename_i hb
    cases h
    exact .inl ⟨hb, rfl⟩
  · rename_i hb
    obtain ⟨⟨cc, mc, ws⟩, h1, h⟩ := bind_ok.1 h
    obtain ⟨up, h2, h⟩ := bind_ok.1 h
    obtain ⟨⟨RDR, invR⟩, h3, h⟩ := bind_ok.1 h
    cases h
    exact .inr ⟨by omega, ⟨h1, ⟨up, h2, rfl⟩, h3, rfl, rfl, rfl, rfl⟩⟩

/-- Rule for properties of all adaptations of a loop: `Q` holds of the covariance object before
iteration `i`, `A` of every adaptation. -/
theorem adaptLog_inv {n : ℕ} {E : Env F σ N n m} {s s' : SimState F σ N n m}
    (Q : ℕ → CovState F n → Prop) (A : AdaptRecord F n → Prop) (h0 : Q 1 s.cov)
    (hl : s.adaptLog = [])
    (hmono : ∀ i c, Q i c → Q (i + 1) c)
    (hstep : ∀ i c c' ii rej chain ci u alpha, 1 ≤ i → i < E.opts.nsimu → Q i c →
      runAdaptation E.lapack c E.opts.toAdaptOpts i ii rej chain ci u alpha = .ok c' →
      Q (i + 1) c' ∧ A ⟨i, c, c', u, alpha⟩)
    (h : executeSimulator E s = .ok s') :
    Q E.opts.nsimu s'.cov ∧ ∀ r ∈ s'.adaptLog, A r := by
  obtain ⟨_, s1, ⟨h1, h2⟩, rfl⟩ := executeSimulator_inv
    (P := fun i s => Q i s.cov ∧ ∀ r ∈ s.adaptLog, A r)
    ⟨h0, by simp [loopStart, hl]⟩
    (fun i a b p hi hi' hP hp => by
      have hc := hp.cov
      rw [hp.adaptLog]
      by_cases ha : adaptNow E a
      · rw [if_pos ha] at hc ⊢
        obtain ⟨q1, q2⟩ := hstep _ _ _ _ _ _ _ _ _ hi hi' hP.1 hc
        refine ⟨q1, fun r hr => ?_⟩
        rcases List.mem_append.1 hr with hr | hr
        · exact hP.2 r hr
        · rw [List.mem_singleton] at hr
          rw [hr]; exact q2
      · rw [if_neg ha] at hc ⊢
        rw [hc, List.append_nil]
        exact ⟨hmono _ _ hP.1, hP.2⟩) h
  exact ⟨h1, h2⟩

end Verif
