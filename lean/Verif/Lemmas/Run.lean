import Verif.Lemmas.Loop

/-! # Lemmas about setting up and running a simulation -/

set_option linter.unusedSectionVars false

namespace Verif
variable {F σ : Type} [PyFloat F] {N m : ℕ} {flags : Fin N → Bool}

theorem sampledIdx_nodup (flags : Fin N → Bool) : (sampledIdx flags).Nodup :=
  (List.nodup_finRange N).filter _

theorem mem_sampledIdx {k : Fin N} : k ∈ sampledIdx flags ↔ flags k = true := by
  simp [sampledIdx]

theorem parindOf_injective (flags : Fin N → Bool) : Function.Injective (parindOf flags) := by
  intro i j h
  exact (List.nodup_iff_injective_get.1 (sampledIdx_nodup flags)) h

theorem flags_parindOf (i : Fin (nS flags)) : flags (parindOf flags i) = true :=
  mem_sampledIdx.1 (List.get_mem _ _)

theorem exists_parindOf {k : Fin N} (h : flags k = true) : ∃ i, parindOf flags i = k := by
  obtain ⟨i, hi⟩ := List.mem_iff_get.1 (mem_sampledIdx.2 h)
  exact ⟨i, hi⟩

theorem not_parindOf {k : Fin N} (h : flags k = false) : ∀ i, parindOf flags i ≠ k := by
  rintro i rfl
  rw [flags_parindOf (flags := flags) i] at h; cases h

theorem parindOf_ne_iff {k : Fin N} : (∀ i, parindOf flags i ≠ k) ↔ flags k = false := by
  refine ⟨fun h => ?_, not_parindOf⟩
  cases hk : flags k with
  | false => rfl
  | true => obtain ⟨i, hi⟩ := exists_parindOf hk; exact absurd hi (h i)

/-- What `_initialize_simulation` guarantees. -/
structure InitSpec (U : UserFuns F N (nS flags) m) (o : Obj F flags m) (rng : σ)
    (I : Init F σ flags m) : Prop where
  opts : I.opts = checkDependentSimulationOptions o.opts o.ms.N0.isSome
  parind : I.problem.parind = parindOf flags
  lower : I.problem.lower = atParind flags fun k => (o.specs k).minimum
  upper : I.problem.upper = atParind flags fun k => (o.specs k).maximum
  style1 : I.problem.style1 = U.style1
  sosFun : I.problem.sosFun = U.sosFun
  theta : I.initialSet.theta = atParind flags fun k => (o.specs k).theta0
  inside : isOutside I.initialSet.theta I.problem.lower I.problem.upper = false
  value : ∀ k, I.world.value k = (o.specs k).theta0
  sos : SosAt U.style1 U.sosFun I.world.value I.initialSet.ss
  calls : ∃ k, I.world.calls = List.replicate (k + 1) I.world.value
  sigma2 : I.initialSet.sigma2 = I.errModel.sigma2
  ms : ∃ ms1, checkDependentModelSettings o.ms o.data.n o.data.nbatch = .ok ms1 ∧
    checkWrtNsos ms1 m = .ok I.ms ∧ toErrModel I.ms m = .ok I.errModel
  prior : I.initialSet.prior = I.problem.prior I.initialSet.theta
  priorFun : ∀ th, I.problem.prior th = U.priorFun th
    (atParind flags fun k => setupPriorMu (o.specs k).priorMu (o.specs k).theta0)
    (atParind flags fun k => setupPriorSigma (o.specs k).priorSigma)
  rng : I.world.rng = rng

theorem checkLimits_ok {p : Fin N → ParamSpec F} {u : Unit} (h : checkLimits flags p = .ok u) :
    isOutside (atParind flags fun k => (p k).theta0) (atParind flags fun k => (p k).minimum)
      (atParind flags fun k => (p k).maximum) = false := by
  unfold checkLimits at h
  split at h
  · split at h
    · cases h
    · rename_i h1; simpa using h1
  · cases h

theorem initializeSimulation_ok {U : UserFuns F N (nS flags) m} {L : Lapack F}
    {o : Obj F flags m} {rng : σ} {I : Init F σ flags m}
    (h : initializeSimulation U L o rng = .ok I) : InitSpec U o rng I := by
  unfold initializeSimulation at h
  rw [bind_ok] at h
  obtain ⟨ms1, hms1, h⟩ := h
  rw [bind_ok] at h
  obtain ⟨_, _, h⟩ := h
  rw [bind_ok] at h
  obtain ⟨_, hlim, h⟩ := h
  rw [bind_ok] at h
  obtain ⟨cov, _, h⟩ := h
  rw [bind_ok] at h
  obtain ⟨⟨ss, w⟩, hsos, h⟩ := h
  rw [bind_ok] at h
  obtain ⟨ms2, hms2, h⟩ := h
  rw [bind_ok] at h
  obtain ⟨M, hM, h⟩ := h
  have hs := evaluateSos_ok hsos
  have hval : ∀ k, w.value k = (o.specs k).theta0 := by
    intro k
    rw [hs.2.1]
    cases hk : flags k with
    | false => exact writeAt_fixed (not_parindOf hk)
    | true =>
      obtain ⟨i, rfl⟩ := exists_parindOf hk
      exact writeAt_sampled (parindOf_injective flags) i
  obtain ⟨hs1, hs2, hs3, k, hs4⟩ := hs
  have hl := checkLimits_ok hlim
  cases h
  refine ⟨rfl, rfl, rfl, rfl, rfl, rfl, rfl, hl, hval, ?_, ⟨k, ?_⟩, rfl, ⟨ms1, hms1, hms2, hM⟩, rfl, fun _ => rfl, hs3⟩
  · dsimp only; rw [hs2]; exact hs1
  · dsimp only; rw [hs4, hs2]; simp

/-- Properties of a parameter table that no run changes. -/
structure SameSpecs (flags : Fin N → Bool) (p q : Fin N → ParamSpec F) : Prop where
  name : ∀ k, (q k).name = (p k).name
  minimum : ∀ k, (q k).minimum = (p k).minimum
  maximum : ∀ k, (q k).maximum = (p k).maximum
  fixed : ∀ k, flags k = false → (q k).theta0 = (p k).theta0
  adapt : ∀ k, (q k).adapt = (p k).adapt
  loc : ∀ k, (q k).loc = (p k).loc
  priorSigma : ∀ k, (q k).priorSigma = (p k).priorSigma

theorem SameSpecs.refl (p : Fin N → ParamSpec F) : SameSpecs flags p p :=
  ⟨fun _ => rfl, fun _ => rfl, fun _ => rfl, fun _ _ => rfl, fun _ => rfl, fun _ => rfl, fun _ => rfl⟩

theorem SameSpecs.trans {p q r : Fin N → ParamSpec F} (h : SameSpecs flags p q)
    (h' : SameSpecs flags q r) : SameSpecs flags p r :=
  ⟨fun k => (h'.name k).trans (h.name k), fun k => (h'.minimum k).trans (h.minimum k),
    fun k => (h'.maximum k).trans (h.maximum k),
    fun k hk => (h'.fixed k hk).trans (h.fixed k hk), fun k => (h'.adapt k).trans (h.adapt k),
    fun k => (h'.loc k).trans (h.loc k), fun k => (h'.priorSigma k).trans (h.priorSigma k)⟩

theorem resultToParam_same (name : String) (v : F) (p : Fin N → ParamSpec F) :
    SameSpecs flags p (resultToParam flags name v p) := by
  constructor <;> intro k
  all_goals unfold resultToParam
  · split <;> rfl
  · split <;> rfl
  · split <;> rfl
  · intro hk; split <;> simp [hk]
  · split <;> rfl
  · split <;> rfl
  · split <;> rfl

theorem resultsToParams_same {parind : List ℕ} {names : List String} {theta : List F}
    {p q : Fin N → ParamSpec F} (h : resultsToParams flags parind names theta p = .ok q) :
    SameSpecs flags p q := by
  unfold resultsToParams at h
  refine foldlM_list_inv (P := fun q => SameSpecs flags p q) _ _ _ (SameSpecs.refl p) ?_ h
  intro ii _ s s' hs hst
  rw [bind_ok] at hst
  obtain ⟨parii, _, hst⟩ := hst
  rw [bind_ok] at hst
  obtain ⟨v, _, hst⟩ := hst
  rw [bind_ok] at hst
  obtain ⟨nm, _, hst⟩ := hst
  cases hst
  exact hs.trans (resultToParam_same nm v s)

theorem loadRestart_ok {o o1 : Obj F flags m} (h : loadRestart o = .ok o1) :
    SameSpecs flags o.specs o1.specs ∧ o1.ms = o.ms ∧ o1.data = o.data ∧ o1.opts = o.opts ∧
    (o.extra.jsonRestart = none → o1 = o) := by
  unfold loadRestart at h
  split at h
  · cases h; exact ⟨SameSpecs.refl _, rfl, rfl, rfl, fun _ => rfl⟩
  · rename_i r hr
    rw [bind_ok] at h
    obtain ⟨specs, h1, h⟩ := h
    cases h
    exact ⟨resultsToParams_same h1, rfl, rfl, rfl, fun hn => by rw [hr] at hn; cases hn⟩

/-- The part of the state at the start of the loop that is common to both kinds of run. -/
structure StartSpec (U : UserFuns F N (nS flags) m) (o o1 : Obj F flags m) (rng : σ)
    (I : Init F σ flags m) (s0 : SimState F σ N (nS flags) m) : Prop where
  same : SameSpecs flags o.specs o1.specs
  init : InitSpec U o1 rng I
  oldSet : s0.oldSet = I.initialSet
  world : s0.world = I.world
  trace : s0.trace = []
  logs : s0.logs = []
  adaptedAt : s0.adaptedAt = []
  adaptLog : s0.adaptLog = []
  sigmaLog : s0.sigmaLog = []
  moveLog : s0.moveLog = []
  dr : s0.dr = ⟨List.replicate I.opts.ntry.toNat 0, 0⟩
  cov : s0.cov = I.cov
  errModel : s0.errModel = I.errModel
  ms : o1.ms = o.ms
  data : o1.data = o.data
  opts : o1.opts = o.opts

theorem setup_fresh {U : UserFuns F N (nS flags) m} {L : Lapack F} {o o1 : Obj F flags m}
    {rng : σ} {I : Init F σ flags m} {s0 : SimState F σ N (nS flags) m}
    (h : setupSimulator U L o rng false = .ok (o1, I, s0)) :
    StartSpec U o o1 rng I s0 ∧ 0 < I.opts.nsimu ∧ s0.chainIndex = 0 ∧
    s0.chain = (zeroRows I.opts.nsimu.toNat).set 0 I.initialSet.theta ∧
    s0.sschain = (zeroRows I.opts.nsimu.toNat).set 0 I.initialSet.ss ∧
    s0.s2chain = (if I.opts.updatesigma then
      some ((zeroRows I.opts.nsimu.toNat).set 0 I.errModel.sigma2) else none) ∧
    s0.logSource = .live ∧ (o.extra.jsonRestart = none → o1 = o) ∧
    initializeSimulation U L o1 rng = .ok I ∧ loadRestart o = .ok o1 := by
  unfold setupSimulator at h
  rw [if_neg (by simp), bind_ok] at h
  obtain ⟨o2, h1, h⟩ := h
  rw [bind_ok] at h
  obtain ⟨I', h2, h⟩ := h
  split at h
  · cases h
  · rename_i hn
    rw [bind_ok] at h
    obtain ⟨⟨c, ss, s2⟩, h3, h⟩ := h
    have hst := loadRestart_ok h1
    unfold initializeChains at h3
    rw [bind_ok] at h3
    obtain ⟨c', hc, h3⟩ := h3
    rw [bind_ok] at h3
    obtain ⟨ss', hss, h3⟩ := h3
    rw [pySet_ok] at hc hss
    have hpos : 0 < I'.opts.nsimu := by
      have := hc.1; simp [zeroRows] at this; omega
    by_cases hu : I'.opts.updatesigma = true
    · rw [if_pos hu, bind_ok] at h3
      obtain ⟨s2', hs2, h3⟩ := h3
      rw [pySet_ok] at hs2
      cases h3; cases h
      refine ⟨⟨hst.1, initializeSimulation_ok h2, rfl, rfl, rfl, rfl, rfl, rfl, rfl, rfl, rfl, rfl, rfl, hst.2.1,
        hst.2.2.1, hst.2.2.2.1⟩, hpos, rfl, hc.2, hss.2, ?_, rfl, hst.2.2.2.2, h2, h1⟩
      rw [if_pos hu]; exact congrArg some hs2.2
    · rw [if_neg hu] at h3
      cases h3; cases h
      refine ⟨⟨hst.1, initializeSimulation_ok h2, rfl, rfl, rfl, rfl, rfl, rfl, rfl, rfl, rfl, rfl, rfl, hst.2.1,
        hst.2.2.1, hst.2.2.2.1⟩, hpos, rfl, hc.2, hss.2, ?_, rfl, hst.2.2.2.2, h2, h1⟩
      rw [if_neg hu]; rfl

theorem setup_continue {U : UserFuns F N (nS flags) m} {L : Lapack F} {o o1 : Obj F flags m}
    {rng : σ} {I : Init F σ flags m} {s0 : SimState F σ N (nS flags) m}
    (h : setupSimulator U L o rng true = .ok (o1, I, s0)) :
    StartSpec U o o1 rng I s0 ∧ 0 < I.opts.nsimu ∧ s0.chainIndex = o.chainIndex ∧
    s0.chain = o.chains.chain ++ zeroRows (I.opts.nsimu.toNat - 1) ∧
    s0.sschain = o.chains.sschain ++ zeroRows (I.opts.nsimu.toNat - 1) ∧
    s0.s2chain = (if I.opts.updatesigma then
      o.chains.s2chain.map fun c => c ++ zeroRows (I.opts.nsimu.toNat - 1) else none) ∧
    (I.opts.updatesigma = true → o.chains.s2chain.isSome) ∧
    s0.logSource = (match o.logChains with
        | some lc => .stale lc.chain lc.sschain lc.s2chain
        | none => .live) ∧
    (∃ res, o.results = some res ∧ resultsToParams flags ((sampledIdx flags).map (·.val)) res.names
        (List.ofFn res.theta) o.specs = .ok o1.specs) ∧
    o1 = { o with specs := o1.specs } := by
  unfold setupSimulator at h
  rw [if_pos rfl] at h
  split at h
  · cases h
  · rename_i res hres
    rw [bind_ok] at h
    obtain ⟨specs, h1, h⟩ := h
    rw [bind_ok] at h
    obtain ⟨I', h2, h⟩ := h
    rw [bind_ok] at h
    obtain ⟨⟨c, ss, s2⟩, h3, h⟩ := h
    unfold expandChains at h3
    split at h3
    · cases h3
    · rename_i hn
      have hpos : 0 < I'.opts.nsimu := by omega
      by_cases hu : I'.opts.updatesigma = true
      · rw [if_pos hu] at h3
        split at h3
        · rename_i s2' hs2
          cases h3; cases h
          refine ⟨⟨resultsToParams_same h1, initializeSimulation_ok h2, rfl, rfl, rfl, rfl, rfl,
            rfl, rfl, rfl, rfl, rfl, rfl, rfl, rfl, rfl⟩, hpos, rfl, rfl, rfl, ?_, ?_, rfl, ⟨res, hres, h1⟩, rfl⟩
          · rw [if_pos hu]; dsimp only at hs2; rw [hs2]; rfl
          · intro _; dsimp only at hs2; rw [hs2]; rfl
        · cases h3
      · rw [if_neg hu] at h3
        cases h3; cases h
        refine ⟨⟨resultsToParams_same h1, initializeSimulation_ok h2, rfl, rfl, rfl, rfl, rfl,
            rfl, rfl, rfl, rfl, rfl, rfl, rfl, rfl, rfl⟩, hpos, rfl, rfl, rfl, ?_, ?_, rfl, ⟨res, hres, h1⟩, rfl⟩
        · rw [if_neg hu]; rfl
        · intro h'; exact absurd h' hu

/-- The parts of a completed run. -/
theorem runSimulation_ok {U : UserFuns F N (nS flags) m} {G : Rng σ F} {L : Lapack F} {fuel : ℕ}
    {o : Obj F flags m} {rng : σ} {up : Bool} {out : RunOut F σ flags m}
    (h : runSimulation U G L fuel o rng up = .ok out) :
    ∃ o1 I s0, setupSimulator U L o rng up = .ok (o1, I, s0) ∧
      executeSimulator ⟨I.problem, G, L, runOpts I.opts o1.extra, fuel⟩ s0 = .ok out.final ∧
      generateResults o1 I out.final = .ok out.results ∧ out.init = I ∧
      out.obj = { o1 with
          opts := I.opts, ms := settingsAfter I.ms out.final.errModel
          chainIndex := out.final.chainIndex
          chains := ⟨out.final.chain, out.final.sschain, out.final.s2chain⟩
          logChains := if up then o1.logChains
            else some ⟨out.final.chain, out.final.sschain, out.final.s2chain⟩
          covRDR := out.final.cov.RDR, results := some out.results } := by
  unfold runSimulation at h
  rw [bind_ok] at h
  obtain ⟨⟨o1, I, s0⟩, h1, h⟩ := h
  rw [bind_ok] at h
  obtain ⟨s, h2, h⟩ := h
  rw [bind_ok] at h
  obtain ⟨res, h3, h⟩ := h
  cases h
  exact ⟨o1, I, s0, h1, h2, h3, rfl, rfl⟩

theorem generateResults_ok {o : Obj F flags m} {I : Init F σ flags m}
    {s : SimState F σ N (nS flags) m} {r : Results F flags m} (h : generateResults o I s = .ok r) :
    dramResults I.opts s = .ok r.dram ∧
    r.theta = writeAt (parindOf flags) s.oldSet.theta (fun k => (o.specs k).theta0) ∧
    r.names = (sampledIdx flags).map (fun k => (o.specs k).name) ∧
    r.rejected = s.rejected ∧ r.nsimu = I.opts.nsimu.toNat ∧ r.chain = s.chain ∧
    r.sschain = s.sschain ∧ r.s2chain = s.s2chain ∧ r.R = s.cov.R ∧ r.qcov = rtr s.cov.R ∧
    r.cov = s.cov.covchain ∧ r.mean = s.cov.meanchain := by
  unfold generateResults at h
  rw [bind_ok] at h
  obtain ⟨d, h1, h⟩ := h
  cases h
  exact ⟨h1, rfl, rfl, rfl, rfl, rfl, rfl, rfl, rfl, rfl, rfl, rfl⟩

end Verif
