import Verif.Lemmas.Progress
import Verif.Lemmas.History
import Verif.Spec.Toy
import Verif.Spec.XToy

/-! # C18, C64: a run that has been set up can be carried out -/

set_option linter.unusedSectionVars false

namespace Verif
variable {F σ : Type} [PyFloat F] {N m : ℕ} {flags : Fin N → Bool}

theorem rdrInverses_length {n : ℕ} {L : Lapack F} {RDR : List (Mat F n)} : ∀ {k ii : ℕ}
    {r}, rdrInverses L RDR k ii = .ok r → r.length = k ∧ (0 < k → ii + k ≤ RDR.length)
  | 0, _, _, h => by cases h; exact ⟨rfl, by omega⟩
  | k + 1, ii, r, h => by
    unfold rdrInverses at h
    obtain ⟨s, hs, h⟩ := bind_ok.1 h
    obtain ⟨iR, _, h⟩ := bind_ok.1 h
    obtain ⟨l, h1, h⟩ := bind_ok.1 h
    cases h
    obtain ⟨a, b⟩ := rdrInverses_length h1
    have := (List.getElem?_eq_some_iff.1 (pyGet_ok.1 hs)).1
    refine ⟨by simpa using a, fun _ => ?_⟩
    rcases Nat.eq_zero_or_pos k with rfl | hk
    · omega
    · have := b hk; omega

theorem setupRDR_factors {n : ℕ} {L : Lapack F} {R R' : Mat F n} {ntry : ℕ} {drscale : List F}
    {RDR : Option (List (Mat F n))} {l il : List (Mat F n)} (hn : 1 < ntry)
    (h : setupRDRMatrix L R ntry drscale RDR = .ok (R', l, il)) :
    ntry ≤ l.length ∧ ntry ≤ il.length := by
  unfold setupRDRMatrix at h
  split at h
  · obtain ⟨iR, _, h⟩ := bind_ok.1 h
    obtain ⟨⟨l', il'⟩, h1, h⟩ := bind_ok.1 h
    cases h
    obtain ⟨a, b⟩ := rdrSetupLoop_length h1
    dsimp only at a b
    simp only [List.length_cons, a, b]
    omega
  · obtain ⟨inv, h1, h⟩ := bind_ok.1 h
    obtain ⟨R0, _, h⟩ := bind_ok.1 h
    cases h
    obtain ⟨a, b⟩ := rdrInverses_length h1
    have := b (by omega)
    omega

theorem checkSizeOfObservations_length {N N' : List F} (hN : N ≠ [])
    (h : checkSizeOfObservations N m = .ok N') : m ≤ N'.length := by
  unfold checkSizeOfObservations at h
  split at h
  · cases h; simp
  · split at h
    · cases h
    · split at h
      · rename_i h2; cases h; simp; omega
      · rename_i h1 h2 h3
        cases h
        have := List.length_pos_iff.2 hN
        match N, h1, hN with
        | [a], h1, _ => exact absurd rfl (h1 a)
        | a :: b :: l, _, _ => simp only [List.length_cons] at h2 ⊢; omega

theorem checkDependent_N {s s' : ModelSettings F} {dataN : List ℕ} {b : ℕ} (hN : dataN ≠ [])
    (h : checkDependentModelSettings s dataN b = .ok s') : ∃ N, s'.N = some N ∧ N ≠ [] := by
  unfold checkDependentModelSettings at h
  obtain ⟨N, h1, h⟩ := bind_ok.1 h
  dsimp only at h
  have hN' : N ≠ [] := by
    cases hs : s.N with
    | none =>
      rw [hs] at h1
      cases h1
      simpa using hN
    | some ud =>
      rw [hs] at h1
      have h1 : checkNumberOfObservations ud (dataN.map fun k : ℕ => ofInt k) = .ok N := h1
      unfold checkNumberOfObservations at h1
      have hd : (dataN.map fun k : ℕ => (ofInt k : F)) ≠ [] := by simpa using hN
      split at h1
      · cases h1; exact hd
      · split at h1
        · split at h1
          · split at h1 <;> cases h1
            exact hd
          · cases h1
        · split at h1
          · rename_i hl
            split at h1
            · split at h1 <;> cases h1
              intro h0; rw [h0] at hl; simp at hl
            · cases h1
          · cases h1
  cases h
  refine ⟨N, ?_, hN'⟩
  split <;> rfl

theorem init_obs {U : UserFuns F N (nS flags) m} {o : Obj F flags m} {rng : σ} {I : Init F σ flags m}
    (h : InitSpec U o rng I) (hN : o.data.n ≠ []) : m ≤ I.errModel.N.length := by
  obtain ⟨ms1, h1, h2, h3⟩ := h.ms
  obtain ⟨Nl, hs, hne⟩ := checkDependent_N hN h1
  unfold checkWrtNsos at h2
  obtain ⟨_, _, h2⟩ := bind_ok.1 h2
  obtain ⟨_, _, h2⟩ := bind_ok.1 h2
  obtain ⟨_, _, h2⟩ := bind_ok.1 h2
  obtain ⟨_, _, h2⟩ := bind_ok.1 h2
  obtain ⟨_, _, h2⟩ := bind_ok.1 h2
  obtain ⟨N', h4, h2⟩ := bind_ok.1 h2
  obtain ⟨N'', h5, h6⟩ := bind_ok.1 h2
  rw [orRaise_ok, hs] at h4
  cases h4
  have := checkSizeOfObservations_length hne h5
  unfold toErrModel at h3
  split at h3
  · rename_i hN0
    split at h3
    · rw [← Except.ok.inj h3]
      dsimp only
      have h2 := Except.ok.inj h6
      rw [← h2] at hN0
      cases hN0
      exact this
    · cases h3
  · cases h3

/-- The options with which a run asks for delayed rejection in a way the package supports: method
`dr` or `dram` (which set up the factors), not combined with robust adaptation, and no adaptation
before the burn-in is over. -/
structure SupportsDR (opts : SimOpts F) (drscale : List F) : Prop where
  method : opts.method = .dr ∨ opts.method = .dram
  noRam : opts.doram = false
  burnin : 0 < opts.adaptint → opts.burnintime ≤ opts.adaptint ∧ drscale ≠ []

/-- the chains of the object have as many rows as its index says -/
structure Ready (o : Obj F flags m) : Prop where
  chain : o.chains.chain.length = o.chainIndex + 1
  sschain : o.chains.sschain.length = o.chainIndex + 1
  s2 : ∀ c, o.chains.s2chain = some c → c.length = o.chainIndex + 1

theorem executeSimulator_s2 {n : ℕ} {E : Env F σ N n m} {s s' : SimState F σ N n m} {k : ℕ}
    (h0 : ∀ c, s.s2chain = some c → c.length = k) (h : executeSimulator E s = .ok s') :
    ∀ c, s'.s2chain = some c → c.length = k := by
  obtain ⟨_, s1, hP, hfin⟩ := executeSimulator_inv
    (P := fun _ a => ∀ c, a.s2chain = some c → c.length = k) h0
    (fun i a b p _ _ hP hp => by
      have he := hp.errModel
      split at he
      · obtain ⟨c, r, h1, _, h2, _⟩ := he
        rw [h2]
        rintro c' ⟨⟩
        rw [List.length_set]
        exact hP c h1
      · rw [he.2.1]; exact hP) h
  rw [hfin]; exact hP

/-- after any history of runs the chains of an object with results have the right length -/
theorem reachable_ready {U : UserFuns F N (nS flags) m} {o0 o : Obj F flags m}
    (h0 : o0.results = none) (h : Reachable U o0 o) : o.results.isSome → Ready o := by
  induction h with
  | start => simp [h0]
  | options a e _ ih => exact fun hr => ⟨(ih hr).chain, (ih hr).sschain, (ih hr).s2⟩
  | @run o σ' G L fuel rng up out hre hr ih =>
    intro _
    have hinv := (run_objInv (reachable_objInv h0 hre) hr).1
    obtain ⟨o1, I, s0, h1, h2, h3, h4, h5⟩ := runSimulation_ok hr
    have hsome : out.obj.results.isSome := by rw [h5]; rfl
    refine ⟨hinv.len hsome, hinv.len' hsome, ?_⟩
    have hidx : out.obj.chainIndex = out.final.chainIndex := by rw [h5]
    have hs2 : out.obj.chains.s2chain = out.final.s2chain := by rw [h5]
    have hidx2 : out.final.chainIndex + 1 = s0.chainIndex + I.opts.nsimu.toNat := by
      obtain ⟨_, s1, hP, hfin⟩ := executeSimulator_inv
        (P := fun i a => a.chainIndex + 1 = s0.chainIndex + i) rfl
        (fun i a b p _ _ hP hp => by rw [hp.idx]; omega) h2
      rw [hfin]; exact hP
    rw [hs2, hidx, hidx2]
    refine executeSimulator_s2 ?_ h2
    cases up with
    | false =>
      obtain ⟨_, _, hci, _, _, hs, _⟩ := setup_fresh h1
      intro c hc
      rw [hs] at hc
      split at hc
      · cases hc; simp [zeroRows, hci]
      · cases hc
    | true =>
      obtain ⟨_, hpos, hci, _, _, hs, _, _, ⟨res, hres, _⟩, _⟩ := setup_continue h1
      have hrd := ih (by rw [hres]; rfl)
      intro c hc
      rw [hs] at hc
      split at hc
      · obtain ⟨c', h6, rfl⟩ := Option.map_eq_some_iff.1 hc
        have := hrd.s2 c' h6
        simp [zeroRows, hci]; omega
      · cases hc

theorem start_fit {U : UserFuns F N (nS flags) m} {G : Rng σ F} {L : Lapack F} {fuel : ℕ}
    {o o1 : Obj F flags m} {rng : σ} {up : Bool} {I : Init F σ flags m} {s0 : SimState F σ N (nS flags) m}
    (h : setupSimulator U L o rng up = .ok (o1, I, s0))
    (hrd : up = true → Ready o)
    (hn : 0 < nS flags) (hsos : Computes U.style1 U.sosFun)
    (hdr : 1 < o.opts.ntry → SupportsDR o.opts o.extra.drscale)
    (hobs : o.data.n ≠ []) :
    GoodOpts ⟨I.problem, G, L, runOpts I.opts o1.extra, fuel⟩ ∧
      Fit ⟨I.problem, G, L, runOpts I.opts o1.extra, fuel⟩ s0.chainIndex 1 (loopStart s0) := by
  obtain ⟨hst, hpos⟩ := setup_start h
  have hin := setupSimulator_init h
  have hlen : s0.chain.length = s0.chainIndex + I.opts.nsimu.toNat ∧
      s0.sschain.length = s0.chainIndex + I.opts.nsimu.toNat ∧
      (I.opts.updatesigma = true →
        ∃ c, s0.s2chain = some c ∧ c.length = s0.chainIndex + I.opts.nsimu.toNat) := by
    cases up with
    | false =>
      obtain ⟨_, _, hci, hch, hsc, hs2, _⟩ := setup_fresh h
      refine ⟨by simp [hch, hci, zeroRows], by simp [hsc, hci, zeroRows], fun hu => ?_⟩
      exact ⟨_, by rw [hs2, if_pos hu], by simp [zeroRows, hci]⟩
    | true =>
      obtain ⟨_, _, hci, hch, hsc, hs2, hs2', _⟩ := setup_continue h
      obtain ⟨r1, r2, r3⟩ := hrd rfl
      refine ⟨by simp [hch, hci, zeroRows]; omega, by simp [hsc, hci, zeroRows]; omega, fun hu => ?_⟩
      obtain ⟨c, hc⟩ := Option.isSome_iff_exists.1 (hs2' hu)
      have := r3 c hc
      exact ⟨_, by rw [hs2, if_pos hu, hc]; rfl, by simp [zeroRows, hci]; omega⟩
  have e6 : o1.extra.drscale = o.extra.drscale := by
    cases up with
    | false =>
      have hload := (setup_fresh h).2.2.2.2.2.2.2.2.2
      unfold loadRestart at hload
      split at hload
      · cases hload; rfl
      · obtain ⟨_, _, hload⟩ := bind_ok.1 hload
        cases hload; rfl
    | true =>
      have h7 := (setup_continue h).2.2.2.2.2.2.2.2.2
      rw [h7]
  have hcov := initializeSimulation_cov hin
  obtain ⟨_, ⟨R, hR, hRdr⟩, c1, c2, c3, c4, _⟩ := initCovState_ok hcov
  have hopts : I.opts = checkDependentSimulationOptions o.opts o.ms.N0.isSome := by
    rw [hst.init.opts, hst.opts, hst.ms]
  have e1 : I.opts.ntry = o.opts.ntry := by rw [hopts]; rfl
  have e2 : I.opts.doram = o.opts.doram := by rw [hopts]; rfl
  have e3 : I.opts.burnintime = o.opts.burnintime := by rw [hopts]; rfl
  have e4 : I.opts.adaptint = o.opts.adaptint := by rw [hopts]; rfl
  have e5 : I.opts.method = o.opts.method := by rw [hopts]; rfl
  have hnt : ∀ k : ℤ, 1 < k.toNat → 1 < k := by intro k hk; omega
  refine ⟨⟨hn, ?_, ?_, ?_⟩, ⟨?_, ?_, ?_, ?_, ?_, ?_, ?_, ?_, ?_⟩⟩
  · rw [show I.problem.style1 = U.style1 from hst.init.style1,
      show I.problem.sosFun = U.sosFun from hst.init.sosFun]
    exact hsos
  · intro hd
    by_contra hlt
    have := (hdr (by rw [← e1]; exact hnt _ (by simpa [runOpts] using hlt))).noRam
    rw [← e2] at this
    simp [runOpts] at hd
    rw [hd] at this; cases this
  · intro h1 h2
    have hd := hdr (by rw [← e1]; exact hnt _ h1)
    have := hd.burnin (by rw [← e4]; exact h2)
    rw [← e3, ← e4, ← e6] at this
    exact this
  · rfl
  · exact hlen.1
  · exact hlen.2.1
  · exact hlen.2.2
  · intro _
    change m ≤ s0.errModel.N.length
    rw [hst.errModel]
    exact init_obs hst.init (by rw [hst.data]; exact hobs)
  · change s0.cov.covchain.isSome → s0.cov.meanchain.isSome ∧ s0.cov.wsum.isSome
    rw [hst.cov, c1, c2, c3]
    cases I.opts.initqcovn <;> simp
  · change s0.cov.lastIndex < 1
    rw [hst.cov, c4]; exact one_pos
  · exact one_pos
  · intro h1
    have h1 : 1 < I.opts.ntry.toNat := h1
    have hd := hdr (by rw [← e1]; exact hnt _ h1)
    have hm : I.opts.method = .dram ∨ I.opts.method = .dr := by rw [e5]; exact hd.method.symm
    rw [if_pos hm] at hRdr
    obtain ⟨l, il, g1, g2, g3⟩ := hRdr
    obtain ⟨g4, g5⟩ := setupRDR_factors h1 g1
    refine ⟨⟨l, il, ?_, ?_, g4, g5⟩, ?_⟩
    · change s0.cov.RDR = _
      rw [hst.cov, g2]
    · change s0.cov.invR = _
      rw [hst.cov, g3]
    · change s0.dr.iacce.length = I.opts.ntry.toNat
      rw [hst.dr]; simp

/-- a run whose loop completes returns its results -/
theorem run_of_loop {U : UserFuns F N (nS flags) m} {G : Rng σ F} {L : Lapack F} {fuel : ℕ}
    {o o1 : Obj F flags m} {rng : σ} {up : Bool} {I : Init F σ flags m} {s0 s : SimState F σ N (nS flags) m}
    (h : setupSimulator U L o rng up = .ok (o1, I, s0))
    (hrd : up = true → Ready o)
    (hn : 0 < nS flags) (hsos : Computes U.style1 U.sosFun)
    (hdr : 1 < o.opts.ntry → SupportsDR o.opts o.extra.drscale) (hobs : o.data.n ≠ [])
    (hx : executeSimulator (⟨I.problem, G, L, runOpts I.opts o1.extra, fuel⟩ :
      Env F σ N (nS flags) m) s0 = .ok s) :
    ∃ out, runSimulation U G L fuel o rng up = .ok out ∧ out.final = s ∧ out.init = I ∧
      out.results.chain = s.chain := by
  obtain ⟨hg, hf⟩ := start_fit (G := G) (fuel := fuel) h hrd hn hsos hdr hobs
  unfold runSimulation
  rw [h, ok_bind]
  dsimp only
  rw [hx, ok_bind]
  have hfin := fit_final hg hf hx
  have : ∃ d, dramResults I.opts s = .ok d := by
    unfold dramResults
    split
    · rename_i hnt
      obtain ⟨⟨l, il, h1, _⟩, h2⟩ := hfin.dr (show 1 < I.opts.ntry.toNat by omega)
      rw [h1]
      dsimp only
      have h2 : s.dr.iacce.length = I.opts.ntry.toNat := h2
      unfold addDram
      split
      · rename_i h0; rw [h0] at h2; simp at h2; omega
      · exact ⟨_, rfl⟩
    · exact ⟨_, rfl⟩
  obtain ⟨d, hd⟩ := this
  unfold generateResults
  rw [hd, ok_bind, ok_bind]
  exact ⟨_, rfl, rfl, rfl, rfl⟩

/-- a run that has been set up returns results, or fails in one of two ways -/
theorem run_returns {U : UserFuns F N (nS flags) m} {G : Rng σ F} {L : Lapack F} {fuel : ℕ}
    {o o1 : Obj F flags m} {rng : σ} {up : Bool} {I : Init F σ flags m} {s0 : SimState F σ N (nS flags) m}
    (h : setupSimulator U L o rng up = .ok (o1, I, s0))
    (hrd : up = true → Ready o)
    (hns : 1 < o.opts.nsimu) (hn : 0 < nS flags) (hsos : Computes U.style1 U.sosFun)
    (hdr : 1 < o.opts.ntry → SupportsDR o.opts o.extra.drscale) (hobs : o.data.n ≠ []) :
    (∃ out, runSimulation U G L fuel o rng up = .ok out) ∨
    (runSimulation U G L fuel o rng up = .error .linAlgError ∧ 1 < o.opts.ntry ∧
      0 < o.opts.adaptint) ∨
    (runSimulation U G L fuel o rng up = .error .outOfFuel ∧ I.opts.updatesigma = true ∧
      RunsOut G fuel I.errModel.N0 I.errModel.N) := by
  obtain ⟨hg, hf⟩ := start_fit (G := G) (fuel := fuel) h hrd hn hsos hdr hobs
  have hst := (setup_start h).1
  have hopts : I.opts = checkDependentSimulationOptions o.opts o.ms.N0.isSome := by
    rw [hst.init.opts, hst.opts, hst.ms]
  have e0 : I.opts.nsimu = o.opts.nsimu := by rw [hopts]; rfl
  have e1 : I.opts.ntry = o.opts.ntry := by rw [hopts]; rfl
  have e4 : I.opts.adaptint = o.opts.adaptint := by rw [hopts]; rfl
  have hsafe := safe_executeSimulator hg hf (show 1 < I.opts.nsimu.toNat by rw [e0]; omega)
  cases hx : executeSimulator (⟨I.problem, G, L, runOpts I.opts o1.extra, fuel⟩ :
      Env F σ N (nS flags) m) s0 with
  | error e =>
    right
    have hrun : runSimulation U G L fuel o rng up = .error e := by
      unfold runSimulation
      rw [h, ok_bind]
      dsimp only
      rw [hx]
      rfl
    rw [hrun]
    rcases hsafe e hx with ⟨rfl, h1, h2⟩ | ⟨rfl, h1⟩
    · left
      refine ⟨rfl, ?_, ?_⟩
      · have h1 : 1 < I.opts.ntry.toNat := h1
        rw [← e1]; omega
      · rw [← e4]; exact h2
    · right
      rw [hst.errModel] at h1
      exact ⟨rfl, h1⟩
  | ok s =>
    left
    obtain ⟨out, hout, _⟩ := run_of_loop h hrd hn hsos hdr hobs hx
    exact ⟨out, hout⟩

/-- **C64.** A run from scratch that has been set up, of at least two rows, with at least one
sampled parameter, at least one data set and a sum-of-squares function that returns a value
everywhere, returns results.  The only exceptions: with delayed rejection and adaptation the adapted
factor may turn out not to be invertible (`LinAlgError`), and with error-variance sampling the
rejection loop of the gamma generator, called for one of the shapes `(N0 + N)/2` of the settings, may
go on for longer than the bound `fuel` of the model (`RunsOut`).
Delayed rejection must be asked for in the supported way (`SupportsDR`; `C18` has the failures
otherwise). -/
theorem C64_run_returns {U : UserFuns F N (nS flags) m} {G : Rng σ F} {L : Lapack F} {fuel : ℕ}
    {o o1 : Obj F flags m} {rng : σ} {I : Init F σ flags m} {s0 : SimState F σ N (nS flags) m}
    (h : setupSimulator U L o rng false = .ok (o1, I, s0))
    (hns : 1 < o.opts.nsimu) (hn : 0 < nS flags) (hsos : Computes U.style1 U.sosFun)
    (hdr : 1 < o.opts.ntry → SupportsDR o.opts o.extra.drscale) (hobs : o.data.n ≠ []) :
    (∃ out, runSimulation U G L fuel o rng false = .ok out) ∨
    (runSimulation U G L fuel o rng false = .error .linAlgError ∧ 1 < o.opts.ntry ∧
      0 < o.opts.adaptint) ∨
    (runSimulation U G L fuel o rng false = .error .outOfFuel ∧ I.opts.updatesigma = true ∧
      RunsOut G fuel I.errModel.N0 I.errModel.N) :=
  run_returns h nofun hns hn hsos hdr hobs

/-- **C64**, for a continuation of an object with any history of runs. -/
theorem C64_continued_run_returns {U : UserFuns F N (nS flags) m} {G : Rng σ F} {L : Lapack F} {fuel : ℕ}
    {o0 o o1 : Obj F flags m} {rng : σ} {I : Init F σ flags m} {s0 : SimState F σ N (nS flags) m}
    (h : setupSimulator U L o rng true = .ok (o1, I, s0))
    (h0 : o0.results = none) (hre : Reachable U o0 o)
    (hns : 1 < o.opts.nsimu) (hn : 0 < nS flags) (hsos : Computes U.style1 U.sosFun)
    (hdr : 1 < o.opts.ntry → SupportsDR o.opts o.extra.drscale) (hobs : o.data.n ≠ []) :
    (∃ out, runSimulation U G L fuel o rng true = .ok out) ∨
    (runSimulation U G L fuel o rng true = .error .linAlgError ∧ 1 < o.opts.ntry ∧
      0 < o.opts.adaptint) ∨
    (runSimulation U G L fuel o rng true = .error .outOfFuel ∧ I.opts.updatesigma = true ∧
      RunsOut G fuel I.errModel.N0 I.errModel.N) := by
  obtain ⟨_, _, _, _, _, _, _, _, ⟨res, hres, _⟩, _⟩ := setup_continue h
  exact run_returns h (fun _ => reachable_ready h0 hre (by rw [hres]; rfl)) hns hn hsos hdr hobs

/-- delayed rejection with adaptation, on the rationals -/
example : ∃ out, Toy.run .dram 5 = .ok out := by
  obtain ⟨⟨o1, I, s0⟩, h, hu⟩ := exists_ok_and
    (x := setupSimulator Toy.user Toy.lapack (Toy.obj .dram 5) 0 false)
    (fun r => !r.2.1.opts.updatesigma) (by decide +kernel)
  rcases C64_run_returns (G := Toy.rng) (fuel := 100) h (by decide) (by decide)
    (fun v => by simp [Toy.user]) (fun _ => ⟨.inr rfl, rfl, fun _ => by decide +kernel⟩)
    (by decide) with h | ⟨h, _⟩ | ⟨_, h, _⟩
  · exact h
  · exfalso
    have h' : (Toy.run .dram 5).toOption.isSome = true := by decide +kernel
    rw [show Toy.run .dram 5 = _ from h] at h'
    cases h'
  · exfalso; simp [h] at hu

/-- the hypotheses of `C64_continued_run_returns` can be met: a run with delayed rejection, adaptation
and error-variance sampling, then a continuation -/
example : ∃ (o0 o o1 : Obj ℚ Toy.flags 1) (I : Init ℚ ℕ Toy.flags 1) (s0 : SimState ℚ ℕ 3 2 1),
    o0.results = none ∧ Reachable Toy.user o0 o ∧ 1 < o.opts.nsimu ∧ 1 < o.opts.ntry ∧
    SupportsDR o.opts o.extra.drscale ∧ o.data.n ≠ [] ∧
    setupSimulator Toy.user Toy.lapack o 3 true = .ok (o1, I, s0) := by
  obtain ⟨⟨a, b⟩, h⟩ := exists_ok (x := do
    let a ← runSimulation Toy.user Toy.rng Toy.lapack 100 (newObj Toy.specs
      (defineSimulationOptions { method := .dram, nsimu := 4, updatesigma := true }) Toy.extra
      Toy.settings Toy.data) 0 false
    let b ← setupSimulator Toy.user Toy.lapack { a.obj with
      opts := (defineSimulationOptions { method := .dram, nsimu := 5, updatesigma := true }),
      extra := Toy.extra } 3 true
    .ok (a, b)) (by decide +kernel)
  obtain ⟨a', h1, h⟩ := bind_ok.1 h
  obtain ⟨b', h2, h⟩ := bind_ok.1 h
  refine ⟨_, { a'.obj with
      opts := (defineSimulationOptions { method := .dram, nsimu := 5, updatesigma := true }),
      extra := Toy.extra }, b'.1, b'.2.1, b'.2.2, rfl, .options _ _ (.run _ _ _ _ _ _ .start h1),
    (show (1 : ℤ) < 5 by decide), (show (1 : ℤ) < 2 by decide),
    ⟨.inr rfl, rfl, fun _ => ⟨(show (0 : ℤ) ≤ 100 by decide),
      (show Toy.extra.drscale ≠ [] by decide +kernel)⟩⟩, ?_, h2⟩
  obtain ⟨o1, I, s0, g1, g2, g3, g4, g5⟩ := runSimulation_ok h1
  rw [g5]
  change o1.data.n ≠ []
  rw [(setup_start g1).1.data]
  decide

theorem XRun.run_ok' (L : Lapack XR) (a : OptArgs XR) (hn : 1 < a.nsimu) (had : a.adascale = none)
    (hm : a.method ≠ .dram ∧ a.method ≠ .dr) (hnt : a.ntry = none) (hup : a.updatesigma = false)
    (ad : Bool) (v e : ℝ) :
    ∃ out, runSimulation XRun.user XRun.rng L 0 (XRun.obj a ad v e) () false = .ok out := by
  obtain ⟨⟨o1, I, s0⟩, h⟩ := XRun.setup_ok L a (by omega) had hm ad v e
  have hst := (setup_fresh h).1
  have hnt' : ¬ 1 < (XRun.obj a ad v e).opts.ntry := by
    change ¬ 1 < a.ntry.getD (methodDictionary a.method).ntry
    rw [hnt]
    revert hm
    cases a.method <;> decide
  rcases C64_run_returns (G := XRun.rng) (fuel := 0) h hn (by decide)
    (fun v => by simp [XRun.user]) (fun h => absurd h hnt')
    (show XRun.data.n ≠ [] by decide) with h | ⟨_, h, _⟩ | ⟨_, h, _⟩
  · exact h
  · exact absurd h hnt'
  · rw [hst.init.opts, hst.opts, hst.ms] at h
    have h : a.updatesigma = true := h
    rw [hup] at h
    cases h

theorem XRun.run_ok (L : Lapack XR) (ad : Bool) (v e : ℝ) :
    ∃ out, runSimulation XRun.user XRun.rng L 0 (XRun.obj XRun.args ad v e) () false = .ok out :=
  XRun.run_ok' L XRun.args (by decide) rfl (by decide) rfl rfl ad v e

/-! ### C18 -/

/-- **C18**, for delayed rejection that is asked for in the supported way: at the start, at the end
and before and after every adaptation there are a factor and an inverse for every try.  (Together
with `C64_run_returns`: no try fails for want of a factor.)  Missing from the full property: the
option sets excluded by `SupportsDR`, for which it is false (`C18_burnin_refuted`,
`C18_method_refuted`). -/
theorem C18_factors_present_partial {U : UserFuns F N (nS flags) m} {G : Rng σ F} {L : Lapack F}
    {fuel : ℕ} {o : Obj F flags m} {rng : σ} {out : RunOut F σ flags m}
    (h : runSimulation U G L fuel o rng false = .ok out) (hn : 0 < nS flags)
    (hsos : Computes U.style1 U.sosFun) (hnt : 1 < o.opts.ntry)
    (hdr : SupportsDR o.opts o.extra.drscale) (hobs : o.data.n ≠ []) :
    HasFactors o.opts.ntry.toNat out.init.cov ∧ HasFactors o.opts.ntry.toNat out.final.cov ∧
    ∀ r ∈ out.final.adaptLog, HasFactors o.opts.ntry.toNat r.before ∧
      HasFactors o.opts.ntry.toNat r.after := by
  obtain ⟨o1, I, s0, hst, rfl, hc0, h1, h2, hch, _⟩ := run_cov h
  obtain ⟨hg, hf⟩ := start_fit (G := G) (fuel := fuel) h1 nofun hn hsos (fun _ => hdr) hobs
  have hopts : out.init.opts.ntry = o.opts.ntry := by
    rw [hst.init.opts, hst.opts]; rfl
  have hnt' : 1 < out.init.opts.ntry.toNat := by rw [hopts]; omega
  rw [← hopts]
  obtain ⟨_, s1, ⟨hF, hA⟩, hfin⟩ := executeSimulator_inv
    (P := fun i s => Fit ⟨out.init.problem, G, L, runOpts out.init.opts o1.extra, fuel⟩
        s0.chainIndex i s ∧ ∀ r ∈ s.adaptLog, HasFactors out.init.opts.ntry.toNat r.before ∧
          HasFactors out.init.opts.ntry.toNat r.after)
    ⟨hf, by simp [loopStart, hst.adaptLog]⟩
    (fun i a b p hi _ hP hp => by
      have hn := hP.1.step hg hp
      refine ⟨hn, fun r hr => ?_⟩
      rw [hp.adaptLog, List.mem_append] at hr
      rcases hr with hr | hr
      · exact hP.2 r hr
      · split at hr
        · rw [List.mem_singleton] at hr
          rw [hr]
          exact ⟨(hP.1.dr hnt').1, (hn.dr hnt').1⟩
        · simp at hr) h2
  have hlast := (hF.dr hnt').1
  refine ⟨?_, by rw [hfin]; exact hlast, by rw [hfin]; exact hA⟩
  rw [← hc0]
  exact (hf.dr hnt').1

/-- the hypotheses hold for a run in which the proposal is adapted after every iteration -/
example : ∃ out, runSimulation Toy.user Toy.rng Toy.lapack 100 (newObj Toy.specs
      (defineSimulationOptions { method := .dram, nsimu := 5, adaptint := some 1 }) Toy.extra
      Toy.settings Toy.data) 0 false = .ok out ∧ out.final.adaptLog.length = 4 ∧
    ∀ r ∈ out.final.adaptLog, HasFactors 2 r.before ∧ HasFactors 2 r.after := by
  obtain ⟨out, h, hl⟩ := exists_ok_and (x := runSimulation Toy.user Toy.rng Toy.lapack 100
      (newObj Toy.specs (defineSimulationOptions { method := .dram, nsimu := 5, adaptint := some 1 })
        Toy.extra Toy.settings Toy.data) 0 false)
    (fun o => decide (o.final.adaptLog.length = 4)) (by decide +kernel)
  exact ⟨out, h, by simpa using hl, (C18_factors_present_partial h (by decide)
    (fun v => by simp [Toy.user]) (by decide)
    ⟨.inr rfl, rfl, fun _ => by decide +kernel⟩ (by decide)).2.2⟩

/-- does the computation raise `e`? -/
def raises {α : Type} (x : Except PyErr α) (e : PyErr) : Bool :=
  match x with
  | .ok _ => false
  | .error e' => decide (e' = e)

theorem raises_eq {α : Type} {x : Except PyErr α} {e : PyErr} (h : raises x e = true) :
    x = .error e := by
  cases x with
  | ok a => cases h
  | error e' => rw [of_decide_eq_true h]

/-- **C18** is false with a burn-in: `dram` with an adaptation inside the burn-in period sets the
factors to `None` and the next delayed-rejection try fails with a `TypeError`. -/
theorem C18_burnin_refuted : ∃ (a : OptArgs ℚ), a.method = .dram ∧ a.ntry = none ∧
    (∃ r, setupSimulator Toy.user Toy.lapack (newObj Toy.specs (defineSimulationOptions a) Toy.extra
      Toy.settings Toy.data) 0 false = .ok r) ∧
    runSimulation Toy.user Toy.rng Toy.lapack 100 (newObj Toy.specs (defineSimulationOptions a)
      Toy.extra Toy.settings Toy.data) 0 false = .error .typeError :=
  ⟨{ method := .dram, nsimu := 5, adaptint := some 1, burnintime := 3 }, rfl, rfl,
    exists_ok (by decide +kernel), raises_eq (by decide +kernel)⟩

/-- **C18** is false for `am` with two tries: the factors are never set up and the first
delayed-rejection try fails with an `AttributeError`. -/
theorem C18_method_refuted : ∃ (a : OptArgs ℚ), a.method = .am ∧ a.ntry = some 2 ∧
    (∃ r, setupSimulator Toy.user Toy.lapack (newObj Toy.specs (defineSimulationOptions a) Toy.extra
      Toy.settings Toy.data) 0 false = .ok r) ∧
    runSimulation Toy.user Toy.rng Toy.lapack 100 (newObj Toy.specs (defineSimulationOptions a)
      Toy.extra Toy.settings Toy.data) 0 false = .error .attributeError :=
  ⟨{ method := .am, nsimu := 5, ntry := some 2 }, rfl, rfl,
    exists_ok (by decide +kernel), raises_eq (by decide +kernel)⟩

end Verif
