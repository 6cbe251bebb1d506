import Verif.Model.ShowSettings
import Verif.Lemmas.CovRun
import Verif.Lemmas.SigmaDraws
import Verif.Lemmas.SettingsLen
import Verif.Props.Continue
import Verif.Props.Console
import Verif.Spec.Toy

/-! # Properties of `display_current_mcmc_settings`: C143 -/

set_option linter.unusedSectionVars false

namespace Verif
section general
variable {F σ : Type} [PyFloat F] {N m : ℕ} {flags : Fin N → Bool}

/-- what an adaptation does to the attributes that are displayed -/
theorem runAdaptation_shows {n : ℕ} {L : Lapack F} {c c' : CovState F n} {o : AdaptOpts F}
    {i ii : ℕ} {rej : Rejected} {chain : List (Vec F n)} {k : ℕ} {u : Vec F n} {al : Option F}
    (h : runAdaptation L c o i ii rej chain k u al = .ok c') :
    c'.qcov = c.qcov ∧ (c'.RDR = .pyNone ∧ c'.invR = none ∨
      ∃ l, c'.RDR = .some (c'.R :: l) ∧ ∃ il, c'.invR = some il) ∧
    c'.lastIndex = if (i : ℤ) < o.burnintime then c.lastIndex else i := by
  unfold runAdaptation at h
  split at h
  · rename_i hb
    cases h
    exact ⟨rfl, .inl ⟨rfl, rfl⟩, by rw [if_pos hb]⟩
  · rename_i hb
    obtain ⟨⟨_, _, _⟩, _, h⟩ := bind_ok.1 h
    obtain ⟨up, _, h⟩ := bind_ok.1 h
    obtain ⟨⟨RDR, invR⟩, hd, h⟩ := bind_ok.1 h
    cases h
    refine ⟨rfl, ?_, by rw [if_neg hb]⟩
    unfold updateDelayedRejection at hd
    split at hd
    · obtain ⟨iR, _, hd⟩ := bind_ok.1 hd
      obtain ⟨⟨l, il⟩, _, hd⟩ := bind_ok.1 hd
      cases hd
      exact .inr ⟨l, rfl, _, rfl⟩
    · cases hd
      exact .inl ⟨rfl, rfl⟩

/-- the displayed attributes of the covariance object during a run -/
structure ShowInv {n : ℕ} (burnin : ℤ) (s0 : SimState F σ N n m) (s : SimState F σ N n m) : Prop where
  qcov : s.cov.qcov = s0.cov.qcov
  rdr : s.adaptedAt ≠ [] → s.cov.RDR = .pyNone ∧ s.cov.invR = none ∨
      ∃ l, s.cov.RDR = .some (s.cov.R :: l) ∧ ∃ il, s.cov.invR = some il
  cov : s.adaptedAt = [] → s.cov = s0.cov
  index : s.cov.lastIndex = ((s.adaptedAt.filter fun (k : ℕ) => burnin ≤ k).getLast?).getD 0

theorem ShowInv.step {n : ℕ} {E : Env F σ N n m} {s0 s s' : SimState F σ N n m} {i : ℕ}
    {p : Proposal F σ N n m} (h : ShowInv E.opts.burnintime s0 s) (hs : StepSpec E i s s' p) :
    ShowInv E.opts.burnintime s0 s' := by
  have hc := hs.cov
  have hA := hs.adaptedAt
  by_cases ha : adaptNow E s
  · rw [if_pos ha] at hc hA
    obtain ⟨a, b, c⟩ := runAdaptation_shows hc
    refine ⟨a.trans h.qcov, fun _ => b, fun e => ?_, ?_⟩
    · rw [hA] at e; simp at e
    · rw [c, hA, List.filter_append]
      split
      · rename_i hb
        rw [List.filter_cons_of_neg (by simpa using hb)]
        simpa using h.index
      · rename_i hb
        rw [List.filter_cons_of_pos (by simpa using hb)]
        simp
  · rw [if_neg ha] at hc hA
    rw [List.append_nil] at hA
    refine ⟨by rw [hc]; exact h.qcov, ?_, ?_, ?_⟩
    · rw [hA, hc]; exact h.rdr
    · rw [hA, hc]; exact h.cov
    · rw [hA, hc]; exact h.index

/-- the last row of the error-variance chain is the error variance in the settings object -/
theorem executeSimulator_sigma_last {n : ℕ} {E : Env F σ N n m} {s s' : SimState F σ N n m}
    (hu : E.opts.updatesigma = true) (h : executeSimulator E s = .ok s') :
    ∃ c, s'.s2chain = some c ∧ c[s'.chainIndex]? = some s'.errModel.sigma2 := by
  obtain ⟨hn, s1, hP, hfin⟩ := executeSimulator_inv
    (P := fun i a => 1 < i → ∃ c, a.s2chain = some c ∧ c[a.chainIndex]? = some a.errModel.sigma2)
    (fun h => absurd h (by omega))
    (fun i a b p hi _ hP hp _ => by
      have he := hp.errModel
      rw [if_pos hu] at he
      obtain ⟨c, r, _, hlt, h2, _⟩ := he
      refine ⟨_, h2, ?_⟩
      rw [hp.idx, List.getElem?_set_self hlt]) h
  rw [hfin]
  exact hP hn

theorem toErrModel_length {s : ModelSettings F} {M : ErrModel F m} (h : toErrModel s m = .ok M) :
    (∀ l, s.sigma2 = some l → l.length = m) ∧ (∀ l, s.N0 = some l → l.length = m) ∧
      s.S20.length = m := by
  unfold toErrModel at h
  split at h
  · rename_i s2 n0 N e1 e2 e3
    split at h
    · rename_i hl
      refine ⟨fun l e => ?_, fun l e => ?_, hl.2.2⟩
      · rw [e1] at e; cases e; exact hl.1
      · rw [e2] at e; cases e; exact hl.2.1
    · cases h
  · cases h

theorem list_eq_ofFn {α : Type} {l : List α} {f : Fin m → α} (hl : l.length = m)
    (h : ∀ j : Fin m, l[(j : ℕ)]? = some (f j)) : l = List.ofFn f := by
  refine List.ext_getElem? fun i => ?_
  by_cases hi : i < m
  · rw [h ⟨i, hi⟩, List.getElem?_ofFn, dif_pos hi]
  · rw [List.getElem?_eq_none (by omega), List.getElem?_eq_none (by simp; omega)]

theorem apply_ite_eq {α β : Type} {c : Prop} [Decidable c] {f : α → β} {a b : α} {y : β}
    (ha : f a = y) (hb : f b = y) : f (if c then a else b) = y := by
  split
  · exact ha
  · exact hb

/-- **C143 (partial).** After a completed run in which delayed rejection was set up or at least one
adaptation was made (or on an object that already has the attribute `_RDR`),
`display_current_mcmc_settings()` raises nothing and prints these 25 lines: the `N`, `N0` and `S20`
that the sampling of the error variance uses, and as `sigma2` the error variance last sampled (if it is
sampled, and otherwise the initial one); the options as given by
the user with the defaults of `printint` and `lastadapt` filled in; and the covariance object, with the
`R` and the `covchain` of the results, the index of the last adaptation after the burn-in, and factors
for delayed rejection that are `None` or begin with that `R`.

Missing from the full statement: without delayed rejection and adaptation the display ends in an
`AttributeError` (`C143_fails`); before a run it does so already among the settings (`C143_before`);
and the displayed `qcov` is always the one the run started with, not the one in use
(`C143_qcov_refuted`). -/
theorem C143_display_partial {U : UserFuns F N (nS flags) m} {o : Obj F flags m} {G : Rng σ F}
    {L : Lapack F} {fuel : ℕ} {rng : σ} {up : Bool} {out : RunOut F σ flags m}
    (h : runSimulation U G L fuel o rng up = .ok out) (hasModel : Bool)
    (hR : o.opts.method = .dr ∨ o.opts.method = .dram ∨
      (0 < o.opts.adaptint ∧ o.opts.adaptint < o.opts.nsimu) ∨ o.covRDR ≠ .missing) :
    ∃ (sigma2 : Vec F m) (q : Option (Qcov F)) (rdr invR : Shown F (nS flags)),
      displayCurrent (showsAfter U.style1 hasModel out) =
        ([.header "model settings:",
          .entry "sos_function" (if U.style1 then .func else .pyNone),
          .entry "model_function" (if hasModel then .func else .pyNone),
          .entry "sigma2" (.array (List.ofFn sigma2)), .entry "N" (.array out.init.errModel.N),
          .entry "N0" (.array (List.ofFn out.init.errModel.N0)),
          .entry "S20" (.array (List.ofFn (out.init.errModel.S20.read sigma2))),
          .entry "nsos" (.int m),
          .entry "nbatch" (.int ((o.ms.nbatch.getD o.data.nbatch : ℕ))),
          .header "simulation options:",
          .entry "nsimu" (.int o.opts.nsimu), .entry "adaptint" (.int o.opts.adaptint),
          .entry "ntry" (.int o.opts.ntry), .entry "method" (.method o.opts.method),
          .entry "printint" (.int (o.opts.printint.getD (max 100 (min 1000 o.opts.adaptint)))),
          .entry "lastadapt" (.int (if o.opts.lastadapt < 1 then o.opts.nsimu else o.opts.lastadapt)),
          .entry "drscale" (.array o.extra.drscale),
          .entry "qcov" (match q with | none => .pyNone | some q => .qcov q),
          .header "covariance:",
          .entry "qcov" (.matrix out.init.cov.qcov), .entry "R" (.matrix out.results.R),
          .entry "RDR" rdr, .entry "invR" invR,
          .entry "last_index_since_adaptation"
            (.int (((out.final.adaptedAt.filter fun (k : ℕ) => o.opts.burnintime ≤ k).getLast?).getD 0 : ℕ)),
          .entry "covchain" (match out.results.cov with | none => .pyNone | some M => .matrix M)],
        .ok ()) ∧
      (o.ms.N0.isSome ∨ o.opts.updatesigma = true → ∃ c, out.results.s2chain = some c ∧
        c[out.obj.chainIndex]? = some sigma2) ∧
      (o.ms.N0 = none → o.opts.updatesigma = false → sigma2 = out.init.initialSet.sigma2) ∧
      q = (if up then o.extra.qcov else
        match o.extra.jsonRestart with | none => o.extra.qcov | some r => some r.qcov) ∧
      (o.opts.method = .dr ∨ o.opts.method = .dram ∨
          (0 < o.opts.adaptint ∧ o.opts.adaptint < o.opts.nsimu) →
        rdr = .pyNone ∧ invR = .pyNone ∨
        ∃ l il, rdr = .matrices (out.results.R :: l) ∧ invR = .matrices il) := by
  obtain ⟨o1, I, s0, h1, h2, h3, h4, h5⟩ := runSimulation_ok h
  have hst := (setup_start h1).1
  have hrdr0 := start_RDR h1
  obtain ⟨_, ⟨R, _, hcov⟩, _, _, _, hidx0, _⟩ :=
    initCovState_ok (initializeSimulation_cov (setupSimulator_init h1))
  obtain ⟨hn, s1, hP, hfin⟩ := executeSimulator_inv
    (P := fun _ s => ShowInv (runOpts I.opts o1.extra).burnintime s0 s)
    ⟨rfl, fun e => absurd (show (loopStart s0).adaptedAt = [] from hst.adaptedAt) e, fun _ => rfl, by
      change s0.cov.lastIndex = ((s0.adaptedAt.filter _).getLast?).getD 0
      rw [hst.adaptedAt, hst.cov, hidx0]; rfl⟩
    (fun i a b p _ _ hP hp => hP.step hp) h2
  have ecov : out.final.cov = s1.cov := by rw [hfin]
  have eat : out.final.adaptedAt = s1.adaptedAt := by rw [hfin]
  have hopts : I.opts = checkDependentSimulationOptions o.opts o.ms.N0.isSome := by
    rw [hst.init.opts, hst.opts, hst.ms]
  have hburn : (runOpts I.opts o1.extra).burnintime = o.opts.burnintime := by
    change I.opts.burnintime = _
    rw [hopts]; rfl
  obtain ⟨_, _, _, _, _, _, _, _, r9, _, r11, _⟩ := generateResults_ok h3
  -- the factors for delayed rejection
  have hset : (o.opts.method = .dr ∨ o.opts.method = .dram ∨
      (0 < o.opts.adaptint ∧ o.opts.adaptint < o.opts.nsimu)) →
      (out.final.cov.RDR = .pyNone ∧ out.final.cov.invR = none ∨
        ∃ l, out.final.cov.RDR = .some (out.final.cov.R :: l) ∧ ∃ il, out.final.cov.invR = some il) ∨
      False := by
    intro hm
    left
    by_cases ha : s1.adaptedAt = []
    · have hdr : o.opts.method = .dram ∨ o.opts.method = .dr := by
        rcases hm with e | e | ⟨e1, e2⟩
        · exact .inr e
        · exact .inl e
        · exfalso
          have := ((C14_adaptation_schedule_partial h).1 e1).2 o.opts.adaptint.toNat
          have hmem := this.2 ⟨by omega, by omega, by rw [Int.toNat_of_nonneg e1.le]⟩
          rw [eat, ha] at hmem
          simp at hmem
      rw [ecov, hP.cov ha, hst.cov]
      have hm' : I.opts.method = o.opts.method := by rw [hopts]; rfl
      rw [hm', if_pos hdr] at hcov
      obtain ⟨l, il, e1, e2, e3⟩ := hcov
      right
      unfold setupRDRMatrix at e1
      split at e1
      · obtain ⟨iR, _, e1⟩ := bind_ok.1 e1
        obtain ⟨⟨l', il'⟩, _, e1⟩ := bind_ok.1 e1
        simp only [Except.ok.injEq, Prod.mk.injEq] at e1
        obtain ⟨a, b, c⟩ := e1
        exact ⟨l', by rw [e2, ← b, ← a], il, e3⟩
      · rename_i RDR hu
        obtain ⟨inv, _, e1⟩ := bind_ok.1 e1
        obtain ⟨R0, hg, e1⟩ := bind_ok.1 e1
        simp only [Except.ok.injEq, Prod.mk.injEq] at e1
        obtain ⟨a, b, c⟩ := e1
        cases l with
        | nil => rw [b] at hg; simp [pyGet] at hg
        | cons x l =>
          rw [b] at hg
          have : x = R0 := by simpa [pyGet] using hg
          exact ⟨l, by rw [e2, this, a], il, e3⟩
    · rw [ecov]; exact hP.rdr ha
  have hne : ∃ v, slotShown out.final.cov.RDR = some v := by
    by_cases hm : o.opts.method = .dr ∨ o.opts.method = .dram ∨
      (0 < o.opts.adaptint ∧ o.opts.adaptint < o.opts.nsimu)
    · rcases hset hm with (⟨e, _⟩ | ⟨l, e, _⟩) | hf
      · rw [e]; exact ⟨_, rfl⟩
      · rw [e]; exact ⟨_, rfl⟩
      · exact hf.elim
    · have hc : o.covRDR ≠ .missing := by
        rcases hR with e | e | e | e
        · exact absurd (.inl e) hm
        · exact absurd (.inr (.inl e)) hm
        · exact absurd (.inr (.inr e)) hm
        · exact e
      rw [if_neg (by rintro (e | e); exacts [hm (.inr (.inl e)), hm (.inl e)])] at hrdr0
      by_cases ha : s1.adaptedAt = []
      · rw [ecov, hP.cov ha, hrdr0]
        cases he : o.covRDR with
        | missing => exact absurd he hc
        | pyNone => exact ⟨_, rfl⟩
        | some l => exact ⟨_, rfl⟩
      · rw [ecov]
        rcases hP.rdr ha with ⟨e, _⟩ | ⟨l, e, _⟩ <;> rw [e] <;> exact ⟨_, rfl⟩
  obtain ⟨v, hv⟩ := hne
  -- the settings
  obtain ⟨ms1, m1, m2, m3⟩ := hst.init.ms
  rw [hst.ms, hst.data] at m1
  obtain ⟨t2, t0, tN, c1, c2, c3, c4, c5, c6, c7, c8⟩ := toErrModel_ok m3
  obtain ⟨l2, l0, lS⟩ := toErrModel_length m3
  have hms : out.obj.ms = settingsAfter I.ms out.final.errModel := by rw [h5]
  have hnb : I.ms.nbatch = some (o.ms.nbatch.getD o.data.nbatch) := by
    obtain ⟨_, _, _, _, _, _, _, _, _, _, _, _, _, _, _, _, _, e⟩ := checkWrtNsos_ok m2
    rw [e]
    unfold checkDependentModelSettings at m1
    obtain ⟨_, _, m1⟩ := bind_ok.1 m1
    change ms1.nbatch = _
    rw [(Except.ok.inj m1).symm]
    exact apply_ite_eq rfl rfl
  have hextra : out.obj.extra = o1.extra := by rw [h5]
  have hoo : out.obj.opts = I.opts := by rw [h5]
  have hx : o1.extra.drscale = o.extra.drscale ∧ o1.extra.qcov = (if up then o.extra.qcov else
        match o.extra.jsonRestart with | none => o.extra.qcov | some r => some r.qcov) := by
    cases up with
    | false =>
      obtain ⟨_, _, _, _, _, _, _, _, _, hl⟩ := setup_fresh h1
      unfold loadRestart at hl
      split at hl
      · rename_i hr
        cases hl; rw [hr]; exact ⟨rfl, rfl⟩
      · rename_i hr
        obtain ⟨_, _, hl⟩ := bind_ok.1 hl
        cases hl; rw [hr]; exact ⟨rfl, rfl⟩
    | true =>
      have := (setup_continue h1).2.2.2.2.2.2.2.2.2
      rw [this]; exact ⟨rfl, rfl⟩
  refine ⟨out.final.errModel.sigma2, o1.extra.qcov, v, optShown .matrices out.final.cov.invR, ?_, ?_, ?_,
    hx.2, ?_⟩
  · have e0 : out.init.errModel = I.errModel := by rw [h4]
    have eS : out.obj.ms.s20Now = List.ofFn (I.errModel.S20.read out.final.errModel.sigma2) := by
      rw [hms]
      unfold ModelSettings.s20Now settingsAfter
      dsimp only
      cases ha : I.ms.s20Alias with
      | true => rw [c7 ha]; rfl
      | false =>
        obtain ⟨w, e1, e2⟩ := c8 ha
        rw [e1]
        exact list_eq_ofFn lS e2
    have eN0 : out.obj.ms.N0 = some (List.ofFn I.errModel.N0) := by
      rw [hms]
      change I.ms.N0 = _
      rw [c2, list_eq_ofFn (l0 _ c2) c6]
    have eN : out.obj.ms.N = some I.errModel.N := by
      rw [hms]
      change I.ms.N = _
      rw [c3, c4]
    have e2 : out.obj.ms.sigma2 = some (List.ofFn out.final.errModel.sigma2) := by rw [hms]; rfl
    have enb : out.obj.ms.nbatch = some (o.ms.nbatch.getD o.data.nbatch) := by rw [hms]; exact hnb
    have ei : out.final.cov.lastIndex =
        ((out.final.adaptedAt.filter fun (k : ℕ) => o.opts.burnintime ≤ k).getLast?).getD 0 := by
      rw [ecov, eat, hP.index, hburn]
    have eq : out.final.cov.qcov = out.init.cov.qcov := by rw [ecov, hP.qcov, hst.cov, h4]
    have ep : I.opts.printint = some (o.opts.printint.getD (max 100 (min 1000 o.opts.adaptint))) := by
      rw [hopts]
      unfold checkDependentSimulationOptions
      dsimp only
      cases o.opts.printint <;> rfl
    unfold displayCurrent displayModelSettings displaySimulationOptions displayCovarianceSettings
      showsAfter showBlock
    simp only [Option.map_some, Option.bind_some, hv, e2, eN, eN0, eS, enb, hoo, hextra, optShown,
      showLoop, andThen, ei, eq, ep, e0, r9, r11, hx.1]
    rw [hopts]
    cases o1.extra.qcov <;> cases out.final.cov.covchain <;> rfl
  · intro hu
    have hu' : I.opts.updatesigma = true := by
      rw [hopts]
      change (if o.ms.N0.isSome then true else o.opts.updatesigma) = true
      rcases hu with e | e <;> simp [e]
    obtain ⟨c, e1, e2⟩ := executeSimulator_sigma_last
      (E := ⟨I.problem, G, L, runOpts I.opts o1.extra, fuel⟩) hu' h2
    refine ⟨c, ?_, ?_⟩
    · rw [(generateResults_ok h3).2.2.2.2.2.2.2.1]; exact e1
    · rw [h5]; exact e2
  · intro hn0 hu
    rw [((run_updatesigma h).1 hn0 hu).1, h4, hst.init.sigma2]
  · intro hm
    rcases hset hm with (⟨e, e'⟩ | ⟨l, e, il, e'⟩) | hf
    · rw [e] at hv; cases hv; rw [e']; exact .inl ⟨rfl, rfl⟩
    · rw [e] at hv; cases hv; rw [e', r9]; exact .inr ⟨l, il, rfl, rfl⟩
    · exact hf.elim

/-- Without delayed rejection and without an adaptation, the first run of an object leaves it in a
state in which `display_current_mcmc_settings()` prints 21 lines, the last of them the factor `R`, and
then raises an `AttributeError`. -/
theorem C143_fails {U : UserFuns F N (nS flags) m} {specs : Fin N → ParamSpec F} {opts : SimOpts F}
    {extra : ExtraOpts F (nS flags)} {ms : ModelSettings F} {data : Data} {G : Rng σ F}
    {L : Lapack F} {fuel : ℕ} {rng : σ} {up : Bool} {out : RunOut F σ flags m}
    (h : runSimulation U G L fuel (newObj specs opts extra ms data) rng up = .ok out)
    (hm : opts.method ≠ .dr ∧ opts.method ≠ .dram) (ha : opts.adaptint ≤ 0 ∨ opts.nsimu ≤ opts.adaptint)
    (hasModel : Bool) :
    (displayCurrent (showsAfter U.style1 hasModel out)).2 = .error .attributeError ∧
    (displayCurrent (showsAfter U.style1 hasModel out)).1.length = 21 ∧
    (displayCurrent (showsAfter U.style1 hasModel out)).1.getLast? =
      some (.entry "R" (.matrix out.results.R)) := by
  obtain ⟨o1, I, s0, h1, h2, h3, h4, h5⟩ := runSimulation_ok h
  have hR := start_RDR h1
  rw [if_neg (by rintro (e | e); exacts [hm.2 e, hm.1 e])] at hR
  have hst := (setup_start h1).1
  obtain ⟨hn, s1, hS, hfin⟩ := executeSimulator_inv (P := fun i s => SinceInv s0 i s)
      (SinceInv.init hst.adaptedAt)
    (fun i a b p hi _ hP hp => hP.step hp) h2
  have hA : out.final.adaptedAt = [] := by
    obtain ⟨c1, c2⟩ := C14_adaptation_schedule_partial h
    rcases ha with e | e
    · exact (c2 e).1
    · by_cases e0 : opts.adaptint ≤ 0
      · exact (c2 e0).1
      · refine List.eq_nil_iff_forall_not_mem.2 fun j hj => ?_
        obtain ⟨k1, k2, k3⟩ := ((c1 (by change 0 < opts.adaptint; omega)).2 j).1 hj
        have k4 := Int.le_of_dvd (by omega) k3
        change (j : ℤ) < opts.nsimu at k2
        change opts.adaptint ≤ j at k4
        omega
  have hc : out.final.cov.RDR = .missing := by
    have e1 : out.final.adaptedAt = s1.adaptedAt := by rw [hfin]
    have e2 : out.final.cov = s1.cov := by rw [hfin]
    rw [e2, hS.cov (by rw [← e1]; exact hA), hR]
    rfl
  have r9 := (generateResults_ok h3).2.2.2.2.2.2.2.2.1
  unfold displayCurrent displayModelSettings displaySimulationOptions displayCovarianceSettings
    showsAfter showBlock
  rw [r9]
  simp [showLoop, andThen, hc, slotShown]

/-- Before the first run the display stops among the model settings, after the functions and the
settings as given: `nsos` does not exist yet. -/
theorem C143_before (style1 hasModel : Bool) (o : Obj F flags m) :
    displayCurrent (showsNew style1 hasModel o) =
      ([.header "model settings:",
        .entry "sos_function" (if style1 then .func else .pyNone),
        .entry "model_function" (if hasModel then .func else .pyNone),
        .entry "sigma2" (match o.ms.sigma2 with | none => .pyNone | some l => .array l),
        .entry "N" (match o.ms.N with | none => .pyNone | some l => .array l),
        .entry "N0" (match o.ms.N0 with | none => .pyNone | some l => .array l),
        .entry "S20" (.array o.ms.s20Now)],
      .error .attributeError) := by
  rcases style1 with _ | _ <;> rcases hasModel with _ | _ <;>
    cases e1 : o.ms.sigma2 <;> cases e2 : o.ms.N <;> cases e3 : o.ms.N0 <;>
    simp [displayCurrent, displayModelSettings, showsNew, showBlock, showLoop, andThen, handle, optShown, e1, e2, e3]

end general

/-- **C143 refuted (the covariance).** It is not true that the displayed `qcov` is the proposal
covariance of the displayed factor `R`, not even when the run completes and everything is displayed:
after an adaptation it is still the one the run started with. -/
theorem C143_qcov_refuted : ¬ ∀ (o : Obj ℚ Toy.flags 1) (out : RunOut ℚ ℕ Toy.flags 1)
    (Q R : Mat ℚ (nS Toy.flags)),
    runSimulation Toy.user Toy.rng Toy.lapack 100 o 0 false = .ok out →
    ShowLine.entry "qcov" (.matrix Q) ∈ (displayCurrent (showsAfter true false out)).1 →
    ShowLine.entry "R" (.matrix R) ∈ (displayCurrent (showsAfter true false out)).1 →
    Q = rtr R := by
  intro hall
  obtain ⟨out, h, h1⟩ := exists_ok_and
    (x := runSimulation Toy.user Toy.rng Toy.lapack 100
      (newObj Toy.specs { Toy.opts .am 5 with adaptint := 2 } Toy.extra Toy.settings Toy.data) 0 false)
    (fun o => decide (o.init.cov.qcov ≠ rtr o.results.R)) (by decide +kernel)
  have h1 := of_decide_eq_true h1
  obtain ⟨_, _, _, _, e, _⟩ := C143_display_partial h false (.inr (.inr (.inl (by decide))))
  refine h1 (hall _ out out.init.cov.qcov out.results.R h ?_ ?_)
  · change _ ∈ (displayCurrent (showsAfter Toy.user.style1 false out)).1
    rw [e]; simp
  · change _ ∈ (displayCurrent (showsAfter Toy.user.style1 false out)).1
    rw [e]; simp

/-- a run with delayed rejection, one with an adaptation, and one with neither -/
example : (∃ out, Toy.run .dram 5 = .ok out ∧
      (displayCurrent (showsAfter true false out)).1.length = 25) ∧
    (∃ out, runSimulation Toy.user Toy.rng Toy.lapack 100
        (newObj Toy.specs { Toy.opts .am 5 with adaptint := 2 } Toy.extra Toy.settings Toy.data) 0 false
          = .ok out ∧ out.final.cov.lastIndex = 4) ∧
    ∃ out, Toy.run .am 5 = .ok out ∧
      (displayCurrent (showsAfter true false out)).2 = .error .attributeError := by
  refine ⟨?_, ?_, ?_⟩
  · obtain ⟨out, h⟩ := exists_ok (x := Toy.run .dram 5) (by decide +kernel)
    refine ⟨out, h, ?_⟩
    obtain ⟨_, _, _, _, e, _⟩ := C143_display_partial h false (.inr (.inl (by decide)))
    change (displayCurrent (showsAfter Toy.user.style1 false out)).1.length = 25
    rw [e]; rfl
  · obtain ⟨out, h, h1⟩ := exists_ok_and
      (x := runSimulation Toy.user Toy.rng Toy.lapack 100
        (newObj Toy.specs { Toy.opts .am 5 with adaptint := 2 } Toy.extra Toy.settings Toy.data) 0 false)
      (fun o => decide (o.final.cov.lastIndex = 4)) (by decide +kernel)
    exact ⟨out, h, of_decide_eq_true h1⟩
  · obtain ⟨out, h⟩ := exists_ok (x := Toy.run .am 5) (by decide +kernel)
    exact ⟨out, h, (C143_fails h (by decide) (by decide) false).1⟩

end Verif
