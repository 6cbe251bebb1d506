import Verif.Props.RobustInput

/-! # C156: robust adaptation together with delayed rejection -/

set_option linter.unusedSectionVars false

namespace Verif

section general
variable {F σ : Type} [PyFloat F] {N n m : ℕ} {flags : Fin N → Bool}

theorem init_alpha {U : UserFuns F N (nS flags) m} {L : Lapack F} {o : Obj F flags m} {rng : σ}
    {I : Init F σ flags m} (h : initializeSimulation U L o rng = .ok I) :
    I.initialSet.alpha = none := by
  unfold initializeSimulation at h
  obtain ⟨_, _, h⟩ := bind_ok.1 h
  obtain ⟨_, _, h⟩ := bind_ok.1 h
  obtain ⟨_, _, h⟩ := bind_ok.1 h
  obtain ⟨_, _, h⟩ := bind_ok.1 h
  obtain ⟨_, _, h⟩ := bind_ok.1 h
  obtain ⟨_, _, h⟩ := bind_ok.1 h
  obtain ⟨_, _, h⟩ := bind_ok.1 h
  cases h
  rfl

theorem propose_rejected_alpha {E : Env F σ N n m} {s : SimState F σ N n m} {p : Proposal F σ N n m}
    (hn : 1 < E.opts.ntry) (h : propose E s = .ok p) (ha : p.accept = false) :
    p.newSet.alpha = s.oldSet.alpha := by
  unfold propose at h
  obtain ⟨⟨o, z⟩, h1, h⟩ := bind_ok.1 h
  dsimp only at h
  split at h
  · obtain ⟨⟨o2, dr, ts⟩, h2, h⟩ := bind_ok.1 h
    cases h
    unfold runDelayedRejection at h2
    obtain ⟨d, hd, h2⟩ := bind_ok.1 h2
    obtain ⟨ts', hs, _, hl⟩ := drLoop_ok _ _ _ _ _ rfl (by rfl) hd
    split at h2
    · rename_i s' b hb
      cases h2
      dsimp only at ha ⊢
      have hne : ts' ≠ [] := by
        intro he
        have := hl ha
        rw [he] at this
        simp at this
        omega
      obtain ⟨ob, e, _⟩ := (hs.rej ha).2.2.2 hne
      rw [hb] at e
      cases e
      rfl
    · cases h2
  · rename_i hc
    cases h
    exact absurd ⟨hn, ha⟩ hc

/-- Invariant: the acceptance values stored with the current points. -/
structure StaleInv (E : Env F σ N n m) (i : ℕ) (s : SimState F σ N n m) : Prop where
  len : s.moveLog.length + 1 = i
  tlen : s.trace.length + 1 = i
  missing : (∀ ts ∈ s.trace, Rejection ts = true) → s.oldSet.alpha = none
  next : ∀ r ts, s.moveLog.getLast? = some r → s.trace.getLast? = some ts → Rejection ts = true →
    s.oldSet.alpha = r.before.alpha
  moves : ∀ j r, s.moveLog[j]? = some r →
    ((∀ ts ∈ s.trace.take j, Rejection ts = true) → r.before.alpha = none) ∧
    ∀ r' ts, s.moveLog[j + 1]? = some r' → s.trace[j]? = some ts → Rejection ts = true →
      r'.before.alpha = r.before.alpha
  all : ∀ a ∈ s.adaptLog, 1 ≤ a.at_ ∧ ∃ ts r, s.trace[a.at_ - 1]? = some ts ∧
    s.moveLog[a.at_ - 1]? = some r ∧
    (Rejection ts = true → a.alpha = r.before.alpha)

theorem StaleInv.step {E : Env F σ N n m} (hn : 1 < E.opts.ntry) {s s' : SimState F σ N n m}
    {i : ℕ} {p : Proposal F σ N n m} (hi : 1 ≤ i)
    (h : StaleInv E i s) (hs : StepSpec E i s s' p) : StaleInv E (i + 1) s' := by
  have hlen := h.len
  have htlen := h.tlen
  have hr := propose_rejection hs.prop
  have hold : Rejection p.tries = true → s'.oldSet.alpha = s.oldSet.alpha := by
    intro hrej
    rw [hr, Bool.not_eq_true'] at hrej
    rw [hs.old]
    dsimp only
    unfold currentSet
    rw [hrej]
    rfl
  refine ⟨by rw [hs.moveLog]; simp; omega, by rw [hs.trace]; simp; omega, ?_, ?_, ?_, ?_⟩
  · intro hall
    rw [hs.trace] at hall
    rw [hold (hall _ (by simp))]
    exact h.missing fun ts hts => hall ts (by simp [hts])
  · intro r ts h1 h2 h3
    rw [hs.moveLog] at h1
    rw [hs.trace] at h2
    simp only [List.getLast?_append, List.getLast?_singleton, Option.some_or,
      Option.some.injEq] at h1 h2
    subst h1 h2
    exact hold h3
  · intro j r hj
    rw [hs.moveLog] at hj
    rw [hs.moveLog, hs.trace]
    by_cases hlt : j < s.moveLog.length
    · rw [List.getElem?_append_left hlt] at hj
      obtain ⟨g1, g2⟩ := h.moves j r hj
      refine ⟨fun hall => g1 fun ts hts => hall ts ?_, fun r' ts h1 h2 h3 => ?_⟩
      · rw [List.take_append_of_le_length (by omega)]
        exact hts
      · rw [List.getElem?_append_left (by omega)] at h2
        by_cases hlt' : j + 1 < s.moveLog.length
        · rw [List.getElem?_append_left hlt'] at h1
          exact g2 r' ts h1 h2 h3
        · rw [List.getElem?_append_right (by omega),
            show j + 1 - s.moveLog.length = 0 by omega] at h1
          simp only [List.getElem?_cons_zero, Option.some.injEq] at h1
          subst h1
          refine h.next r ts ?_ ?_ h3
          · rw [List.getLast?_eq_getElem?, show s.moveLog.length - 1 = j by omega, hj]
          · rw [List.getLast?_eq_getElem?, show s.trace.length - 1 = j by omega, h2]
    · have hj' : j = s.moveLog.length := by
        have := (List.getElem?_eq_some_iff.1 hj).1
        simp at this
        omega
      subst hj'
      rw [List.getElem?_append_right le_rfl, Nat.sub_self] at hj
      simp only [List.getElem?_cons_zero, Option.some.injEq] at hj
      subst hj
      refine ⟨fun hall => h.missing fun ts hts => hall ts ?_, fun r' ts h1 => ?_⟩
      · rw [List.take_append_of_le_length (by omega), List.take_of_length_le (by omega)]
        exact hts
      · rw [List.getElem?_eq_none (by simp)] at h1
        cases h1
  · intro a ha
    rw [hs.adaptLog] at ha
    rw [hs.trace, hs.moveLog]
    rcases List.mem_append.1 ha with ha | ha
    · obtain ⟨h1, ts, r, h2, h3, h4⟩ := h.all a ha
      have l2 := (List.getElem?_eq_some_iff.1 h2).1
      have l3 := (List.getElem?_eq_some_iff.1 h3).1
      exact ⟨h1, ts, r, by rw [List.getElem?_append_left l2, h2],
        by rw [List.getElem?_append_left l3, h3], h4⟩
    · split at ha
      · rw [List.mem_singleton.1 ha]
        refine ⟨hi, p.tries,
          ⟨s.oldSet, s.cov.R, s.cov.RDR, s.cov.invR, s.world.rng, p.world.rng⟩, ?_, ?_, fun hrej => ?_⟩
        · dsimp only
          rw [List.getElem?_append_right (by omega),
            show i - 1 - s.trace.length = 0 by omega]; rfl
        · dsimp only
          rw [List.getElem?_append_right (by omega),
            show i - 1 - s.moveLog.length = 0 by omega]; rfl
        · rw [hr, Bool.not_eq_true'] at hrej
          exact propose_rejected_alpha hn hs.prop hrej
      · cases ha

/-- **C156** is false as stated: with delayed rejection an adaptation in an iteration without an
accepted proposal is not given a value of this iteration but the one stored with the current point.
That value does not change as long as nothing is accepted (it is the one with which the current point
was once accepted), and it is missing until the first acceptance of the run. -/
theorem C156_stale_refuted {U : UserFuns F N (nS flags) m} {o : Obj F flags m}
    (hn : 1 < o.opts.ntry) {G : Rng σ F} {L : Lapack F} {fuel : ℕ} {rng : σ} {up : Bool}
    {out : RunOut F σ flags m} (h : runSimulation U G L fuel o rng up = .ok out) :
    (∀ a ∈ out.final.adaptLog, 1 ≤ a.at_ ∧ ∃ ts r, out.final.trace[a.at_ - 1]? = some ts ∧
      out.final.moveLog[a.at_ - 1]? = some r ∧ (Rejection ts = true → a.alpha = r.before.alpha)) ∧
    ∀ j r, out.final.moveLog[j]? = some r →
      ((∀ ts ∈ out.final.trace.take j, Rejection ts = true) → r.before.alpha = none) ∧
      ∀ r' ts, out.final.moveLog[j + 1]? = some r' → out.final.trace[j]? = some ts →
        Rejection ts = true → r'.before.alpha = r.before.alpha := by
  obtain ⟨o1, I, s0, h1, h2, h3, h4, h5⟩ := runSimulation_ok h
  have hst := (setup_start h1).1
  have hal : s0.oldSet.alpha = none := by
    rw [hst.oldSet]; exact init_alpha (setupSimulator_init h1)
  have hnt : 1 < (runOpts I.opts o1.extra).ntry := by
    change 1 < I.opts.ntry.toNat
    have : I.opts.ntry = o.opts.ntry := by rw [hst.init.opts, hst.opts]; rfl
    omega
  obtain ⟨_, s1, hP, hfin⟩ := executeSimulator_inv
    (E := ⟨I.problem, G, L, runOpts I.opts o1.extra, fuel⟩)
    (P := fun i s => StaleInv ⟨I.problem, G, L, runOpts I.opts o1.extra, fuel⟩ i s)
    ⟨by simp [loopStart, hst.moveLog], by simp [loopStart, hst.trace], fun _ => hal,
      by simp [loopStart, hst.moveLog], by simp [loopStart, hst.moveLog],
      by simp [loopStart, hst.adaptLog]⟩
    (fun i a b p hi _ hP hp => hP.step hnt hi hp) h2
  rw [hfin]
  exact ⟨hP.all, hP.moves⟩

/-- **C156**, consequence: a run with robust adaptation and delayed rejection only completes if some
proposal was accepted up to its first adaptation after the burn-in. -/
theorem C156_needs_acceptance {U : UserFuns F N (nS flags) m} {o : Obj F flags m}
    (hn : 1 < o.opts.ntry) (hram : o.opts.doram = true) {G : Rng σ F} {L : Lapack F} {fuel : ℕ}
    {rng : σ} {up : Bool} {out : RunOut F σ flags m}
    (h : runSimulation U G L fuel o rng up = .ok out) {a : AdaptRecord F (nS flags)}
    (ha : a ∈ out.final.adaptLog) (hb : o.opts.burnintime ≤ a.at_) :
    ∃ ts ∈ out.final.trace.take a.at_, Rejection ts = false := by
  obtain ⟨hall, hmov⟩ := C156_stale_refuted hn h
  obtain ⟨h1, ts, r, e1, e2, e3⟩ := hall a ha
  have hspec := run_adapt h a ha
  obtain ⟨seg, hs⟩ := hspec.spec hb
  obtain ⟨upcov, hf, _⟩ := hs.factor
  have hst : out.init.opts.doram = true := by
    obtain ⟨o1, I, s0, hst, rfl, -⟩ := run_cov h
    rw [hst.init.opts, hst.opts]; exact hram
  unfold newCovariance at hf
  rw [if_pos (show (runOpts out.init.opts o.extra).toAdaptOpts.doram = true from hst)] at hf
  obtain ⟨al, hal, _⟩ := bind_ok.1 hf
  by_contra hno
  have hrej : ∀ ts ∈ out.final.trace.take a.at_, Rejection ts = true := by
    intro t ht
    by_contra hc
    exact hno ⟨t, ht, by simpa using hc⟩
  have hlt := (List.getElem?_eq_some_iff.1 e1).1
  have hmem : ts ∈ out.final.trace.take a.at_ := by
    rw [List.mem_take_iff_getElem]
    obtain ⟨_, g⟩ := List.getElem?_eq_some_iff.1 e1
    exact ⟨a.at_ - 1, by omega, g⟩
  have hnone := (hmov _ _ e2).1 fun t ht => hrej t (List.take_subset_take_left _ (by omega) ht)
  rw [e3 (hrej _ hmem), hnone] at hal
  cases hal

/-- **C156** for the iterations that end with their first proposal (with several tries: it was
accepted): the acceptance value is the difference of the logarithms of the posterior density at the accepted proposal
and at the row from which the iteration started.  Missing for the full claim: the iterations without an
accepted proposal, where it is false (`C156_stale_refuted`). -/
theorem C156_accepted_partial {U : UserFuns F N (nS flags) m} {specs : Fin N → ParamSpec F}
    {opts : SimOpts F} {extra : ExtraOpts F (nS flags)} {ms : ModelSettings F} {data : Data}
    {o : Obj F flags m} (ho : Reachable U (newObj specs opts extra ms data) o)
    (hnan : ∀ k, PyFloat.isnan (specs k).theta0 = false)
    {G : Rng σ F} {L : Lapack F} {fuel : ℕ} {rng : σ} {up : Bool} {out : RunOut F σ flags m}
    (h : runSimulation U G L fuel o rng up = .ok out) {a : AdaptRecord F (nS flags)}
    (ha : a ∈ out.final.adaptLog) {t : Try F (nS flags)}
    (ht : out.final.trace[a.at_ - 1]? = some [t]) (hacc : InLimits flags specs t.theta) :
    ∃ mu sigma r v ss, UserPrior flags specs mu sigma ∧ out.final.moveLog[a.at_ - 1]? = some r ∧
      BelongsTo flags specs t.theta v ∧ SosValue U v ss ∧
      a.u = (G.randn (nS flags) r.rng).1 ∧ a.before.R = r.R ∧
      a.alpha = some (logPosterior ss r.before.sigma2 (U.priorFun t.theta mu sigma)
        - logPosterior r.before.ss r.before.sigma2 r.before.prior) := by
  obtain ⟨mu, sigma, hmu, hall⟩ := adapt_input ho hnan h
  obtain ⟨-, ts, r, g1, g2, -, -, g3⟩ := hall a ha
  rw [ht] at g1
  cases g1
  obtain ⟨e1, e2, -, e3⟩ := g3 t rfl
  obtain ⟨v, ss, k1, k2, k3⟩ := e3 hacc
  exact ⟨mu, sigma, r, v, ss, hmu, g2, k1, k2, e1, e2, k3⟩

end general

/-! ### Examples -/

namespace Toy

/-- robust adaptation in every iteration, delayed rejection with two tries -/
def ramDrObj : Obj ℚ flags 1 :=
  newObj specs (defineSimulationOptions
    { method := .dram, nsimu := 4, doram := some true, adaptint := some 1 }) extra settings data

/-- a run from the state `r` of the generator -/
def ramDrRun (r : ℕ) : Except PyErr (RunOut ℚ ℕ flags 1) :=
  runSimulation user rng lapack 100 ramDrObj r false

end Toy

/-- The hypotheses of `C156_stale_refuted` and `C156_needs_acceptance` can be met.  In this run the
second iteration accepts at the second stage with the value 1, and the third, in which both proposals
are rejected and the first was outside the limits, hands the same 1 to the adaptation. -/
example : ∃ out, Toy.ramDrRun 0 = .ok out ∧
    out.final.trace.map (fun ts => ts.map fun t => (t.outside, t.accepted)) =
      [[(false, true)], [(false, false), (false, true)], [(true, false), (false, false)]] ∧
    out.final.adaptLog.map (fun a => (a.at_, a.alpha)) = [(1, some (1/2)), (2, some 1), (3, some 1)] := by
  obtain ⟨out, h, hp⟩ := exists_ok_and (x := Toy.ramDrRun 0)
    (fun out => decide (out.final.trace.map (fun ts => ts.map fun t => (t.outside, t.accepted)) =
      [[(false, true)], [(false, false), (false, true)], [(true, false), (false, false)]] ∧
    out.final.adaptLog.map (fun a => (a.at_, a.alpha)) = [(1, some (1/2)), (2, some 1), (3, some 1)]))
    (by decide +kernel)
  exact ⟨out, h, of_decide_eq_true hp⟩

/-- the hypotheses of `C156_accepted_partial` can be met: the first iteration of that run -/
example : ∃ out a t, Toy.ramDrRun 0 = .ok out ∧ a ∈ out.final.adaptLog ∧
    out.final.trace[a.at_ - 1]? = some [t] ∧ InLimits Toy.flags Toy.specs t.theta := by
  obtain ⟨out, h, hp⟩ := exists_ok_and (x := Toy.ramDrRun 0)
    (fun out => decide (out.final.adaptLog.map (·.at_) = [1, 2, 3] ∧
      out.final.trace.head?.map (fun ts => ts.map fun t => isOutside t.theta
        (atParind Toy.flags fun k => (Toy.specs k).minimum)
        (atParind Toy.flags fun k => (Toy.specs k).maximum)) = some [false])) (by decide +kernel)
  obtain ⟨h1, h2⟩ := of_decide_eq_true hp
  match ha : out.final.adaptLog, h1 with
  | a :: l, h1 =>
    simp only [List.map_cons, List.cons.injEq] at h1
    simp only [Option.map_eq_some_iff] at h2
    obtain ⟨ts, h3, h4⟩ := h2
    obtain ⟨t, rfl⟩ : ∃ t, ts = [t] := by
      rw [← List.length_eq_one_iff]
      simpa using congrArg List.length h4
    simp only [List.map_cons, List.map_nil, List.cons.injEq, and_true] at h4
    refine ⟨out, a, t, h, by rw [ha]; simp, ?_, inLimits_of h4⟩
    rw [h1.1, ← h3, List.head?_eq_getElem?]

/-- **C156** is false as stated, missing value: in this run the first iteration rejects both
proposals and the adaptation raises `TypeError`. -/
theorem C156_raises_refuted : ∃ e, Toy.ramDrRun 1 = .error e ∧ e = .typeError ∧
    Toy.ramDrObj.opts.doram = true ∧ Toy.ramDrObj.opts.ntry = 2 := by
  refine ⟨.typeError, ?_, rfl, rfl, rfl⟩
  cases h : Toy.ramDrRun 1 with
  | ok out =>
    have : (Toy.ramDrRun 1).toOption.isSome = false := by decide +kernel
    rw [h] at this
    cases this
  | error e =>
    have : (match Toy.ramDrRun 1 with | .error e => decide (e = .typeError) | .ok _ => false) = true := by
      decide +kernel
    rw [h] at this
    rw [of_decide_eq_true this]

end Verif
