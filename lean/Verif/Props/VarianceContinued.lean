import Verif.Props.Decisions
import Verif.Props.ErrorVariance

/-! # C157: a continued run uses the error variance in the row it starts from -/

set_option linter.unusedSectionVars false

namespace Verif

section general
variable {F σ : Type} [PyFloat F] {N m : ℕ} {flags : Fin N → Bool}

/-- A setting that already has one entry per sum-of-squares element is kept. -/
theorem checkSizeOfSetting_same (hone : ∀ x : F, lit 1 * x = x) (l : List F) :
    ∃ b, checkSizeOfSetting l l.length = .ok (l, b) := by
  unfold checkSizeOfSetting
  split
  · rename_i x0
    exact ⟨true, by simp [hone]⟩
  · exact ⟨false, by simp⟩

/-- Settings whose variances fit the model: the run starts with them. -/
theorem errModel_kept (hone : ∀ x : F, lit 1 * x = x) {ms ms1 ms2 : ModelSettings F} {dn : List ℕ}
    {db : ℕ} {M : ErrModel F m} {row : Vec F m} (h : ms.sigma2 = some (List.ofFn row))
    (h1 : checkDependentModelSettings ms dn db = .ok ms1) (h2 : checkWrtNsos ms1 m = .ok ms2)
    (h3 : toErrModel ms2 m = .ok M) : M.sigma2 = row := by
  have e1 : ms1.sigma2 = some (List.ofFn row) := by
    unfold checkDependentModelSettings at h1
    rw [bind_ok] at h1
    obtain ⟨Nv, _, h1⟩ := h1
    have hd : (defaultN0 ms.sigma2 ms.N0).1 = some (List.ofFn row) := by
      rw [h]; unfold defaultN0; cases ms.N0 <;> rfl
    rcases hD : defaultN0 ms.sigma2 ms.N0 with ⟨a, b⟩
    rw [hD] at h1 hd
    dsimp only at h1 hd
    subst hd
    rw [← Except.ok.inj h1]
    split <;> rfl
  have e2 : ms2.sigma2 = some (List.ofFn row) := by
    unfold checkWrtNsos at h2
    rw [bind_ok] at h2
    obtain ⟨⟨S, f1⟩, _, h2⟩ := h2
    rw [bind_ok] at h2
    obtain ⟨n0, _, h2⟩ := h2
    rw [bind_ok] at h2
    obtain ⟨⟨n0', _⟩, _, h2⟩ := h2
    rw [bind_ok] at h2
    obtain ⟨s2, hs2, h2⟩ := h2
    rw [bind_ok] at h2
    obtain ⟨⟨s2', f2⟩, hs2', h2⟩ := h2
    rw [bind_ok] at h2
    obtain ⟨Nv, _, h2⟩ := h2
    rw [bind_ok] at h2
    obtain ⟨Nv', _, h2⟩ := h2
    rw [e1] at hs2
    have hs : s2 = List.ofFn row := (Except.ok.inj hs2).symm
    subst hs
    obtain ⟨b, hb⟩ := checkSizeOfSetting_same hone (List.ofFn row)
    rw [List.length_ofFn, hs2'] at hb
    have := (Except.ok.inj h2).symm
    rw [this]
    exact congrArg some (Prod.mk.inj (Except.ok.inj hb)).1
  unfold toErrModel at h3
  split at h3
  · rename_i s2 n0 Nv g1 g2 g3
    rw [e2] at g1
    have hs : s2 = List.ofFn row := (Option.some.inj g1).symm
    subst hs
    split at h3
    · have := (Except.ok.inj h3).symm
      rw [this]
      funext i
      simp
    · cases h3
  · cases h3

/-- The settings of an object with an error-variance chain hold the last row of the chain. -/
structure VarInv (o : Obj F flags m) : Prop where
  same : ∀ res, o.results = some res → res.s2chain = o.chains.s2chain
  n0 : o.results.isSome → o.ms.N0.isSome
  last : o.results.isSome → ∀ c, o.chains.s2chain = some c →
    c.length = o.chainIndex + 1 ∧ ∃ row, c[o.chainIndex]? = some row ∧
      o.ms.sigma2 = some (List.ofFn row)

/-- what a run that samples the error variance leaves -/
theorem execute_variance {n : ℕ} {E : Env F σ N n m} {s s' : SimState F σ N n m}
    {c0 : List (Vec F m)} (hu : E.opts.updatesigma = true) (h0 : s.s2chain = some c0)
    (h : executeSimulator E s = .ok s') :
    ∃ c, s'.s2chain = some c ∧ c.length = c0.length ∧
      c[s'.chainIndex]? = some s'.errModel.sigma2 ∧
      s'.chainIndex + 1 = s.chainIndex + E.opts.nsimu ∧
      ∀ k, k ≤ s.chainIndex → c[k]? = c0[k]? := by
  obtain ⟨hn, s1, hP, hfin⟩ := executeSimulator_inv
    (P := fun i a => a.chainIndex + 1 = s.chainIndex + i ∧ ∃ c, a.s2chain = some c ∧
      c.length = c0.length ∧ (1 < i → c[a.chainIndex]? = some a.errModel.sigma2) ∧
      ∀ k, k ≤ s.chainIndex → c[k]? = c0[k]?)
    ⟨rfl, c0, h0, rfl, fun h => absurd h (by omega), fun _ _ => rfl⟩
    (fun i a b p hi _ hP hp => by
      obtain ⟨hidx, c, hc, hl, -, hk⟩ := hP
      have he := hp.errModel
      rw [if_pos hu] at he
      obtain ⟨c', r, e1, e2, e3, -⟩ := he
      rw [hc] at e1
      cases e1
      refine ⟨by rw [hp.idx]; omega, _, e3, by rw [List.length_set, hl], fun _ => ?_, fun k hk' => ?_⟩
      · rw [hp.idx, List.getElem?_set_self e2]
      · rw [List.getElem?_set_ne (by omega)]; exact hk k hk') h
  obtain ⟨hidx, c, hc, hl, hlast, hk⟩ := hP
  rw [hfin]
  exact ⟨c, hc, hl, hlast hn, hidx, hk⟩

/-- Every run leaves the settings at the last row of its error-variance chain, and a run from
scratch or a continued one starts from the row that its first iteration uses. -/
theorem run_varInv (hone : ∀ x : F, lit 1 * x = x) {U : UserFuns F N (nS flags) m} {G : Rng σ F}
    {L : Lapack F} {fuel : ℕ} {o : Obj F flags m} {rng : σ} {up : Bool} {out : RunOut F σ flags m}
    (hinv : VarInv o) (h : runSimulation U G L fuel o rng up = .ok out) :
    VarInv out.obj ∧ ∀ c, out.results.s2chain = some c →
      c.length = (if up then o.chainIndex else 0) + o.opts.nsimu.toNat ∧
      c[if up then o.chainIndex else 0]? = some out.init.errModel.sigma2 := by
  obtain ⟨o1, I, s0, h1, h2, h3, h4, h5⟩ := runSimulation_ok h
  have hst := (setup_start h1).1
  obtain ⟨_, _, _, _, _, hc, hss, hs2, _⟩ := generateResults_ok h3
  have hobj : out.obj.results = some out.results := by rw [h5]
  have hobj2 : out.obj.chains.s2chain = out.results.s2chain := by rw [h5, hs2]
  have hmsO : out.obj.ms.sigma2 = some (List.ofFn out.final.errModel.sigma2) := by rw [h5]; rfl
  have hidxO : out.obj.chainIndex = out.final.chainIndex := by rw [h5]
  have hsame : ∀ res, out.obj.results = some res → res.s2chain = out.obj.chains.s2chain := by
    intro res hr
    rw [hobj] at hr
    rw [← Option.some.inj hr, hobj2]
  -- the start
  have start : (I.opts.updatesigma = false → s0.s2chain = none) ∧
      (I.opts.updatesigma = true → ∃ c0, s0.s2chain = some c0 ∧
        c0.length = s0.chainIndex + I.opts.nsimu.toNat ∧
        s0.chainIndex = (if up then o.chainIndex else 0) ∧
        c0[s0.chainIndex]? = some I.errModel.sigma2) := by
    cases up with
    | true =>
      obtain ⟨_, hpos, hci, hch, hsc, e, hsome, _, ⟨res, hr, _⟩, _⟩ := setup_continue h1
      refine ⟨fun hu => by rw [e, hu]; rfl, fun hu => ?_⟩
      obtain ⟨c, hcs⟩ := Option.isSome_iff_exists.1 (hsome hu)
      obtain ⟨hl, row, hrow, hsig⟩ := hinv.last (by rw [hr]; rfl) c hcs
      obtain ⟨ms1, m1, m2, m3⟩ := hst.init.ms
      rw [hst.ms] at m1
      have hkept := errModel_kept hone hsig m1 m2 m3
      refine ⟨_, by rw [e, if_pos hu, hcs]; rfl, ?_, hci, ?_⟩
      · rw [List.length_append, hl, hci]; simp [zeroRows]; omega
      · rw [hci, List.getElem?_append_left (by omega), hrow, hkept]
    | false =>
      obtain ⟨_, hpos, hci, hch, hsc, e, _⟩ := setup_fresh h1
      refine ⟨fun hu => by rw [e, hu]; rfl, fun hu => ?_⟩
      have hp : 0 < I.opts.nsimu.toNat := by omega
      refine ⟨_, by rw [e, if_pos hu], by rw [hci]; simp [zeroRows], hci, ?_⟩
      rw [hci, List.getElem?_set_self (by simpa [zeroRows] using hp)]
  by_cases hu : I.opts.updatesigma = true
  · obtain ⟨c0, g1, g2, g3, g4⟩ := start.2 hu
    obtain ⟨c, e1, e2, e3, e4, e5⟩ := execute_variance
      (E := ⟨I.problem, G, L, runOpts I.opts o1.extra, fuel⟩) hu g1 h2
    have hcs : out.results.s2chain = some c := by rw [hs2, e1]
    refine ⟨⟨hsame, fun _ => (run_updatesigma h).2.2, fun _ c' hc' => ?_⟩, fun c' hc' => ?_⟩
    · rw [hobj2, hcs] at hc'
      cases hc'
      refine ⟨?_, _, by rw [hidxO]; exact e3, hmsO⟩
      rw [e2, g2, hidxO, e4]
      rfl
    · rw [hcs] at hc'
      cases hc'
      rw [← g3, e5 _ le_rfl, g4, h4, e2, g2, hst.init.opts, hst.opts]
      exact ⟨rfl, rfl⟩
  · have hu' : I.opts.updatesigma = false := by simpa using hu
    have hnone : out.results.s2chain = none := by
      rw [hs2, (executeSimulator_no_sigma (E := ⟨I.problem, G, L, runOpts I.opts o1.extra, fuel⟩)
        hu' h2).2, start.1 hu']
    refine ⟨⟨hsame, fun _ => (run_updatesigma h).2.2, fun _ c' hc' => ?_⟩, fun c' hc' => ?_⟩
    · rw [hobj2, hnone] at hc'; cases hc'
    · rw [hnone] at hc'; cases hc'

theorem reachable_varInv (hone : ∀ x : F, lit 1 * x = x) {U : UserFuns F N (nS flags) m}
    {o0 o : Obj F flags m} (h0 : o0.results = none) (ho : Reachable U o0 o) : VarInv o := by
  induction ho with
  | start =>
    refine ⟨fun res hr => ?_, fun hr => ?_, fun hr => ?_⟩ <;> · rw [h0] at hr; cases hr
  | options a e _ ih => exact ⟨ih.same, ih.n0, ih.last⟩
  | run G L fuel rng up out _ hrun ih => exact (run_varInv hone ih hrun).1

/-- **C157.** Whatever the history of an object, in every iteration of a run that samples the error
variance, the first one of a continued run included, the samplers work with the row of the returned
error-variance chain that stands beside the row of the chain they work from. -/
theorem C157_variance (hone : ∀ x : F, lit 1 * x = x) {U : UserFuns F N (nS flags) m}
    {specs : Fin N → ParamSpec F} {opts : SimOpts F} {extra : ExtraOpts F (nS flags)}
    {ms : ModelSettings F} {data : Data}
    {o : Obj F flags m} (ho : Reachable U (newObj specs opts extra ms data) o)
    (hnames : (((List.finRange N).filter flags).map fun k => (specs k).name).Nodup)
    (hnan : ∀ k, PyFloat.isnan (specs k).theta0 = false)
    {G : Rng σ F} {L : Lapack F} {fuel : ℕ} {rng : σ} {up : Bool} {out : RunOut F σ flags m}
    (h : runSimulation U G L fuel o rng up = .ok out) {c : List (Vec F m)}
    (hc : out.results.s2chain = some c) :
    c.length = out.results.chain.length ∧
    ∃ k0, k0 + out.final.moveLog.length + 1 = c.length ∧
      ∀ j r, out.final.moveLog[j]? = some r →
        out.results.chain[k0 + j]? = some r.before.theta ∧ c[k0 + j]? = some r.before.sigma2 := by
  have hinv := reachable_varInv hone (o0 := newObj specs opts extra ms data) rfl ho
  obtain ⟨hvo, hc2⟩ := run_varInv hone hinv h
  obtain ⟨hl1, hrow⟩ := hc2 c hc
  have hro : Reachable U (newObj specs opts extra ms data) out.obj :=
    .run G L fuel rng up out ho h
  have hobj := reachable_objInv rfl ho
  obtain ⟨hobj', hres, hch, _⟩ := run_objInv hobj h
  have hsome : out.obj.results.isSome := by rw [hres]; rfl
  have hlen : c.length = out.results.chain.length := by
    rw [← hch, hobj'.len hsome]
    exact (hvo.last hsome c (by rw [← hvo.same _ hres]; exact hc)).1
  obtain ⟨k0, mu, sigma, _, k1, k2, k3, k4⟩ := C72_decisions ho hnames hnan h
  refine ⟨hlen, k0, by rw [hlen]; exact k1, fun j r hr => ?_⟩
  have hj : j < out.final.trace.length := by
    rw [k3]; exact (List.getElem?_eq_some_iff.1 hr).1
  obtain ⟨q1, _, _, q4, q5, _⟩ := k4 j r _ hr (List.getElem?_eq_getElem hj)
  refine ⟨q1, ?_⟩
  by_cases hor : 0 < j ∨ up = false
  · exact q4 c hc hor
  · have hj0 : j = 0 := by omega
    have hk0 : k0 = if up then o.chainIndex else 0 := by omega
    rw [q5 (Or.inr hj0), hj0, hk0]
    exact hrow

/-- **C157.** A continued run starts from the error variance with which the run before ended: the
last row of its error-variance chain.  Every continued run has such a row and samples the error
variance itself; it leaves the rows of the run before as they are. -/
theorem C157_continues (hone : ∀ x : F, lit 1 * x = x) {U : UserFuns F N (nS flags) m}
    {specs : Fin N → ParamSpec F} {opts : SimOpts F} {extra : ExtraOpts F (nS flags)}
    {ms : ModelSettings F} {data : Data}
    {o : Obj F flags m} (ho : Reachable U (newObj specs opts extra ms data) o)
    {G : Rng σ F} {L : Lapack F} {fuel : ℕ} {rng : σ} {out : RunOut F σ flags m}
    (h : runSimulation U G L fuel o rng true = .ok out) :
    ∃ prev c0 c, o.results = some prev ∧ prev.s2chain = some c0 ∧ out.results.s2chain = some c ∧
      c0.getLast? = some out.init.errModel.sigma2 ∧
      out.init.initialSet.sigma2 = out.init.errModel.sigma2 ∧
      c0.length = o.chainIndex + 1 ∧ ∀ k, k < c0.length → c[k]? = c0[k]? := by
  have hinv := reachable_varInv hone (o0 := newObj specs opts extra ms data) rfl ho
  obtain ⟨hvo, hc2⟩ := run_varInv hone hinv h
  obtain ⟨o1, I, s0, h1, h2, h3, h4, h5⟩ := runSimulation_ok h
  obtain ⟨hst, _, hci, _, _, hs0, hsome, _, ⟨prev, hr, _⟩, _⟩ := setup_continue h1
  have hrs : o.results.isSome := by rw [hr]; rfl
  have hu : I.opts.updatesigma = true := by
    rw [hst.init.opts, hst.opts, hst.ms]
    simp [checkDependentSimulationOptions, hinv.n0 hrs]
  obtain ⟨c0, hc0⟩ := Option.isSome_iff_exists.1 (hsome hu)
  obtain ⟨hl, row, hrow, hsig⟩ := hinv.last hrs c0 hc0
  obtain ⟨c, hc⟩ := Option.isSome_iff_exists.1 ((run_updatesigma h).2.1 (Or.inl (hinv.n0 hrs)))
  obtain ⟨ms1, m1, m2, m3⟩ := hst.init.ms
  rw [hst.ms] at m1
  have hkept := errModel_kept hone hsig m1 m2 m3
  have hlast : c0.getLast? = some I.errModel.sigma2 := by
    rw [List.getLast?_eq_getElem?, hl, Nat.add_sub_cancel, hrow, hkept]
  refine ⟨prev, c0, c, hr, by rw [hinv.same _ hr, hc0], hc, by rw [h4]; exact hlast,
    by rw [h4]; exact hst.init.sigma2, hl, ?_⟩
  rw [if_pos hu, hc0] at hs0
  obtain ⟨c', e1, _, _, _, e5⟩ := execute_variance
    (E := ⟨I.problem, G, L, runOpts I.opts o1.extra, fuel⟩) hu hs0 h2
  obtain ⟨_, _, _, _, _, _, _, r2, _⟩ := generateResults_ok h3
  rw [← r2, hc] at e1
  cases e1
  intro k hk
  rw [e5 k (by omega), List.getElem?_append_left hk]

end general

/-- a run with two sums of squares is continued: it starts from variances that are not the initial
ones, and its first iteration uses them -/
example : ∃ out out' c0 c, Toy.sigmaRun none (some [3]) (some [2, 1]) = .ok out ∧
    runSimulation Toy.user2 Toy.rng Toy.lapack 100 out.obj out.final.world.rng true = .ok out' ∧
    out.results.s2chain = some c0 ∧ out'.results.s2chain = some c ∧ c0.length = 4 ∧ c.length = 7 ∧
    c0.getLast? = some out'.init.errModel.sigma2 ∧
    out'.init.errModel.sigma2 ≠ out.init.errModel.sigma2 ∧
    ∃ r, out'.final.moveLog[0]? = some r ∧ c[3]? = some r.before.sigma2 := by
  obtain ⟨out, h, h1⟩ := exists_ok_and (x := Toy.sigmaRun none (some [3]) (some [2, 1]))
    (fun out => match runSimulation Toy.user2 Toy.rng Toy.lapack 100 out.obj out.final.world.rng true with
      | .ok out' => decide (out'.init.errModel.sigma2 0 ≠ out.init.errModel.sigma2 0) &&
          decide (out'.final.moveLog.length = 3) && decide (out'.results.chain.length = 7) &&
          decide (out.results.chain.length = 4)
      | .error _ => false) (by decide +kernel)
  split at h1
  · rename_i out' h'
    simp only [Bool.and_eq_true, decide_eq_true_eq] at h1
    obtain ⟨⟨⟨h1, h2⟩, h3⟩, h4⟩ := h1
    have hone : ∀ x : ℚ, (lit 1 : ℚ) * x = x := fun x => by simp [lit]
    have hr : Reachable Toy.user2 _ out.obj := .run _ _ _ _ _ _ .start h
    obtain ⟨prev, c0, c, k1, k2, k3, k4, k5, k6⟩ := C157_continues hone hr h'
    have hp : out.results = prev := by
      have := (run_objInv (reachable_objInv rfl .start) h).2.1
      rw [k1] at this
      exact (Option.some.inj this).symm
    subst hp
    obtain ⟨l1, k0, l2, l3⟩ := C157_variance hone hr (by decide +kernel) (by decide +kernel) h' k3
    have l4 := (C157_variance hone .start (by decide +kernel) (by decide +kernel) h k2).1
    obtain ⟨r, hr0⟩ : ∃ r, out'.final.moveLog[0]? = some r :=
      ⟨_, List.getElem?_eq_getElem (by omega)⟩
    refine ⟨out, out', c0, c, h, h', k2, k3, by omega, by omega, k4, fun e => h1 (by rw [e]), r, hr0, ?_⟩
    have hk0 : k0 = 3 := by omega
    have := (l3 0 r hr0).2
    rw [hk0] at this
    exact this
  · cases h1

end Verif
