import Verif.Lemmas.SettingsLen
import Verif.Lemmas.AlphaXR
import Verif.Props.Run
import Verif.Props.Progress
import Verif.Spec.Toy
import Verif.Spec.XToy

/-! # C22, C23, C25, C26: error-variance sampling and its settings -/

set_option linter.unusedSectionVars false

namespace Verif
variable {F σ : Type} [PyFloat F] {N m : ℕ} {flags : Fin N → Bool}

theorem run_settings {U : UserFuns F N (nS flags) m} {o : Obj F flags m} {G : Rng σ F}
    {L : Lapack F} {fuel : ℕ} {rng : σ} {out : RunOut F σ flags m}
    (h : runSimulation U G L fuel o rng false = .ok out) :
    ∃ ms1, checkDependentModelSettings o.ms o.data.n o.data.nbatch = .ok ms1 ∧
      checkWrtNsos ms1 m = .ok out.init.ms ∧ toErrModel out.init.ms m = .ok out.init.errModel := by
  obtain ⟨o1, I, s0, h1, h2, h3, h4, h5⟩ := runSimulation_ok h
  obtain ⟨hst, _⟩ := setup_fresh h1
  rw [h4]
  have := hst.init.ms
  rw [hst.ms, hst.data] at this
  exact this

/-! ### C22 -/

/-- **C22 (partial).** In a run from scratch that samples the error variance, with `S20` given
(no entry NaN), every row of the error-variance chain after the first is drawn, entry by entry, with
shape `(N0 + N)/2` and scale `2/(N0*S20 + SS)` of the reciprocal, where `N0`, `S20` and `N` are fixed
once for the whole run, `N0` and `S20` are what the user gave (or the default of `N0`), and `SS` is the
same row of the sum-of-squares chain.

Missing from the full statement (C22 without the hypothesis `hS`): when `S20` is left unset it is
replaced by the array `sigma2` itself, without a copy, and the draws then change it: see
`C22_alias_refuted`. -/
theorem C22_prior_fixed_partial {U : UserFuns F N (nS flags) m} {o : Obj F flags m} {G : Rng σ F}
    {L : Lapack F} {fuel : ℕ} {rng : σ} {out : RunOut F σ flags m}
    (h : runSimulation U G L fuel o rng false = .ok out)
    (hu : o.ms.N0.isSome ∨ o.opts.updatesigma = true)
    (ha : o.ms.s20Alias = false) (hS : o.ms.S20.any PyFloat.isnan = false) :
    ∃ (N0 S20 : Vec F m) (Nobs : List F),
      Spread (o.ms.N0.getD [if o.ms.sigma2.isSome then lit 1 else lit 0]) N0 ∧
      Spread o.ms.S20 S20 ∧
      ∃ c, out.results.s2chain = some c ∧ (c.length : ℤ) = o.opts.nsimu ∧
        c.length = out.results.sschain.length ∧
        ∀ k, k + 1 < c.length → ∃ row ss, c[k + 1]? = some row ∧
          out.results.sschain[k + 1]? = some ss ∧
          ∀ j : Fin m, ∃ Nj, Nobs[(j : ℕ)]? = some Nj ∧
            DrawnFrom G fuel (N0 j) Nj (S20 j) (ss j) (row j) := by
  obtain ⟨ms1, h1, h2, h3⟩ := run_settings h
  obtain ⟨_, b, c, _⟩ := settings_ok ha h1 h2 h3
  obtain ⟨v, hv, hsp⟩ := c hS
  obtain ⟨ch, e1, e2, e3, e4, e5⟩ := run_sigma h hu
  refine ⟨out.init.errModel.N0, v, out.init.errModel.N, ?_, hsp, ch, e1, e3, e2, fun k hk => ?_⟩
  · unfold defaultN0 at b
    cases hn : o.ms.N0 with
    | some l => rw [hn] at b; exact b
    | none =>
      cases hs : o.ms.sigma2 with
      | some l => rw [hn, hs] at b; exact b
      | none => rw [hn, hs] at b; exact b
  · obtain ⟨prev, row, ss, g1, g2, g3, g4⟩ := e5 k hk
    rw [hv] at g4
    exact ⟨row, ss, g2, g3, g4⟩

/-- **C22 (partial), `S20` unset, single variance.** The same when `S20` is not given and the initial
error variance is a single number (given or default): then `S20` is that number for the whole run. -/
theorem C22_unset_single_partial {U : UserFuns F N (nS flags) m} {o : Obj F flags m} {G : Rng σ F}
    {L : Lapack F} {fuel : ℕ} {rng : σ} {out : RunOut F σ flags m}
    (h : runSimulation U G L fuel o rng false = .ok out)
    (hu : o.ms.N0.isSome ∨ o.opts.updatesigma = true)
    (ha : o.ms.s20Alias = false) (hS : o.ms.S20.any PyFloat.isnan = true)
    {x : F} (hs : o.ms.sigma2 = some [x]) :
    ∃ (N0 : Vec F m) (Nobs : List F),
      Spread (o.ms.N0.getD [lit 1]) N0 ∧
      ∃ c, out.results.s2chain = some c ∧ (c.length : ℤ) = o.opts.nsimu ∧
        c.length = out.results.sschain.length ∧
        ∀ k, k + 1 < c.length → ∃ row ss, c[k + 1]? = some row ∧
          out.results.sschain[k + 1]? = some ss ∧
          ∀ j : Fin m, ∃ Nj, Nobs[(j : ℕ)]? = some Nj ∧
            DrawnFrom G fuel (N0 j) Nj (lit 1 * x) (ss j) (row j) := by
  obtain ⟨ms1, h1, h2, h3⟩ := run_settings h
  obtain ⟨a, b, _, c⟩ := settings_ok ha h1 h2 h3
  have hl : (defaultN0 o.ms.sigma2 o.ms.N0).1.getD
      (List.replicate (o.ms.nbatch.getD o.data.nbatch) (lit 1)) = [x] := by
    rw [hs]; cases o.ms.N0 <;> rfl
  have hv := (c hS).1 (by rw [hl]; rfl)
  rw [hl] at a
  obtain ⟨ch, e1, e2, e3, e4, e5⟩ := run_sigma h hu
  have hx : ∀ j, out.init.errModel.sigma2 j = lit 1 * x := by
    rcases a with ⟨y, hy, hj⟩ | ⟨hm, hj⟩
    · cases hy; exact hj
    · obtain ⟨S20, f1, n0, N0, f2, sg, sigma2, f3, N1, N2, b1, b2, b3, b4, b5, b6, b7, e⟩ :=
        checkWrtNsos_ok h2
      obtain ⟨a1, _⟩ := checkDependent_ok h1
      rw [a1, hl] at b4; cases b4
      obtain ⟨t2, t0, tN, c1, _, _, _, c5, _⟩ := toErrModel_ok h3
      rw [e] at c1; cases c1
      rcases checkSizeOfSetting_ok b5 with ⟨_, a, ha, rfl⟩ | ⟨_, hne, _⟩
      · cases ha
        intro j
        have := c5 j
        rw [List.getElem?_replicate, if_pos j.2] at this
        exact (Option.some.inj this).symm
      · exact absurd rfl hne
  refine ⟨out.init.errModel.N0, out.init.errModel.N, ?_, ch, e1, e3, e2, fun k hk => ?_⟩
  · unfold defaultN0 at b
    cases hn : o.ms.N0 with
    | some l => rw [hn] at b; exact b
    | none => rw [hn, hs] at b; exact b
  · obtain ⟨prev, row, ss, g1, g2, g3, g4⟩ := e5 k hk
    refine ⟨row, ss, g2, g3, fun j => ?_⟩
    obtain ⟨Nj, q1, q2⟩ := g4 j
    rw [hv] at q2
    have : S20Ref.read (.own out.init.errModel.sigma2) prev j = lit 1 * x := hx j
    rw [this] at q2
    exact ⟨Nj, q1, q2⟩

/-- **C22, what happens instead.** When `S20` is left unset and the user gives one initial error
variance for each of two or more sums of squares, the value used for `S20` in every draw is the error
variance of the row before. -/
theorem C22_alias {U : UserFuns F N (nS flags) m} {o : Obj F flags m} {G : Rng σ F}
    {L : Lapack F} {fuel : ℕ} {rng : σ} {out : RunOut F σ flags m}
    (h : runSimulation U G L fuel o rng false = .ok out)
    (hu : o.ms.N0.isSome ∨ o.opts.updatesigma = true)
    (ha : o.ms.s20Alias = false) (hS : o.ms.S20.any PyFloat.isnan = true)
    {l : List F} (hs : o.ms.sigma2 = some l) (hl : 2 ≤ l.length) :
    ∃ (N0 : Vec F m) (Nobs : List F), Spread (o.ms.N0.getD [lit 1]) N0 ∧
      ∃ c, out.results.s2chain = some c ∧ (c.length : ℤ) = o.opts.nsimu ∧
        ∀ k, k + 1 < c.length → ∃ prev row ss, c[k]? = some prev ∧ c[k + 1]? = some row ∧
          out.results.sschain[k + 1]? = some ss ∧
          ∀ j : Fin m, ∃ Nj, Nobs[(j : ℕ)]? = some Nj ∧
            DrawnFrom G fuel (N0 j) Nj (prev j) (ss j) (row j) := by
  obtain ⟨ms1, h1, h2, h3⟩ := run_settings h
  obtain ⟨_, b, _, c⟩ := settings_ok ha h1 h2 h3
  have hl' : (defaultN0 o.ms.sigma2 o.ms.N0).1.getD
      (List.replicate (o.ms.nbatch.getD o.data.nbatch) (lit 1)) = l := by
    rw [hs]; cases o.ms.N0 <;> rfl
  have hv := (c hS).2 (by rw [hl']; omega)
  obtain ⟨ch, e1, e2, e3, e4, e5⟩ := run_sigma h hu
  refine ⟨out.init.errModel.N0, out.init.errModel.N, ?_, ch, e1, e3, fun k hk => ?_⟩
  · unfold defaultN0 at b
    cases hn : o.ms.N0 with
    | some l => rw [hn] at b; exact b
    | none => rw [hn, hs] at b; exact b
  · obtain ⟨prev, row, ss, g1, g2, g3, g4⟩ := e5 k hk
    rw [hv] at g4
    exact ⟨prev, row, ss, g1, g2, g3, g4⟩

namespace Toy

/-- two sums of squares -/
def user2 : UserFuns ℚ 3 (nS Toy.flags) 2 where
  style1 := true
  sosFun _ v := .ok ![v 0 * v 0 + v 1 * v 1, v 2 * v 2]
  priorFun _ _ _ := 0

def data2 : Data := addDataSet (addDataSet {} (.array [5]) (.array [5])) (.array [4]) (.array [4])

/-- a run with error-variance sampling; the given `sigma2`, `N0`, `S20` -/
def sigmaRun (sigma2 N0 S20 : Option (List ℚ)) : Except PyErr (RunOut ℚ ℕ Toy.flags 2) :=
  runSimulation user2 rng lapack 100 (newObj specs { opts .mh 4 with updatesigma := true } extra
    (defineModelSettings sigma2 none N0 none S20) data2) 0 false

end Toy

example : ∃ out, Toy.sigmaRun none (some [3]) (some [2, 1]) = .ok out ∧
    ∃ c, out.results.s2chain = some c ∧ (c.length : ℤ) = 4 := by
  obtain ⟨out, h⟩ := exists_ok (x := Toy.sigmaRun none (some [3]) (some [2, 1])) (by decide +kernel)
  obtain ⟨_, _, _, _, _, c, h1, h2, _⟩ := C22_prior_fixed_partial h (.inl rfl) rfl (by decide +kernel)
  exact ⟨out, h, c, h1, h2⟩

example : ∃ out, Toy.sigmaRun (some [2]) none none = .ok out ∧
    ∃ c, out.results.s2chain = some c ∧ (c.length : ℤ) = 4 := by
  obtain ⟨out, h⟩ := exists_ok (x := Toy.sigmaRun (some [2]) none none) (by decide +kernel)
  obtain ⟨_, _, _, c, h1, h2, _⟩ := C22_unset_single_partial h (.inr rfl) rfl (by decide +kernel) rfl
  exact ⟨out, h, c, h1, h2⟩

/-- **C22, refuted.** There is a run in which the `S20` of a later draw is not the `S20` of the
start. -/
theorem C22_alias_refuted : ∃ out : RunOut ℚ ℕ Toy.flags 2,
    Toy.sigmaRun (some [1, 1]) none none = .ok out ∧
    ∃ r ∈ out.final.sigmaLog, r.before.s20 ≠ out.init.errModel.s20 := by
  obtain ⟨out, h, h1⟩ := exists_ok_and (x := Toy.sigmaRun (some [1, 1]) none none)
    (fun out => out.final.sigmaLog.any fun r => decide (r.before.s20 0 ≠ out.init.errModel.s20 0))
    (by decide +kernel)
  rw [List.any_eq_true] at h1
  obtain ⟨r, hr, hd⟩ := h1
  refine ⟨out, h, r, hr, fun e => of_decide_eq_true hd (by rw [e])⟩

/-! ### C25 -/

/-- the list is a single number or has one entry per sum of squares -/
def RightSize (l : List F) (m : ℕ) : Prop := l.length = 1 ∨ l.length = m

theorem checkSize_iff (x : List F) (m : ℕ) :
    (RightSize x m ∧ ∃ r, checkSizeOfSetting x m = .ok r) ∨
    (¬ RightSize x m ∧ ∃ msg, checkSizeOfSetting x m = .error (.sysExit msg)) := by
  unfold RightSize
  by_cases h0 : ∃ a, x = [a]
  · obtain ⟨a, rfl⟩ := h0
    exact .inl ⟨.inl rfl, _, rfl⟩
  · have hx : ∀ a, x = [a] → False := fun a ha => h0 ⟨a, ha⟩
    have e : checkSizeOfSetting x m = if x.length > m then .error (.sysExit msgSize)
        else if x.length < m then .error (.sysExit msgSize) else .ok (x, false) := by
      unfold checkSizeOfSetting
      split
      · exact absurd rfl (hx _)
      · rfl
    rw [e]
    have h1 : x.length ≠ 1 := fun hl => by
      obtain ⟨a, ha⟩ := List.length_eq_one_iff.1 hl
      exact hx a ha
    split
    · exact .inr ⟨by omega, _, rfl⟩
    · split
      · exact .inr ⟨by omega, _, rfl⟩
      · exact .inl ⟨.inr (by omega), _, rfl⟩

/-- **C25.** Whatever the user gave, when the checks of the set-up pass, `sigma2`, `S20` and `N0` have
one entry per element of the sum-of-squares function, and, provided there is at least one data set,
the number of observations can be indexed by each of them. -/
theorem C25_sizes_partial {s s1 s2 : ModelSettings F} {dataN : List ℕ} {b m : ℕ}
    (h1 : checkDependentModelSettings s dataN b = .ok s1) (h2 : checkWrtNsos s1 m = .ok s2) :
    ∃ sigma2 N0 Nobs, s2.sigma2 = some sigma2 ∧ s2.N0 = some N0 ∧ s2.N = some Nobs ∧
      sigma2.length = m ∧ N0.length = m ∧ s2.s20Now.length = m ∧
      (dataN ≠ [] → m ≤ Nobs.length) := by
  obtain ⟨S20, f1, n0, N0, f2, sg, sigma2, f3, N1, N2, b1, b2, b3, b4, b5, b6, b7, e⟩ := checkWrtNsos_ok h2
  refine ⟨sigma2, N0, N2, by rw [e], by rw [e], by rw [e], checkSizeOfSetting_length b5,
    checkSizeOfSetting_length b3, ?_, fun hd => ?_⟩
  · rw [e]
    unfold ModelSettings.s20Now
    dsimp only
    split
    · exact checkSizeOfSetting_length b5
    · exact checkSizeOfSetting_length b1
  · obtain ⟨Nl, hs, hne⟩ := checkDependent_N hd h1
    rw [hs] at b6; cases b6
    exact checkSizeOfObservations_length hne b7

/-- **C25, refusals.** The check passes exactly when `S20`, `N0` and `sigma2` each are a single
number or have one entry per sum of squares and the observations are not between; otherwise the
simulation is refused with a message. -/
theorem C25_refused {s : ModelSettings F} {m : ℕ} {N0 sigma2 Nobs : List F}
    (h0 : s.N0 = some N0) (hs : s.sigma2 = some sigma2) (hN : s.N = some Nobs) :
    ((∃ s2, checkWrtNsos s m = .ok s2) ↔ RightSize s.s20Now m ∧ RightSize N0 m ∧
      RightSize sigma2 m ∧ (Nobs.length ≤ 1 ∨ m ≤ Nobs.length)) ∧
    ((∃ s2, checkWrtNsos s m = .ok s2) ∨ ∃ msg, checkWrtNsos s m = .error (.sysExit msg)) := by
  have hob : ((Nobs.length ≤ 1 ∨ m ≤ Nobs.length) ∧ ∃ r, checkSizeOfObservations Nobs m = .ok r) ∨
      (¬ (Nobs.length ≤ 1 ∨ m ≤ Nobs.length) ∧
        ∃ msg, checkSizeOfObservations Nobs m = .error (.sysExit msg)) := by
    unfold checkSizeOfObservations
    split
    · exact .inl ⟨.inl (by simp), _, rfl⟩
    · split
      · exact .inr ⟨by omega, _, rfl⟩
      · split
        · exact .inl ⟨by omega, _, rfl⟩
        · exact .inl ⟨by omega, _, rfl⟩
  unfold checkWrtNsos
  rw [h0, hs, hN]
  simp only [orRaise, ok_bind]
  rcases checkSize_iff s.s20Now m with ⟨a1, r1, a2⟩ | ⟨a1, r1, a2⟩
  · rw [a2, ok_bind]
    rcases checkSize_iff N0 m with ⟨b1, r2, b2⟩ | ⟨b1, r2, b2⟩
    · rw [b2, ok_bind]
      rcases checkSize_iff sigma2 m with ⟨c1, r3, c2⟩ | ⟨c1, r3, c2⟩
      · rw [c2, ok_bind]
        rcases hob with ⟨d1, r4, d2⟩ | ⟨d1, r4, d2⟩
        · rw [d2, ok_bind]
          exact ⟨⟨fun _ => ⟨a1, b1, c1, d1⟩, fun _ => ⟨_, rfl⟩⟩, .inl ⟨_, rfl⟩⟩
        · rw [d2]
          exact ⟨⟨fun h => (by obtain ⟨_, h⟩ := h; cases h), fun h => absurd h.2.2.2 d1⟩, .inr ⟨_, rfl⟩⟩
      · rw [c2]
        exact ⟨⟨fun h => (by obtain ⟨_, h⟩ := h; cases h), fun h => absurd h.2.2.1 c1⟩, .inr ⟨_, rfl⟩⟩
    · rw [b2]
      exact ⟨⟨fun h => (by obtain ⟨_, h⟩ := h; cases h), fun h => absurd h.2.1 b1⟩, .inr ⟨_, rfl⟩⟩
  · rw [a2]
    exact ⟨⟨fun h => (by obtain ⟨_, h⟩ := h; cases h), fun h => absurd h.1 a1⟩, .inr ⟨_, rfl⟩⟩

/-- one variance and three priors for three sums of squares -/
example : ∃ s1 s2, checkDependentModelSettings (F := ℚ)
    (defineModelSettings (some [2]) none (some [1, 2, 3]) none none) [5, 4, 6] 3 = .ok s1 ∧
    checkWrtNsos s1 3 = .ok s2 ∧ ∃ l, s2.sigma2 = some l ∧ l.length = 3 := by
  obtain ⟨s1, h1, hx⟩ := exists_ok_and (x := checkDependentModelSettings (F := ℚ)
    (defineModelSettings (some [2]) none (some [1, 2, 3]) none none) [5, 4, 6] 3)
    (fun s1 => (checkWrtNsos s1 3).toOption.isSome) (by decide +kernel)
  obtain ⟨s2, h2⟩ := exists_ok hx
  obtain ⟨l, _, _, e, _, _, e2, _⟩ := C25_sizes_partial h1 h2
  exact ⟨s1, s2, h1, h2, l, e, e2⟩

/-- two variances for three sums of squares are refused -/
example : ∃ msg, checkWrtNsos (F := ℚ) ⟨some [1, 2], some [5, 4, 6], some [0], some 3, [1], false⟩ 3
    = .error (.sysExit msg) := by
  rcases (C25_refused (F := ℚ) (s := ⟨some [1, 2], some [5, 4, 6], some [0], some 3, [1], false⟩)
    (m := 3) rfl rfl rfl) with ⟨h1, h2 | h2⟩
  · have := (h1.1 h2).2.2.1
    simp [RightSize] at this
  · exact h2

/-- **C25, refuted without data.** With no data set the checks pass, the run starts, and fails with an
`IndexError` at the first draw of the error variance. -/
theorem C25_no_data_refuted :
    (∃ r, setupSimulator Toy.user Toy.lapack (newObj Toy.specs
      { Toy.opts .mh 4 with updatesigma := true } Toy.extra Toy.settings {}) 0 false = .ok r) ∧
    runSimulation Toy.user Toy.rng Toy.lapack 100 (newObj Toy.specs
      { Toy.opts .mh 4 with updatesigma := true } Toy.extra Toy.settings {}) 0 false
      = .error .indexError := by
  constructor
  · exact exists_ok (by decide +kernel)
  · have h : (match runSimulation Toy.user Toy.rng Toy.lapack 100 (newObj Toy.specs
      { Toy.opts .mh 4 with updatesigma := true } Toy.extra Toy.settings {}) 0 false with
      | .error e => decide (e = .indexError)
      | .ok _ => false) = true := by decide +kernel
    split at h
    · rename_i e he; rw [he, of_decide_eq_true h]
    · cases h

/-! ### C26 -/

/-- **C26 (partial).** When no initial error variance is given, a run starts with error variance
one — whether or not `S20` is given.

Missing from the full statement: when `S20` is given the initial error variance should be `S20`; the
code never does that (`C26_default_refuted`). -/
theorem C26_default_one_partial {U : UserFuns F N (nS flags) m} {o : Obj F flags m} {G : Rng σ F}
    {L : Lapack F} {fuel : ℕ} {rng : σ} {out : RunOut F σ flags m}
    (h : runSimulation U G L fuel o rng false = .ok out) (ha : o.ms.s20Alias = false)
    (hs : o.ms.sigma2 = none) (h11 : (lit 1 : F) * lit 1 = lit 1) :
    (∀ j, out.init.errModel.sigma2 j = lit 1) ∧
    ∀ c, out.results.s2chain = some c → o.ms.N0.isSome ∨ o.opts.updatesigma = true →
      ∃ row, c[0]? = some row ∧ ∀ j, row j = lit 1 := by
  obtain ⟨ms1, h1, h2, h3⟩ := run_settings h
  obtain ⟨a, _⟩ := settings_ok ha h1 h2 h3
  have key : ∀ j, out.init.errModel.sigma2 j = lit 1 := by
    have hall : ∀ x ∈ (defaultN0 o.ms.sigma2 o.ms.N0).1.getD
        (List.replicate (o.ms.nbatch.getD o.data.nbatch) (lit 1)), x = lit 1 := by
      rw [hs]
      cases o.ms.N0 with
      | none => intro x hx; simpa [defaultN0] using hx
      | some _ => intro x hx; exact List.eq_of_mem_replicate hx
    intro j
    rcases a with ⟨x, e1, e2⟩ | ⟨e1, e2⟩
    · rw [e2, hall x (by rw [e1]; simp), h11]
    · exact hall _ (List.mem_of_getElem? (e2 j))
  refine ⟨key, fun c hc hu => ?_⟩
  obtain ⟨c', e1, _, _, e4, _⟩ := run_sigma h hu
  rw [hc] at e1; cases e1
  exact ⟨_, e4, key⟩

example : ∃ out, Toy.sigmaRun none none none = .ok out ∧
    ∀ j, out.init.errModel.sigma2 j = 1 := by
  obtain ⟨out, h⟩ := exists_ok (x := Toy.sigmaRun none none none) (by decide +kernel)
  exact ⟨out, h, (C26_default_one_partial h rfl rfl (by decide +kernel)).1⟩

/-- **C26, refuted.** A run with `S20 = 2` and no initial error variance starts with error variance
one. -/
theorem C26_default_refuted : ∃ out : RunOut ℚ ℕ Toy.flags 2,
    Toy.sigmaRun none (some [3]) (some [2]) = .ok out ∧
    (∀ j, out.init.errModel.s20 j = 2) ∧ ∀ j, out.init.errModel.sigma2 j = 1 := by
  obtain ⟨out, h, h1⟩ := exists_ok_and (x := Toy.sigmaRun none (some [3]) (some [2]))
    (fun out => decide (∀ j, out.init.errModel.s20 j = 2)) (by decide +kernel)
  exact ⟨out, h, of_decide_eq_true h1,
    (C26_default_one_partial h rfl rfl (by decide +kernel)).1⟩

end Verif
