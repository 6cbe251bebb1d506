import Verif.Lemmas.SigmaDraws
import Verif.Props.PositiveVariance
import Verif.Props.VarianceContinued
import Verif.Props.Continuation

/-! # C22, C23 for runs of an object with any history -/

set_option linter.unusedSectionVars false

namespace Verif

theorem XR.lit_one_mul (x : XR) : lit 1 * x = x := by
  rw [XR.lit_eq]
  cases x with
  | nan => rfl
  | fin r => rw [XR.fin_mul]; simp
  | pinf => change XR.mul _ _ = _; simp [XR.mul, XR.infMul]
  | ninf => change XR.mul _ _ = _; simp [XR.mul, XR.infMul, XR.neg]

section general
variable {F σ : Type} [PyFloat F] {N m : ℕ} {flags : Fin N → Bool}

/-- Invariant of the loop of a run that starts at row `b`: which draw each row of the error-variance
chain is. -/
structure SigmaFrom {n : ℕ} (E : Env F σ N n m) (M0 : ErrModel F m) (b i : ℕ)
    (s : SimState F σ N n m) : Prop where
  idx : s.chainIndex + 1 = b + i
  N0 : s.errModel.N0 = M0.N0
  N : s.errModel.N = M0.N
  S20 : s.errModel.S20 = M0.S20
  rows : ∃ c, s.s2chain = some c ∧ c[s.chainIndex]? = some s.errModel.sigma2 ∧
    ∀ k, b ≤ k → k + 1 < b + i → ∃ prev row ss, c[k]? = some prev ∧ c[k + 1]? = some row ∧
      s.sschain[k + 1]? = some ss ∧
      ∀ j : Fin m, ∃ Nj, M0.N[(j : ℕ)]? = some Nj ∧
        DrawnFrom E.rng E.fuel (M0.N0 j) Nj (M0.S20.read prev j) (ss j) (row j)

theorem SigmaFrom.step {n : ℕ} {E : Env F σ N n m} {M0 : ErrModel F m} {b i : ℕ}
    {s s' : SimState F σ N n m} {p : Proposal F σ N n m} (hu : E.opts.updatesigma = true)
    (h : SigmaFrom E M0 b i s) (hp : StepSpec E i s s' p) :
    SigmaFrom E M0 b (i + 1) s' := by
  have he := hp.errModel
  rw [if_pos hu] at he
  obtain ⟨c, r, e1, e2, e3, e4, _⟩ := he
  obtain ⟨a1, a2, a3, a4⟩ := updateErrorVariance_ok e4
  obtain ⟨c', f1, f4, f5⟩ := h.rows
  rw [e1] at f1; cases f1
  have hidx := h.idx
  refine ⟨by rw [hp.idx]; omega, a1.trans h.N0, a2.trans h.N, a3.trans h.S20, _, e3, ?_, ?_⟩
  · rw [hp.idx, List.getElem?_set_self e2]
  · intro k hb hk
    rw [hp.sschain]
    by_cases hk' : k + 1 < b + i
    · obtain ⟨prev, row, ss, g1, g2, g3, g4⟩ := f5 k hb hk'
      refine ⟨prev, row, ss, ?_, ?_, ?_, g4⟩ <;> rw [List.getElem?_set_ne (by omega)] <;> assumption
    · have hk2 : k = s.chainIndex := by omega
      subst hk2
      refine ⟨s.errModel.sigma2, _, _, ?_, List.getElem?_set_self e2, List.getElem?_set_self hp.lt', ?_⟩
      · rw [List.getElem?_set_ne (by omega)]; exact f4
      · intro j
        have := a4 j
        rw [h.N0, h.N, h.S20] at this
        exact this

/-- **C22**, law of the draws, whatever the history of the object: in a run from scratch or a
continued one every row of the error-variance chain after the row `k0` from which the run starts is
drawn from the inverse gamma law with the `N0`, `N` and `S20` of the start of the run and the sums of
squares in the same row.  (If `S20` is the same array as `sigma2`, see `C22_alias`, it is read from the
row before.) -/
theorem C22_history (hone : ∀ x : F, lit 1 * x = x) {U : UserFuns F N (nS flags) m}
    {specs : Fin N → ParamSpec F} {opts : SimOpts F} {extra : ExtraOpts F (nS flags)}
    {ms : ModelSettings F} {data : Data}
    {o : Obj F flags m} (ho : Reachable U (newObj specs opts extra ms data) o)
    {G : Rng σ F} {L : Lapack F} {fuel : ℕ} {rng : σ} {up : Bool} {out : RunOut F σ flags m}
    (h : runSimulation U G L fuel o rng up = .ok out) {c : List (Vec F m)}
    (hc : out.results.s2chain = some c) :
    ∃ k0 : ℕ, (c.length : ℤ) = k0 + o.opts.nsimu ∧ (up = false → k0 = 0) ∧
      (up = true → k0 = o.chainIndex) ∧
      c[k0]? = some out.init.errModel.sigma2 ∧
      ∀ k, k0 ≤ k → k + 1 < c.length → ∃ prev row ss, c[k]? = some prev ∧ c[k + 1]? = some row ∧
        out.results.sschain[k + 1]? = some ss ∧
        ∀ j : Fin m, ∃ Nj, out.init.errModel.N[(j : ℕ)]? = some Nj ∧
          DrawnFrom G fuel (out.init.errModel.N0 j) Nj (out.init.errModel.S20.read prev j)
            (ss j) (row j) := by
  have hinv := reachable_varInv hone (o0 := newObj specs opts extra ms data) rfl ho
  obtain ⟨_, hc2⟩ := run_varInv hone hinv h
  obtain ⟨hl1, hrow⟩ := hc2 c hc
  obtain ⟨o1, I, s0, h1, h2, h3, h4, h5⟩ := runSimulation_ok h
  have hst := (setup_start h1).1
  obtain ⟨_, _, _, _, _, _, r1, r2, _⟩ := generateResults_ok h3
  have hns : I.opts.nsimu = o.opts.nsimu := by rw [hst.init.opts, hst.opts]; rfl
  have hci : s0.chainIndex = (if up then o.chainIndex else 0) ∧ 0 < I.opts.nsimu := by
    cases up with
    | true => obtain ⟨_, hpos, hci, _⟩ := setup_continue h1; exact ⟨hci, hpos⟩
    | false => obtain ⟨_, hpos, hci, _⟩ := setup_fresh h1; exact ⟨hci, hpos⟩
  obtain ⟨hci, hpos⟩ := hci
  have hu : I.opts.updatesigma = true := by
    by_contra hu
    have hu : I.opts.updatesigma = false := by simpa using hu
    have hnone : s0.s2chain = none := by
      cases up with
      | true => obtain ⟨_, _, _, _, _, e, _⟩ := setup_continue h1; rw [e, hu]; rfl
      | false => obtain ⟨_, _, _, _, _, e, _⟩ := setup_fresh h1; rw [e, hu]; rfl
    rw [r2, (executeSimulator_no_sigma (E := ⟨I.problem, G, L, runOpts I.opts o1.extra, fuel⟩)
      hu h2).2, hnone] at hc
    cases hc
  -- the row from which the run starts
  have hs0 : ∃ c0, s0.s2chain = some c0 ∧ c0[s0.chainIndex]? = some s0.errModel.sigma2 := by
    obtain ⟨c0, hc0⟩ : ∃ c0, s0.s2chain = some c0 := by
      cases up with
      | true =>
        obtain ⟨_, _, _, _, _, e, hsome, _⟩ := setup_continue h1
        obtain ⟨c', hc'⟩ := Option.isSome_iff_exists.1 (hsome hu)
        exact ⟨_, by rw [e, if_pos hu, hc']; rfl⟩
      | false =>
        obtain ⟨_, _, _, _, _, e, _⟩ := setup_fresh h1
        exact ⟨_, by rw [e, if_pos hu]⟩
    obtain ⟨c', e1, _, _, _, e5⟩ := execute_variance
      (E := ⟨I.problem, G, L, runOpts I.opts o1.extra, fuel⟩) hu hc0 h2
    rw [← r2, hc] at e1
    cases e1
    refine ⟨c0, hc0, ?_⟩
    rw [← e5 _ le_rfl, hci, hrow, hst.errModel, h4]
  obtain ⟨c0, hc0, hc0'⟩ := hs0
  obtain ⟨hn', s1, hP, hfin⟩ := executeSimulator_inv
    (E := ⟨I.problem, G, L, runOpts I.opts o1.extra, fuel⟩)
    (P := fun i a => SigmaFrom ⟨I.problem, G, L, runOpts I.opts o1.extra, fuel⟩ I.errModel
      s0.chainIndex i a)
    ⟨rfl, by rw [← hst.errModel]; rfl, by rw [← hst.errModel]; rfl, by rw [← hst.errModel]; rfl,
      c0, hc0, hc0', fun k hb hk => by omega⟩
    (fun i a b p _ _ hP hp => hP.step hu hp) h2
  obtain ⟨c', f1, f4, f5⟩ := hP.rows
  have e1 : out.results.sschain = s1.sschain := by rw [r1, hfin]
  have e2 : out.results.s2chain = s1.s2chain := by rw [r2, hfin]
  rw [← e2, hc] at f1
  cases f1
  refine ⟨s0.chainIndex, ?_, ?_, ?_, by rw [hci]; exact hrow, fun k hb hk => ?_⟩
  · rw [hl1, hci]; omega
  · rintro rfl; simpa using hci
  · rintro rfl; simpa using hci
  · rw [e1, h4]
    apply f5 k hb
    change k + 1 < s0.chainIndex + I.opts.nsimu.toNat
    rw [hl1, ← hci, ← hns] at hk
    exact hk

end general

section exact
variable {σ : Type} {N m : ℕ} {flags : Fin N → Bool}

/-- **C23**, whatever the history of the object: under the hypotheses of `C23_positive` on the run at
hand, be it from scratch or a continued one, every error variance in a row after the row `k0` from
which the run starts is finite and strictly positive.  Here only the sums of squares in the chain have
to be finite and non-negative, not all values of the user's function. -/
theorem C23_history {U : UserFuns XR N (nS flags) m} {specs : Fin N → ParamSpec XR}
    {opts : SimOpts XR} {extra : ExtraOpts XR (nS flags)} {ms : ModelSettings XR} {data : Data}
    {o : Obj XR flags m} (ho : Reachable U (newObj specs opts extra ms data) o)
    {G : Rng σ XR} {L : Lapack XR} {fuel : ℕ} {rng : σ} {up : Bool} {out : RunOut XR σ flags m}
    (h : runSimulation U G L fuel o rng up = .ok out) {c : List (Vec XR m)}
    (hc : out.results.s2chain = some c) (hG : OpenDraws G)
    (hN : ∀ (j : Fin m) Nj, out.init.errModel.N[(j : ℕ)]? = some Nj →
      ∃ a b, out.init.errModel.N0 j = .fin a ∧ Nj = .fin b ∧ 0 ≤ a ∧ 0 < a + b)
    (hS : ∀ j, Pos (out.init.errModel.s20 j))
    (hsos : ∀ ss ∈ out.results.sschain, ∀ j, ∃ r, ss j = .fin r ∧ 0 ≤ r ∧
      (out.init.errModel.N0 j = .fin 0 → 0 < r)) :
    ∃ k0 : ℕ, (c.length : ℤ) = k0 + o.opts.nsimu ∧ (up = false → k0 = 0) ∧
      (up = true → k0 = o.chainIndex) ∧ c[k0]? = some out.init.errModel.sigma2 ∧
      ∀ k, k0 < k → ∀ row, c[k]? = some row → ∀ j, Pos (row j) := by
  obtain ⟨k0, e1, e2, e3, e4, e5⟩ := C22_history XR.lit_one_mul ho h hc
  refine ⟨k0, e1, e2, e3, e4, ?_⟩
  have hread : ∀ prev : Vec XR m, (∀ j, Pos (prev j)) →
      ∀ j, Pos (out.init.errModel.S20.read prev j) := by
    intro prev hp j
    have := hS j
    rw [s20_eq] at this
    cases hx : out.init.errModel.S20 with
    | own v => rw [hx] at this; exact this
    | aliasSigma2 => exact hp j
  have hstep : ∀ k, k0 ≤ k → k + 1 < c.length → (∀ prev, c[k]? = some prev →
      ∀ j, Pos (out.init.errModel.S20.read prev j)) →
      ∀ row, c[k + 1]? = some row → ∀ j, Pos (row j) := by
    intro k hb hk hp row hrow j
    obtain ⟨prev, row', ss, g1, g2, g3, g4⟩ := e5 k hb hk
    rw [hrow] at g2; cases g2
    obtain ⟨Nj, q1, q2⟩ := g4 j
    obtain ⟨a, b, r1, rfl, r3, r4⟩ := hN j Nj q1
    obtain ⟨r, t1, t2, t3⟩ := hsos ss (List.mem_of_getElem? g3) j
    obtain ⟨t, s1, s2⟩ := hp prev g1 j
    rw [r1, s1, t1] at q2
    refine drawnFrom_pos hG r4 ?_ q2
    rcases r3.eq_or_lt with ha | ha
    · have := t3 (by rw [r1, ← ha]); rw [← ha]; linarith
    · have := mul_pos ha s2; linarith
  have hall : ∀ d, ∀ row, c[k0 + d + 1]? = some row → ∀ j, Pos (row j) := by
    intro d
    induction d with
    | zero =>
      intro row hrow
      have hlt := (List.getElem?_eq_some_iff.1 hrow).1
      refine hstep k0 le_rfl hlt (fun prev hp j => ?_) row hrow
      rw [e4] at hp; cases hp
      have := hS j
      rw [s20_eq] at this
      exact this
    | succ d ih =>
      intro row hrow
      have hlt := (List.getElem?_eq_some_iff.1 hrow).1
      exact hstep (k0 + d + 1) (by omega) hlt (fun prev hp => hread prev (ih prev hp)) row hrow
  intro k hk row hrow
  obtain ⟨d, rfl⟩ : ∃ d, k = k0 + d + 1 := ⟨k - k0 - 1, by omega⟩
  exact hall d row hrow

end exact
/-! a continued run that meets the hypotheses of `C22_history` and `C23_history` -/

namespace XRun

/-- settings as the first run leaves them -/
def isLeft (ms : ModelSettings XR) : Prop :=
  ∃ x, ms = ⟨some [x], some [.fin 5], some [.fin 1], some 1, [.fin 1], false⟩

theorem left_checked {ms ms1 ms2 : ModelSettings XR} {M : ErrModel XR 1}
    (h : ms = settings ∨ isLeft ms)
    (h1 : checkDependentModelSettings ms data.n data.nbatch = .ok ms1)
    (h2 : checkWrtNsos ms1 1 = .ok ms2) (h3 : toErrModel ms2 1 = .ok M) :
    isLeft ms2 ∧ M.N0 = (fun _ => .fin 1) ∧ M.N = [.fin 5] ∧ M.S20 = .own fun _ => .fin 1 := by
  have e1 : isLeft ms1 := by
    rcases h with rfl | ⟨x, rfl⟩
    · refine ⟨.fin 1, ?_⟩
      rw [← Except.ok.inj h1]
      simp [settings, defineModelSettings, data, addDataSet,
        ModelSettings.s20Now, Data.nbatch, convertNumpyArrayTo2d, convertToNumpyArray, ofInt]
    · refine ⟨x, ?_⟩
      have : checkNumberOfObservations [XR.fin 5] (data.n.map fun k : ℕ => (ofInt k : XR))
          = .ok [XR.fin 5] := by
        simp [checkNumberOfObservations, data, addDataSet, convertNumpyArrayTo2d,
          convertToNumpyArray, ofInt, arrayEqual]
      unfold checkDependentModelSettings at h1
      dsimp only [Option.elim] at h1
      rw [this, ok_bind] at h1
      rw [← Except.ok.inj h1]
      simp [defaultN0, ModelSettings.s20Now]
  obtain ⟨x, rfl⟩ := e1
  have e2 : checkWrtNsos (⟨some [x], some [.fin 5], some [.fin 1], some 1, [.fin 1], false⟩ :
      ModelSettings XR) 1 = .ok ⟨some [x], some [.fin 5], some [.fin 1], some 1, [.fin 1], false⟩ := by
    have : checkWrtNsos (⟨some [x], some [.fin 5], some [.fin 1], some 1, [.fin 1], false⟩ :
      ModelSettings XR) 1 = .ok ⟨some [lit 1 * x], some [lit 1 * .fin 5], some [lit 1 * .fin 1], some 1,
        [lit 1 * .fin 1], false⟩ := rfl
    simpa only [XR.lit_one_mul] using this
  rw [e2] at h2
  have h2 := (Except.ok.inj h2).symm
  subst h2
  refine ⟨⟨x, rfl⟩, ?_⟩
  rw [← Except.ok.inj h3]
  exact ⟨by funext i; simp, rfl, by simp⟩

theorem openDraws : OpenDraws rng := ⟨fun _ _ _ => ⟨1, rfl⟩, fun _ => ⟨1/2, rfl, by norm_num⟩⟩

/-- the sums of squares of finite rows are squares -/
theorem sos_finite {θ : Fin (nS flags) → ℝ} {v ss : Vec XR 1}
    (hv : BelongsTo flags (specs true) (finVec θ) v) (hs : SosValue user v ss) :
    ∃ r : ℝ, 0 ≤ r ∧ ss = fun _ => .fin r := by
  unfold SosValue XRun.user at hs
  simp only [if_true, reduceCtorEq, false_and, or_false] at hs
  have h0 : v 0 ∈ List.ofFn (finVec θ) := hv.1 ▸ List.mem_map.2 ⟨0, by decide, rfl⟩
  obtain ⟨i, hi⟩ := List.mem_ofFn.1 h0
  refine ⟨θ i * θ i, mul_self_nonneg _, ?_⟩
  rw [← Except.ok.inj hs]
  funext k
  rw [← hi, finVec, XR.fin_mul]

/-- The error variances of a run of the example, fresh or continued: if it starts from a positive
variance and all rows are finite then all variances from there on are positive. -/
theorem history_pos {o : Obj XR flags 1} (ho : Reachable user (obj contArgs) o)
    (hms : o.ms = settings ∨ isLeft o.ms) (hd : o.data = data) {up : Bool}
    {out : RunOut XR Unit flags 1} (h : runSimulation user rng exactLapack 1 o () up = .ok out)
    {c : List (Vec XR 1)} (hc : out.results.s2chain = some c)
    (hfin : ∀ row ∈ out.results.chain, ∃ r, row = finVec r) :
    isLeft out.obj.ms ∧ ∃ k0 : ℕ, (c.length : ℤ) = k0 + o.opts.nsimu ∧ (up = false → k0 = 0) ∧
      (up = true → k0 = o.chainIndex) ∧ c[k0]? = some out.init.errModel.sigma2 ∧
      ∀ k, k0 < k → ∀ row, c[k]? = some row → ∀ j, Pos (row j) := by
  obtain ⟨o1, I, s0, h1, h2, h3, h4, h5⟩ := runSimulation_ok h
  have hst := (setup_start h1).1
  obtain ⟨ms1, k1, k2, k3⟩ := hst.init.ms
  rw [hst.ms, hst.data, hd] at k1
  obtain ⟨a1, a2, a3, a4⟩ := left_checked hms k1 k2 k3
  refine ⟨?_, ?_⟩
  · obtain ⟨x, hx⟩ := a1
    rw [h5]
    change isLeft (settingsAfter I.ms _)
    rw [hx]
    exact ⟨_, by simp [settingsAfter]; rfl⟩
  · refine C23_history ho h hc openDraws ?_ ?_ ?_
    · intro j Nj hj
      rw [h4, a3, Subsingleton.elim j 0] at hj
      cases hj
      exact ⟨1, 5, by rw [h4, a2], rfl, by norm_num, by norm_num⟩
    · intro j
      rw [s20_eq, h4, a4]
      exact ⟨1, rfl, one_pos⟩
    · intro ss hss j
      obtain ⟨k, hk⟩ := List.mem_iff_getElem?.1 hss
      obtain ⟨hlen, hrows⟩ := C03_sums_of_squares_belong_to_rows ho h
      have hk' := (List.getElem?_eq_some_iff.1 hk).1
      obtain ⟨ss', v, g1, g2, g3⟩ := hrows k _ (List.getElem?_eq_getElem (by omega))
      rw [hk] at g1; cases g1
      obtain ⟨r, hr⟩ := hfin _ (List.getElem_mem (by omega : k < out.results.chain.length))
      rw [hr] at g2
      obtain ⟨q, hq, e⟩ := sos_finite g2 g3
      refine ⟨q, by rw [e], hq, fun h => ?_⟩
      rw [h4, a2] at h
      simp at h

/-- The continued run of `cont_runs`: all rows of the first and of the second run are finite, all
error variances of the two are positive. -/
theorem cont_pos : ∃ out out' c',
    runSimulation user rng exactLapack 1 (obj contArgs) () false = .ok out ∧
    runSimulation user rng exactLapack 1
      { out.obj with opts := defineSimulationOptions contArgs, extra := extra 1 1 } () true = .ok out' ∧
    (∀ row ∈ out.obj.chains.chain, ∃ r, row = finVec r) ∧
    (∀ row ∈ out'.results.chain, ∃ r, row = finVec r) ∧
    out'.results.s2chain = some c' ∧ c'.length = 9 ∧ ∀ x ∈ c', ∀ j, Pos (x j) := by
  obtain ⟨out, out', h, h', hfin'⟩ := cont_runs
  have hre : Reachable user (obj contArgs)
    { out.obj with opts := defineSimulationOptions contArgs, extra := extra 1 1 } :=
    .options _ _ (.run _ _ _ _ _ _ .start h)
  obtain ⟨o1, I, s0, h1, h2, h3, h4, h5⟩ := runSimulation_ok h
  obtain ⟨_, _, _, _, _, g1, _, g2, _⟩ := generateResults_ok h3
  have hres : out.obj.results = some out.results := by rw [h5]
  have hch : out.obj.chains.chain = out.results.chain := by rw [h5, g1]
  obtain ⟨res, r1, r2, r3, r4, r5, _⟩ := C28_continuation hre (by decide) h'
  have hr : res = out.results := by
    have r1 : out.obj.results = some res := r1
    rw [hres] at r1; exact (Option.some.inj r1).symm
  subst hr
  have hfin : ∀ row ∈ out.results.chain, ∃ r, row = finVec r := by
    intro row hrow
    rw [← r5] at hrow
    exact hfin' row (List.mem_of_mem_take hrow)
  obtain ⟨prev, c, c', p1, p2, p3, p4, _, p5, p6⟩ := C157_continues XR.lit_one_mul hre h'
  have hp : prev = out.results := by
    have p1 : out.obj.results = some prev := p1
    rw [hres] at p1; exact (Option.some.inj p1).symm
  subst hp
  have hd : out.obj.data = data := by rw [h5]; exact (setup_start h1).1.data
  obtain ⟨hl, k0, a1, a2, a3, a4, a5⟩ := history_pos .start (.inl rfl) rfl h p2 hfin
  obtain rfl := a2 rfl
  obtain ⟨-, k1, b1, b2, b3, b4, b5⟩ := history_pos hre (.inr hl) hd h' p3 hfin'
  have b3 : k1 = out.obj.chainIndex := b3 rfl
  have p5 : c.length = out.obj.chainIndex + 1 := p5
  have a1 : (c.length : ℤ) = ((0 : ℕ) : ℤ) + 5 := a1
  have b1 : (c'.length : ℤ) = k1 + 5 := b1
  refine ⟨out, out', c', h, h', by rw [hch]; exact hfin, hfin', p3, by omega, fun x hx j => ?_⟩
  obtain ⟨k, hk⟩ := List.mem_iff_getElem?.1 hx
  by_cases hk1 : k1 < k
  · exact b5 k hk1 x hk j
  · rw [p6 k (by omega)] at hk
    by_cases hk0 : 0 < k
    · exact a5 k hk0 x hk j
    · obtain rfl : k = 0 := by omega
      rw [a4] at hk
      cases hk
      rw [err_ok (run_settings h)]
      exact ⟨1, rfl, one_pos⟩

end XRun

/-- the hypotheses of `C22_history` and `C23_history` can be met by a run from scratch and by a
continued one (both theorems are used for this): nine sampled error variances, all positive -/
example : ∃ out out' c',
    runSimulation XRun.user XRun.rng exactLapack 1 (XRun.obj XRun.contArgs) () false = .ok out ∧
    runSimulation XRun.user XRun.rng exactLapack 1
      { out.obj with opts := defineSimulationOptions XRun.contArgs, extra := XRun.extra 1 1 } () true
      = .ok out' ∧ out'.results.s2chain = some c' ∧ c'.length = 9 ∧ ∀ x ∈ c', ∀ j, Pos (x j) := by
  obtain ⟨out, out', c', h, h', _, _, e⟩ := XRun.cont_pos
  exact ⟨out, out', c', h, h', e⟩

end Verif
