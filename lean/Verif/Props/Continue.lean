import Verif.Lemmas.Continue
import Verif.Lemmas.Sigma
import Verif.Spec.Toy

/-! # Adaptation schedule (C14), continued runs (C28, C32), settings across runs (C27) -/

set_option linter.unusedSectionVars false

namespace Verif
variable {F σ : Type} [PyFloat F] {N m : ℕ} {flags : Fin N → Bool}

/-! ### C14 -/

/-- **C14 (partial).** In a completed run with `adaptint = k > 0` the proposal is adapted exactly
at the iterations `k, 2k, 3k, ...` below `nsimu`; with `adaptint ≤ 0` it is never adapted and the
proposal factors stay the initial ones.
Missing from C14: nothing stops at `lastadapt`; see `C14_lastadapt_refuted`. -/
theorem C14_adaptation_schedule_partial {U : UserFuns F N (nS flags) m} {o : Obj F flags m}
    {G : Rng σ F} {L : Lapack F} {fuel : ℕ} {rng : σ} {up : Bool}
    {out : RunOut F σ flags m} (h : runSimulation U G L fuel o rng up = .ok out) :
    (0 < o.opts.adaptint → out.final.adaptedAt.Pairwise (· < ·) ∧
      ∀ j : ℕ, j ∈ out.final.adaptedAt ↔ 1 ≤ j ∧ (j : ℤ) < o.opts.nsimu ∧ o.opts.adaptint ∣ j) ∧
    (o.opts.adaptint ≤ 0 → out.final.adaptedAt = [] ∧ out.final.cov = out.init.cov) := by
  obtain ⟨o1, I, s0, h1, h2, h3, h4, h5⟩ := runSimulation_ok h
  have hst : StartSpec U o o1 rng I s0 ∧ 0 < I.opts.nsimu := by
    cases up with
    | false => exact ⟨(setup_fresh h1).1, (setup_fresh h1).2.1⟩
    | true => exact ⟨(setup_continue h1).1, (setup_continue h1).2.1⟩
  obtain ⟨hst, hpos⟩ := hst
  have hopt : o.opts.adaptint = I.opts.adaptint := by rw [hst.init.opts, ← hst.opts]; rfl
  have hopt' : o.opts.nsimu = I.opts.nsimu := by rw [hst.init.opts, ← hst.opts]; rfl
  obtain ⟨hn, s1, ⟨hP, hS⟩, hfin⟩ := executeSimulator_inv
    (P := fun i s => SchedInv (runOpts I.opts o1.extra).adaptint s0 i s ∧ SinceInv s0 i s)
    ⟨⟨fun _ => rfl, fun _ => by simp [loopStart], fun _ => by simp [loopStart]⟩,
      SinceInv.init hst.adaptedAt⟩
    (fun i a b p hi _ hP hp => ⟨hP.1.step hi hp, hP.2.step hp⟩) h2
  have e1 : out.final.adaptedAt = s1.adaptedAt := by rw [hfin]
  have e2 : out.final.cov = s1.cov := by rw [hfin]
  have hN : (runOpts I.opts o1.extra).nsimu = I.opts.nsimu.toNat := rfl
  have hA : (runOpts I.opts o1.extra).adaptint = I.opts.adaptint := rfl
  constructor
  · intro hk
    have := hP.at_ (by rw [hA]; omega)
    rw [hst.adaptedAt, List.nil_append] at this
    rw [e1, this]
    refine ⟨(List.pairwise_lt_range').filter _, fun j => ?_⟩
    rw [List.mem_filter, List.mem_range']
    dsimp only
    rw [hN, hA, decide_eq_true_eq, hopt, hopt', ← Int.dvd_iff_emod_eq_zero]
    constructor
    · rintro ⟨⟨i, hi, rfl⟩, hd⟩
      exact ⟨by omega, by omega, hd⟩
    · rintro ⟨hj1, hj2, hd⟩
      exact ⟨⟨j - 1, by omega, by omega⟩, hd⟩
  · intro hk
    have h6 := hP.never (by rw [hA]; omega)
    rw [hst.adaptedAt] at h6
    exact ⟨by rw [e1, h6], by rw [e2, hS.cov h6, hst.cov, h4]⟩

/-- With method `mh` or `dr` a run never adapts, whatever `adaptint` the user asks for. -/
theorem C14_mh_dr_never_adapt {U : UserFuns F N (nS flags) m} {o : Obj F flags m}
    (a : OptArgs F) (ha : a.method = .mh ∨ a.method = .dr) (ho : o.opts = defineSimulationOptions a)
    {G : Rng σ F} {L : Lapack F} {fuel : ℕ} {rng : σ} {up : Bool}
    {out : RunOut F σ flags m} (h : runSimulation U G L fuel o rng up = .ok out) :
    out.final.adaptedAt = [] ∧ out.final.cov = out.init.cov := by
  refine (C14_adaptation_schedule_partial h).2 ?_
  rw [ho]
  unfold defineSimulationOptions
  dsimp only
  cases a.adaptint with
  | none => rcases ha with ha | ha <;> simp [ha, methodDictionary]
  | some k => rcases ha with ha | ha <;> simp [ha, methodDictionary]

/-- the toy object with method `am`, `adaptint = 1` and `lastadapt = 2` -/
def Toy.amObj : Obj ℚ Toy.flags 1 :=
  newObj Toy.specs (defineSimulationOptions
    { method := .am, nsimu := 5, adaptint := some 1, lastadapt := 2 }) Toy.extra Toy.settings Toy.data

/-- **C14 is false for `lastadapt`.** There is a completed run with `lastadapt = 2` in which the
proposal is adapted at iterations 3 and 4. -/
theorem C14_lastadapt_refuted :
    ¬ ∀ (o : Obj ℚ Toy.flags 1) (out : RunOut ℚ ℕ Toy.flags 1),
      runSimulation Toy.user Toy.rng Toy.lapack 100 o 0 false = .ok out → 1 ≤ o.opts.lastadapt →
      ∀ j ∈ out.final.adaptedAt, (j : ℤ) ≤ o.opts.lastadapt := by
  intro hall
  obtain ⟨out, h, h1⟩ := exists_ok_and
    (x := runSimulation Toy.user Toy.rng Toy.lapack 100 Toy.amObj 0 false)
    (fun o => decide (o.final.adaptedAt = [1, 2, 3, 4])) (by decide +kernel)
  have h2 := of_decide_eq_true h1
  have := hall _ _ h (by decide) 4 (by rw [h2]; decide)
  revert this
  decide

/-- The same for every float type and every completed run: a multiple of `adaptint` beyond
`lastadapt` and below `nsimu` is an iteration in which the proposal is adapted. -/
theorem C14_lastadapt_refuted_general {U : UserFuns F N (nS flags) m} {o : Obj F flags m}
    {G : Rng σ F} {L : Lapack F} {fuel : ℕ} {rng : σ} {up : Bool}
    {out : RunOut F σ flags m} (h : runSimulation U G L fuel o rng up = .ok out)
    (hk : 0 < o.opts.adaptint) (j : ℕ) (hj : o.opts.lastadapt < j) (h1 : 1 ≤ j)
    (hn : (j : ℤ) < o.opts.nsimu) (hd : o.opts.adaptint ∣ j) :
    ∃ j ∈ out.final.adaptedAt, o.opts.lastadapt < (j : ℤ) :=
  ⟨j, (((C14_adaptation_schedule_partial h).1 hk).2 j).2 ⟨h1, hn, hd⟩, hj⟩

example : ∃ out, runSimulation Toy.user Toy.rng Toy.lapack 100 Toy.amObj 0 false = .ok out ∧
    0 < Toy.amObj.opts.adaptint ∧ out.final.adaptedAt = [1, 2, 3, 4] := by
  obtain ⟨out, h, h1⟩ := exists_ok_and
    (x := runSimulation Toy.user Toy.rng Toy.lapack 100 Toy.amObj 0 false)
    (fun o => decide (o.final.adaptedAt = [1, 2, 3, 4])) (by decide +kernel)
  exact ⟨out, h, by decide, of_decide_eq_true h1⟩

example : ∃ out, Toy.run .dr 5 = .ok out ∧ out.final.adaptedAt = [] := by
  obtain ⟨out, h⟩ := exists_ok (x := Toy.run .dr 5) (by decide +kernel)
  exact ⟨out, h, (C14_mh_dr_never_adapt _ (Or.inr rfl) rfl h).1⟩

/-! ### C28 -/

/-- **C28.** Whatever the history of an object whose sampled parameters have different names: a
continued run of `k` samples on a chain of `n` rows gives `n + k - 1` rows; the first `n` rows of
both chains are unchanged; there is a record of proposals, one non-empty list per iteration, such
that row `n - 1 + i + 1` is a move away from row `n - 1 + i`. -/
theorem C28_continuation {U : UserFuns F N (nS flags) m} {specs : Fin N → ParamSpec F}
    {opts : SimOpts F} {extra : ExtraOpts F (nS flags)} {ms : ModelSettings F} {data : Data}
    {o : Obj F flags m} (ho : Reachable U (newObj specs opts extra ms data) o)
    (hnames : (((List.finRange N).filter flags).map fun k => (specs k).name).Nodup)
    {G : Rng σ F} {L : Lapack F} {fuel : ℕ} {rng : σ} {out : RunOut F σ flags m}
    (h : runSimulation U G L fuel o rng true = .ok out) :
    ∃ res, o.results = some res ∧ 0 < res.chain.length ∧
      (out.results.chain.length : ℤ) = res.chain.length + o.opts.nsimu - 1 ∧
      out.results.sschain.length = out.results.chain.length ∧
      out.results.chain.take res.chain.length = res.chain ∧
      out.results.sschain.take res.chain.length = res.sschain ∧
      (out.final.trace.length : ℤ) + 1 = o.opts.nsimu ∧
      ∀ i ts, out.final.trace[i]? = some ts → ts ≠ [] ∧
        ∃ prev row, out.results.chain[res.chain.length - 1 + i]? = some prev ∧
          out.results.chain[res.chain.length - 1 + i + 1]? = some row ∧ Move prev row ts := by
  have hinv := reachable_objInv rfl ho
  have hres := reachable_resInv rfl hnames ho
  obtain ⟨o1, I, s0, h1, h2, h3, h4, h5⟩ := runSimulation_ok h
  obtain ⟨hst, hpos, hci, hch, hsc, _, _, _, ⟨res, hr, hrp⟩, ho1⟩ := setup_continue h1
  obtain ⟨_, hth, _, _, _, hc, hss, _⟩ := generateResults_ok h3
  obtain ⟨hcur, hcur'⟩ := continue_start hinv hres hnames h1
  obtain ⟨hn, s1, ⟨hP, hT⟩, hfin⟩ := executeSimulator_inv
    (P := fun i s => RowInv I.problem s0 i s ∧ TraceInv I.problem s0 i s)
    ⟨RowInv.init hcur hcur', ⟨[], by simp [loopStart], rfl, by simp⟩⟩
    (fun i a b p hi _ hP hp => ⟨hP.1.step hi hp, hP.2.step hp⟩) h2
  obtain ⟨r1, r2, r3, last, r4, r5⟩ := hres.res res hr
  have hsome : o.results.isSome := by rw [hr]; rfl
  have hl := hinv.len hsome
  have hl' := hinv.len' hsome
  have hN : (runOpts I.opts o1.extra).nsimu = I.opts.nsimu.toNat := rfl
  have hopt' : o.opts.nsimu = I.opts.nsimu := by rw [hst.init.opts, ← hst.opts]; rfl
  have hlen := hP.len
  have hlen' := hP.len'
  rw [hch] at hlen
  rw [hsc] at hlen'
  simp only [zeroRows, List.length_append, List.length_replicate] at hlen hlen'
  have htl := hP.tlen
  rw [hst.trace] at htl
  simp only [List.length_nil, Nat.zero_add, hN] at htl
  have e1 : out.final.trace = s1.trace := by rw [hfin]
  have e2 : out.results.chain = s1.chain := by rw [hc, hfin]
  have e3 : out.results.sschain = s1.sschain := by rw [hss, hfin]
  refine ⟨res, hr, by rw [r1]; omega, ?_, ?_, ?_, ?_, ?_, ?_⟩
  · rw [e2, r1, hlen, hopt']; omega
  · rw [e2, e3]; omega
  · rw [e2, r1]
    apply List.ext_getElem?
    intro r
    by_cases hrr : r < o.chains.chain.length
    · rw [List.getElem?_take_of_lt hrr, hP.pre r (by omega), hch, List.getElem?_append_left hrr]
    · rw [List.getElem?_eq_none (by simp; omega), List.getElem?_eq_none (by omega)]
  · rw [e3, r1, r2]
    apply List.ext_getElem?
    intro r
    by_cases hrr : r < o.chains.chain.length
    · rw [List.getElem?_take_of_lt hrr, hP.pre' r (by omega), hsc,
        List.getElem?_append_left (by omega)]
    · rw [List.getElem?_eq_none (by simp; omega), List.getElem?_eq_none (by omega)]
  · rw [e1, hopt']; omega
  · intro i ts hts
    rw [e1] at hts
    have hilt := (List.getElem?_eq_some_iff.1 hts).1
    obtain ⟨a, b, ts', ha, hb, hts', hrf⟩ := hP.row i (by dsimp only; rw [hN]; omega)
    rw [hst.trace] at hts'
    simp only [List.length_nil, Nat.zero_add] at hts'
    rw [hts] at hts'
    cases hts'
    obtain ⟨tr, ht1, _, ht3⟩ := hT.trace
    rw [hst.trace] at ht1
    rw [hci] at ha hb
    rw [e2, r1, show o.chains.chain.length - 1 = o.chainIndex by omega]
    refine ⟨(ht3 ts ?_).1, a, b, ha, hb, hrf⟩
    rw [ht1] at hts
    exact List.mem_of_getElem? hts

/-- a run of 5 samples continued with 4: 8 rows -/
example : ∃ a b, Toy.twice .dram 5 4 = .ok (a, b) ∧ a.results.chain.length = 5 ∧
    b.results.chain.length = 8 ∧ b.results.chain.take 5 = a.results.chain := by
  obtain ⟨⟨a, b⟩, h⟩ := exists_ok (x := Toy.twice .dram 5 4) (by decide +kernel)
  refine ⟨a, b, h, ?_⟩
  unfold Toy.twice at h
  rw [bind_ok] at h
  obtain ⟨a', h1, h⟩ := h
  rw [bind_ok] at h
  obtain ⟨b', h2, h⟩ := h
  cases h
  have hr : Reachable Toy.user (newObj Toy.specs { Toy.opts .dram 5 with updatesigma := true }
      Toy.extra Toy.settings Toy.data) { a.obj with
        opts := { Toy.opts .dram 4 with updatesigma := true }, extra := Toy.extra } :=
    .options { method := .dram, nsimu := 4, savesize := 2, updatesigma := true } Toy.extra
      (.run Toy.rng Toy.lapack 100 0 false a .start h1)
  have hl := (run_objInv (reachable_objInv rfl .start) h1).2
  obtain ⟨o1, I, s0, h3, h4, h5, h6, h7⟩ := runSimulation_ok h1
  obtain ⟨res, e1, e2, e3, e4, e5, e6, e7, e8⟩ := C28_continuation hr (by decide) h2
  have e1' : some a.results = some res := by rw [← e1]; exact hl.1.symm
  cases e1'
  have hlen : a.results.chain.length = 5 := by
    obtain ⟨hst, hpos, hci, hch, -⟩ := setup_fresh h3
    have hc := (generateResults_ok h5).2.2.2.2.2.1
    rw [hc, (run_good rfl hst h4).2.2.1, hch, hst.init.opts]
    have : o1.opts = _ := hst.opts
    rw [this]
    rfl
  rw [hlen] at e3 e5
  refine ⟨hlen, ?_, e5⟩
  have e : ({ Toy.opts .dram 4 with updatesigma := true } : SimOpts ℚ).nsimu = 4 := rfl
  rw [e] at e3
  omega

/-! ### C32 -/

/-- **C32 is false.** In a continued run of an object the logger still writes from the arrays of
the last run that was started from scratch: block by block, the rows written are rows
`0 .. nsimu-1` of *those* arrays, so no row of the continuation is ever written. -/
theorem C32_continued_log_refuted {U : UserFuns F N (nS flags) m} {o : Obj F flags m}
    {lc : Chains F (nS flags) m} (hlc : o.logChains = some lc)
    {G : Rng σ F} {L : Lapack F} {fuel : ℕ} {rng : σ} {out : RunOut F σ flags m}
    (h : runSimulation U G L fuel o rng true = .ok out) :
    out.final.logs.flatMap (fun b => b.chain) = lc.chain.take o.opts.nsimu.toNat ∧
    out.obj.logChains = some lc := by
  obtain ⟨o1, I, s0, h1, h2, h3, h4, h5⟩ := runSimulation_ok h
  obtain ⟨hst, hpos, hci, hch, hsc, _, _, hls, _, ho1⟩ := setup_continue h1
  rw [hlc] at hls
  dsimp only at hls
  have hopt : o.opts.nsimu = I.opts.nsimu := by rw [hst.init.opts, ← hst.opts]; rfl
  have hsz : 1 ≤ (runOpts I.opts o1.extra).savesize := by
    have : (runOpts I.opts o1.extra).savesize = I.opts.savesize.toNat := rfl
    rw [this, hst.init.opts]
    rw [hst.init.opts] at hpos
    unfold checkDependentSimulationOptions at hpos ⊢
    dsimp only at hpos ⊢
    split <;> omega
  obtain ⟨hn, s1, ⟨hP, hS⟩, hfin⟩ := executeSimulator_inv
    (P := fun i s => LogInv (runOpts I.opts o1.extra).savesize s0 i s ∧ s.logSource = s0.logSource)
    ⟨LogInv.init s0, rfl⟩
    (fun i a b p hi _ hP hp => ⟨hP.1.step hsz hi hp, hp.logSource.trans hP.2⟩) h2
  have hN : (runOpts I.opts o1.extra).nsimu = I.opts.nsimu.toNat := rfl
  rw [hls] at hS
  have hblock : ∀ a b, mkBlock s1 a b = ⟨a, b, pySlice lc.chain a b, pySlice lc.sschain a b,
      lc.s2chain.map fun c => pySlice c a b⟩ := by
    intro a b; unfold mkBlock; rw [hS]
  refine ⟨?_, ?_⟩
  · have hlogs := hP.logs
    rw [hst.logs, List.nil_append] at hlogs
    rw [hfin]
    dsimp only
    rw [hlogs, hopt, ← hN, List.flatMap_append, List.flatMap_map]
    simp only [hblock, List.flatMap_cons, List.flatMap_nil, List.append_nil]
    rw [flatMap_slices, hP.lastbin]
    dsimp only
    unfold pySlice
    rw [List.drop_zero]
    set k := ((runOpts I.opts o1.extra).nsimu - 1) / (runOpts I.opts o1.extra).savesize
      * (runOpts I.opts o1.extra).savesize with hk
    have hk' : k ≤ (runOpts I.opts o1.extra).nsimu - 1 := Nat.div_mul_le_self _ _
    have e : lc.chain.take k = (lc.chain.take (runOpts I.opts o1.extra).nsimu).take k := by
      rw [List.take_take, min_eq_left (by omega)]
    rw [e, List.take_append_drop]
  · rw [h5, ho1]; exact hlc

/-- the witness: 5 rows, continued to 8; the log of the continuation holds the first 4 old rows -/
example : (Toy.twice .dram 5 4).toOption.map (fun ab =>
    (ab.2.results.chain.map List.ofFn, ab.2.final.logs.flatMap fun b => b.chain.map List.ofFn)) =
    some ([[1, 2], [2, 0], [1, 1], [4, 0], [4, 0], [19/5, 1/5], [19/5, 1/5], [19/5, 1/5]],
      [[1, 2], [2, 0], [1, 1], [4, 0]]) := by decide +kernel

/-! ### C27 -/

/-- **C27 (partial).** If error-variance sampling is off and the object's settings hold no `N0`
(that is: in the first run of an object set up without `N0`), the error variance is never
sampled: there is no error-variance chain and the error variance stays the initial one.
Missing: the second and later runs, see `C27_later_runs_refuted`. -/
theorem C27_no_sampling_first_run_partial {U : UserFuns F N (nS flags) m} {specs : Fin N → ParamSpec F}
    {opts : SimOpts F} {extra : ExtraOpts F (nS flags)} {sigma2 Nobs S20 : Option (List F)}
    {nbatch : Option ℕ} {data : Data} (hu : opts.updatesigma = false)
    {G : Rng σ F} {L : Lapack F} {fuel : ℕ} {rng : σ} {up : Bool} {out : RunOut F σ flags m}
    (h : runSimulation U G L fuel (newObj specs opts extra
      (defineModelSettings sigma2 Nobs none nbatch S20) data) rng up = .ok out) :
    out.results.s2chain = none ∧ out.final.errModel = out.init.errModel :=
  have := (run_updatesigma h).1 rfl hu
  ⟨this.2, this.1⟩

/-- **C27 is false for later runs**: once an object has been run, every later completed run
samples the error variance, whatever the user asked for. -/
theorem C27_later_runs_refuted {U : UserFuns F N (nS flags) m} {o : Obj F flags m}
    {G : Rng σ F} {L : Lapack F} {fuel : ℕ} {rng : σ} {up : Bool} {out : RunOut F σ flags m}
    (h : runSimulation U G L fuel o rng up = .ok out) (a : OptArgs F) (e : ExtraOpts F (nS flags))
    {G' : Rng σ F} {L' : Lapack F} {fuel' : ℕ} {rng' : σ} {up' : Bool} {out' : RunOut F σ flags m}
    (h' : runSimulation U G' L' fuel' { out.obj with opts := defineSimulationOptions a, extra := e }
      rng' up' = .ok out') : out'.results.s2chain.isSome :=
  (run_updatesigma h').2.1 (Or.inl (run_updatesigma h).2.2)

/-- the witness: `updatesigma=False` and no `N0`; the first run samples no error variance, the
second does -/
def Toy.again : Except PyErr (RunOut ℚ ℕ Toy.flags 1 × RunOut ℚ ℕ Toy.flags 1) := do
  let a ← Toy.run .mh 3
  let b ← runSimulation Toy.user Toy.rng Toy.lapack 100 { a.obj with opts := Toy.opts .mh 3 } 3 false
  .ok (a, b)

example : (Toy.opts .mh 3).updatesigma = false ∧ Toy.settings.N0 = none ∧
    Toy.again.toOption.map (fun ab => (ab.1.results.s2chain.isSome, ab.2.results.s2chain.isSome)) =
      some (false, true) := by decide +kernel

/-- **C27 is false for the data description**: with two data sets of five points and one
sum-of-squares value the first run completes and the second is refused, because the first one has
replaced the observation counts `[5, 5]` by their sum. -/
theorem C27_data_description_refuted :
    ∃ o : Obj ℚ Toy.flags 1, o.results = none ∧ o.data.n = [5, 5] ∧ o.ms.N = none ∧
    ∃ out, runSimulation Toy.user Toy.rng Toy.lapack 100 o 0 false = .ok out ∧
      ∀ rng, runSimulation Toy.user Toy.rng Toy.lapack 100 out.obj rng false =
        .error (.sysExit msgN) := by
  refine ⟨newObj Toy.specs (Toy.opts .mh 3) Toy.extra Toy.settings
    (addDataSet Toy.data (.array [5]) (.array [5])), rfl, rfl, rfl, ?_⟩
  obtain ⟨out, h, h1⟩ := exists_ok_and
    (x := runSimulation Toy.user Toy.rng Toy.lapack 100 (newObj Toy.specs (Toy.opts .mh 3) Toy.extra
      Toy.settings (addDataSet Toy.data (.array [5]) (.array [5]))) 0 false)
    (fun o => decide (o.obj.ms.N = some [10]) && decide (o.obj.data.n = [5, 5]) &&
      o.obj.extra.jsonRestart.isNone) (by decide +kernel)
  simp only [Bool.and_eq_true, decide_eq_true_eq, Option.isNone_iff_eq_none] at h1
  refine ⟨out, h, fun rng => ?_⟩
  have e : (checkNumberOfObservations [10] (List.map (fun k : ℕ => (ofInt (k : ℤ) : ℚ)) [5, 5])) =
      .error (.sysExit msgN) := by decide +kernel
  have hms : checkDependentModelSettings out.obj.ms out.obj.data.n out.obj.data.nbatch =
      .error (.sysExit msgN) := by
    unfold checkDependentModelSettings
    rw [h1.1.1, h1.1.2]
    have e' : List.map (fun k : ℕ => (ofInt (k : ℤ) : ℚ)) [5, 5] = [5, 5] := by decide +kernel
    rw [e'] at e
    dsimp only [Option.elim]
    first
      | rw [e]; rfl
      | (erw [e]; rfl)
  have hI : initializeSimulation Toy.user Toy.lapack out.obj rng = .error (.sysExit msgN) := by
    unfold initializeSimulation
    rw [hms]; rfl
  have hl : loadRestart out.obj = .ok out.obj := by unfold loadRestart; rw [h1.2]
  unfold runSimulation setupSimulator
  rw [if_neg (by simp), hl]
  change Except.bind (Except.bind (initializeSimulation Toy.user Toy.lapack out.obj rng) _) _ = _
  rw [hI]; rfl

end Verif
