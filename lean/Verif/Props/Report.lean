import Verif.Model.Report
import Verif.Lemmas.AdaptRun
import Verif.Lemmas.Continue
import Verif.Lemmas.XR
import Verif.Props.Run
import Verif.Props.Restart
import Verif.Props.Burnin
import Verif.Spec.Toy
import Verif.Spec.XToy
import Mathlib.Data.Finset.Card
import Mathlib.Data.Finset.Dedup
import Mathlib.Tactic.NormNum
import Mathlib.Tactic.Linarith
import Mathlib.Tactic.FieldSimp

/-! # C74, C75: what the results report -/

set_option linter.unusedSectionVars false

namespace Verif
section general
variable {F σ : Type} [PyFloat F] {N m : ℕ} {flags : Fin N → Bool}

/-- the covariance object at the end of a loop is the one after the last adaptation -/
theorem final_cov {E : Env F σ N (nS flags) m} {s s' : SimState F σ N (nS flags) m}
    (hl : s.adaptLog = []) (h : executeSimulator E s = .ok s') :
    s'.cov = (s'.adaptLog.getLast?.map fun r => r.after).getD s.cov := by
  obtain ⟨_, s1, hP, rfl⟩ := executeSimulator_inv
    (P := fun _ t => t.cov = (t.adaptLog.getLast?.map fun r => r.after).getD s.cov)
    (by simp [loopStart, hl])
    (fun i a b p _ _ hP hp => by
      have hc := hp.cov
      rw [hp.adaptLog]
      split
      · simp
      · rename_i ha
        rw [if_neg ha] at hc
        rw [hc, List.append_nil, ← hP]) h
  exact hP

theorem ixAssign_block {n k : ℕ} {M : Mat F k} {p : Fin n → ℕ} (hp : Function.Injective p)
    {q : Mat F n} {a b : Fin k} {i j : Fin n} (hi : p i = a.val) (hj : p j = b.val) :
    ixAssign M p q a b = q i j := by
  have key : ∀ (i : Fin n) (a : Fin k), p i = a.val →
      (List.finRange n).find? (fun i => p i == a.val) = some i := by
    intro i a hi
    cases hf : (List.finRange n).find? (fun i => p i == a.val) with
    | none =>
      have := List.find?_eq_none.1 hf i (List.mem_finRange i)
      simp [hi] at this
    | some i' =>
      have := List.find?_some hf
      simp only [beq_iff_eq] at this
      rw [hp (this.trans hi.symm)]
  unfold ixAssign
  rw [key i a hi, key j b hj]

theorem ixAssign_other {n k : ℕ} {M : Mat F k} {p : Fin n → ℕ} {q : Mat F n} {a b : Fin k}
    (h : (∀ i, p i ≠ a.val) ∨ ∀ j, p j ≠ b.val) : ixAssign M p q a b = M a b := by
  have key : ∀ (a : Fin k), (∀ i, p i ≠ a.val) →
      (List.finRange n).find? (fun i => p i == a.val) = none := by
    intro a ha
    rw [List.find?_eq_none]
    intro i _
    simpa using ha i
  unfold ixAssign
  rcases h with h | h
  · rw [key a h]
  · rw [key b h]
    split <;> simp_all

theorem run_after {U : UserFuns F N (nS flags) m} {specs : Fin N → ParamSpec F}
    {opts : SimOpts F} {extra : ExtraOpts F (nS flags)} {ms : ModelSettings F} {data : Data}
    {o : Obj F flags m} (ho : Reachable U (newObj specs opts extra ms data) o)
    {G : Rng σ F} {L : Lapack F} {fuel : ℕ} {rng : σ} {up : Bool} {out : RunOut F σ flags m}
    (h : runSimulation U G L fuel o rng up = .ok out) :
    SameSpecs flags specs out.obj.specs ∧ (out.results.nsimu : ℤ) = o.opts.nsimu := by
  have hinv := reachable_objInv rfl ho
  refine ⟨(run_objInv hinv h).1.same, ?_⟩
  obtain ⟨o1, I, s0, h1, h2, h3, h4, h5⟩ := runSimulation_ok h
  obtain ⟨_, _, _, _, hns, _⟩ := generateResults_ok h3
  have hst := (setup_start h1).1
  have hopt : o.opts.nsimu = I.opts.nsimu := by rw [hst.init.opts, ← hst.opts]; rfl
  have hpos : 0 < I.opts.nsimu := by
    cases up with
    | false => exact (setup_fresh h1).2.1
    | true => exact (setup_continue h1).2.1
  rw [hns, hopt]
  omega

/-- **C74.** Whatever the history of an object, the results of a run report: the names and limits of
the sampled parameters and all names as the user gave them; the last row of the chain, completed with
the user's values of the parameters that are not sampled; the proposal factor, the mean and the
covariance of the chain that the last adaptation gave (the initial ones without adaptation), with
`qcov` the product of the transposed factor and the factor; and the numbers of rejected moves divided
by `nsimu`. -/
theorem C74_results_report {U : UserFuns F N (nS flags) m} {specs : Fin N → ParamSpec F}
    {opts : SimOpts F} {extra : ExtraOpts F (nS flags)} {ms : ModelSettings F} {data : Data}
    {o : Obj F flags m} (ho : Reachable U (newObj specs opts extra ms data) o)
    {G : Rng σ F} {L : Lapack F} {fuel : ℕ} {rng : σ} {up : Bool} {out : RunOut F σ flags m}
    (h : runSimulation U G L fuel o rng up = .ok out) :
    out.results.names = ((List.finRange N).filter flags).map (fun k => (specs k).name) ∧
    (reportOf out).parind = ((List.finRange N).filter flags).map (fun k => k.val) ∧
    (reportOf out).allnames = (List.finRange N).map (fun k => (specs k).name) ∧
    List.ofFn (reportOf out).lower = ((List.finRange N).filter flags).map (fun k => (specs k).minimum) ∧
    List.ofFn (reportOf out).upper = ((List.finRange N).filter flags).map (fun k => (specs k).maximum) ∧
    (∃ last, out.results.chain.getLast? = some last ∧ BelongsTo flags specs last out.results.theta) ∧
    (∃ c, c = (out.final.adaptLog.getLast?.map fun r => r.after).getD out.init.cov ∧
      out.results.R = c.R ∧ out.results.mean = c.meanchain ∧ out.results.cov = c.covchain ∧
      ∀ i j, out.results.qcov i j = vsum fun k => c.R k i * c.R k j) ∧
    (out.results.nsimu : ℤ) = o.opts.nsimu ∧
    (reportOf out).totalRejected =
      ofInt (out.final.trace.countP Rejection) * (lit 1 / ofInt o.opts.nsimu) ∧
    (reportOf out).rejectedOutside =
      ofInt out.results.rejected.outside * (lit 1 / ofInt o.opts.nsimu) := by
  have hinv := reachable_objInv rfl ho
  obtain ⟨hsame, hnsimu⟩ := run_after ho h
  obtain ⟨hinv', hres', hch', _⟩ := run_objInv hinv h
  have hrej := (C04_rejection_counts h).2.1
  obtain ⟨o1, I, s0, h1, h2, h3, h4, h5⟩ := runSimulation_ok h
  obtain ⟨_, hth, hnm, hrj, hns, hc, _, _, hR, hq, hcov, hmean⟩ := generateResults_ok h3
  have hst := (setup_start h1).1
  have hspecs : out.obj.specs = o1.specs := by rw [h5]
  have hfin := final_cov hst.adaptLog h2
  rw [hst.cov, ← h4] at hfin
  have hlim : ∀ f : Fin N → F, List.ofFn (atParind flags f) = ((List.finRange N).filter flags).map f := by
    intro f
    have e : List.ofFn (atParind flags f) = (List.ofFn (sampledIdx flags).get).map f := by
      rw [List.map_ofFn]; rfl
    rw [e, List.ofFn_get]; rfl
  refine ⟨?_, rfl, ?_, ?_, ?_, ?_, ⟨_, rfl, ?_, ?_, ?_, ?_⟩, hnsimu, ?_, ?_⟩
  · rw [hnm]
    exact List.map_congr_left fun k _ => by rw [← hspecs, hsame.name]
  · exact List.map_congr_left fun k _ => hsame.name k
  · rw [← hlim]; simp only [reportOf, hsame.minimum]
  · rw [← hlim]; simp only [reportOf, hsame.maximum]
  · obtain ⟨hn, s1, hP, hs1⟩ := executeSimulator_inv
      (P := fun i s => 1 < i → s.chain[s.chainIndex]? = some s.oldSet.theta)
      (fun h => absurd h (by omega))
      (fun i a b p _ _ _ hp _ => by
        rw [hp.chain, hp.idx, List.getElem?_set_self hp.lt, hp.old]) h2
    have hlast := hP hn
    have hl := hinv'.len (by rw [hres']; rfl)
    have hci : out.obj.chainIndex = s1.chainIndex := by rw [h5, hs1]
    refine ⟨s1.oldSet.theta, ?_, ?_⟩
    · rw [List.getLast?_eq_getElem?, ← hch', hl, hci, hch', hc, hs1]
      exact hlast
    · rw [hth, hs1]
      have := belongsTo_of (flags := flags) (specs := specs) (row := s1.oldSet.theta)
        (v := writeAt (parindOf flags) s1.oldSet.theta fun k => (o1.specs k).theta0)
        (fun i => writeAt_sampled (parindOf_injective flags) i)
        (fun k hk => by rw [writeAt_fixed (not_parindOf hk), ← hspecs, hsame.fixed k hk])
      exact this
  · rw [hR, hfin]
  · rw [hmean, hfin]
  · rw [hcov, hfin]
  · intro i j
    rw [hq, ← hfin]
    rfl
  · rw [← hnsimu, ← hrej]; rfl
  · rw [← hnsimu]; rfl

/-- **C74**, the full covariance: in `qcovorig` the block of the sampled parameters is the covariance
`qcov` of the proposal at the end of the run, all other entries are those of the covariance with which
the run was set up (here given by the user as a matrix). -/
theorem C74_qcovorig {U : UserFuns F N (nS flags) m} {o : Obj F flags m}
    {G : Rng σ F} {L : Lapack F} {fuel : ℕ} {rng : σ} {up : Bool} {out : RunOut F σ flags m}
    (h : runSimulation U G L fuel o rng up = .ok out) :
    (∀ a b i j, (((List.finRange N).filter flags).map (fun k => k.val))[i]? = some a →
      (((List.finRange N).filter flags).map (fun k => k.val))[j]? = some b →
      ∃ (hi : i < nS flags) (hj : j < nS flags) (ha : a < (reportOf out).size) (hb : b < (reportOf out).size),
        (reportOf out).qcovorig ⟨a, ha⟩ ⟨b, hb⟩ = out.results.qcov ⟨i, hi⟩ ⟨j, hj⟩) ∧
    (∀ k M, out.obj.extra.qcov = some (.matrix k M) → ∃ hk : (reportOf out).size = k,
      ∀ a b, (∀ k : Fin N, flags k = true → k.val ≠ a.val) ∨ (∀ k : Fin N, flags k = true → k.val ≠ b.val) →
        (reportOf out).qcovorig a b = M (Fin.cast hk a) (Fin.cast hk b)) ∧
    (∀ k v, out.obj.extra.qcov = some (.variances k v) → ∃ hk : (reportOf out).size = k,
      ∀ a b, (∀ k : Fin N, flags k = true → k.val ≠ a.val) ∨ (∀ k : Fin N, flags k = true → k.val ≠ b.val) →
        (reportOf out).qcovorig a b = if a = b then v (Fin.cast hk a) else lit 0) := by
  obtain ⟨o1, I, s0, h1, h2, h3, h4, h5⟩ := runSimulation_ok h
  have hinit := setupSimulator_init h1
  have hidx : ∀ i, (parindOf flags i).val < (reportOf out).size := by
    obtain ⟨_, ⟨R, hR, _⟩, _⟩ := initCovState_ok (initializeSimulation_cov hinit)
    have e1 : (reportOf out).size = (qcovorigOf (setupCovarianceMatrix o1.extra.qcov
      (fun k => setupPriorSigma (o1.specs k).priorSigma) fun k => (o1.specs k).theta0)).1 := by
      unfold reportOf; rw [h5]
    rw [e1]
    generalize setupCovarianceMatrix o1.extra.qcov
      (fun k => setupPriorSigma (o1.specs k).priorSigma) (fun k => (o1.specs k).theta0) = q at hR
    cases q with
    | variances k v =>
      obtain ⟨qc, hR, _⟩ := bind_ok.1 hR
      unfold ixRestrict at hR
      split at hR
      · rename_i hk; exact hk
      · cases hR
    | matrix k M =>
      obtain ⟨qc, hR, _⟩ := bind_ok.1 hR
      unfold ixRestrict at hR
      split at hR
      · rename_i hk; exact hk
      · cases hR
  have hinj : Function.Injective fun i => (parindOf flags i).val := fun i j hij =>
    parindOf_injective flags (Fin.ext hij)
  have hout : ∀ a : ℕ, (∀ k : Fin N, flags k = true → k.val ≠ a) → ∀ i, (parindOf flags i).val ≠ a :=
    fun a ha i => ha _ (flags_parindOf i)
  refine ⟨fun a b i j ha hb => ?_, fun k M hq => ?_, fun k v hq => ?_⟩
  · have hlen : ((List.finRange N).filter flags).length = nS flags := rfl
    obtain ⟨hi, rfl⟩ := List.getElem?_eq_some_iff.1 ha
    obtain ⟨hj, rfl⟩ := List.getElem?_eq_some_iff.1 hb
    rw [List.length_map, hlen] at hi hj
    have ei : (parindOf flags ⟨i, hi⟩).val = (((List.finRange N).filter flags).map fun k => k.val)[i] := by
      rw [List.getElem_map]; rfl
    have ej : (parindOf flags ⟨j, hj⟩).val = (((List.finRange N).filter flags).map fun k => k.val)[j] := by
      rw [List.getElem_map]; rfl
    refine ⟨hi, hj, by rw [← ei]; exact hidx _, by rw [← ej]; exact hidx _, ?_⟩
    exact ixAssign_block hinj ei ej
  · have e : reportOf out = { reportOf out with
        size := k, qcovorig := ixAssign M (fun i => (parindOf flags i).val) out.results.qcov } := by
      unfold reportOf
      rw [hq]
      rfl
    rw [e]
    refine ⟨rfl, fun a b hab => ?_⟩
    exact ixAssign_other (hab.imp (hout _) (hout _))
  · have e : reportOf out = { reportOf out with
        size := k, qcovorig := ixAssign (diagflat v) (fun i => (parindOf flags i).val) out.results.qcov } := by
      unfold reportOf
      rw [hq]
      rfl
    rw [e]
    refine ⟨rfl, fun a b hab => ?_⟩
    exact ixAssign_other (hab.imp (hout _) (hout _))

/-- **C74**, continuing with another object: if `qcovorig` is given as initial covariance, a run of any
object with the same sampled parameters starts with the covariance `qcov` at which the earlier run
ended, whichever parameters are sampled (compare `C33_subset_refuted`). -/
theorem C74_restart_with_qcovorig {U U2 : UserFuns F N (nS flags) m} {o o2 : Obj F flags m}
    {G G2 : Rng σ F} {L L2 : Lapack F} {fuel fuel2 : ℕ} {rng rng2 : σ} {up : Bool}
    {out out2 : RunOut F σ flags m} (h : runSimulation U G L fuel o rng up = .ok out)
    (hq : o2.extra.qcov = some (.matrix (reportOf out).size (reportOf out).qcovorig))
    (hj : o2.extra.jsonRestart = none)
    (h2 : runSimulation U2 G2 L2 fuel2 o2 rng2 false = .ok out2) :
    out2.init.cov.qcov = out.results.qcov := by
  obtain ⟨o1, I, s0, h1, _, _, h4, _⟩ := runSimulation_ok h2
  obtain ⟨_, _, _, _, _, _, _, hjs, hin, _⟩ := setup_fresh h1
  obtain rfl := hjs hj
  obtain ⟨_, ⟨R, hR, _⟩, _⟩ := initCovState_ok (initializeSimulation_cov hin)
  rw [hq] at hR
  rw [h4]
  obtain ⟨hblock, _⟩ := C74_qcovorig h
  have hqc : ixRestrict (reportOf out).qcovorig (parindOf flags) = .ok I.cov.qcov := by
    unfold setupCovarianceMatrix setupRMatrix at hR
    dsimp only at hR
    obtain ⟨qc, h5, h6⟩ := bind_ok.1 hR
    rw [h5]
    congr 1
    split at h6
    · cases h6; rfl
    · split at h6
      · cases h6; rfl
      · split at h6
        · cases h6; rfl
        · cases h6
  unfold ixRestrict at hqc
  split at hqc
  · rename_i hk
    rw [← Except.ok.inj hqc]
    funext i j
    have e : ∀ i, (((List.finRange N).filter flags).map fun k => k.val)[i.val]? =
        some (parindOf flags i).val := by
      intro i
      change ((sampledIdx flags).map fun k => k.val)[i.val]? = _
      rw [List.getElem?_map, List.getElem?_eq_getElem i.isLt]
      rfl
    obtain ⟨_, _, _, _, e'⟩ := hblock _ _ i.val j.val (e i) (e j)
    exact e'
  · cases hqc

/-! ### Examples for C74 -/

/-- a history of two runs, the second continued, satisfies the hypotheses: 4 moves asked for in the
second run, 2 of 3 moves rejected -/
example : ∃ a b, Toy.twice .dram 5 4 = .ok (a, b) ∧
    (reportOf b).totalRejected = 2 / 4 ∧ (reportOf b).allnames = ["a", "b", "c"] ∧
    (reportOf b).parind = [0, 2] ∧ b.results.names = ["a", "c"] := by
  obtain ⟨⟨a, b⟩, h, h1⟩ := exists_ok_and (x := Toy.twice .dram 5 4)
    (fun o => decide ((reportOf o.2).totalRejected = 2 / 4 ∧ (reportOf o.2).allnames = ["a", "b", "c"] ∧
    (reportOf o.2).parind = [0, 2] ∧ o.2.results.names = ["a", "c"])) (by decide +kernel)
  exact ⟨a, b, h, of_decide_eq_true h1⟩

/-- an adaptive run of `Spec/Toy` -/
def Toy.adaptive : Except PyErr (RunOut ℚ ℕ Toy.flags 1) :=
  runSimulation Toy.user Toy.rng Toy.lapack 100 (newObj Toy.specs (defineSimulationOptions
    { method := .am, nsimu := 8, adaptint := some 3, burnintime := 5 }) Toy.extra Toy.settings
    Toy.data) 0 false

/-- the second of three parameters is not sampled: `qcovorig` is 3 by 3, its corners are `qcov`, the
entry in the centre is the user's; given to another object as initial covariance the run succeeds -/
example : ∃ out, Toy.adaptive = .ok out ∧ (reportOf out).size = 3 ∧
    List.ofFn (fun i => List.ofFn ((reportOf out).qcovorig i)) =
      [[164/625, 0, -2/5], [0, 1, 0], [-2/5, 0, 389/625]] ∧
    ∃ out2, runSimulation Toy.user Toy.rng Toy.lapack 100
      { Toy.obj .dram 5 with extra :=
        { Toy.extra with qcov := some (.matrix (reportOf out).size (reportOf out).qcovorig) } } 0 false
      = .ok out2 := by
  obtain ⟨out, h, h1⟩ := exists_ok_and (x := Toy.adaptive)
    (fun out => decide ((reportOf out).size = 3 ∧
      List.ofFn (fun i => List.ofFn ((reportOf out).qcovorig i)) =
        [[164/625, 0, -2/5], [0, 1, 0], [-2/5, 0, 389/625]] ∧
      (runSimulation Toy.user Toy.rng Toy.lapack 100
      { Toy.obj .dram 5 with extra :=
        { Toy.extra with qcov := some (.matrix (reportOf out).size (reportOf out).qcovorig) } } 0 false).toOption.isSome
        = true)) (by decide +kernel)
  obtain ⟨a, b, c⟩ := of_decide_eq_true h1
  exact ⟨out, h, a, b, exists_ok c⟩

end general

/-! ### C74 in exact arithmetic -/

section exact
open XR
variable {σ : Type} {N m : ℕ} {flags : Fin N → Bool}

/-- **C74 in exact arithmetic.** The reported rates are the number of rejected moves and the number
of moves counted as rejected outside, divided by `nsimu`, and `0 ≤ outside ≤ total < 1`. -/
theorem C74_rates {U : UserFuns XR N (nS flags) m} {o : Obj XR flags m}
    {G : Rng σ XR} {L : Lapack XR} {fuel : ℕ} {rng : σ} {up : Bool} {out : RunOut XR σ flags m}
    (h : runSimulation U G L fuel o rng up = .ok out) :
    ∃ t u : ℝ, (reportOf out).totalRejected = .fin t ∧ (reportOf out).rejectedOutside = .fin u ∧
      t = (out.final.trace.countP Rejection : ℝ) / (o.opts.nsimu : ℝ) ∧
      0 ≤ u ∧ u ≤ t ∧ t < 1 := by
  obtain ⟨h1, h2, h3, h4, h5, _⟩ := C04_rejection_counts h
  have hns : (out.results.nsimu : ℤ) = o.opts.nsimu := by
    obtain ⟨o1, I, s0, h1, _, h3, _⟩ := runSimulation_ok h
    obtain ⟨_, _, _, _, hns, _⟩ := generateResults_ok h3
    have hst := (setup_start h1).1
    have hopt : o.opts.nsimu = I.opts.nsimu := by rw [hst.init.opts, ← hst.opts]; rfl
    have hpos : 0 < I.opts.nsimu := by
      cases up with
      | false => exact (setup_fresh h1).2.1
      | true => exact (setup_continue h1).2.1
    rw [hns, hopt]; omega
  have hn0 : (0 : ℝ) < (o.opts.nsimu : ℝ) := by
    have : 0 < o.opts.nsimu := by omega
    exact_mod_cast this
  have hrate : ∀ c : ℕ, (ofInt (c : ℤ) * (lit 1 / ofInt (out.results.nsimu : ℤ)) : XR) =
      .fin ((c : ℝ) / (o.opts.nsimu : ℝ)) := by
    intro c
    rw [hns, ofInt_fin, ofInt_fin, lit_eq, fin_div hn0.ne', fin_mul]
    congr 1
    push_cast
    ring
  refine ⟨_, _, hrate _, hrate _, by rw [h2], by positivity, ?_, ?_⟩
  · exact div_le_div_of_nonneg_right (by exact_mod_cast h5) hn0.le
  · rw [div_lt_one hn0]
    have : (out.results.rejected.total : ℤ) < o.opts.nsimu := by
      have := h3
      push_cast at this
      omega
    exact_mod_cast this

/-- a run that satisfies the hypothesis -/
example (L : Lapack XR) : ∃ out,
    runSimulation XRun.user XRun.rng L 0 (XRun.obj XRun.args true 1 1) () false = .ok out :=
  XRun.run_ok' L XRun.args (by decide) rfl ⟨by decide, by decide⟩ rfl rfl true 1 1

end exact

/-- The rate reported as `total_rejected` is not the fraction of the moves that were rejected: there
are `nsimu - 1` moves, but the number of rejected ones is divided by `nsimu`.  In this run 1 of 4 moves
is rejected and the rate is 1/5. -/
theorem C74_fraction_refuted : ∃ out : RunOut ℚ ℕ Toy.flags 1, Toy.run .dram 5 = .ok out ∧
    out.final.trace.countP Rejection = 1 ∧ out.final.trace.length = 4 ∧
    (reportOf out).totalRejected = 1 / 5 := by
  obtain ⟨out, h, h1⟩ := exists_ok_and (x := Toy.run .dram 5)
    (fun out => decide (out.final.trace.countP Rejection = 1 ∧ out.final.trace.length = 4 ∧
      (reportOf out).totalRejected = 1 / 5)) (by decide +kernel)
  exact ⟨out, h, of_decide_eq_true h1⟩

/-! ### C75: acceptance information -/

section acceptance

theorem changes_sorted {K : Type} [LinearOrder K] : ∀ {l : List K}, l.Pairwise (· ≤ ·) → l ≠ [] →
    1 + changes l = l.toFinset.card
  | [], _, h => absurd rfl h
  | [a], _, _ => by simp [changes]
  | a :: b :: l, hs, _ => by
    obtain ⟨h1, h2⟩ := List.pairwise_cons.1 hs
    have ih := changes_sorted h2 (by simp)
    unfold changes
    by_cases hab : b = a
    · subst hab
      rw [if_pos rfl, List.toFinset_cons, Finset.insert_eq_of_mem (by simp), ← ih]
      omega
    · rw [if_neg hab, List.toFinset_cons, Finset.card_insert_of_notMem, ← ih]
      · omega
      · intro hm
        rw [List.mem_toFinset] at hm
        have hba : b ≤ a := by
          rcases List.mem_cons.1 hm with rfl | hm
          · exact le_rfl
          · exact (List.pairwise_cons.1 h2).1 a hm
        exact hab (le_antisymm hba (h1 b (by simp)))

/-- **C75**, distinct values: `np.unique(x).size` is the number of different values. -/
theorem C75_unique {K : Type} [LinearOrder K] (l : List K) : uniqueSize l = l.toFinset.card := by
  unfold uniqueSize
  by_cases h : l = []
  · simp [h]
  · rw [if_neg h]
    have hp : (l.insertionSort (· ≤ ·)).Perm l := List.perm_insertionSort _ _
    rw [changes_sorted (List.pairwise_insertionSort _ _), List.toFinset_eq_of_perm _ _ hp]
    · intro h0
      rw [h0] at hp
      exact h hp.nil_eq.symm

example : uniqueSize ([3, 1, 3, 2, 1] : List ℚ) = 3 := by decide +kernel

variable {F σ : Type} [PyFloat F] {N m : ℕ} {flags : Fin N → Bool} {K : Type} [LinearOrder K]

/-- the number of different values along a chain is at most one more than the number of steps
that are not repetitions -/
theorem card_moves {α : Type} [DecidableEq α] : ∀ (l : List α) (moved : List Bool) (a : α),
    l.length = moved.length →
    (∀ i, moved[i]? = some false → (a :: l)[i + 1]? = (a :: l)[i]?) →
    (a :: l).toFinset.card ≤ moved.count true + 1
  | [], [], a, _, _ => by simp
  | [], _ :: _, _, h, _ => by simp at h
  | _ :: _, [], _, h, _ => by simp at h
  | b :: l, c :: moved, a, hl, h => by
    have ih := card_moves l moved b (by simpa using hl) (fun i hi => by
      have := h (i + 1) (by simpa using hi)
      simpa using this)
    cases c with
    | true =>
      rw [List.toFinset_cons]
      refine (Finset.card_insert_le _ _).trans ?_
      rw [List.count_cons_self]
      omega
    | false =>
      have := h 0 (by simp)
      simp only [Nat.zero_add, List.getElem?_cons_succ, List.getElem?_cons_zero, Option.some.injEq] at this
      subst this
      rw [List.toFinset_cons, Finset.insert_eq_of_mem (by simp), List.count_cons_of_ne (by simp)]
      exact ih

/-- **C75.** For the results of a run from scratch with more than one try, and a chain without NaN
(`f` embeds an ordered set of values in the floats), the printed acceptance information is complete:
one percentage per stage; they sum up to the net percentage, which lies between 0 and 100; the net
count is one more than the number of accepted moves, out of `nsimu`; and the count for the chain
is the number of different values of the first parameter, out of `nsimu` rows, at least one and at
most the net count of the results. -/
theorem C75_acceptance_info {U : UserFuns F N (nS flags) m} {o : Obj F flags m}
    (hj : o.extra.jsonRestart = none) {G : Rng σ F} {L : Lapack F} {fuel : ℕ} {rng : σ}
    {out : RunOut F σ flags m} (h : runSimulation U G L fuel o rng false = .ok out)
    (hntry : 1 < o.opts.ntry) (hpos : 0 < nS flags) {f : K → F} (hf : Function.Injective f)
    {rows : List (Fin (nS flags) → K)} (hrows : out.results.chain = rows.map fun r i => f (r i)) :
    ∃ iacce cnt stages percent net info, out.results.dram = some (iacce, cnt) ∧
      acceptanceInfo rows (some (some (.array iacce), some out.results.nsimu)) = .ok info ∧
      info.stages = some (stages, percent, net, out.results.nsimu) ∧
      (stages.length : ℤ) = o.opts.ntry ∧ stages.sum = percent ∧ 0 < percent ∧ percent ≤ 100 ∧
      (out.results.nsimu : ℤ) = o.opts.nsimu ∧
      net = out.final.trace.countP (fun ts => !Rejection ts) + 1 ∧
      percent = net / o.opts.nsimu * 100 ∧
      (info.rows : ℤ) = o.opts.nsimu ∧
      info.unique = (rows.map fun r => r ⟨0, hpos⟩).toFinset.card ∧
      1 ≤ info.unique ∧ (info.unique : ℤ) ≤ net ∧
      info.percent = info.unique / o.opts.nsimu * 100 := by
  obtain ⟨iacce, cnt, h1, h2, _, _, h5⟩ := C05_stage_counts_partial h hntry
  obtain ⟨hlen, _, ⟨htr, hmv⟩, _⟩ := C02_chain_records_moves hj h
  obtain ⟨h6, h7, h8, _⟩ := C04_rejection_counts h
  have hns : (out.results.nsimu : ℤ) = o.opts.nsimu := by
    obtain ⟨o1, I, s0, h1, _, h3, _⟩ := runSimulation_ok h
    obtain ⟨_, _, _, _, hns, _⟩ := generateResults_ok h3
    have hst := (setup_start h1).1
    have hopt : o.opts.nsimu = I.opts.nsimu := by rw [hst.init.opts, ← hst.opts]; rfl
    have hpos : 0 < I.opts.nsimu := (setup_fresh h1).2.1
    rw [hns, hopt]; omega
  have hrl : rows.length = out.results.nsimu := by
    have : out.results.chain.length = rows.length := by rw [hrows, List.length_map]
    omega
  have hn0 : 0 < out.results.nsimu := by omega
  have hnq : (0 : ℚ) < (out.results.nsimu : ℚ) := by exact_mod_cast hn0
  have hnsq : (o.opts.nsimu : ℚ) = (out.results.nsimu : ℚ) := by rw [← hns]; rfl
  have hsum : ∀ (l : List ℤ) (n : ℚ), (l.map fun s : ℤ => (s : ℚ) / n * 100).sum = (l.sum : ℚ) / n * 100 := by
    intro l n
    induction l with
    | nil => simp
    | cons a l ih => rw [List.map_cons, List.sum_cons, List.sum_cons, ih]; push_cast; ring
  have hnet : iacce.sum = out.final.trace.countP (fun ts => !Rejection ts) + 1 := by
    push_cast at h8
    omega
  have hnetle : iacce.sum ≤ o.opts.nsimu := by omega
  refine ⟨iacce, cnt, _, _, _, ⟨some (iacce.map fun s : ℤ => (s : ℚ) / out.results.nsimu * 100,
    (iacce.sum : ℚ) / out.results.nsimu * 100, iacce.sum, out.results.nsimu),
    (uniqueSize (rows.map fun r => r ⟨0, hpos⟩) : ℚ) / rows.length * 100,
    uniqueSize (rows.map fun r => r ⟨0, hpos⟩), rows.length⟩, h1, ?_, rfl, ?_, hsum _ _, ?_, ?_, hns, hnet, by rw [hnsq],
    ?_, C75_unique _, ?_, ?_, ?_⟩
  rotate_left 1
  · rw [List.length_map]; exact h2
  · have : (0 : ℚ) < (iacce.sum : ℚ) := by
      have : 0 < iacce.sum := by omega
      exact_mod_cast this
    positivity
  · have : (iacce.sum : ℚ) ≤ (out.results.nsimu : ℚ) := by
      rw [← hnsq]; exact_mod_cast hnetle
    have h' := (div_le_one hnq).2 this
    linarith
  pick_goal 5
  · unfold acceptanceInfo stageInfo
    simp only [ok_bind, dif_pos hpos]
    rw [if_neg (by omega)]
    rfl
  · dsimp only; omega
  · dsimp only
    rw [C75_unique]
    refine Finset.card_pos.2 ?_
    cases rows with
    | nil => simp at hrl; omega
    | cons r rows => simp
  · dsimp only
    rw [C75_unique, hnet]
    cases hr : rows with
    | nil => rw [hr] at hrl; simp at hrl; omega
    | cons r0 rest =>
      have := card_moves (rest.map fun r => r ⟨0, hpos⟩)
        (out.final.trace.map fun ts => !Rejection ts) (r0 ⟨0, hpos⟩)
        (by
          rw [hr, List.length_cons] at hrl
          rw [List.length_map, List.length_map]; omega)
        (fun i hi => by
          rw [List.getElem?_map, Option.map_eq_some_iff] at hi
          obtain ⟨ts, hts, hrej⟩ := hi
          obtain ⟨_, prev, row, hp1, hp2, hm⟩ := hmv i ts hts
          have hrej' : Rejection ts = true := by simpa using hrej
          have hsame : row = prev := by
            rcases hm with ⟨e, _⟩ | ⟨pre, t, rfl, ht, _⟩
            · exact e
            · unfold Rejection at hrej'
              rw [List.all_append] at hrej'
              simp [ht] at hrej'
          subst hsame
          rw [hrows, List.getElem?_map, Option.map_eq_some_iff] at hp1 hp2
          obtain ⟨ra, hra, e1⟩ := hp1
          obtain ⟨rb, hrb, e2⟩ := hp2
          have hab : ra = rb := by
            funext k
            exact hf (congrFun (e1.trans e2.symm) k)
          rw [hr] at hra hrb
          rw [← List.map_cons (f := fun r : Fin (nS flags) → K => r ⟨0, hpos⟩), List.getElem?_map,
            List.getElem?_map, hra, hrb, hab])
      rw [List.map_cons]
      have e : (out.final.trace.map fun ts => !Rejection ts).count true =
          out.final.trace.countP (fun ts => !Rejection ts) := by
        rw [List.count, List.countP_map]
        congr 1
        funext ts
        simp
      rw [e] at this
      exact_mod_cast this
  · dsimp only
    rw [hnsq, hrl]

/-- 5 samples: stages 60 % and 20 %, together 4 of 5; 4 different values in the chain -/
example : ∃ out iacce cnt info, Toy.run .dram 5 = .ok out ∧ 1 < (Toy.obj .dram 5).opts.ntry ∧
    0 < nS Toy.flags ∧ out.results.dram = some (iacce, cnt) ∧
    acceptanceInfo out.results.chain (some (some (.array iacce), some out.results.nsimu)) = .ok info ∧
    info.stages = some ([60, 20], 80, 4, 5) ∧ info.unique = 4 := by
  obtain ⟨out, h, h1⟩ := exists_ok_and (x := Toy.run .dram 5)
    (fun out => (out.results.dram.bind fun d => (acceptanceInfo out.results.chain
      (some (some (.array d.1), some out.results.nsimu))).toOption).any fun i : AcceptanceInfo =>
        decide (i.stages = some ([60, 20], 80, 4, 5) ∧ i.unique = 4)) (by decide +kernel)
  cases hd : out.results.dram with
  | none => rw [hd] at h1; simp at h1
  | some d =>
    obtain ⟨iacce, cnt⟩ := d
    rw [hd] at h1
    simp only [Option.bind_some] at h1
    cases hi : acceptanceInfo out.results.chain (some (some (.array iacce), some out.results.nsimu)) with
    | error e => rw [hi] at h1; simp [Except.toOption] at h1
    | ok info =>
      rw [hi] at h1
      exact ⟨out, iacce, cnt, info, h, by decide, by decide, hd, hi,
        of_decide_eq_true (by simpa [Except.toOption] using h1)⟩

/-- Whether the values of a run of the toy problem satisfy `p`: iacce, acceptance information -/
def Toy.infoSatisfies (out : RunOut ℚ ℕ Toy.flags 1) (p : AcceptanceInfo → Bool) : Bool :=
  (out.results.dram.bind fun d => (acceptanceInfo out.results.chain
      (some (some (.array d.1), some out.results.nsimu))).toOption).any p

/-- **The two net counts differ even for the whole chain**: a chain that returns to an earlier value of
the first parameter has fewer different values than accepted moves.  Here 7 of 12 by the results,
6 of 12 by the chain. -/
theorem C75_net_counts_refuted : ∃ out : RunOut ℚ ℕ Toy.flags 1, Toy.run .dram 12 = .ok out ∧
    Toy.infoSatisfies out (fun i => decide (i.stages.map (fun s => (s.2.2.1, s.2.2.2)) = some (7, 12) ∧
      i.unique = 6 ∧ i.rows = 12)) = true :=
  exists_ok_and _ (by decide +kernel)

/-- **For the results of a continued run the two counts are about different things**: the results
count the last run alone, the chain has the rows of all runs.  Here 2 of 4 by the results, 4 of 8 by
the chain. -/
theorem C75_continued_refuted : ∃ p : RunOut ℚ ℕ Toy.flags 1 × RunOut ℚ ℕ Toy.flags 1, Toy.twice .dram 5 4 = .ok p ∧
    Toy.infoSatisfies p.2 (fun i => decide (i.stages.map (fun s => (s.2.2.1, s.2.2.2)) = some (2, 4) ∧
      i.unique = 4 ∧ i.rows = 8)) = true :=
  exists_ok_and (fun p : RunOut ℚ ℕ Toy.flags 1 × RunOut ℚ ℕ Toy.flags 1 => Toy.infoSatisfies p.2 fun i => decide
    (i.stages.map (fun s => (s.2.2.1, s.2.2.2)) = some (2, 4) ∧ i.unique = 4 ∧ i.rows = 8)) (by decide +kernel)

/-- **Results loaded from a file**: there the counts of the stages are a list, and the function stops with
an AttributeError for every chain. -/
theorem C75_loaded_refuted {n : ℕ} (chain : List (Fin n → K)) (iacce : List ℤ) (nsimu : Option ℕ) :
    acceptanceInfo chain (some (some (.list iacce), nsimu)) = .error .attributeError := rfl

end acceptance
end Verif
