import Verif.Lemmas.Counts
import Verif.Lemmas.RejCount
import Verif.Spec.Toy

/-! # Properties of completed runs: C01 - C06 -/

set_option linter.unusedSectionVars false

namespace Verif
variable {F σ : Type} [PyFloat F] {N m : ℕ} {flags : Fin N → Bool}

/-! ### C01 -/

/-- **C01.** Whatever the history of an object, no entry of a chain it returns compares below the
lower or above the upper limit of its parameter. -/
theorem C01_rows_within_limits {U : UserFuns F N (nS flags) m} {specs : Fin N → ParamSpec F}
    {opts : SimOpts F} {extra : ExtraOpts F (nS flags)} {ms : ModelSettings F} {data : Data}
    {o : Obj F flags m} (ho : Reachable U (newObj specs opts extra ms data) o)
    {G : Rng σ F} {L : Lapack F} {fuel : ℕ} {rng : σ} {up : Bool} {out : RunOut F σ flags m}
    (h : runSimulation U G L fuel o rng up = .ok out) :
    ∀ row ∈ out.results.chain, InLimits flags specs row := by
  have hinv := reachable_objInv rfl ho
  obtain ⟨h1, h2, h3, h4⟩ := run_objInv hinv h
  have hsome : out.obj.results.isSome := by rw [h2]; rfl
  intro row hrow
  rw [← h3] at hrow
  obtain ⟨r, hr⟩ := List.mem_iff_getElem?.1 hrow
  have hlt : r < out.obj.chains.chain.length := (List.getElem?_eq_some_iff.1 hr).1
  rw [h1.len hsome] at hlt
  obtain ⟨a, b, ha, _, hab⟩ := h1.rows hsome r (by omega)
  rw [hr] at ha
  cases ha
  exact hab.1

/-- a delayed-rejection run of a fresh object, with a fixed parameter in the middle -/
example : ∃ out, Toy.run .dram 5 = .ok out ∧ Reachable Toy.user (Toy.obj .dram 5) (Toy.obj .dram 5) ∧
    ∀ row ∈ out.results.chain, InLimits Toy.flags Toy.specs row := by
  obtain ⟨out, h⟩ := exists_ok (x := Toy.run .dram 5) (by decide +kernel)
  exact ⟨out, h, .start, C01_rows_within_limits .start h⟩

/-- the run of the example moves and repeats -/
example : (Toy.run .dram 5).toOption.map (fun o => o.results.chain.map List.ofFn) =
    some [[1, 2], [2, 0], [9/5, 1/5], [9/5, 1/5], [4/5, 6/5]] := by decide +kernel

/-! ### C02 -/

/-- **C02.** A completed run from scratch returns exactly `nsimu` rows; row 0 is the initial value
of the sampled parameters; there is a record of proposals, one non-empty list per iteration, such
that every later row is a move away from the row before it (`Move`), every accepted proposal was
inside the limits, and the reported theta is the last row completed with the fixed values. -/
theorem C02_chain_records_moves {U : UserFuns F N (nS flags) m} {o : Obj F flags m}
    (hj : o.extra.jsonRestart = none) {G : Rng σ F} {L : Lapack F} {fuel : ℕ} {rng : σ}
    {out : RunOut F σ flags m} (h : runSimulation U G L fuel o rng false = .ok out) :
    (out.results.chain.length : ℤ) = o.opts.nsimu ∧
    (∃ row0, out.results.chain[0]? = some row0 ∧
      List.ofFn row0 = ((List.finRange N).filter flags).map fun k => (o.specs k).theta0) ∧
    (out.final.trace.length + 1 = out.results.chain.length ∧
      ∀ i ts, out.final.trace[i]? = some ts → ts ≠ [] ∧
        ∃ prev row, out.results.chain[i]? = some prev ∧ out.results.chain[i + 1]? = some row ∧
          Move prev row ts) ∧
    ∃ last, out.results.chain[out.results.chain.length - 1]? = some last ∧
      BelongsTo flags o.specs last out.results.theta := by
  obtain ⟨o1, I, s0, h1, h2, h3, h4, h5⟩ := runSimulation_ok h
  obtain ⟨hst, hpos, hci, hch, hsc, _, _, hjr, _⟩ := setup_fresh h1
  obtain rfl := hjr hj
  obtain ⟨_, hth, _, _, _, hc, hss, _⟩ := generateResults_ok h3
  have hp : 0 < I.opts.nsimu.toNat := by omega
  have hcur : s0.chain[s0.chainIndex]? = some s0.oldSet.theta := by
    rw [hch, hci, hst.oldSet, List.getElem?_set_self (by simpa [zeroRows] using hp)]
  have hcur' : s0.sschain[s0.chainIndex]? = some s0.oldSet.ss := by
    rw [hsc, hci, hst.oldSet, List.getElem?_set_self (by simpa [zeroRows] using hp)]
  obtain ⟨hn, s1, ⟨hP, hT⟩, hfin⟩ := executeSimulator_inv
    (P := fun i s => RowInv I.problem s0 i s ∧ TraceInv I.problem s0 i s)
    ⟨RowInv.init hcur hcur', ⟨[], by simp [loopStart], rfl, by simp⟩⟩
    (fun i a b p hi _ hP hp => ⟨hP.1.step hi hp, hP.2.step hp⟩) h2
  have hn' : 1 < I.opts.nsimu.toNat := hn
  have hlen : out.results.chain.length = I.opts.nsimu.toNat := by
    rw [hc, hfin]; dsimp only; rw [hP.len, hch]; simp [zeroRows]
  have hidx := hP.idx
  have htl := hP.tlen
  rw [hci] at hidx
  rw [hst.trace] at htl
  simp only [List.length_nil, Nat.zero_add] at htl hidx
  have hN : (runOpts I.opts o1.extra).nsimu = I.opts.nsimu.toNat := rfl
  rw [hN] at hidx htl
  refine ⟨?_, ?_, ⟨?_, ?_⟩, ?_⟩
  · rw [hlen, show o1.opts.nsimu = I.opts.nsimu by rw [hst.init.opts]; rfl]; omega
  · refine ⟨I.initialSet.theta, ?_, ?_⟩
    · rw [hc, hfin]; dsimp only
      rw [hP.pre 0 (by omega), hch, List.getElem?_set_self (by simpa [zeroRows] using hp)]
    · have := belongsTo_of (flags := flags) (specs := o1.specs) (row := I.initialSet.theta)
        (v := fun k => (o1.specs k).theta0) (fun i => by rw [hst.init.theta]; rfl) (fun _ _ => rfl)
      exact this.1.symm
  · rw [hlen, hfin]; dsimp only; exact htl
  · intro i ts hts
    rw [hfin] at hts
    dsimp only at hts
    have hilt := (List.getElem?_eq_some_iff.1 hts).1
    obtain ⟨a, b, ts', ha, hb, hts', hrf⟩ := hP.row i (by dsimp only; rw [hN]; omega)
    rw [hst.trace] at hts'
    rw [hci] at ha hb
    simp only [List.length_nil, Nat.zero_add] at hts' ha hb
    rw [hts] at hts'
    cases hts'
    obtain ⟨tr, ht1, _, ht3⟩ := hT.trace
    rw [hst.trace] at ht1
    refine ⟨(ht3 ts ?_).1, a, b, by rw [hc, hfin]; exact ha, by rw [hc, hfin]; exact hb, hrf⟩
    rw [ht1] at hts
    exact List.mem_of_getElem? hts
  · refine ⟨s1.oldSet.theta, ?_, ?_⟩
    · rw [hlen, hc, hfin]; dsimp only
      rw [← hP.cur]; congr 1; omega
    · rw [hth, hfin]
      exact belongsTo_of (fun i => writeAt_sampled (parindOf_injective flags) i)
        (fun k hk => writeAt_fixed (not_parindOf hk))

example : ∃ out, Toy.run .dram 5 = .ok out ∧ (Toy.obj .dram 5).extra.jsonRestart = none ∧
    out.results.chain.length = 5 := by
  obtain ⟨out, h⟩ := exists_ok (x := Toy.run .dram 5) (by decide +kernel)
  have := (C02_chain_records_moves rfl h).1
  exact ⟨out, h, rfl, by exact Int.ofNat_inj.1 this⟩

/-! ### C03 -/

/-- **C03.** Whatever the history of an object, the two chains it returns have equal length, and
row `r` of the sum-of-squares chain is the value of the user's function at the full vector that
belongs to row `r` of the chain. -/
theorem C03_sums_of_squares_belong_to_rows {U : UserFuns F N (nS flags) m}
    {specs : Fin N → ParamSpec F} {opts : SimOpts F} {extra : ExtraOpts F (nS flags)}
    {ms : ModelSettings F} {data : Data} {o : Obj F flags m}
    (ho : Reachable U (newObj specs opts extra ms data) o)
    {G : Rng σ F} {L : Lapack F} {fuel : ℕ} {rng : σ} {up : Bool} {out : RunOut F σ flags m}
    (h : runSimulation U G L fuel o rng up = .ok out) :
    out.results.sschain.length = out.results.chain.length ∧
    ∀ (r : ℕ) row, out.results.chain[r]? = some row → ∃ ss v, out.results.sschain[r]? = some ss ∧
      BelongsTo flags specs row v ∧ SosValue U v ss := by
  have hinv := reachable_objInv rfl ho
  obtain ⟨h1, h2, h3, h4⟩ := run_objInv hinv h
  have hsome : out.obj.results.isSome := by rw [h2]; rfl
  have hl := h1.len hsome
  have hl' := h1.len' hsome
  rw [h3] at hl
  rw [h4] at hl'
  refine ⟨by rw [hl, hl'], fun r row hr => ?_⟩
  have hlt := (List.getElem?_eq_some_iff.1 hr).1
  obtain ⟨a, b, ha, hb, _, v, hv1, hv2⟩ := h1.rows hsome r (by omega)
  rw [h3, hr] at ha
  cases ha
  rw [h4] at hb
  exact ⟨b, v, hb, hv1, hv2⟩

example : ∃ out, Toy.run .dram 5 = .ok out ∧ out.results.sschain.length = out.results.chain.length := by
  obtain ⟨out, h⟩ := exists_ok (x := Toy.run .dram 5) (by decide +kernel)
  exact ⟨out, h, (C03_sums_of_squares_belong_to_rows (.start : Reachable Toy.user _ _) h).1⟩

/-- the values in the example: `a² + 7² + c²` -/
example : (Toy.run .dram 5).toOption.map (fun o => o.results.sschain.map List.ofFn) =
    some [[54], [53], [1307/25], [1307/25], [1277/25]] := by decide +kernel

/-! ### C04 -/

/-- **C04.** With the record of proposals of a run (one entry per iteration): the number of
rejections is exactly the number of iterations without accepted proposal, rejections and
acceptances add up to `nsimu - 1`, the out-of-bounds count is exactly the number of rejections whose
last proposal was outside the limits (so at most the number of rejections, and of those with some
proposal outside), and the count for the current adaptation interval is exactly the number of
rejections after the last adaptation (so at most the number of iterations since).  (That a rejected move repeats the
row before is part of `Move` in C02 and C28.) -/
theorem C04_rejection_counts {U : UserFuns F N (nS flags) m} {o : Obj F flags m}
    {G : Rng σ F} {L : Lapack F} {fuel : ℕ} {rng : σ} {up : Bool}
    {out : RunOut F σ flags m} (h : runSimulation U G L fuel o rng up = .ok out) :
    (out.final.trace.length : ℤ) + 1 = o.opts.nsimu ∧
    out.results.rejected.total = out.final.trace.countP Rejection ∧
    ((out.results.rejected.total + out.final.trace.countP (fun ts => !Rejection ts) : ℕ) : ℤ) + 1
      = o.opts.nsimu ∧
    out.results.rejected.outside ≤
      out.final.trace.countP (fun ts => Rejection ts && ts.any fun t => t.outside) ∧
    out.results.rejected.outside ≤ out.results.rejected.total ∧
    out.results.rejected.inInterval + out.final.adaptedAt.getLast?.getD 0
      ≤ out.final.trace.length ∧
    out.results.rejected.outside = out.final.trace.countP
      (fun ts => Rejection ts && ts.getLast?.any fun t => t.outside) ∧
    out.results.rejected.inInterval =
      (out.final.trace.drop (out.final.adaptedAt.getLast?.getD 0)).countP Rejection := by
  obtain ⟨a, b, c, d, e, f⟩ := rejection_counts h
  exact ⟨a, b, c, d, e, f, rejection_counts_exact h⟩

/-- 5 samples, 4 moves: 1 rejected, 3 accepted -/
example : ∃ out, Toy.run .dram 5 = .ok out ∧ out.results.rejected.total = 1 ∧
    out.final.trace.length = 4 := by
  obtain ⟨out, h, h1⟩ := exists_ok_and (x := Toy.run .dram 5)
    (fun o => decide (o.results.rejected.total = 1)) (by decide +kernel)
  have := (C04_rejection_counts h).1
  exact ⟨out, h, of_decide_eq_true h1, by
    have e : (Toy.obj .dram 5).opts.nsimu = 5 := rfl
    rw [e] at this; omega⟩

/-! ### C05 -/

/-- **C05 (partial).** In a completed run with `ntry > 1` the reported counts have one entry per
stage, every entry after the first is exactly the number of moves accepted at its stage, and the
entries together with the rejections add up to the number of rows of the run.
Missing from C05: the first entry, which is not the number of moves accepted at stage one (see
`C05_first_entry_refuted`), but one more. -/
theorem C05_stage_counts_partial {U : UserFuns F N (nS flags) m} {o : Obj F flags m}
    {G : Rng σ F} {L : Lapack F} {fuel : ℕ} {rng : σ} {up : Bool}
    {out : RunOut F σ flags m} (h : runSimulation U G L fuel o rng up = .ok out)
    (hntry : 1 < o.opts.ntry) :
    ∃ iacce cnt, out.results.dram = some (iacce, cnt) ∧ (iacce.length : ℤ) = o.opts.ntry ∧
      (∀ k, 1 ≤ k → k < iacce.length →
        iacce[k]? = some ((out.final.trace.countP (AcceptedAtStage k) : ℕ) : ℤ)) ∧
      iacce[0]? = some (((out.final.trace.countP (AcceptedAtStage 0) : ℕ) : ℤ) + 1) ∧
      iacce.sum + (out.results.rejected.total : ℤ) = o.opts.nsimu := by
  obtain ⟨iacce, cnt, h1, h2, h3, h4, h5⟩ := stage_counts h hntry
  exact ⟨iacce, cnt, h1, h2, h3, h4, by rw [h5, (C04_rejection_counts h).1]⟩

/-- **C05 is false for the first entry.** In *no* completed run with `ntry > 1` is the first
reported count the number of moves accepted at the first stage, and never do the entries and the
rejections together account for the `nsimu - 1` moves: the initial point is counted as an accepted
move. -/
theorem C05_first_entry_refuted {U : UserFuns F N (nS flags) m} {o : Obj F flags m}
    {G : Rng σ F} {L : Lapack F} {fuel : ℕ} {rng : σ} {up : Bool}
    {out : RunOut F σ flags m} (h : runSimulation U G L fuel o rng up = .ok out)
    (hntry : 1 < o.opts.ntry) :
    ∃ iacce cnt, out.results.dram = some (iacce, cnt) ∧
      iacce[0]? ≠ some ((out.final.trace.countP (AcceptedAtStage 0) : ℕ) : ℤ) ∧
      iacce.sum + (out.results.rejected.total : ℤ) ≠ (out.final.trace.length : ℤ) := by
  obtain ⟨iacce, cnt, h1, h2, h3, h4, h5⟩ := stage_counts h hntry
  refine ⟨iacce, cnt, h1, ?_, by omega⟩
  rw [h4]
  simp

/-- 5 samples: moves accepted at stage 1, 2, none, 1; reported counts 3 and 1 -/
example : ∃ out, Toy.run .dram 5 = .ok out ∧ 1 < (Toy.obj .dram 5).opts.ntry ∧
    out.results.dram.map Prod.fst = some [3, 1] ∧
    out.final.trace.countP (AcceptedAtStage 0) = 2 := by
  obtain ⟨out, h, h1⟩ := exists_ok_and (x := Toy.run .dram 5)
    (fun o => decide (o.results.dram.map Prod.fst = some [3, 1] ∧
      o.final.trace.countP (AcceptedAtStage 0) = 2)) (by decide +kernel)
  exact ⟨out, h, by decide, of_decide_eq_true h1⟩

/-! ### C06 -/

/-- **C06.** Every call of the user's sum-of-squares function in a run receives a full vector that
belongs to the initial values or to a proposal of the run inside the limits: the user's value at
every parameter that is not sampled, the proposal at the sampled ones.  The reported theta
has the user's values at the parameters that are not sampled. -/
theorem C06_fixed_parameters {U : UserFuns F N (nS flags) m} {specs : Fin N → ParamSpec F}
    {opts : SimOpts F} {extra : ExtraOpts F (nS flags)} {ms : ModelSettings F} {data : Data}
    {o : Obj F flags m} (ho : Reachable U (newObj specs opts extra ms data) o)
    {G : Rng σ F} {L : Lapack F} {fuel : ℕ} {rng : σ} {up : Bool} {out : RunOut F σ flags m}
    (h : runSimulation U G L fuel o rng up = .ok out) :
    (∀ v ∈ out.final.world.calls, ∃ row, BelongsTo flags specs row v ∧
      (row = out.init.initialSet.theta ∨
        ∃ ts ∈ out.final.trace, ∃ t ∈ ts, t.outside = false ∧ t.theta = row)) ∧
    ∀ k, flags k = false → out.results.theta k = (specs k).theta0 := by
  have hsame := (reachable_objInv rfl ho).same
  obtain ⟨o1, I, s0, h1, h2, h3, h4, h5⟩ := runSimulation_ok h
  obtain ⟨_, hth, _⟩ := generateResults_ok h3
  have hst : StartSpec U o o1 rng I s0 := by
    cases up with
    | false => exact (setup_fresh h1).1
    | true => exact (setup_continue h1).1
  have hfix : ∀ k, flags k = false → (o1.specs k).theta0 = (specs k).theta0 :=
    (hsame.trans hst.same).fixed
  obtain ⟨hn, s1, hP, hfin⟩ := executeSimulator_inv
    (P := fun i s => CallInv I.problem s0 i s)
    ⟨fun _ _ => rfl, [], [], by simp [loopStart], by simp [loopStart], by simp⟩
    (fun i a b p hi _ hP hp => hP.step hp) h2
  obtain ⟨hv, new, tr, hc1, hc2, hc3⟩ := hP
  rw [hst.trace, List.nil_append] at hc2
  have e1 : out.final.trace = tr := by rw [hfin]; exact hc2
  have e2 : out.final.world.calls = new ++ s0.world.calls := by rw [hfin]; exact hc1
  refine ⟨?_, ?_⟩
  · intro v hvm
    rw [e2] at hvm
    rcases List.mem_append.1 hvm with hvm | hvm
    · obtain ⟨ts, hts, t, ht, ho, hf, val, rfl⟩ := hc3 v hvm
      refine ⟨t.theta, belongsTo_of (fun i => ?_) (fun k hk => ?_),
        Or.inr ⟨ts, by rw [e1]; exact hts, t, ht, ho, rfl⟩⟩
      · rw [hst.init.parind]; exact writeAt_sampled (parindOf_injective flags) i
      · rw [hf k (by rw [hst.init.parind]; exact not_parindOf hk), hst.world, hst.init.value,
          hfix k hk]
    · rw [hst.world] at hvm
      obtain ⟨k, hk⟩ := hst.init.calls
      rw [hk] at hvm
      rw [List.eq_of_mem_replicate hvm]
      refine ⟨I.initialSet.theta, belongsTo_of (fun i => ?_) (fun k hk => ?_), Or.inl (by rw [h4])⟩
      · rw [hst.init.value, hst.init.theta]; rfl
      · rw [hst.init.value, hfix k hk]
  · intro k hk
    rw [hth, writeAt_fixed (not_parindOf hk), hfix k hk]

example : ∃ out, Toy.run .dram 5 = .ok out ∧ out.results.theta 1 = 7 ∧
    out.final.world.calls.length = 7 := by
  obtain ⟨out, h, h1⟩ := exists_ok_and (x := Toy.run .dram 5)
    (fun o => decide (o.final.world.calls.length = 7)) (by decide +kernel)
  exact ⟨out, h, (C06_fixed_parameters (.start : Reachable Toy.user _ _) h).2 1 rfl,
    of_decide_eq_true h1⟩

end Verif
