import Verif.Lemmas.Run

/-! # The log blocks of a fresh run -/

set_option linter.unusedSectionVars false

namespace Verif
variable {F σ : Type} [PyFloat F] {N m : ℕ} {flags : Fin N → Bool}

/-- rows `a..b-1` of the three chains of a results dictionary -/
def blockOf (res : Results F flags m) (a b : ℕ) : LogBlock F (nS flags) m :=
  ⟨a, b, pySlice res.chain a b, pySlice res.sschain a b, res.s2chain.map fun c => pySlice c a b⟩

theorem fresh_logs {U : UserFuns F N (nS flags) m} {o : Obj F flags m}
    {G : Rng σ F} {L : Lapack F} {fuel : ℕ} {rng : σ}
    {out : RunOut F σ flags m} (h : runSimulation U G L fuel o rng false = .ok out) :
    ∃ sz n : ℕ, (n : ℤ) = o.opts.nsimu ∧ 2 ≤ n ∧ 1 ≤ sz ∧
      (sz : ℤ) = (if o.opts.savesize ≤ 0 ∨ o.opts.savesize > o.opts.nsimu then o.opts.nsimu
        else o.opts.savesize) ∧
      out.results.chain.length = n ∧ out.results.sschain.length = n ∧
      (∀ c, out.results.s2chain = some c → c.length = n) ∧
      out.final.logs = ((List.range ((n - 1) / sz)).map fun j =>
        blockOf out.results (j * sz) ((j + 1) * sz)) ++ [blockOf out.results ((n - 1) / sz * sz) n] := by
  obtain ⟨o1, I, s0, h1, h2, h3, h4, h5⟩ := runSimulation_ok h
  obtain ⟨hst, hpos, hci, hch, hsc, hs2, hls, -⟩ := setup_fresh h1
  obtain ⟨_, _, _, _, _, r1, r2, r3, _⟩ := generateResults_ok h3
  have hopt : I.opts.nsimu = o.opts.nsimu := by rw [hst.init.opts, ← hst.opts]; rfl
  have hsv : I.opts.savesize = if o.opts.savesize ≤ 0 ∨ o.opts.savesize > o.opts.nsimu
      then o.opts.nsimu else o.opts.savesize := by rw [hst.init.opts, ← hst.opts]; rfl
  have hN : (runOpts I.opts o1.extra).nsimu = I.opts.nsimu.toNat := rfl
  have hS : (runOpts I.opts o1.extra).savesize = I.opts.savesize.toNat := rfl
  have hsz : 1 ≤ I.opts.savesize := by rw [hsv]; split <;> omega
  obtain ⟨hn, s1, ⟨hP, hS1, hl1, hl2, hl3⟩, hfin⟩ := executeSimulator_inv
    (P := fun i s => LogInv (runOpts I.opts o1.extra).savesize s0 i s ∧ s.logSource = s0.logSource ∧
      s.chain.length = I.opts.nsimu.toNat ∧ s.sschain.length = I.opts.nsimu.toNat ∧
      ∀ c, s.s2chain = some c → c.length = I.opts.nsimu.toNat)
    ⟨LogInv.init s0, rfl, by simp [loopStart, hch, zeroRows], by simp [loopStart, hsc, zeroRows], by
      intro c hc
      simp only [loopStart] at hc
      rw [hs2] at hc
      split at hc
      · cases hc; simp [zeroRows]
      · cases hc⟩
    (fun i a b p hi _ hP hp => ⟨hP.1.step (by dsimp only; rw [hS]; omega) hi hp, hp.logSource.trans hP.2.1,
      by rw [hp.chain, List.length_set]; exact hP.2.2.1,
      by rw [hp.sschain, List.length_set]; exact hP.2.2.2.1, by
        have he := hp.errModel
        intro c hc
        split at he
        · obtain ⟨c', r, e1, _, e2, _⟩ := he
          rw [hc] at e2
          cases e2
          rw [List.length_set]; exact hP.2.2.2.2 _ e1
        · exact hP.2.2.2.2 _ (he.2.1.symm.trans hc)⟩) h2
  dsimp only at hn
  have e1 : out.results.chain = s1.chain := by rw [r1, hfin]
  have e2 : out.results.sschain = s1.sschain := by rw [r2, hfin]
  have e3 : out.results.s2chain = s1.s2chain := by rw [r3, hfin]
  have hb : ∀ a b, mkBlock s1 a b = blockOf out.results a b := by
    intro a b
    unfold mkBlock blockOf
    rw [hS1, hls, e1, e2, e3]
  refine ⟨I.opts.savesize.toNat, I.opts.nsimu.toNat, by omega, by omega, by omega, by omega,
    by rw [e1, hl1], by rw [e2, hl2], by rw [e3]; exact hl3, ?_⟩
  have hlogs := hP.logs
  rw [hst.logs, List.nil_append] at hlogs
  rw [hfin]
  dsimp only
  rw [hlogs, hP.lastbin]
  simp only [hb, hN, hS]

end Verif
