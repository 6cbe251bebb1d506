import Verif.Model.Storage
import Verif.Lemmas.CovRun
import Verif.Props.Logs

/-!
# Property C97: the log of proposal covariances
-/

set_option linter.unusedSectionVars false

namespace Verif

section
variable {F σ : Type} [PyFloat F] {N n m : ℕ} {flags : Fin N → Bool}

/-- what one iteration writes to the covariance log -/
theorem simStep_covlogs {E : Env F σ N n m} {s s' : SimState F σ N n m} {i : ℕ}
    (h : simStep E s i = .ok s') :
    s'.covlogs = s.covlogs ++ if s.savecount + 1 = E.opts.savesize then
      [(i - E.opts.savesize, i, rtr s'.cov.R)] else [] := by
  unfold simStep at h
  rw [bind_ok] at h
  obtain ⟨p, hp, h⟩ := h
  rw [bind_ok] at h
  obtain ⟨s1, h1, h⟩ := h
  rw [bind_ok] at h
  obtain ⟨s2, h2, h⟩ := h
  rw [bind_ok] at h
  obtain ⟨s3, h3, h⟩ := h
  replace h := (Except.ok.inj h).symm
  obtain ⟨-, -, h1⟩ := record_ok h1
  obtain ⟨-, h2⟩ := adapt_ok h2
  obtain ⟨-, h3⟩ := sampleSigma_ok h3
  have e1 : s3.covlogs = s.covlogs := by rw [h3, h2, h1]
  have e2 : s3.savecount = s.savecount + 1 := by rw [h3, h2, h1]
  unfold saveStep at h
  rw [e2] at h
  split at h
  · rename_i hc
    rw [h, if_pos hc, ← e1]
  · rename_i hc
    rw [h, if_neg hc, e1, List.append_nil]

/-- the factor of the proposal covariance after `k` iterations: the one the next iteration uses, or
the final one -/
def factorAt (s : SimState F σ N n m) (k : ℕ) : Mat F n :=
  ((s.moveLog[k]?).map fun r => r.R).getD s.cov.R

/-- Invariant for the covariance log. -/
structure CovLogInv (sz : ℕ) (i : ℕ) (s : SimState F σ N n m) : Prop where
  len : s.moveLog.length + 1 = i
  savecount : s.savecount = (i - 1) % sz
  lastbin : s.lastbin = (i - 1) / sz * sz
  logs : s.covlogs = (List.range ((i - 1) / sz)).map fun j =>
    (j * sz, (j + 1) * sz, rtr (factorAt s ((j + 1) * sz)))

theorem CovLogInv.step {E : Env F σ N n m} {s s' : SimState F σ N n m} {i : ℕ}
    (hsz : 1 ≤ E.opts.savesize) (hi : 1 ≤ i) (h : CovLogInv E.opts.savesize i s)
    (hs : simStep E s i = .ok s') : CovLogInv E.opts.savesize (i + 1) s' := by
  have hc0 := simStep_covlogs hs
  obtain ⟨p, hp⟩ := simStep_ok hs
  obtain ⟨h1, h2, h3, h4⟩ := h
  obtain ⟨j, rfl⟩ : ∃ j, i = j + 1 := ⟨i - 1, by omega⟩
  simp only [Nat.add_sub_cancel] at h2 h3 h4 ⊢
  have hmod := Nat.mod_add_div j E.opts.savesize
  have hlt := Nat.mod_lt j (show 0 < E.opts.savesize by omega)
  have hlen : s'.moveLog.length = j + 1 := by rw [hp.moveLog]; simp; omega
  have hold : ∀ k, k ≤ j → factorAt s' k = factorAt s k := by
    intro k hk
    unfold factorAt
    rw [hp.moveLog]
    by_cases hkj : k < j
    · rw [List.getElem?_append_left (by omega), List.getElem?_eq_getElem (by omega)]
      rfl
    · rw [List.getElem?_append_right (by omega), List.getElem?_eq_none (l := s.moveLog) (by omega),
        show k - s.moveLog.length = 0 by omega]
      rfl
  have hmap : ∀ a, a ∈ List.range (j / E.opts.savesize) →
      (a * E.opts.savesize, (a + 1) * E.opts.savesize, rtr (factorAt s ((a + 1) * E.opts.savesize))) =
      (a * E.opts.savesize, (a + 1) * E.opts.savesize, rtr (factorAt s' ((a + 1) * E.opts.savesize))) := by
    intro a ha
    have h1 : (a + 1) * E.opts.savesize ≤ j / E.opts.savesize * E.opts.savesize :=
      Nat.mul_le_mul_right _ (List.mem_range.1 ha)
    have h2 : j / E.opts.savesize * E.opts.savesize ≤ j := Nat.div_mul_le_self _ _
    rw [hold _ (by omega)]
  by_cases hc : s.savecount + 1 = E.opts.savesize
  · have hdiv : (j + 1) / E.opts.savesize = j / E.opts.savesize + 1 := by
      apply Nat.div_eq_of_lt_le
      · rw [Nat.add_mul, Nat.mul_comm]; omega
      · rw [Nat.add_mul, Nat.add_mul, Nat.mul_comm]; omega
    have hmul : (j / E.opts.savesize + 1) * E.opts.savesize = j + 1 := by
      rw [Nat.add_mul, Nat.mul_comm]; omega
    refine ⟨by omega, ?_, ?_, ?_⟩
    · rw [hp.savecount, if_pos hc, Nat.add_sub_cancel, ← hmul]; simp
    · rw [hp.lastbin, if_pos hc, Nat.add_sub_cancel, hdiv, hmul]
    · rw [hc0, if_pos hc, h4, Nat.add_sub_cancel, hdiv, List.range_succ, List.map_append,
        List.map_congr_left hmap]
      congr 1
      simp only [List.map_cons, List.map_nil]
      rw [hmul]
      have e : factorAt s' (j + 1) = s'.cov.R := by
        unfold factorAt
        rw [List.getElem?_eq_none (by omega)]
        rfl
      rw [e, show j + 1 - E.opts.savesize = j / E.opts.savesize * E.opts.savesize by
        rw [← hmul, Nat.add_mul]; omega]
  · have hdiv : (j + 1) / E.opts.savesize = j / E.opts.savesize := by
      apply Nat.div_eq_of_lt_le
      · rw [Nat.mul_comm]; omega
      · rw [Nat.add_mul, Nat.mul_comm]; omega
    have hm2 : (j + 1) % E.opts.savesize = j % E.opts.savesize + 1 := by
      have := Nat.mod_add_div (j + 1) E.opts.savesize
      rw [hdiv] at this
      omega
    refine ⟨by omega, ?_, ?_, ?_⟩
    · rw [hp.savecount, if_neg hc, Nat.add_sub_cancel, hm2, h2]
    · rw [hp.lastbin, if_neg hc, Nat.add_sub_cancel, hdiv, h3]
    · rw [hc0, if_neg hc, h4, Nat.add_sub_cancel, hdiv, List.append_nil, List.map_congr_left hmap]

theorem setup_covlogs {U : UserFuns F N (nS flags) m} {L : Lapack F} {o o1 : Obj F flags m}
    {rng : σ} {up : Bool} {I : Init F σ flags m} {s0 : SimState F σ N (nS flags) m}
    (h : setupSimulator U L o rng up = .ok (o1, I, s0)) : s0.covlogs = [] := by
  unfold setupSimulator at h
  split at h
  · split at h
    · cases h
    · rw [bind_ok] at h
      obtain ⟨_, _, h⟩ := h
      rw [bind_ok] at h
      obtain ⟨_, _, h⟩ := h
      rw [bind_ok] at h
      obtain ⟨_, _, h⟩ := h
      cases h
      rfl
  · rw [bind_ok] at h
    obtain ⟨_, _, h⟩ := h
    rw [bind_ok] at h
    obtain ⟨_, _, h⟩ := h
    split at h
    · cases h
    · rw [bind_ok] at h
      obtain ⟨_, _, h⟩ := h
      cases h
      rfl

/-- the covariance log of a run -/
theorem run_covlogs {U : UserFuns F N (nS flags) m} {o : Obj F flags m} {G : Rng σ F}
    {L : Lapack F} {fuel : ℕ} {rng : σ} {up : Bool} {out : RunOut F σ flags m}
    (h : runSimulation U G L fuel o rng up = .ok out) :
    ∃ sz n : ℕ, (n : ℤ) = o.opts.nsimu ∧ 2 ≤ n ∧ 1 ≤ sz ∧
      (sz : ℤ) = (if o.opts.savesize ≤ 0 ∨ o.opts.savesize > o.opts.nsimu then o.opts.nsimu
        else o.opts.savesize) ∧ out.final.moveLog.length + 1 = n ∧
      out.results.R = out.final.cov.R ∧ out.results.qcov = rtr out.final.cov.R ∧
      out.final.covlogs = ((List.range ((n - 1) / sz)).map fun j =>
        (j * sz, (j + 1) * sz, rtr (factorAt out.final ((j + 1) * sz)))) ++
          [((n - 1) / sz * sz, n - 1, rtr out.final.cov.R)] := by
  obtain ⟨o1, I, s0, h1, h2, h3, h4, h5⟩ := runSimulation_ok h
  obtain ⟨hst, hpos⟩ := setup_start h1
  have hcl := setup_covlogs h1
  obtain ⟨_, _, _, _, _, _, _, _, hR, hq, _⟩ := generateResults_ok h3
  have hopt : I.opts.nsimu = o.opts.nsimu := by rw [hst.init.opts, ← hst.opts]; rfl
  have hsv : I.opts.savesize = if o.opts.savesize ≤ 0 ∨ o.opts.savesize > o.opts.nsimu
      then o.opts.nsimu else o.opts.savesize := by rw [hst.init.opts, ← hst.opts]; rfl
  have hsz : 1 ≤ I.opts.savesize := by rw [hsv]; split <;> omega
  have hS : (runOpts I.opts o1.extra).savesize = I.opts.savesize.toNat := rfl
  have hN : (runOpts I.opts o1.extra).nsimu = I.opts.nsimu.toNat := rfl
  unfold executeSimulator at h2
  rw [bind_ok] at h2
  obtain ⟨s1, hloop, h2⟩ := h2
  dsimp only at hloop h2
  have hP := foldlM_range'_inv
    (P := fun i s => CovLogInv (runOpts I.opts o1.extra).savesize i s) _ 1 _ s1
    ⟨by simp [hst.moveLog], by simp, by simp, by simp [hcl]⟩
    (fun i s s' hi _ hP hs => hP.step (E := ⟨I.problem, G, L, runOpts I.opts o1.extra, fuel⟩)
      (by dsimp only; rw [hS]; omega) hi hs) hloop
  unfold finish at h2
  split at h2
  · cases h2
  · rename_i hn
    rw [hN] at hn hP
    rw [show 1 + (I.opts.nsimu.toNat - 1) = I.opts.nsimu.toNat by omega, hS] at hP
    have hf := (Except.ok.inj h2).symm
    rw [hN] at hf
    have hfac : ∀ k, factorAt out.final k = factorAt s1 k := by
      intro k; unfold factorAt; rw [hf]
    refine ⟨I.opts.savesize.toNat, I.opts.nsimu.toNat, by omega, by omega, by omega, by omega,
      by rw [hf]; exact hP.len, hR, hq, ?_⟩
    simp only [hfac]
    rw [hf]
    dsimp only
    rw [hP.logs, hP.lastbin]

/-- **C97.** Whatever run is made, fresh or continued, its covariance log has one entry for every
block of rows.  The entry written after iteration `k` is `RᵀR` for the factor `R` that iteration
`k + 1` uses for its proposals (the final factor if there is no such iteration).  The last entry is
`results['qcov']`, and belongs to the last iteration.  Entries but the last are `savesize`
iterations apart. -/
theorem C97_covariance_log {U : UserFuns F N (nS flags) m} {o : Obj F flags m} {G : Rng σ F}
    {L : Lapack F} {fuel : ℕ} {rng : σ} {up : Bool} {out : RunOut F σ flags m}
    (h : runSimulation U G L fuel o rng up = .ok out) :
    ∃ sz : ℕ, 1 ≤ sz ∧
      (1 ≤ o.opts.savesize ∧ o.opts.savesize ≤ o.opts.nsimu → sz = o.opts.savesize) ∧
      (¬ (1 ≤ o.opts.savesize ∧ o.opts.savesize ≤ o.opts.nsimu) → sz = o.opts.nsimu) ∧
      (out.final.covlogs.length : ℤ) = (o.opts.nsimu - 1) / sz + 1 ∧
      (∀ j c, out.final.covlogs.dropLast[j]? = some c → c.1 = j * sz ∧ c.2.1 = (j + 1) * sz ∧
        ∃ R, (out.final.moveLog.map (fun r => r.R) ++ [out.results.R])[c.2.1]? = some R ∧
          ∀ a b, c.2.2 a b = vsum fun k => R k a * R k b) ∧
      ∃ c, out.final.covlogs.getLast? = some c ∧ (c.2.1 : ℤ) = o.opts.nsimu - 1 ∧
        c.2.2 = out.results.qcov ∧
        ∀ a b, c.2.2 a b = vsum fun k => out.results.R k a * out.results.R k b := by
  obtain ⟨sz, n, hn, hn2, hsz, hszv, hlen, hR, hq, hl⟩ := run_covlogs h
  refine ⟨sz, hsz, fun hc => by rw [hszv, if_neg (by omega)], fun hc => by rw [hszv, if_pos (by omega)],
    ?_, fun j c hj => ?_, ((n - 1) / sz * sz, n - 1, rtr out.final.cov.R), ?_, ?_, hq.symm, ?_⟩
  · rw [hl, ← hn, show ((n : ℤ) - 1) = ((n - 1 : ℕ) : ℤ) by omega]
    simp
  · rw [hl, List.dropLast_concat, List.getElem?_map] at hj
    obtain ⟨k, hk, rfl⟩ := Option.map_eq_some_iff.1 hj
    have hkr := List.getElem?_range (n := (n - 1) / sz) (i := j)
    obtain ⟨hjl, rfl⟩ := List.getElem?_eq_some_iff.1 hk
    simp only [List.length_range, List.getElem_range] at hjl ⊢
    refine ⟨trivial, trivial, factorAt out.final ((j + 1) * sz), ?_, fun a b => rfl⟩
    have hb : (j + 1) * sz ≤ n - 1 :=
      le_trans (Nat.mul_le_mul_right _ hjl) (Nat.div_mul_le_self _ _)
    unfold factorAt
    by_cases hlt : (j + 1) * sz < out.final.moveLog.length
    · rw [List.getElem?_append_left (by simpa using hlt), List.getElem?_map,
        List.getElem?_eq_getElem hlt]
      rfl
    · rw [List.getElem?_append_right (by simpa using hlt), List.length_map,
        show (j + 1) * sz - out.final.moveLog.length = 0 by omega,
        List.getElem?_eq_none (l := out.final.moveLog) (by omega), hR]
      rfl
  · rw [hl]; simp
  · dsimp only; omega
  · intro a b; rw [hR]; rfl

theorem saveCovTxt_ok : ∀ (l : List (ℕ × ℕ × Mat F n)) (f : TxtFile F n), l ≠ [] →
    l.foldl saveCovTxt f = some (f.getD [] ++ l.flatMap fun c => List.ofFn c.2.2)
  | [], _, h => absurd rfl h
  | [c], f, _ => by simp [saveCovTxt, saveToTxtFile]
  | c :: d :: l, f, _ => by
    rw [List.foldl_cons, saveCovTxt_ok (d :: l) _ (by simp)]
    simp [saveCovTxt, saveToTxtFile]

/-- **C97.** Read back from a new text file the log has the entries of all these matrices one after
the other, each row by row, as an array with as many columns as there are sampled parameters if
these are two or more. -/
theorem C97_text {U : UserFuns F N (nS flags) m} {o : Obj F flags m} {G : Rng σ F}
    {L : Lapack F} {fuel : ℕ} {rng : σ} {up : Bool} {out : RunOut F σ flags m}
    (h : runSimulation U G L fuel o rng up = .ok out) :
    ∃ a, readInTxtFile (out.final.covlogs.foldl saveCovTxt none) = some a ∧
      a.data = (out.final.covlogs.flatMap fun c => List.ofFn c.2.2).flatMap List.ofFn ∧
      (2 ≤ nS flags → a.shape = [out.final.covlogs.length * nS flags, nS flags]) := by
  obtain ⟨sz, n, hn, hn2, hsz, hszv, hlen, hR, hq, hl⟩ := run_covlogs h
  have hne : out.final.covlogs ≠ [] := by rw [hl]; simp
  rw [saveCovTxt_ok _ _ hne]
  refine ⟨_, rfl, rfl, fun h2 => ?_⟩
  have hlen2 : ∀ l : List (ℕ × ℕ × Mat F (nS flags)),
      (l.flatMap fun c => List.ofFn c.2.2).length = l.length * nS flags := by
    intro l
    induction l with
    | nil => simp
    | cons c l ih => rw [List.flatMap_cons, List.length_append, ih, List.length_ofFn, List.length_cons,
        Nat.add_mul, Nat.one_mul, Nat.add_comm]
  have hpos : 1 ≤ out.final.covlogs.length := List.length_pos_iff.2 hne
  have hge : 2 ≤ out.final.covlogs.length * nS flags := le_trans h2 (Nat.le_mul_of_pos_left _ hpos)
  change (if (out.final.covlogs.flatMap fun c => List.ofFn c.2.2).length * nS flags = 0 then [0]
    else [(out.final.covlogs.flatMap fun c => List.ofFn c.2.2).length, nS flags].filter (· ≠ 1)) = _
  rw [hlen2,
    if_neg (by intro h0; rcases Nat.mul_eq_zero.1 h0 with h | h <;> omega), List.filter_eq_self.2]
  intro x hx
  simp only [List.mem_cons, List.not_mem_nil, or_false] at hx
  simp only [decide_eq_true_eq]
  omega

theorem saveCovBin_ok : ∀ (l : List (ℕ × ℕ × Mat F n)) (f : List (List Char × List (Vec F n))),
    l ≠ [] → (∀ c ∈ l, datasetName c.1 c.2.1 ∉ f.map Prod.fst) →
    l.Pairwise (fun a b => datasetName a.1 a.2.1 ≠ datasetName b.1 b.2.1) →
    ∀ g : BinFile F n, g.getD [] = f →
    l.foldlM saveCovBin g = .ok (some (f ++ l.map fun c => (datasetName c.1 c.2.1, List.ofFn c.2.2)))
  | [], _, h, _, _, _, _ => absurd rfl h
  | [c], f, _, hf, _, g, hg => by
    rw [List.foldlM_cons]
    unfold saveCovBin saveToBinFile
    rw [hg, if_neg (hf c (by simp))]
    rfl
  | c :: d :: l, f, _, hf, hp, g, hg => by
    rw [List.foldlM_cons]
    have e : saveCovBin g c = .ok (some (f ++ [(datasetName c.1 c.2.1, List.ofFn c.2.2)])) := by
      unfold saveCovBin saveToBinFile
      rw [hg, if_neg (hf c (by simp))]
    rw [e, ok_bind, saveCovBin_ok (d :: l) (f ++ [(datasetName c.1 c.2.1, List.ofFn c.2.2)]) (by simp)
      (fun x hx => by
        simp only [List.map_append, List.map_cons, List.map_nil, List.mem_append, List.mem_cons,
          List.not_mem_nil, or_false, not_or]
        exact ⟨hf x (List.mem_cons_of_mem _ hx), fun he => (List.pairwise_cons.1 hp).1 x hx he.symm⟩)
      (List.pairwise_cons.1 hp).2 _ rfl]
    simp

/-- **C97, full statement:** read back from a new binary file the log has the matrices one after the
other.  **Proved here** if all entries but the first have start numbers with the same number of
digits.  Missing: other numbers of samples and block sizes, `C97_binary_refuted`. -/
theorem C97_binary_partial {U : UserFuns F N (nS flags) m} {o : Obj F flags m} {G : Rng σ F}
    {L : Lapack F} {fuel : ℕ} {rng : σ} {up : Bool} {out : RunOut F σ flags m}
    (h : runSimulation U G L fuel o rng up = .ok out) (digits : ℕ)
    (hd : ∀ c ∈ out.final.covlogs, c.1 ≠ 0 → (Nat.toDigits 10 c.1).length = digits) :
    ∃ f, out.final.covlogs.foldlM saveCovBin none = .ok f ∧
      readInBinFile f = some (out.final.covlogs.flatMap fun c => List.ofFn c.2.2) := by
  obtain ⟨sz, n, hn, hn2, hsz, hszv, hlen, hR, hq, hl⟩ := run_covlogs h
  have hne : out.final.covlogs ≠ [] := by rw [hl]; simp
  have hstarts : out.final.covlogs.Pairwise fun a b => a.1 < b.1 := by
    rw [hl, List.pairwise_append]
    refine ⟨?_, by simp, ?_⟩
    · rw [List.pairwise_map]
      refine List.pairwise_lt_range.imp fun {a b} hab => ?_
      exact Nat.mul_lt_mul_of_pos_right hab (by omega)
    · intro x hx y hy
      obtain ⟨j, hj, rfl⟩ := List.mem_map.1 hx
      rw [List.mem_singleton.1 hy]
      exact Nat.mul_lt_mul_of_pos_right (List.mem_range.1 hj) (by omega)
  have hnames : out.final.covlogs.Pairwise fun a b =>
      datasetName a.1 a.2.1 < datasetName b.1 b.2.1 := by
    refine hstarts.imp_of_mem fun {a b} ha hb hab => datasetName_lt hab ?_
    by_cases h0 : a.1 = 0
    · exact Or.inl h0
    · exact Or.inr ((hd a ha h0).trans (hd b hb (by omega)).symm)
  refine ⟨_, saveCovBin_ok _ [] hne (by simp) (hnames.imp fun {a b} hab heq => by
      rw [heq] at hab; exact absurd hab (List.lt_irrefl _)) none rfl, ?_⟩
  rw [List.nil_append]
  obtain ⟨c, l, hcl⟩ := List.exists_cons_of_ne_nil hne
  rw [readInBinFile_ok (d := List.ofFn c.2.2) (rest := l.map fun c => List.ofFn c.2.2)
    (by rw [List.pairwise_map]; exact hnames) (by rw [hcl]; simp [Function.comp_def]) ?_]
  · rw [List.map_map, ← List.flatMap_def]; rfl
  · have : ∀ (k : ℕ) (l : List (List (Vec F (nS flags)))), (∀ x ∈ l, x.length = k) → Fits k l := by
      intro k l hl
      rcases List.eq_nil_or_concat l with rfl | ⟨l', x, rfl⟩
      · trivial
      · rw [List.concat_eq_append] at hl ⊢
        exact fits_of (fun y hy => hl y (by simp [hy])) (le_of_eq (hl x (by simp)))
    refine this _ _ fun x hx => ?_
    rcases List.mem_cons.1 hx with rfl | hx
    · rfl
    · obtain ⟨c', _, rfl⟩ := List.mem_map.1 hx
      simp

end

/-- a run that adapts every five iterations -/
def Toy.runAdapting (nsimu : ℤ) : Except PyErr (RunOut ℚ ℕ Toy.flags 1) :=
  runSimulation Toy.user Toy.rng Toy.lapack 100
    (newObj Toy.specs (defineSimulationOptions
        { method := .am, nsimu := nsimu, savesize := 2, adaptint := some 5 })
      Toy.extra Toy.settings Toy.data) 0 false

/-- **C97 is false for binary files:** with twelve samples in blocks of two the first block with a
start number of two digits is read before the others. -/
theorem C97_binary_refuted : ∃ out f rows, Toy.runAdapting 12 = .ok out ∧
    out.final.covlogs.foldlM saveCovBin none = .ok f ∧ readInBinFile f = some rows ∧
    rows ≠ out.final.covlogs.flatMap fun c => List.ofFn c.2.2 := by
  obtain ⟨⟨out, f, rows⟩, h, h1⟩ := exists_ok_and
    (x := do
      let out ← Toy.runAdapting 12
      let f ← out.final.covlogs.foldlM saveCovBin none
      let rows ← orRaise (readInBinFile f) .valueError
      Except.ok (out, f, rows))
    (fun p => !decide (p.2.2.map List.ofFn =
      (p.1.final.covlogs.flatMap fun c => List.ofFn c.2.2).map List.ofFn)) (by decide +kernel)
  rw [bind_ok] at h
  obtain ⟨_, e1, h⟩ := h
  rw [bind_ok] at h
  obtain ⟨_, e2, h⟩ := h
  rw [bind_ok] at h
  obtain ⟨_, e3, h⟩ := h
  cases h
  refine ⟨out, f, rows, e1, e2, orRaise_ok.1 e3, fun heq => ?_⟩
  rw [heq] at h1
  simp at h1

/-- the log of a run of seven samples in blocks of two -/
example : ∃ out, Toy.runAdapting 7 = .ok out ∧
    out.final.covlogs.map (fun c => (c.1, c.2.1)) = [(0, 2), (2, 4), (4, 6), (6, 6)] := by
  obtain ⟨out, h, h1⟩ := exists_ok_and (x := Toy.runAdapting 7)
    (fun o => decide (o.final.covlogs.map (fun c => (c.1, c.2.1)) =
      [(0, 2), (2, 4), (4, 6), (6, 6)])) (by decide +kernel)
  exact ⟨out, h, of_decide_eq_true h1⟩

/-- it can be read from a binary file -/
example : ∃ out f, Toy.runAdapting 7 = .ok out ∧ out.final.covlogs.foldlM saveCovBin none = .ok f ∧
    readInBinFile f = some (out.final.covlogs.flatMap fun c => List.ofFn c.2.2) := by
  obtain ⟨out, h, h1⟩ := exists_ok_and (x := Toy.runAdapting 7)
    (fun o => decide (∀ c ∈ o.final.covlogs,
      c.1 ≠ 0 → (Nat.toDigits 10 c.1).length = 1)) (by decide +kernel)
  obtain ⟨f, h2, h3⟩ := C97_binary_partial h 1 (of_decide_eq_true h1)
  exact ⟨out, f, h, h2, h3⟩

end Verif
