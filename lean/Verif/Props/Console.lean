import Verif.Lemmas.Console
import Verif.Lemmas.CovRun
import Verif.Props.Run
import Verif.Props.Valid
import Verif.Spec.XToy
import Mathlib.Tactic.NormNum
import Mathlib.Tactic.Linarith
import Mathlib.Tactic.FieldSimp
import Mathlib.Tactic.Positivity
import Mathlib.Tactic.GCongr

/-! # Properties of the console output: C104 - C107 -/

set_option linter.unusedSectionVars false

namespace Verif
section general
variable {F σ : Type} [PyFloat F] {N m : ℕ} {flags : Fin N → Bool}

/-! ### C104 -/

theorem start_RDR {U : UserFuns F N (nS flags) m} {L : Lapack F} {o o1 : Obj F flags m}
    {rng : σ} {up : Bool} {I : Init F σ flags m} {s0 : SimState F σ N (nS flags) m}
    (h : setupSimulator U L o rng up = .ok (o1, I, s0)) :
    if o.opts.method = .dram ∨ o.opts.method = .dr then ∃ l, s0.cov.RDR = .some l
    else s0.cov.RDR = o.covRDR := by
  have hst := (setup_start h).1
  obtain ⟨_, ⟨R, _, h2⟩, _⟩ := initCovState_ok (initializeSimulation_cov (setupSimulator_init h))
  have hm : I.opts.method = o.opts.method := by rw [hst.init.opts, ← hst.opts]; rfl
  rw [hm] at h2
  rw [hst.cov]
  split
  · rename_i hc
    rw [if_pos hc] at h2
    obtain ⟨l, _, _, e, _⟩ := h2
    exact ⟨l, e⟩
  · rename_i hc
    rw [if_neg hc] at h2
    rw [h2.2.1]
    cases up with
    | false =>
      obtain ⟨_, _, _, _, _, _, _, _, _, hl⟩ := setup_fresh h
      unfold loadRestart at hl
      split at hl
      · cases hl; rfl
      · obtain ⟨_, _, hl⟩ := bind_ok.1 hl
        cases hl; rfl
    | true =>
      have := (setup_continue h).2.2.2.2.2.2.2.2.2
      rw [this]

/-- **C104 (partial).** A run that prints returns exactly what the same run returns without
printing.  Below verbosity 2, for the methods with delayed rejection, and for an object whose
covariance already has the attribute `_RDR`, the two calls agree completely: they raise the same
exceptions or return the same.  (Otherwise printing itself raises, see `C104_refuted`.) -/
theorem C104_output_partial {U : UserFuns F N (nS flags) m} {o : Obj F flags m}
    {G : Rng σ F} {L : Lapack F} {fuel : ℕ} {rng : σ} {up : Bool} (v : ℤ) :
    (∀ out lines, runVerbose U G L fuel v o rng up = .ok (out, lines) →
      runSimulation U G L fuel o rng up = .ok out) ∧
    (v < 2 ∨ o.opts.method = .dr ∨ o.opts.method = .dram ∨ o.covRDR ≠ .missing →
      (runVerbose U G L fuel v o rng up).map Prod.fst = runSimulation U G L fuel o rng up) := by
  refine ⟨fun out lines h => (runVerbose_ok h).1, fun hv => runVerbose_run U G L fuel v o rng up ?_⟩
  intro o1 I s0 hs
  unfold displayCurrentSettings
  split
  · rename_i h2
    have hR := start_RDR hs
    split
    · rename_i hmiss
      exfalso
      rw [hmiss] at hR
      split at hR
      · obtain ⟨_, e⟩ := hR; cases e
      · rename_i hc
        rcases hv with hv | hv | hv | hv
        · omega
        · exact hc (.inr hv)
        · exact hc (.inl hv)
        · exact hv hR.symm
    · exact ⟨_, rfl⟩
  · exact ⟨_, rfl⟩

/-- Printing does change runs: with verbosity 2 or more, the first run of a new object with a method
other than `dr` and `dram` ends in an `AttributeError`, whenever it would have completed silently. -/
theorem C104_fails {U : UserFuns F N (nS flags) m} {specs : Fin N → ParamSpec F} {opts : SimOpts F}
    {extra : ExtraOpts F (nS flags)} {ms : ModelSettings F} {data : Data}
    (hm : opts.method ≠ .dr ∧ opts.method ≠ .dram)
    {G : Rng σ F} {L : Lapack F} {fuel : ℕ} {rng : σ} {up : Bool} {v : ℤ} (hv : 2 ≤ v)
    {out : RunOut F σ flags m}
    (h : runSimulation U G L fuel (newObj specs opts extra ms data) rng up = .ok out) :
    runVerbose U G L fuel v (newObj specs opts extra ms data) rng up = .error .attributeError := by
  obtain ⟨o1, I, s0, h1, _⟩ := runSimulation_ok h
  have hR := start_RDR h1
  rw [if_neg (by rintro (e | e); exacts [hm.2 e, hm.1 e])] at hR
  unfold runVerbose
  rw [h1, ok_bind]
  dsimp only
  have : displayCurrentSettings v s0.cov = .error .attributeError := by
    unfold displayCurrentSettings
    rw [if_pos hv, hR]
    rfl
  rw [this]
  rfl

/-- A run of the sampler at verbosity 2 with the display of adaptation failing. -/
example : ∃ out, Toy.run .am 5 = .ok out ∧
    runVerbose Toy.user Toy.rng Toy.lapack 100 2 (Toy.obj .am 5) 0 false = .error .attributeError := by
  obtain ⟨out, h⟩ := exists_ok (x := Toy.run .am 5) (by decide +kernel)
  exact ⟨out, h, C104_fails ⟨by decide, by decide⟩ (v := 2) (by decide) h⟩

end general

/-- **C104 refuted.** It is not true that the amount of output never matters. -/
theorem C104_refuted : ¬ ∀ (v : ℤ) (o : Obj ℚ Toy.flags 1),
    (runVerbose Toy.user Toy.rng Toy.lapack 100 v o 0 false).map Prod.fst =
      runSimulation Toy.user Toy.rng Toy.lapack 100 o 0 false := by
  intro hall
  obtain ⟨out, h⟩ := exists_ok (x := Toy.run .am 5) (by decide +kernel)
  have h2 := hall 2 (Toy.obj .am 5)
  unfold Toy.run at h
  rw [h] at h2
  have h3 := C104_fails (v := 2) (specs := Toy.specs) (opts := Toy.opts .am 5) (extra := Toy.extra)
    (ms := Toy.settings) (data := Toy.data) (by decide) le_rfl h
  unfold Toy.obj at h2
  rw [h3] at h2
  cases h2

/-- printing runs that complete: `dram` with everything printed, `am` with verbosity 1 -/
example : (∃ out lines, runVerbose Toy.user Toy.rng Toy.lapack 100 100 (Toy.obj .dram 5) 0 false = .ok (out, lines) ∧
      lines.length = 9) ∧
    ∃ out lines, runVerbose Toy.user Toy.rng Toy.lapack 100 1 (Toy.obj .am 5) 0 false = .ok (out, lines) ∧
      lines.length = 3 := by
  constructor
  · obtain ⟨⟨out, lines⟩, h, h1⟩ := exists_ok_and
      (x := runVerbose Toy.user Toy.rng Toy.lapack 100 100 (Toy.obj .dram 5) 0 false)
      (fun o => decide (o.2.length = 9)) (by decide +kernel)
    exact ⟨out, lines, h, of_decide_eq_true h1⟩
  · obtain ⟨⟨out, lines⟩, h, h1⟩ := exists_ok_and
      (x := runVerbose Toy.user Toy.rng Toy.lapack 100 1 (Toy.obj .am 5) 0 false)
      (fun o => decide (o.2.length = 3)) (by decide +kernel)
    exact ⟨out, lines, h, of_decide_eq_true h1⟩

/-! ### C105 -/

section table
variable {F σ : Type} [PyFloat F] {N m : ℕ} {flags : Fin N → Bool}

theorem userPrior_of_specs (specs : Fin N → ParamSpec F) : UserPrior flags specs
    (atParind flags fun k => setupPriorMu (specs k).priorMu (specs k).theta0)
    (atParind flags fun k => setupPriorSigma (specs k).priorSigma) := by
  intro i k hk
  have hik : parindOf flags i = k := by
    obtain ⟨_, hk⟩ := List.getElem?_eq_some_iff.1 hk
    exact hk
  unfold atParind
  dsimp only
  rw [hik]
  refine ⟨⟨fun hp => ?_, fun hp => ?_⟩, fun hb hl => ?_, fun hb => ?_⟩
  · unfold setupPriorMu
    rw [if_neg (by rw [hp]; simp)]
  · unfold setupPriorMu
    rw [if_pos hp]
  · unfold setupPriorSigma
    dsimp only
    have e : (if PyFloat.beq (specs k).priorSigma (lit 0) = true then PyFloat.inf
        else (specs k).priorSigma) = (specs k).priorSigma := if_neg (by rw [hb]; simp)
    rw [e, if_neg (by rw [hl]; simp)]
  · unfold setupPriorSigma
    dsimp only
    by_cases hc : PyFloat.beq (specs k).priorSigma (lit 0) = true
    · simp [hc]
    · have := hb.resolve_left hc
      simp [hc, this]

theorem displayTable_rows (p : Fin N → ParamSpec F) (v : ℤ) :
    (displayParameterSettings flags p v).filterMap Line.row? = if 0 < v then
      (sampledIdx flags).map fun k => ((p k).name, [(p k).theta0, (p k).minimum, (p k).maximum,
        setupPriorMu (p k).priorMu (p k).theta0, setupPriorSigma (p k).priorSigma],
        !PyFloat.isinf (setupPriorSigma (p k).priorSigma), false) else [] := by
  unfold displayParameterSettings
  split
  · rw [List.filterMap_cons_none (by rfl), List.filterMap_map]
    rw [← List.filterMap_eq_map]
    congr 1
  · rfl

theorem step_rows {E : Env F σ N (nS flags) m} {v : ℤ} {k : Option ℤ} {c c' : Console F σ N (nS flags) m}
    {i : ℕ} (hs : verboseStep E v k c i = .ok c') :
    c'.lines.filterMap Line.row? = c.lines.filterMap Line.row? := by
  obtain ⟨p, l2, l3, hp, hpr, hl, hl3⟩ := verboseStep_ok hs
  have h2 : l2.filterMap Line.row? = [] := by
    unfold printRejections at hpr
    split at hpr
    · have := congrArg Prod.snd hpr; dsimp only at this; rw [← this]; rfl
    · split at hpr
      · have := congrArg Prod.snd hpr; dsimp only at this; rw [← this]; exact message_filterMap _ rfl
      · have := congrArg Prod.snd hpr; dsimp only at this; rw [← this]; rfl
  have h3 : l3.filterMap Line.row? = [] := by
    split at hl3
    · rw [List.filterMap_eq_nil_iff]
      intro x hx
      have := runAdaptationV_lines hl3 x hx
      cases x <;> simp_all [Line.ofAdaptation, Line.row?]
    · rw [hl3]; rfl
  rw [hl, List.filterMap_append, List.filterMap_append, List.filterMap_append, h2, h3,
    message_filterMap _ rfl]
  simp

/-- **C105 (partial).** With verbosity above 0 a run prints one line per sampled parameter, in their
order, and none otherwise: the name, the value the run starts from, the limits, and the centre and
width of the prior it uses; `^2` follows the width unless it is infinite.  For a run from scratch
the printed start is the first row of the chain, and centre and width are the user's.
(No line ends with the mark `(*)`, see `C105_mark_refuted`.) -/
theorem C105_table_partial {U : UserFuns F N (nS flags) m} {o : Obj F flags m}
    {G : Rng σ F} {L : Lapack F} {fuel : ℕ} {rng : σ} {up : Bool} {v : ℤ}
    {out : RunOut F σ flags m} {lines : List (Line F)}
    (h : runVerbose U G L fuel v o rng up = .ok (out, lines)) :
    ∃ start mu sigma : Vec F (nS flags),
      (0 < v → (lines.filterMap Line.row?).length = ((List.finRange N).filter flags).length ∧
        ∀ i k, ((List.finRange N).filter flags)[i.val]? = some k →
          (lines.filterMap Line.row?)[i.val]? = some ((o.specs k).name, [start i, (o.specs k).minimum,
            (o.specs k).maximum, mu i, sigma i], !PyFloat.isinf (sigma i), false)) ∧
      (v ≤ 0 → lines.filterMap Line.row? = []) ∧
      (∃ r, out.final.moveLog[0]? = some r ∧ r.before.theta = start ∧
        r.before.prior = U.priorFun start mu sigma) ∧
      (up = false → out.results.chain[0]? = some start ∧
        (o.extra.jsonRestart = none → UserPrior flags o.specs mu sigma)) := by
  obtain ⟨hrun, o1, s0, l2, c, h1, h2, h3, h4, h5⟩ := runVerbose_ok h
  have hst := (setup_start h1).1
  have hl2 : l2.filterMap Line.row? = [] := by
    unfold displayCurrentSettings at h2
    split at h2
    · split at h2
      · cases h2
      · cases h2; rfl
    · cases h2; rfl
  obtain ⟨hn, c1, ⟨hP, hM⟩, hlin, hsim⟩ := verboseSimulator_inv
    (P := fun i c => c.lines.filterMap Line.row? =
        (displayParameterSettings flags o1.specs v).filterMap Line.row? ∧
      ((i = 1 ∧ c.sim.moveLog = [] ∧ c.sim.oldSet = s0.oldSet) ∨
        ∃ r t, c.sim.moveLog = r :: t ∧ r.before = s0.oldSet))
    ⟨by rw [List.filterMap_append, List.filterMap_append, hl2, message_filterMap _ rfl]; simp,
      .inl ⟨rfl, by simp [loopStart, hst.moveLog], rfl⟩⟩
    (fun i a b hi _ hP hs => ⟨by rw [step_rows hs, hP.1], by
      obtain ⟨p, _, _, hp, _⟩ := verboseStep_ok hs
      right
      rw [hp.moveLog]
      rcases hP.2 with ⟨_, e1, e2⟩ | ⟨r, t, e1, e2⟩
      · exact ⟨_, _, by rw [e1]; rfl, e2⟩
      · exact ⟨r, _, by rw [e1]; rfl, e2⟩⟩) h3
  rw [displayTable_rows] at hP
  have hrow := hP
  rw [← hlin, ← h5] at hrow
  have hn' : (runOpts out.init.opts o1.extra).nsimu ≠ 1 := by dsimp only at hn; omega
  refine ⟨out.init.initialSet.theta,
    atParind flags fun k => setupPriorMu (o1.specs k).priorMu (o1.specs k).theta0,
    atParind flags fun k => setupPriorSigma (o1.specs k).priorSigma, fun hv => ?_, fun hv => ?_, ?_,
    fun hu => ⟨?_, fun hj => ?_⟩⟩
  · rw [hrow, if_pos hv]
    refine ⟨by rw [List.length_map]; rfl, fun i k hk => ?_⟩
    have hik : parindOf flags i = k := by
      obtain ⟨_, hk⟩ := List.getElem?_eq_some_iff.1 hk
      exact hk
    have hk' : (sampledIdx flags)[i.val]? = some k := hk
    rw [List.getElem?_map, hk', Option.map_some, hst.init.theta]
    unfold atParind
    dsimp only
    rw [hik, hst.same.name, hst.same.minimum, hst.same.maximum]
  · rw [hrow, if_neg (by omega)]
  · rcases hM with ⟨e, _⟩ | ⟨r, t, e1, e2⟩
    · exact absurd e hn'
    · refine ⟨r, by rw [h4, hsim]; dsimp only; rw [e1]; rfl, by rw [e2, hst.oldSet], ?_⟩
      rw [e2, hst.oldSet, hst.init.prior, hst.init.priorFun]
  · subst hu
    obtain ⟨o2, I2, s2, g1, g2, g3, g4, g5⟩ := runSimulation_ok hrun
    rw [h1] at g1
    cases g1
    obtain ⟨_, hpos, hci, hch, hsc, _⟩ := setup_fresh h1
    have hp : 0 < out.init.opts.nsimu.toNat := by omega
    have hcur : s0.chain[s0.chainIndex]? = some s0.oldSet.theta := by
      rw [hch, hci, hst.oldSet, List.getElem?_set_self (by simpa [zeroRows] using hp)]
    have hcur' : s0.sschain[s0.chainIndex]? = some s0.oldSet.ss := by
      rw [hsc, hci, hst.oldSet, List.getElem?_set_self (by simpa [zeroRows] using hp)]
    obtain ⟨_, s1, hR, hfin⟩ := executeSimulator_inv
      (P := fun i s => RowInv out.init.problem s0 i s) (RowInv.init hcur hcur')
      (fun i a b p hi _ hP hp => hP.step hi hp) g2
    rw [(generateResults_ok g3).2.2.2.2.2.1, hfin]
    dsimp only
    rw [hR.pre 0 (Nat.zero_le _), hch, List.getElem?_set_self (by simpa [zeroRows] using hp)]
  · subst hu
    obtain rfl := (setup_fresh h1).2.2.2.2.2.2.2.1 hj
    exact userPrior_of_specs o1.specs

end table

/-- the table of the example run: `c` starts at 2 -/
example : ∃ out lines, runVerbose Toy.user Toy.rng Toy.lapack 100 1 (Toy.obj .dram 5) 0 false = .ok (out, lines) ∧
    lines.filterMap Line.row? = [("a", [1, -2, 4, 1, 1000000], false, false), ("c", [2, -2, 4, 2, 1000000], false, false)] := by
  obtain ⟨⟨out, lines⟩, h, h1⟩ := exists_ok_and
    (x := runVerbose Toy.user Toy.rng Toy.lapack 100 1 (Toy.obj .dram 5) 0 false)
    (fun o => decide (o.2.filterMap Line.row? =
      [("a", [1, -2, 4, 1, 1000000], false, false), ("c", [2, -2, 4, 2, 1000000], false, false)])) (by decide +kernel)
  exact ⟨out, lines, h, of_decide_eq_true h1⟩

/-- **C105 refuted for the mark.** Parameters that are not adapted should be marked `(*)` in the
table; they are not. -/
theorem C105_mark_refuted : ¬ ∀ (o : Obj ℚ Toy.flags 1) (out : RunOut ℚ ℕ Toy.flags 1) (lines : List (Line ℚ)),
    runVerbose Toy.user Toy.rng Toy.lapack 100 1 o 0 false = .ok (out, lines) →
    ∀ (i : ℕ) (k : Fin 3) (row : String × List ℚ × Bool × Bool),
      ((List.finRange 3).filter Toy.flags)[i]? = some k →
      (lines.filterMap Line.row?)[i]? = some row →
      ((o.specs k).adapt = false ↔ row.2.2.2 = true) := by
  intro hall
  let specs' : Fin 3 → ParamSpec ℚ := fun k => { Toy.specs k with adapt := false }
  let o' : Obj ℚ Toy.flags 1 := newObj specs' (Toy.opts .dram 5) Toy.extra Toy.settings Toy.data
  obtain ⟨⟨out, lines⟩, h⟩ := exists_ok (x := runVerbose Toy.user Toy.rng Toy.lapack 100 1 o' 0 false)
    (by decide +kernel)
  obtain ⟨start, mu, sigma, h1, _⟩ := C105_table_partial h
  have h2 := (h1 (by decide)).2 ⟨0, by decide⟩ 0 (by decide)
  have h3 := (hall o' out lines h 0 0 _ (by decide) h2).1 rfl
  cases h3

/-! ### C106 -/

section progress
variable {F σ : Type} [PyFloat F] {N m : ℕ} {flags : Fin N → Bool}

/-- **C106.** The reports of the rejections: with verbosity 2 or more and a print interval `K > 0` the
run prints one exactly at every iteration that is a multiple of `K`, in order; below verbosity 2, or with
an interval that is not positive, it prints none.  The first number is the share of rejected moves
so far, the second that among the moves since the last adaptation (an adaptation in this very
iteration not counted), the third the share of moves rejected with their last proposal outside the
limits.  Without an interval given by the user it is `max(100, min(1000, adaptint))`. -/
theorem C106_progress {U : UserFuns F N (nS flags) m} {o : Obj F flags m}
    {G : Rng σ F} {L : Lapack F} {fuel : ℕ} {rng : σ} {up : Bool} {v : ℤ}
    {out : RunOut F σ flags m} {lines : List (Line F)}
    (h : runVerbose U G L fuel v o rng up = .ok (out, lines)) (K : ℤ)
    (hK : K = o.opts.printint.getD (max 100 (min 1000 o.opts.adaptint))) :
    lines.filterMap Line.report? = if 2 ≤ v ∧ 0 < K then
      ((List.range o.opts.nsimu.toNat).filter fun i : ℕ => decide (0 < i ∧ K ∣ (i : ℤ))).map fun i =>
        (i, totalShare out.final.trace i, intervalShare out.final.trace out.final.adaptedAt i,
          outsideShare out.final.trace i)
      else [] := by
  obtain ⟨hrun, o1, s0, l2, c, h1, h2, h3, h4, h5⟩ := runVerbose_ok h
  have hst := (setup_start h1).1
  have hpr : out.init.opts.printint = some K := by
    rw [hst.init.opts, hst.opts, hK]
    unfold checkDependentSimulationOptions
    dsimp only
    cases o.opts.printint <;> rfl
  have hnsim : (runOpts out.init.opts o1.extra).nsimu = o.opts.nsimu.toNat := by
    unfold runOpts
    rw [hst.init.opts, hst.opts]; rfl
  have hl0 : (message v 2 .priorNote ++ displayParameterSettings flags o1.specs v ++ l2).filterMap
      Line.report? = [] := by
    have e2 : l2.filterMap Line.report? = [] := by
      unfold displayCurrentSettings at h2
      split at h2
      · split at h2
        · cases h2
        · cases h2; rfl
      · cases h2; rfl
    have e1 : (displayParameterSettings flags o1.specs v).filterMap Line.report? = [] := by
      rw [List.filterMap_eq_nil_iff]
      intro x hx
      unfold displayParameterSettings at hx
      split at hx
      · rcases List.mem_cons.1 hx with rfl | hx
        · rfl
        · obtain ⟨k, _, rfl⟩ := List.mem_map.1 hx
          rfl
      · cases hx
    rw [List.filterMap_append, List.filterMap_append, e1, e2, message_filterMap _ rfl]
    simp
  rw [hpr] at h3
  by_cases hKpos : 0 < K
  · obtain ⟨k, rfl⟩ : ∃ k : ℕ, K = k := ⟨K.toNat, by omega⟩
    have hk : 0 < k := by omega
    obtain ⟨hn, c1, hP, hlin, hsim⟩ := verboseSimulator_inv (P := ProgInv v k)
      ⟨RejInv.init hst.trace hst.adaptedAt, by simp, by rw [hl0]; simp⟩
      (fun i a b hi _ hP hs => hP.step hk hi hs) h3
    dsimp only at hn hP
    rw [h5, hlin, hP.lines]
    by_cases hv : 2 ≤ v
    · rw [if_pos hv, if_pos ⟨hv, hKpos⟩, h4, hsim]
      dsimp only
      congr 1
      rw [hnsim] at hn ⊢
      rw [List.range_eq_range', show o.opts.nsimu.toNat = (o.opts.nsimu.toNat - 1) + 1 by omega,
        List.range'_succ, List.filter_cons_of_neg (by simp)]
      refine List.filter_congr fun i hi => ?_
      rw [List.mem_range'_1] at hi
      have : 0 < i := by omega
      simp [this, Int.natCast_dvd_natCast]
    · rw [if_neg hv, if_neg (fun hh => hv hh.1)]
  · rw [if_neg (fun hh => hKpos hh.2)]
    obtain ⟨hn, c1, hP, hlin, hsim⟩ := verboseSimulator_inv
      (P := fun i c => c.lines.filterMap Line.report? = []) hl0
      (fun i a b hi _ hP hs => by
        obtain ⟨p, l2, l3, hp, hpr, hl, hl3⟩ := verboseStep_ok hs
        rw [printRejections_none (by intro K' e; cases e; omega) (Nat.succ_pos _)] at hpr
        have e2 := congrArg Prod.snd hpr
        dsimp only at e2
        have e3 : l3.filterMap Line.report? = [] := by
          split at hl3
          · exact ofAdaptation_report (runAdaptationV_lines hl3)
          · rw [hl3]; rfl
        rw [hl, List.filterMap_append, List.filterMap_append, List.filterMap_append, hP, ← e2, e3,
          message_filterMap _ rfl]
        rfl) h3
    rw [h5, hlin, hP]

/-- **C107.** The lines about adaptations are, one after the other, those about each adaptation of the
run, and they say what happened to the proposal: see `Reported`. -/
theorem C107_adaptation_messages {U : UserFuns F N (nS flags) m} {o : Obj F flags m}
    {G : Rng σ F} {L : Lapack F} {fuel : ℕ} {rng : σ} {up : Bool} {v : ℤ}
    {out : RunOut F σ flags m} {lines : List (Line F)}
    (h : runVerbose U G L fuel v o rng up = .ok (out, lines)) :
    ∃ ls : List (List (Line F)), lines.filter Line.ofAdaptation = ls.flatten ∧
      List.Forall₂ (Reported L o.opts.burnintime o.extra.burninScale o.extra.qcovAdjust o.extra.etaparam
        o.extra.alphatarget o.opts.doram v out.final.trace out.final.adaptedAt) out.final.adaptLog ls := by
  obtain ⟨hrun, o1, s0, l2, c, h1, h2, h3, h4, h5⟩ := runVerbose_ok h
  have hst := (setup_start h1).1
  have hex : o1.extra.burninScale = o.extra.burninScale ∧ o1.extra.qcovAdjust = o.extra.qcovAdjust ∧
      o1.extra.etaparam = o.extra.etaparam ∧ o1.extra.alphatarget = o.extra.alphatarget := by
    cases up with
    | false =>
      obtain ⟨_, _, _, _, _, _, _, _, _, hl⟩ := setup_fresh h1
      unfold loadRestart at hl
      split at hl
      · cases hl; exact ⟨rfl, rfl, rfl, rfl⟩
      · obtain ⟨_, _, hl⟩ := bind_ok.1 hl
        cases hl; exact ⟨rfl, rfl, rfl, rfl⟩
    | true =>
      have := (setup_continue h1).2.2.2.2.2.2.2.2.2
      rw [this]; exact ⟨rfl, rfl, rfl, rfl⟩
  have hl0 : (message v 2 .priorNote ++ displayParameterSettings flags o1.specs v ++ l2).filter
      Line.ofAdaptation = [] := by
    have e2 : l2.filter Line.ofAdaptation = [] := by
      unfold displayCurrentSettings at h2
      split at h2
      · split at h2
        · cases h2
        · cases h2; rfl
      · cases h2; rfl
    have e1 : (displayParameterSettings flags o1.specs v).filter Line.ofAdaptation = [] := by
      rw [List.filter_eq_nil_iff]
      intro x hx
      unfold displayParameterSettings at hx
      split at hx
      · rcases List.mem_cons.1 hx with rfl | hx
        · simp [Line.ofAdaptation]
        · obtain ⟨k, _, rfl⟩ := List.mem_map.1 hx
          simp [Line.ofAdaptation]
      · cases hx
    rw [List.filter_append, List.filter_append, e1, e2, message_filter _ rfl]
    simp
  obtain ⟨hn, c1, hP, hlin, hsim⟩ := verboseSimulator_inv
    (P := AdaptLinesInv ⟨out.init.problem, G, L, runOpts out.init.opts o1.extra, fuel⟩ v)
    ⟨RejInv.init hst.trace hst.adaptedAt, by simp [loopStart, hst.adaptLog], [], by rw [hl0]; rfl, by
      simp [loopStart, hst.adaptLog]⟩
    (fun i a b hi _ hP hs => hP.step hs) h3
  obtain ⟨ls, e1, e2⟩ := hP.lines
  refine ⟨ls, by rw [h5, hlin, e1], ?_⟩
  rw [h4, hsim]
  dsimp only [runOpts] at e2 ⊢
  have hopt : out.init.opts.burnintime = o.opts.burnintime ∧ out.init.opts.doram = o.opts.doram := by
    rw [hst.init.opts, hst.opts]; exact ⟨rfl, rfl⟩
  rw [hex.1, hex.2.1, hex.2.2.1, hex.2.2.2, hopt.1, hopt.2] at e2
  exact e2

end progress

/-- a Cholesky factorisation that only accepts matrices with ones on the diagonal -/
def Toy.picky : Lapack ℚ :=
  ⟨fun {n} M => if (List.finRange n).all (fun i => decide (M i i = 1)) then some M else none, fun M => some M⟩

/-- the second run of an object, with adaptation every 3 iterations, burn-in 4 and reports every 2 -/
def Toy.talking (L : Lapack ℚ) (v : ℤ) : Except PyErr (RunOut ℚ ℕ Toy.flags 1 × List (Line ℚ)) := do
  let o := newObj Toy.specs (defineSimulationOptions
    { method := .am, nsimu := 9, adaptint := some 3, burnintime := 4, printint := some 2 }) Toy.extra
    Toy.settings Toy.data
  let a ← runSimulation Toy.user Toy.rng Toy.lapack 100 o 0 false
  runVerbose Toy.user Toy.rng L 100 v a.obj 0 false

/-- reports at 2, 4, 6 and 8; 4 of the first 8 moves were rejected, 1 of the 2 since iteration 6 -/
example : ∃ out lines, Toy.talking Toy.lapack 2 = .ok (out, lines) ∧
    (lines.filterMap Line.report?).map Prod.fst = [2, 4, 6, 8] ∧
    (lines.filterMap Line.report?)[3]? = some (8, 50, 50, 50) := by
  obtain ⟨⟨out, lines⟩, h, h1⟩ := exists_ok_and (x := Toy.talking Toy.lapack 2)
    (fun o => decide ((o.2.filterMap Line.report?).map Prod.fst = [2, 4, 6, 8] ∧
      (o.2.filterMap Line.report?)[3]? = some (8, 50, 50, 50))) (by decide +kernel)
  exact ⟨out, lines, h, of_decide_eq_true h1⟩

/-- two adaptations, reported in two lines; with a Cholesky factorisation that fails there is a third:
the second adaptation is reported as impossible -/
example : (∃ out lines, Toy.talking Toy.lapack 3 = .ok (out, lines) ∧ out.final.adaptedAt = [3, 6] ∧
      (lines.filter Line.ofAdaptation).length = 2) ∧
    ∃ out lines, Toy.talking Toy.picky 3 = .ok (out, lines) ∧
      out.final.adaptedAt = [3, 6] ∧ (lines.filter Line.ofAdaptation).length = 3 := by
  constructor
  · obtain ⟨⟨out, lines⟩, h, h1⟩ := exists_ok_and (x := Toy.talking Toy.lapack 3)
      (fun o => decide (o.1.final.adaptedAt = [3, 6] ∧ (o.2.filter Line.ofAdaptation).length = 2))
      (by decide +kernel)
    exact ⟨out, lines, h, of_decide_eq_true h1⟩
  · obtain ⟨⟨out, lines⟩, h, h1⟩ := exists_ok_and (x := Toy.talking Toy.picky 3)
      (fun o => decide (o.1.final.adaptedAt = [3, 6] ∧ (o.2.filter Line.ofAdaptation).length = 3))
      (by decide +kernel)
    exact ⟨out, lines, h, of_decide_eq_true h1⟩

section exact
open XR
variable {σ : Type} {N m : ℕ} {flags : Fin N → Bool}

theorem percentage_XR {a b : ℕ} (hb : 0 < b) : (percentage a b : XR) = .fin (100 * a / b) := by
  have hb' : (b : ℝ) ≠ 0 := by exact_mod_cast hb.ne'
  unfold percentage
  simp only [lit_eq]
  rw [fin_div (by simpa using hb'), fin_mul, fin_mul, fin_inj]
  push_cast
  field_simp

theorem lastBefore_lt {l : List ℕ} {i : ℕ} (hi : 0 < i) : lastBefore l i < i := by
  unfold lastBefore
  cases h : (l.filter (· < i)).getLast? with
  | none => exact hi
  | some a =>
    have := List.mem_of_getLast? h
    simpa using (List.mem_filter.1 this).2

/-- **C106 in exact arithmetic.** The numbers in the reports are percentages: finite, between 0 and
100, the third not above the first. -/
theorem C106_exact {U : UserFuns XR N (nS flags) m} {o : Obj XR flags m}
    {G : Rng σ XR} {L : Lapack XR} {fuel : ℕ} {rng : σ} {up : Bool} {v : ℤ}
    {out : RunOut XR σ flags m} {lines : List (Line XR)}
    (h : runVerbose U G L fuel v o rng up = .ok (out, lines)) {i : ℕ} {x y z : XR}
    (hl : Line.rejections i x y z ∈ lines) :
    ∃ a b c : ℝ, x = .fin a ∧ y = .fin b ∧ z = .fin c ∧
      a = 100 * ((out.final.trace.take i).countP Rejection : ℝ) / i ∧
      b = 100 * (((out.final.trace.take i).drop (lastBefore out.final.adaptedAt i)).countP Rejection : ℝ) /
        (i - lastBefore out.final.adaptedAt i : ℕ) ∧
      c = 100 * ((out.final.trace.take i).countP RejectedOutside : ℝ) / i ∧
      0 ≤ c ∧ c ≤ a ∧ a ≤ 100 ∧ 0 ≤ b ∧ b ≤ 100 := by
  have hm : (i, x, y, z) ∈ lines.filterMap Line.report? := List.mem_filterMap.2 ⟨_, hl, rfl⟩
  rw [C106_progress h _ rfl] at hm
  split at hm
  · obtain ⟨j, hj, e⟩ := List.mem_map.1 hm
    simp only [Prod.mk.injEq] at e
    obtain ⟨rfl, e1, e2, e3⟩ := e
    have hj := (List.mem_filter.1 hj).2
    have hpos : 0 < j := (of_decide_eq_true hj).1
    have hlb := lastBefore_lt (l := out.final.adaptedAt) hpos
    have hj0 : (0 : ℝ) < j := by exact_mod_cast hpos
    have hd0 : (0 : ℝ) < (j - lastBefore out.final.adaptedAt j : ℕ) := by
      exact_mod_cast Nat.sub_pos_of_lt hlb
    have hc1 : (out.final.trace.take j).countP Rejection ≤ j :=
      List.countP_le_length.trans (by simp)
    have hc2 : ((out.final.trace.take j).drop (lastBefore out.final.adaptedAt j)).countP Rejection ≤
        j - lastBefore out.final.adaptedAt j :=
      List.countP_le_length.trans (by simp; omega)
    have hc3 : (out.final.trace.take j).countP RejectedOutside ≤
        (out.final.trace.take j).countP Rejection := by
      refine List.countP_mono_left fun ts _ hts => ?_
      unfold RejectedOutside at hts
      simp only [Bool.and_eq_true] at hts
      exact hts.1
    refine ⟨_, _, _, ?_, ?_, ?_, rfl, rfl, rfl, ?_, ?_, ?_, ?_, ?_⟩
    · rw [← e1]; exact percentage_XR hpos
    · rw [← e2]; exact percentage_XR (Nat.sub_pos_of_lt hlb)
    · rw [← e3]; exact percentage_XR hpos
    · positivity
    · have : ((out.final.trace.take j).countP RejectedOutside : ℝ) ≤
        (out.final.trace.take j).countP Rejection := by exact_mod_cast hc3
      gcongr
    · rw [div_le_iff₀ hj0]
      have : ((out.final.trace.take j).countP Rejection : ℝ) ≤ j := by exact_mod_cast hc1
      linarith
    · positivity
    · rw [div_le_iff₀ hd0]
      have : (((out.final.trace.take j).drop (lastBefore out.final.adaptedAt j)).countP Rejection : ℝ) ≤
        (j - lastBefore out.final.adaptedAt j : ℕ) := by exact_mod_cast hc2
      linarith
  · cases hm

/-- A valid problem of three steps printing a progress line at step 2. -/
example : ∃ (out : RunOut XR Unit XRun.flags 1) (lines : List (Line XR)) (x y z : XR),
    runVerbose XRun.user XRun.rng exactLapack 0 2
      (XRun.obj { nsimu := 3, adaptint := some 2, printint := some 1 }) () false = .ok (out, lines) ∧
    Line.rejections 2 x y z ∈ lines := by
  obtain ⟨o, ho⟩ : ∃ o : Obj XR XRun.flags 1, o = XRun.obj { nsimu := 3, adaptint := some 2, printint := some 1 } :=
    ⟨_, rfl⟩
  have hx : ExactInputs XRun.rng exactLapack o := by
    subst ho
    exact ⟨exactLapack_ok, fun _ => ⟨fun _ => 1, rfl⟩, ⟨1, rfl⟩, ⟨10, rfl, by norm_num⟩, ⟨[5], rfl, by simp⟩, rfl,
      .inl rfl, ⟨_, .inl ⟨rfl, rfl⟩⟩, nofun⟩
  have hv : ValidProblem XRun.user o := by
    subst ho
    refine ⟨show (1 : ℤ) < 3 by decide, by decide, fun _ => ⟨0, rfl⟩, fun _ _ => ?_, .inl rfl,
      fun v => by simp [XRun.user], show XRun.data.n ≠ [] by decide,
      ⟨fun v hv => ?_, nofun, nofun, .inr (.inl rfl), .inl (by decide)⟩, rfl, rfl, ?_, ?_, nofun,
      fun _ => ⟨.inr rfl, rfl, fun _ => ⟨by change (0 : ℤ) ≤ 2; decide, by change [XR.fin 5] ≠ []; simp⟩⟩, rfl⟩
    · simp [XRun.obj, newObj, XRun.specs]
    · cases hv; exact .inl rfl
    · exact .inl ⟨fun _ => 1, rfl, fun _ => one_pos⟩
    · change [XR.fin 5] ≠ []
      simp
  obtain ⟨out, h, -⟩ := C76_fixed_variance (fuel := 0) hx hv () (by rw [ho]; rfl) (by rw [ho]; rfl)
  have h2 := (C104_output_partial (U := XRun.user) (o := o) (G := XRun.rng) (L := exactLapack) (fuel := 0) (rng := ())
    (up := false) 2).2 (.inr (.inr (.inl (by rw [ho]; rfl))))
  rw [h] at h2
  cases hr : runVerbose XRun.user XRun.rng exactLapack 0 2 o () false with
  | error e => rw [hr] at h2; cases h2
  | ok r =>
    obtain ⟨out', lines⟩ := r
    have h3 := C106_progress hr 1 (by rw [ho]; rfl)
    rw [if_pos ⟨by decide, by decide⟩] at h3
    have h4 : (2, totalShare out'.final.trace 2, intervalShare out'.final.trace out'.final.adaptedAt 2,
        outsideShare out'.final.trace 2) ∈ lines.filterMap Line.report? := by
      rw [h3]
      refine List.mem_map.2 ⟨2, List.mem_filter.2 ⟨List.mem_range.2 ?_, by simp⟩, rfl⟩
      rw [ho]
      change 2 < (3 : ℤ).toNat
      decide
    obtain ⟨l, hl, hl2⟩ := List.mem_filterMap.1 h4
    rw [← ho]
    cases l <;> simp only [Line.report?, Option.some.injEq, Prod.mk.injEq, reduceCtorEq] at hl2
    obtain ⟨rfl, -⟩ := hl2
    exact ⟨out', lines, _, _, _, hr, hl⟩

end exact

end Verif
