import Verif.Props.Progress
import Mathlib.Tactic.Ring
import Mathlib.Tactic.NormNum
import Mathlib.Tactic.Linarith
import Mathlib.Tactic.FieldSimp
import Mathlib.Tactic.Positivity
import Mathlib.Tactic.GCongr
import Mathlib.Tactic.FinCases
import Mathlib.Tactic.IntervalCases
import Mathlib.Tactic.LinearCombination

/-! # C61, C63: simulation options and short runs -/

namespace Verif
set_option linter.unusedSectionVars false

section Options
variable {F : Type} [PyFloat F]

/-- the defaults of the documentation: adaptation interval, number of tries, RAM flag, scale -/
def documentedDefaults : Method → ℤ × ℤ × Bool × Option F
  | .mh => (0, 1, false, none)
  | .am => (100, 1, false, none)
  | .dr => (0, 2, false, none)
  | .dram => (100, 2, false, none)
  | .ram => (1, 1, true, some (lit 1))

/-- **C61, defaults.** Options the user leaves out get the value documented for the method. -/
theorem C61_defaults (a : OptArgs F) :
    (a.adaptint = none → (defineSimulationOptions a).adaptint = (documentedDefaults (F := F) a.method).1) ∧
    (a.ntry = none → (defineSimulationOptions a).ntry = (documentedDefaults (F := F) a.method).2.1) ∧
    (a.doram = none → (defineSimulationOptions a).doram = (documentedDefaults (F := F) a.method).2.2.1) ∧
    (a.adascale = none → (defineSimulationOptions a).adascale = (documentedDefaults a.method).2.2.2) := by
  refine ⟨fun h => ?_, fun h => ?_, fun h => ?_, fun h => ?_⟩ <;>
    cases hm : a.method <;> simp [defineSimulationOptions, documentedDefaults, methodDictionary, h, hm]

/-- **C61, no adaptation.** With the methods `mh` and `dr` the adaptation interval is 0 (no
adaptation), whatever interval the user asks for; with the other methods the user's interval is
kept. -/
theorem C61_adaptint (a : OptArgs F) :
    ((a.method = .mh ∨ a.method = .dr) → (defineSimulationOptions a).adaptint = 0) ∧
    (∀ k, a.adaptint = some k → a.method ≠ .mh → a.method ≠ .dr →
      (defineSimulationOptions a).adaptint = k) := by
  constructor
  · rintro (h | h) <;> cases ha : a.adaptint <;>
      simp [defineSimulationOptions, methodDictionary, h, ha]
  · intro k hk h1 h2
    simp [defineSimulationOptions, hk, h1, h2]

/-- **C61, user values.** Every other value the user gives is kept. -/
theorem C61_kept (a : OptArgs F) :
    let o := defineSimulationOptions a
    (∀ k, a.ntry = some k → o.ntry = k) ∧ (∀ b, a.doram = some b → o.doram = b) ∧
    (∀ s, a.adascale = some s → o.adascale = some s) ∧
    o.nsimu = a.nsimu ∧ o.method = a.method ∧ o.printint = a.printint ∧ o.lastadapt = a.lastadapt ∧
    o.burnintime = a.burnintime ∧ o.updatesigma = a.updatesigma ∧ o.savesize = a.savesize ∧
    o.saveToBin = a.saveToBin ∧ o.saveToTxt = a.saveToTxt ∧ o.saveToJson = a.saveToJson ∧
    o.initqcovn = a.initqcovn := by
  refine ⟨fun k h => ?_, fun b h => ?_, fun s h => ?_, rfl, rfl, rfl, rfl, rfl, rfl, rfl, rfl, rfl,
    rfl, rfl⟩ <;> simp [defineSimulationOptions, h]

/-- **C61, light results.** With a json results file the chains are left out of it exactly when the
run also writes log files; without one the user's flag is kept. -/
theorem C61_lightly (a : OptArgs F) :
    (defineSimulationOptions a).saveLightly =
      if a.saveToJson then (a.saveToBin || a.saveToTxt) else a.saveLightly := by
  unfold defineSimulationOptions checkLightlySave
  cases a.saveToJson <;> cases a.saveToBin <;> cases a.saveToTxt <;> simp

/-- **C61, block size.** After the dependent checks the block size of the log files is at least 1
and at most the number of simulations; a block size in that range is kept. -/
theorem C61_savesize (o : SimOpts F) (b : Bool) (h : 1 ≤ o.nsimu) :
    let o' := checkDependentSimulationOptions o b
    1 ≤ o'.savesize ∧ o'.savesize ≤ o.nsimu ∧ o'.nsimu = o.nsimu ∧
    (1 ≤ o.savesize → o.savesize ≤ o.nsimu → o'.savesize = o.savesize) := by
  intro o'
  have e : o'.savesize = if o.savesize ≤ 0 ∨ o.savesize > o.nsimu then o.nsimu else o.savesize := rfl
  have e2 : o'.nsimu = o.nsimu := rfl
  rw [e, e2]
  split <;> refine ⟨by omega, by omega, rfl, fun _ _ => ?_⟩
  · omega
  · rfl

/-- **C61, other dependent values.** Delayed rejection is on exactly for two or more tries; no last
adaptation means the last iteration; the default print interval lies between 100 and 1000; a prior
weight for the error variance turns on its sampling. -/
theorem C61_dependent (o : SimOpts F) (b : Bool) :
    let o' := checkDependentSimulationOptions o b
    (o'.dodram = true ↔ 2 ≤ o.ntry) ∧
    (o.lastadapt < 1 → o'.lastadapt = o.nsimu) ∧ (1 ≤ o.lastadapt → o'.lastadapt = o.lastadapt) ∧
    (∀ k, o.printint = some k → o'.printint = some k) ∧
    (o.printint = none → ∃ k, o'.printint = some k ∧ 100 ≤ k ∧ k ≤ 1000 ∧
      (100 ≤ o.adaptint → o.adaptint ≤ 1000 → k = o.adaptint)) ∧
    (o'.updatesigma = true ↔ b = true ∨ o.updatesigma = true) ∧
    o'.adaptint = o.adaptint ∧ o'.ntry = o.ntry ∧ o'.method = o.method := by
  intro o'
  refine ⟨?_, fun h => ?_, fun h => ?_, fun k h => ?_, fun h => ?_, ?_, rfl, rfl, rfl⟩
  · show decide (o.ntry > 1) = true ↔ _
    rw [decide_eq_true_iff]
    omega
  · show (if o.lastadapt < 1 then o.nsimu else o.lastadapt) = _
    rw [if_pos h]
  · show (if o.lastadapt < 1 then o.nsimu else o.lastadapt) = _
    rw [if_neg (by omega)]
  · simp [o', checkDependentSimulationOptions, h]
  · refine ⟨max 100 (min 1000 o.adaptint), by simp [o', checkDependentSimulationOptions, h], ?_, ?_, ?_⟩
    · omega
    · omega
    · intros; omega
  · show (if b = true then true else o.updatesigma) = true ↔ _
    cases b <;> simp

/-- **C61, idempotent.** Running the dependent checks again changes nothing, so a second run with
the same object uses the same options. -/
theorem C61_idempotent (o : SimOpts F) (b : Bool) :
    checkDependentSimulationOptions (checkDependentSimulationOptions o b) b =
      checkDependentSimulationOptions o b := by
  obtain ⟨ns, ai, nt, me, pi, la, bu, up, ad, dr, sz, b1, b2, b3, b4, iq, dd⟩ := o
  simp only [checkDependentSimulationOptions, SimOpts.mk.injEq, and_true, true_and]
  refine ⟨?_, ?_, ?_, ?_⟩
  · cases pi <;> rfl
  · by_cases h : la < 1 <;> simp [h]
  · cases b <;> simp
  · by_cases h : sz ≤ 0 ∨ sz > ns <;> simp [h]

/-- a user asking for adaptation with `dr`, a block size beyond the run and a weight `N0` -/
example : ∃ a : OptArgs ℚ, a.method = .dr ∧ a.adaptint = some 50 ∧ a.savesize = 500 ∧ a.nsimu = 200 ∧
    (defineSimulationOptions a).adaptint = 0 ∧
    (checkDependentSimulationOptions (defineSimulationOptions a) true).savesize = 200 ∧
    (checkDependentSimulationOptions (defineSimulationOptions a) true).updatesigma = true ∧
    (checkDependentSimulationOptions (defineSimulationOptions a) true).printint = some 100 :=
  ⟨{ method := .dr, adaptint := some 50, savesize := 500, nsimu := 200 }, by decide +kernel⟩

end Options

/-! ### C63 -/

variable {F σ : Type} [PyFloat F] {N m : ℕ} {flags : Fin N → Bool}

/-- **C63 is false for a run of length one**: whatever the settings, functions and draws, a run that
has been set up for a single row fails with `UnboundLocalError` (a `NameError`) after the loop. -/
theorem C63_single_refuted {U : UserFuns F N (nS flags) m} {G : Rng σ F} {L : Lapack F} {fuel : ℕ}
    {o o1 : Obj F flags m} {rng : σ} {I : Init F σ flags m} {s0 : SimState F σ N (nS flags) m}
    (h : setupSimulator U L o rng false = .ok (o1, I, s0)) (hns : o.opts.nsimu = 1) :
    runSimulation U G L fuel o rng false = .error .nameError := by
  have hst := (setup_fresh h).1
  have hopts : I.opts = checkDependentSimulationOptions o.opts o.ms.N0.isSome := by
    rw [hst.init.opts, hst.opts, hst.ms]
  have e0 : I.opts.nsimu = 1 := by rw [hopts]; exact hns
  have e1 : (runOpts I.opts o1.extra).nsimu = 1 := by
    show I.opts.nsimu.toNat = 1
    rw [e0]; rfl
  unfold runSimulation
  rw [h, ok_bind]
  dsimp only
  have : ∀ E : Env F σ N (nS flags) m, E.opts.nsimu = 1 → executeSimulator E s0 = .error .nameError := by
    intro E hE
    unfold executeSimulator
    rw [hE]
    rfl
  rw [this _ e1]
  rfl

/-- **C63, full statement:** a run of any length `nsimu ≥ 1` that has been set up returns results.
**Proved here:** for `nsimu ≥ 2`, one try and no sampling of the error variance, with at least one
sampled parameter and data set and a sum-of-squares function that returns.  For `nsimu = 1` it is
false (`C63_single_refuted`); with several tries see `C64`, `C65`. -/
theorem C63_length_partial {U : UserFuns F N (nS flags) m} {G : Rng σ F} {L : Lapack F} {fuel : ℕ}
    {o o1 : Obj F flags m} {rng : σ} {I : Init F σ flags m} {s0 : SimState F σ N (nS flags) m}
    (h : setupSimulator U L o rng false = .ok (o1, I, s0)) (hns : 2 ≤ o.opts.nsimu)
    (hn : 0 < nS flags) (hsos : Computes U.style1 U.sosFun) (hobs : o.data.n ≠ [])
    (htry : o.opts.ntry ≤ 1) (hup : I.opts.updatesigma = false) :
    ∃ out, runSimulation U G L fuel o rng false = .ok out := by
  rcases C64_run_returns (G := G) (fuel := fuel) h (by omega) hn hsos (fun hd => by omega) hobs with
    hr | ⟨_, hd, _⟩ | ⟨_, hu, _⟩
  · exact hr
  · omega
  · rw [hup] at hu; cases hu

/-- a Metropolis run of four rows returns, the same problem with one row does not -/
example : (∃ out, Toy.run .mh 4 = .ok out) ∧ Toy.run .mh 1 = .error .nameError := by
  obtain ⟨⟨o1, I, s0⟩, h, hu⟩ := exists_ok_and
    (x := setupSimulator Toy.user Toy.lapack (Toy.obj .mh 4) 0 false)
    (fun r => !r.2.1.opts.updatesigma) (by decide +kernel)
  obtain ⟨⟨o1', I', s0'⟩, h'⟩ := exists_ok
    (x := setupSimulator Toy.user Toy.lapack (Toy.obj .mh 1) 0 false) (by decide +kernel)
  exact ⟨C63_length_partial (G := Toy.rng) (fuel := 100) h (by decide) (by decide)
    (fun v => by simp [Toy.user]) (by decide) (by decide) (by simpa using hu),
    C63_single_refuted h' rfl⟩

end Verif
