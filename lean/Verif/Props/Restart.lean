import Verif.Lemmas.CovRun
import Verif.Lemmas.Continue
import Verif.Spec.Toy

/-! # Restart from a results file (C33) -/

set_option linter.unusedSectionVars false

namespace Verif
variable {F σ : Type} [PyFloat F] {N m : ℕ} {flags : Fin N → Bool}

theorem parindOf_strictMono (flags : Fin N → Bool) : StrictMono (parindOf flags) := by
  have h : (sampledIdx flags).SortedLT :=
    List.Pairwise.sortedLT ((List.pairwise_lt_finRange N).filter _)
  exact h.strictMono_get

/-- If all sampled parameters come before the others, the restriction changes nothing. -/
theorem ixRestrict_parindOf {M q : Mat F (nS flags)}
    (h : ixRestrict M (parindOf flags) = .ok q) :
    q = M ∧ ∀ i, (parindOf flags i : ℕ) = i := by
  unfold ixRestrict at h
  split at h
  · rename_i hk
    have hid : ∀ i, (parindOf flags i : ℕ) = i := by
      let f : Fin (nS flags) → Fin (nS flags) := fun i => ⟨parindOf flags i, hk i⟩
      have hf : StrictMono f := fun i j hij => parindOf_strictMono flags hij
      have : f = id := by
        have hsurj : Function.Surjective f := Finite.surjective_of_injective hf.injective
        have := Subsingleton.elim (StrictMono.orderIsoOfSurjective f hf hsurj) (OrderIso.refl _)
        funext i
        exact congrArg (fun e : Fin (nS flags) ≃o Fin (nS flags) => e i) this
      intro i
      exact congrArg Fin.val (congrFun this i)
    refine ⟨?_, hid⟩
    cases h
    funext i j
    have : ∀ i, (⟨parindOf flags i, hk i⟩ : Fin (nS flags)) = i := fun i => Fin.ext (hid i)
    rw [this, this]
  · cases h

theorem setupRMatrix_square {L : Lapack F} {M q R : Mat F (nS flags)}
    (h : setupRMatrix L (.matrix (nS flags) M) (parindOf flags) = .ok (R, q)) :
    q = M ∧ (∀ i, (parindOf flags i : ℕ) = i) ∧
    (nS flags = 1 → ∀ i j, R i j = PyFloat.sqrt (M i j)) ∧
    (nS flags ≠ 1 → ∃ c, L.cholesky M = some c ∧ R = matT c) := by
  unfold setupRMatrix at h
  dsimp only at h
  obtain ⟨qc, h1, h2⟩ := bind_ok.1 h
  clear h
  have h := h2
  clear h2
  obtain ⟨hq, hid⟩ := ixRestrict_parindOf h1
  rw [hq] at h
  split at h
  · rename_i hn
    cases h
    exact ⟨rfl, hid, fun _ i j => rfl, fun hc => absurd hn hc⟩
  · rename_i hn
    split at h
    · rename_i c hc
      cases h
      exact ⟨rfl, hid, fun hc => absurd hc hn, fun _ => ⟨c, hc, rfl⟩⟩
    · cases h

/-- **C33 (partial).** Take the results `res` of any object, whatever its history, whose sampled
parameters have different names, and an object with parameters of the same names that is started
from the file saved for `res`.  If that run completes, its chain begins with the last row of the
saved chain, and its proposal covariance is the saved one: `qcov` is `res.qcov`, and (unless the
user supplies the factors) the factor used for the first proposal is made from it.
Missing from C33: that such a run gets this far for every subset of sampled parameters; it does
not, see `C33_subset_refuted`. -/
theorem C33_restart_partial {U U2 : UserFuns F N (nS flags) m} {specs : Fin N → ParamSpec F}
    {opts : SimOpts F} {extra : ExtraOpts F (nS flags)} {ms : ModelSettings F} {data : Data}
    {o o2 : Obj F flags m} (ho : Reachable U (newObj specs opts extra ms data) o)
    (hnames : (((List.finRange N).filter flags).map fun k => (specs k).name).Nodup)
    {res : Results F flags m} (hr : o.results = some res)
    (hspecs : ∀ k, (o2.specs k).name = (specs k).name)
    (hfile : o2.extra.jsonRestart = some (savedOf res))
    {G : Rng σ F} {L : Lapack F} {fuel : ℕ} {rng : σ} {out : RunOut F σ flags m}
    (h : runSimulation U2 G L fuel o2 rng false = .ok out) :
    (∃ last, res.chain.getLast? = some last ∧ out.results.chain[0]? = some last) ∧
    out.init.cov.qcov = res.qcov ∧
    (o2.extra.RDR = none →
      (nS flags = 1 → ∀ i j, out.init.cov.R i j = PyFloat.sqrt (res.qcov i j)) ∧
      (nS flags ≠ 1 → ∃ c, L.cholesky res.qcov = some c ∧ out.init.cov.R = matT c)) := by
  have hinv := reachable_objInv rfl ho
  have hres := reachable_resInv rfl hnames ho
  obtain ⟨r1, r2, r3, last, r4, r5⟩ := hres.res res hr
  have hsome : o.results.isSome := by rw [hr]; rfl
  have hl := hinv.len hsome
  obtain ⟨o1, I, s0, h1, h2, h3, h4, h5⟩ := runSimulation_ok h
  obtain ⟨hst, hpos, hci, hch, hsc, -, -, -, hin, hlr⟩ := setup_fresh h1
  obtain ⟨_, _, _, _, _, hc, hss, _⟩ := generateResults_ok h3
  unfold loadRestart at hlr
  rw [hfile] at hlr
  dsimp only at hlr
  obtain ⟨sp, hsp, hlr⟩ := bind_ok.1 hlr
  have e1 : o1.specs = sp := by cases hlr; rfl
  have e2 : o1.extra.qcov = some (.matrix (nS flags) res.qcov) := by cases hlr; rfl
  have e3 : o1.extra.RDR = o2.extra.RDR := by cases hlr; rfl
  have hnm : res.names = (sampledIdx flags).map fun k => (specs k).name := by
    rw [r3]; apply List.map_congr_left; intro k _; exact hinv.same.name k
  have hth : I.initialSet.theta = last := by
    funext i
    rw [hst.init.theta, ← r5]
    have hi : i.val < (sampledIdx flags).length := i.isLt
    obtain ⟨j, v, hj, hv, hq⟩ := resultsToParams_value (by rw [savedOf, hnm]; exact hnames) hsp
      i.val (by simp [savedOf]) (parindOf flags i) (flags_parindOf i) (by
        rw [savedOf, hnm, List.getElem?_map, List.getElem?_eq_getElem hi, hspecs]; rfl)
    simp only [savedOf] at hj hv
    rw [List.getElem?_map, List.getElem?_eq_getElem hi] at hj
    simp only [Option.map_some, Option.some.injEq] at hj
    subst hj
    rw [List.getElem?_ofFn] at hv
    split at hv
    · cases hv
      rw [e1]
      exact hq
    · cases hv
  have hp : 0 < I.opts.nsimu.toNat := by omega
  have hcur : s0.chain[s0.chainIndex]? = some s0.oldSet.theta := by
    rw [hch, hci, hst.oldSet, List.getElem?_set_self (by simpa [zeroRows] using hp)]
  have hcur' : s0.sschain[s0.chainIndex]? = some s0.oldSet.ss := by
    rw [hsc, hci, hst.oldSet, List.getElem?_set_self (by simpa [zeroRows] using hp)]
  obtain ⟨hn, s1, hP, hfin⟩ := executeSimulator_inv
    (P := fun _ s => s.chain[0]? = some last)
    (by
      have := hcur
      rw [hci, hst.oldSet, hth] at this
      exact this)
    (fun i a b p hi _ hP hp => by
      rw [hp.chain, List.getElem?_set_ne (by omega)]; exact hP) h2
  obtain ⟨_, ⟨R, hR, hR'⟩, _⟩ := initCovState_ok (initializeSimulation_cov hin)
  rw [e2] at hR
  obtain ⟨q1, _, q3, q4⟩ := setupRMatrix_square hR
  refine ⟨⟨last, ?_, ?_⟩, by rw [h4]; exact q1, fun hnone => ?_⟩
  · rw [List.getLast?_eq_getElem?, r1, hl, ← r4]; rfl
  · rw [hc, hfin]; exact hP
  · rw [h4]
    have : I.cov.R = R := by
      split at hR'
      · obtain ⟨l, il, hR', -⟩ := hR'
        rw [e3, hnone] at hR'
        unfold setupRDRMatrix at hR'
        dsimp only at hR'
        obtain ⟨iR, _, hR'⟩ := bind_ok.1 hR'
        obtain ⟨⟨l', il'⟩, _, hR'⟩ := bind_ok.1 hR'
        exact (congrArg Prod.fst (Except.ok.inj hR')).symm
      · exact hR'.1
    rw [this]
    exact ⟨q3, q4⟩

/-- **C33 is false for subsets of parameters.** Whenever some parameter that is not sampled comes
before one that is, no run started from a results file of such a problem completes, whatever the
rest of the file, the settings and the random numbers. -/
theorem C33_subset_refuted {U : UserFuns F N (nS flags) m} {o : Obj F flags m}
    {res : Results F flags m} (hfile : o.extra.jsonRestart = some (savedOf res))
    {k k' : Fin N} (hk : k < k') (hf : flags k = false) (hs : flags k' = true)
    {G : Rng σ F} {L : Lapack F} {fuel : ℕ} {rng : σ} (out : RunOut F σ flags m) :
    runSimulation U G L fuel o rng false ≠ .ok out := by
  intro h
  obtain ⟨o1, I, s0, h1, -⟩ := runSimulation_ok h
  obtain ⟨-, -, -, -, -, -, -, -, hin, hlr⟩ := setup_fresh h1
  unfold loadRestart at hlr
  rw [hfile] at hlr
  dsimp only at hlr
  obtain ⟨sp, hsp, hlr⟩ := bind_ok.1 hlr
  have e2 : o1.extra.qcov = some (.matrix (nS flags) res.qcov) := by cases hlr; rfl
  obtain ⟨_, ⟨R, hR, hR'⟩, _⟩ := initCovState_ok (initializeSimulation_cov hin)
  rw [e2] at hR
  obtain ⟨_, hid, _⟩ := setupRMatrix_square hR
  obtain ⟨i, rfl⟩ := exists_parindOf hs
  have hki : k.val < i.val := by have := hid i; have : k.val < (parindOf flags i).val := hk; omega
  have := hid ⟨k.val, by omega⟩
  have e : parindOf flags ⟨k.val, by omega⟩ = k := Fin.ext this
  have := flags_parindOf (flags := flags) ⟨k.val, by omega⟩
  rw [e, hf] at this
  cases this

/-! ### Examples -/

/-- three parameters, the last is not sampled -/
def Toy.flagsP : Fin 3 → Bool := ![true, true, false]

def Toy.userP : UserFuns ℚ 3 (nS Toy.flagsP) 1 where
  style1 := true
  sosFun _ v := .ok fun _ => v 0 * v 0 + v 1 * v 1 + v 2 * v 2
  priorFun _ _ _ := 0

/-- options with or without a results file -/
def Toy.extraOf {flags : Fin 3 → Bool} (file : Option (Saved ℚ)) : ExtraOpts ℚ (nS flags) :=
  ⟨10, [5, 4, 3], 1/4, 7/10, 1/1000, some (.matrix 3 fun i j => if i = j then 1 else 0), none, file⟩

def Toy.specsP : Fin 3 → ParamSpec ℚ :=
  ![Toy.spec "a" 1 true, Toy.spec "b" 3 true, Toy.spec "c" 2 false]

def Toy.objP (file : Option (Saved ℚ)) : Obj ℚ Toy.flagsP 1 :=
  newObj Toy.specsP (Toy.opts .am 4) (Toy.extraOf file) Toy.settings Toy.data

/-- a run, then a new object started from the file saved after it -/
def Toy.restarted : Except PyErr (RunOut ℚ ℕ Toy.flagsP 1 × RunOut ℚ ℕ Toy.flagsP 1) := do
  let a ← runSimulation Toy.userP Toy.rng Toy.lapack 100 (Toy.objP none) 0 false
  let b ← runSimulation Toy.userP Toy.rng Toy.lapack 100 (Toy.objP (some (savedOf a.results))) 1 false
  .ok (a, b)

example : ∃ a b : RunOut ℚ ℕ Toy.flagsP 1,
    Reachable Toy.userP (Toy.objP none) a.obj ∧ a.obj.results = some a.results ∧
    (((List.finRange 3).filter Toy.flagsP).map fun k => (Toy.specsP k).name).Nodup ∧
    runSimulation Toy.userP Toy.rng Toy.lapack 100 (Toy.objP (some (savedOf a.results))) 1 false
      = .ok b := by
  obtain ⟨⟨a, b⟩, h⟩ := exists_ok (x := Toy.restarted) (by decide +kernel)
  unfold Toy.restarted at h
  obtain ⟨a', ha, h⟩ := bind_ok.1 h
  obtain ⟨b', hb, h⟩ := bind_ok.1 h
  cases h
  refine ⟨a, b, .run _ _ _ _ _ _ .start ha, ?_, by decide +kernel, hb⟩
  obtain ⟨_, _, _, _, _, _, _, h5⟩ := runSimulation_ok ha
  rw [h5]

/-- the object of `Toy.run` (parameters 0 and 2 sampled) started from a results file -/
def Toy.objR (file : Option (Saved ℚ)) : Obj ℚ Toy.flags 1 :=
  newObj Toy.specs (Toy.opts .am 4) (Toy.extraOf file) Toy.settings Toy.data

/-- the restart fails with an index error although the first run completes -/
example : ∃ a : RunOut ℚ ℕ Toy.flags 1,
    runSimulation Toy.user Toy.rng Toy.lapack 100 (Toy.objR none) 0 false = .ok a ∧
    (match runSimulation Toy.user Toy.rng Toy.lapack 100 (Toy.objR (some (savedOf a.results))) 1 false
      with | .error e => e = .indexError | .ok _ => False) := by
  obtain ⟨a, h, h1⟩ := exists_ok_and
    (x := runSimulation Toy.user Toy.rng Toy.lapack 100 (Toy.objR none) 0 false)
    (fun a => match runSimulation Toy.user Toy.rng Toy.lapack 100
      (Toy.objR (some (savedOf a.results))) 1 false
      with | .error e => decide (e = .indexError) | .ok _ => false) (by decide +kernel)
  refine ⟨a, h, ?_⟩
  revert h1
  split <;> simp

end Verif
