import Verif.Model.ParallelRestart
import Verif.Props.Parallel
import Verif.Props.Restart
import Verif.Props.Run
import Verif.Props.Storage

/-!
# Properties C98, C124, C125: a parallel run continues an earlier one; what it stores; what it changes
-/

set_option linter.unusedSectionVars false

namespace Verif
variable {F σ : Type} [PyFloat F] {N m : ℕ} {flags : Fin N → Bool}

/-- `dir/chain_ii/chain_ii.json` -/
def chainFile (dir : List Char) (ii : ℕ) : List Char :=
  dir ++ "/chain_".toList ++ Nat.toDigits 10 ii ++ "/chain_".toList ++ Nat.toDigits 10 ii ++
    ".json".toList

theorem chainFile_injective {dir : List Char} {i j : ℕ} (h : chainFile dir i = chainFile dir j) :
    i = j := by
  unfold chainFile at h
  have hl := congrArg List.length h
  simp only [List.length_append] at hl
  have e : (Nat.toDigits 10 i).length = (Nat.toDigits 10 j).length := by omega
  simp only [List.append_assoc] at h
  have h := List.append_cancel_left h
  have h := List.append_cancel_left h
  exact dec_injective (List.append_inj_left h e)

theorem resultsPath_chain (dir : List Char) (ii : ℕ) :
    resultsPath (chainSavedir dir ii) (chainResultsFilename ii) = chainFile dir ii := by
  simp [resultsPath, chainSavedir, chainResultsFilename, chainFile, chainDir, dec]

theorem restartOf_eq (files : JsonFiles F) (dir : List Char) (ii : ℕ) :
    restartOf files (some dir) ii = files.lookup (chainFile dir ii) := by
  have e : dir ++ "/".toList ++ chainDir ii ++ "/".toList ++ chainDir ii ++ ".json".toList =
      chainFile dir ii := by simp [chainFile, chainDir, dec]
  unfold restartOf checkForRestartFile
  dsimp only
  rw [e]
  split
  · rfl
  · rename_i h
    rw [Option.bind_none]
    symm
    rw [List.lookup_eq_none_iff]
    intro p hp
    simp only [bne_iff_ne, ne_eq]
    exact fun he => h (List.mem_map.2 ⟨p, hp, he.symm⟩)

/-- the files after the chains of a parallel run have ended, one after the other in the given
order -/
def filesAfter (dir : List Char) (opts : SimOpts F) (done : List (ℕ × RunOut F σ flags m))
    (files : JsonFiles F) : JsonFiles F :=
  done.foldl (fun fs d => exportChain dir d.1 opts d.2.results fs) files

theorem mem_filesAfter {dir : List Char} {opts : SimOpts F} (hj : opts.saveToJson = true) :
    ∀ {done : List (ℕ × RunOut F σ flags m)} (_ : (done.map Prod.fst).Nodup) {files : JsonFiles F}
      (x : List Char × Saved F), x ∈ filesAfter dir opts done files ↔
        (∃ d ∈ done, x = (chainFile dir d.1, savedOf d.2.results)) ∨
        (x ∈ files ∧ ∀ d ∈ done, x.1 ≠ chainFile dir d.1) := by
  intro done
  induction done with
  | nil => intro _ files x; simp [filesAfter]
  | cons d done ih =>
    intro hnd files x
    rw [List.map_cons, List.nodup_cons] at hnd
    have e : filesAfter dir opts (d :: done) files = filesAfter dir opts done
        (writeFile files (chainFile dir d.1) (savedOf d.2.results)) := by
      unfold filesAfter
      rw [List.foldl_cons]
      unfold exportChain
      rw [if_pos hj, resultsPath_chain]
    rw [e, ih hnd.2, mem_writeFile]
    constructor
    · rintro (⟨d', hd', rfl⟩ | ⟨rfl | ⟨h1, h2⟩, h3⟩)
      · exact .inl ⟨d', by simp [hd'], rfl⟩
      · exact .inl ⟨d, by simp, rfl⟩
      · refine .inr ⟨h1, fun d' hd' => ?_⟩
        rcases List.mem_cons.1 hd' with rfl | hd'
        · exact h2
        · exact h3 d' hd'
    · rintro (⟨d', hd', rfl⟩ | ⟨h1, h2⟩)
      · rcases List.mem_cons.1 hd' with rfl | hd'
        · refine .inr ⟨.inl rfl, fun d'' hd'' he => ?_⟩
          have := chainFile_injective he
          exact hnd.1 (List.mem_map.2 ⟨d'', hd'', this.symm⟩)
        · exact .inl ⟨d', hd', rfl⟩
      · exact .inr ⟨.inr ⟨h1, h2 d (by simp)⟩, fun d' hd' => h2 d' (by simp [hd'])⟩

theorem lookup_filesAfter {dir : List Char} {opts : SimOpts F} (hj : opts.saveToJson = true)
    {done : List (ℕ × RunOut F σ flags m)} (hnd : (done.map Prod.fst).Nodup) {files : JsonFiles F}
    {d : ℕ × RunOut F σ flags m} (hd : d ∈ done) :
    (filesAfter dir opts done files).lookup (chainFile dir d.1) = some (savedOf d.2.results) := by
  refine lookup_of_mem (fun x hx hn => ?_) ((mem_filesAfter hj hnd _).2 (.inl ⟨d, hd, rfl⟩))
  rcases (mem_filesAfter hj hnd _).1 hx with ⟨d', hd', rfl⟩ | ⟨_, h2⟩
  · have := chainFile_injective hn
    have : d' = d := List.inj_on_of_nodup_map hnd hd' hd this
    rw [this]
  · exact absurd hn (h2 d hd)

theorem setupParallel_get {o : Obj F flags m} {user : Option (UserValues F)} {u : List (Vec F N)}
    {restart : ℕ → Option (Saved F)} {ps : List (ParChain F flags m)}
    (h : setupParallel o user u restart = .ok ps) {i : ℕ} {c : ParChain F flags m}
    (hc : ps[i]? = some c) : ∃ row : Vec F N,
    c.obj = newObj (fun k => { o.specs k with theta0 := row k }) (checkOptionsOutput o.opts)
      { o.extra with jsonRestart := restart i } o.ms o.data := by
  unfold setupParallel at h
  obtain ⟨init, h1, h⟩ := bind_ok.1 h
  cases h
  rw [List.getElem?_mapIdx] at hc
  obtain ⟨row, -, rfl⟩ := Option.map_eq_some_iff.1 hc
  exact ⟨row, rfl⟩

/-- **C98, full statement:** a parallel run whose `json_restart_file` is the directory of an earlier
parallel run with `save_to_json` continues it: chain `ii` starts at the last row of chain `ii` of
that run, with its proposal covariance and with its values of the parameters that are not sampled;
a chain without file starts at its initial values.
**Proved here**, for every order in which the chains of the first run end and for any number of
chains of the second, for the row and the covariance, if the runs complete (see
`C33_subset_refuted`).  Missing: the parameters that are not sampled, `C98_fixed_refuted`. -/
theorem C98_restart_partial {U U2 : UserFuns F N (nS flags) m} {o o2 : Obj F flags m}
    {user user2 : Option (UserValues F)} {u u2 : List (Vec F N)} {restart : ℕ → Option (Saved F)}
    {ps ps2 : List (ParChain F flags m)} (h1 : setupParallel o user u restart = .ok ps)
    (hjson : o.opts.saveToJson = true)
    (hnames : (((List.finRange N).filter flags).map fun k => (o.specs k).name).Nodup)
    {dir : List Char} {files0 : JsonFiles F} {done : List (ℕ × RunOut F σ flags m)}
    (hnd : (done.map Prod.fst).Nodup)
    (hdone : ∀ d ∈ done, ∃ c G L fuel rng, ps[d.1]? = some c ∧
      runSimulation U G L fuel c.obj rng false = .ok d.2)
    (hspecs : ∀ k, (o2.specs k).name = (o.specs k).name)
    (h2 : setupParallel o2 user2 u2
      (restartOf (filesAfter dir (checkOptionsOutput o.opts) done files0) (some dir)) = .ok ps2)
    {τ : Type} {G : Rng τ F} {L : Lapack F} {fuel : ℕ} {rng : τ} {ii : ℕ} {c2 : ParChain F flags m}
    (hc2 : ps2[ii]? = some c2) {out2 : RunOut F τ flags m}
    (hrun : runSimulation U2 G L fuel c2.obj rng false = .ok out2) :
    (∀ out1, (ii, out1) ∈ done →
      (∃ last, out1.results.chain.getLast? = some last ∧ out2.results.chain[0]? = some last) ∧
      out2.init.cov.qcov = out1.results.qcov) ∧
    (ii ∉ done.map Prod.fst → (∀ f ∈ files0, f.1 ≠ chainFile dir ii) →
      ∃ row0, out2.results.chain[0]? = some row0 ∧ List.ofFn row0 =
        ((List.finRange N).filter flags).map fun k => (c2.obj.specs k).theta0) := by
  have hj : (checkOptionsOutput o.opts).saveToJson = true := by
    unfold checkOptionsOutput
    split <;> exact hjson
  obtain ⟨row2, e2⟩ := setupParallel_get h2 hc2
  constructor
  · intro out1 hd
    obtain ⟨c, G1, L1, fuel1, rng1, hc, hr1⟩ := hdone _ hd
    obtain ⟨row1, e1⟩ := setupParallel_get h1 hc
    obtain ⟨_, _, _, _, _, _, _, h5⟩ := runSimulation_ok hr1
    rw [e1] at hr1
    obtain ⟨a1, a2, -⟩ := C33_restart_partial (o2 := c2.obj)
      (.run _ _ _ _ _ _ .start hr1) hnames (res := out1.results)
      (by rw [h5]) (by rw [e2]; exact hspecs)
      (by
        rw [e2]
        change restartOf _ _ _ = _
        rw [restartOf_eq]
        exact lookup_filesAfter hj hnd hd) hrun
    exact ⟨a1, a2⟩
  · intro hno hf
    refine (C02_chain_records_moves (o := c2.obj) ?_ hrun).2.1
    rw [e2]
    change restartOf _ _ _ = _
    rw [restartOf_eq, List.lookup_eq_none_iff]
    intro x hx
    simp only [bne_iff_ne, ne_eq]
    intro he
    rcases (mem_filesAfter hj hnd _).1 hx with ⟨d, hd, rfl⟩ | ⟨h3, -⟩
    · exact hno (List.mem_map.2 ⟨d, hd, (chainFile_injective he).symm⟩)
    · exact hf x h3 he.symm

/-- without `json_restart_file` every chain starts at its initial values -/
theorem C98_no_directory {U2 : UserFuns F N (nS flags) m} {o2 : Obj F flags m}
    {user2 : Option (UserValues F)} {u2 : List (Vec F N)} {files : JsonFiles F}
    {ps2 : List (ParChain F flags m)}
    (h2 : setupParallel o2 user2 u2 (restartOf files none) = .ok ps2)
    {τ : Type} {G : Rng τ F} {L : Lapack F} {fuel : ℕ} {rng : τ} {ii : ℕ} {c2 : ParChain F flags m}
    (hc2 : ps2[ii]? = some c2) {out2 : RunOut F τ flags m}
    (hrun : runSimulation U2 G L fuel c2.obj rng false = .ok out2) :
    ∃ row0, out2.results.chain[0]? = some row0 ∧ List.ofFn row0 =
        ((List.finRange N).filter flags).map fun k => (c2.obj.specs k).theta0 := by
  obtain ⟨row2, e2⟩ := setupParallel_get h2 hc2
  refine (C02_chain_records_moves (o := c2.obj) ?_ hrun).2.1
  rw [e2]
  rfl

/-- the pool has as many processes as asked for, but not more than the machine has processors -/
theorem C98_cores (numCores cpuCount : ℤ) :
    assignNumberOfCores numCores cpuCount = min numCores cpuCount := by
  unfold assignNumberOfCores
  split <;> omega

/-! ### C124: every chain is stored -/

/-- **C124.** Every chain of a parallel run writes to a folder of its own, and its samples are stored there: either
it writes log files, or its results file holds the three chains, whatever the user chose.  The formats the user
chose are used. -/
theorem C124_stored {ρ : Type} {o : Obj F flags m} {a : OptArgs F} (ho : o.opts = defineSimulationOptions a)
    {user : Option (UserValues F)} {u : List (Vec F N)}
    {restart : ℕ → Option (Saved F)} {ps : List (ParChain F flags m)}
    (h : setupParallel o user u restart = .ok ps) :
    (ps.map ParChain.dir).Nodup ∧ ∀ c ∈ ps,
      (a.saveToBin → c.obj.opts.saveToBin) ∧ (a.saveToTxt → c.obj.opts.saveToTxt) ∧
      (a.saveToJson → c.obj.opts.saveToJson) ∧
      (c.obj.opts.saveToBin ∨ c.obj.opts.saveToTxt ∨
        ∀ (res : Results F flags m) (rest : ρ) (name : Option (List Char)) (date : List Char) (dir : ResFiles F ρ),
          ∃ f ∈ exportResults c.obj.opts name date res rest dir, f.1 = name.getD (date ++ "_mcmc_simulation.json".toList) ∧
            f.2 = some ⟨some (.array (asArray res.chain), .array (asArray res.sschain), orNone res.s2chain), rest⟩) := by
  constructor
  · obtain ⟨init, -, -, h3⟩ := setupParallel_ok h
    rw [List.nodup_iff_getElem?_ne_getElem?]
    intro i j hij hj
    rw [List.length_map] at hj
    obtain ⟨ci, hi'⟩ : ∃ c, ps[i]? = some c := ⟨_, List.getElem?_eq_getElem (by omega)⟩
    obtain ⟨cj, hj'⟩ : ∃ c, ps[j]? = some c := ⟨_, List.getElem?_eq_getElem hj⟩
    obtain ⟨-, -, -, ei, -⟩ := h3 i ci hi'
    obtain ⟨-, -, -, ej, -⟩ := h3 j cj hj'
    rw [List.getElem?_map, List.getElem?_map, hi', hj']
    intro he
    have he : chainDir i = chainDir j := by rw [← ei, ← ej]; exact Option.some.inj he
    have := dec_injective (List.append_cancel_left he)
    omega
  · intro c hc
    obtain ⟨i, hi⟩ := List.mem_iff_getElem?.1 hc
    obtain ⟨row, e⟩ := setupParallel_get h hi
    have e : c.obj.opts = checkOptionsOutput (defineSimulationOptions a) := by rw [e, ← ho]; rfl
    rw [e]
    have hw : ∀ (res : Results F flags m) (rest : ρ) (name : Option (List Char)) (date : List Char)
        (dir : ResFiles F ρ) (opts : SimOpts F), opts.saveToJson = true → opts.saveLightly = false →
        ∃ f ∈ exportResults opts name date res rest dir, f.1 = name.getD (date ++ "_mcmc_simulation.json".toList) ∧
          f.2 = some ⟨some (.array (asArray res.chain), .array (asArray res.sschain), orNone res.s2chain), rest⟩ := by
      intro res rest name date dir opts h1 h2
      have e3 : determineFilename name date = name.getD (date ++ "_mcmc_simulation.json".toList) := by
        cases name <;> simp [determineFilename]
      unfold exportResults
      rw [if_pos h1, h2, e3]
      unfold writeFile
      split
      · rename_i h3
        obtain ⟨f, hf, hn⟩ := List.mem_map.1 h3
        refine ⟨_, List.mem_map.2 ⟨f, hf, rfl⟩, ?_⟩
        rw [if_pos hn]
        exact ⟨rfl, rfl⟩
      · exact ⟨_, List.mem_append.2 (.inr (List.mem_singleton.2 rfl)), rfl, rfl⟩
    have h0 : (checkOptionsOutput (defineSimulationOptions a)).saveToTxt = a.saveToTxt ∧
        (checkOptionsOutput (defineSimulationOptions a)).saveToJson = a.saveToJson ∧
        (checkOptionsOutput (defineSimulationOptions a)).saveToBin =
          (a.saveToBin || (!a.saveToTxt && !a.saveToJson)) ∧
        (checkOptionsOutput (defineSimulationOptions a)).saveLightly =
          if a.saveToJson then (a.saveToBin || a.saveToTxt) else a.saveLightly := by
      cases hb : a.saveToBin <;> cases ht : a.saveToTxt <;> cases hj : a.saveToJson <;>
        simp [checkOptionsOutput, defineSimulationOptions, checkLightlySave, hb, ht, hj]
    obtain ⟨e1, e2, e3, e4⟩ := h0
    rw [e1, e2, e3]
    refine ⟨fun h => by simp [h], id, id, ?_⟩
    by_cases hx : a.saveToBin = true ∨ a.saveToTxt = true ∨ a.saveToJson = false
    · rcases hx with hx | hx | hx
      · exact .inl (by simp [hx])
      · exact .inr (.inl hx)
      · cases ht : a.saveToTxt
        · exact .inl (by simp [hx])
        · exact .inr (.inl rfl)
    · push Not at hx
      obtain ⟨h1, h2, h3⟩ := hx
      have h3 : a.saveToJson = true := by simpa using h3
      refine .inr (.inr fun res rest name date dir => hw res rest name date dir _ (by rw [e2, h3]) ?_)
      rw [e4, if_pos h3]
      simp [h1, h2]

/-- **C125, full statement:** setting up a parallel run leaves the object of the user as it is.
**Proved here:** everything but the flag for binary log files; the flag too if an output format was chosen. -/
theorem C125_kept_partial (o : Obj F flags m) :
    { objAfterSetup o with opts := { (objAfterSetup o).opts with saveToBin := o.opts.saveToBin } } = o ∧
    (o.opts.saveToBin ∨ o.opts.saveToTxt ∨ o.opts.saveToJson → objAfterSetup o = o) := by
  unfold objAfterSetup checkOptionsOutput
  constructor
  · split <;> rfl
  · intro h
    rw [if_neg]
    rcases h with h | h | h <;> simp [h]

/-- **C125 is false without an output format:** a run of the user's own object, made after the set-up, writes binary
log files. -/
theorem C125_refuted {o : Obj F flags m} (h1 : o.opts.saveToBin = false) (h2 : o.opts.saveToTxt = false)
    (h3 : o.opts.saveToJson = false) : (objAfterSetup o).opts.saveToBin = true ∧ objAfterSetup o ≠ o := by
  have h : (objAfterSetup o).opts.saveToBin = true := by simp [objAfterSetup, checkOptionsOutput, h1, h2, h3]
  exact ⟨h, fun e => by rw [e, h1] at h; cases h⟩

/-! ### Examples -/

/-- a parallel run of two chains without an output format: binary log files in two folders, and the flag of the
user's object has changed; with a results file only, the chains are in it -/
example : (∃ ps : List (ParChain ℚ Toy.flagsP 1),
      setupParallel (newObj Toy.specsP (defineSimulationOptions {}) (Toy.extraOf none) Toy.settings Toy.data) none
        [fun _ => 1/4, fun _ => 3/8] (fun _ => none) = .ok ps ∧
      ps.map (fun c => (c.dir, c.obj.opts.saveToBin)) = [("chain_0".toList, true), ("chain_1".toList, true)]) ∧
    (objAfterSetup (newObj (m := 1) Toy.specsP (defineSimulationOptions {}) (Toy.extraOf none) Toy.settings Toy.data :
      Obj ℚ Toy.flagsP 1)).opts.saveToBin = true ∧
    (defineSimulationOptions ({ saveToJson := true } : OptArgs ℚ)).saveLightly = false := by
  refine ⟨?_, rfl, rfl⟩
  obtain ⟨ps, h, h'⟩ := exists_ok_and
    (x := setupParallel (m := 1) (newObj Toy.specsP (defineSimulationOptions {}) (Toy.extraOf none) Toy.settings Toy.data)
      none [fun _ => 1/4, fun _ => 3/8] (fun _ => none))
    (fun ps : List (ParChain ℚ Toy.flagsP 1) => decide (ps.map (fun c => (c.dir, c.obj.opts.saveToBin)) =
      [("chain_0".toList, true), ("chain_1".toList, true)])) (by decide +kernel)
  exact ⟨ps, h, of_decide_eq_true h'⟩

/-- the object of a parallel run: two of three parameters are sampled, results are saved -/
def Toy.objJ : Obj ℚ Toy.flagsP 1 :=
  newObj Toy.specsP { Toy.opts .am 4 with saveToJson := true } (Toy.extraOf none) Toy.settings Toy.data

/-- one chain, then a parallel run of two chains with the directory of the first -/
def Toy.parallelTwice : Except PyErr (List (ParChain ℚ Toy.flagsP 1) × RunOut ℚ ℕ Toy.flagsP 1 ×
    List (ParChain ℚ Toy.flagsP 1) × RunOut ℚ ℕ Toy.flagsP 1 × RunOut ℚ ℕ Toy.flagsP 1) := do
  let ps ← setupParallel Toy.objJ none [fun _ => 1/2] fun _ => none
  let c ← pyGet ps 0
  let a ← runSimulation Toy.userP Toy.rng Toy.lapack 100 c.obj 0 false
  let ps2 ← setupParallel Toy.objJ none [fun _ => 1/4, fun _ => 3/8]
    (restartOf (filesAfter "run".toList (checkOptionsOutput Toy.objJ.opts) [(0, a)] [])
      (some "run".toList))
  let c0 ← pyGet ps2 0
  let c1 ← pyGet ps2 1
  let b0 ← runSimulation Toy.userP Toy.rng Toy.lapack 100 c0.obj 1 false
  let b1 ← runSimulation Toy.userP Toy.rng Toy.lapack 100 c1.obj 2 false
  .ok (ps, a, ps2, b0, b1)

/-- **C98 is false for parameters that are not sampled:** the value of the third parameter, which is
not sampled, changes between a chain and its continuation. -/
theorem C98_fixed_refuted : ∃ ps c a ps2 c0 b0,
    setupParallel Toy.objJ none [fun _ => 1/2] (fun _ => none) = .ok ps ∧ ps[0]? = some c ∧
    runSimulation Toy.userP Toy.rng Toy.lapack 100 c.obj 0 false = .ok a ∧
    setupParallel Toy.objJ none [fun _ => 1/4, fun _ => 3/8]
      (restartOf (filesAfter "run".toList (checkOptionsOutput Toy.objJ.opts) [(0, a)] [])
        (some "run".toList)) = .ok ps2 ∧ ps2[0]? = some c0 ∧
    runSimulation Toy.userP Toy.rng Toy.lapack 100 c0.obj 1 false = .ok b0 ∧
    (Toy.objJ.specs 2).sample = false ∧ a.results.theta 2 ≠ b0.results.theta 2 := by
  obtain ⟨⟨ps, a, ps2, b0, b1⟩, h, h'⟩ := exists_ok_and (x := Toy.parallelTwice)
    (fun p => !decide (p.2.1.results.theta 2 = p.2.2.2.1.results.theta 2)) (by decide +kernel)
  unfold Toy.parallelTwice at h
  obtain ⟨_, e1, h⟩ := bind_ok.1 h
  obtain ⟨c, e2, h⟩ := bind_ok.1 h
  obtain ⟨_, e3, h⟩ := bind_ok.1 h
  obtain ⟨_, e4, h⟩ := bind_ok.1 h
  obtain ⟨c0, e5, h⟩ := bind_ok.1 h
  obtain ⟨c1, e6, h⟩ := bind_ok.1 h
  obtain ⟨_, e7, h⟩ := bind_ok.1 h
  obtain ⟨_, e8, h⟩ := bind_ok.1 h
  cases h
  exact ⟨ps, c, a, ps2, c0, b0, e1, pyGet_ok.1 e2, e3, e4, pyGet_ok.1 e5, e7, rfl, by simpa using h'⟩

/-- both parts of `C98_restart_partial` -/
example : ∃ a b0 b1 : RunOut ℚ ℕ Toy.flagsP 1,
    (∃ last, a.results.chain.getLast? = some last ∧ b0.results.chain[0]? = some last) ∧
    b0.init.cov.qcov = a.results.qcov ∧
    ∃ row0, b1.results.chain[0]? = some row0 := by
  obtain ⟨⟨ps, a, ps2, b0, b1⟩, h⟩ := exists_ok (x := Toy.parallelTwice) (by decide +kernel)
  unfold Toy.parallelTwice at h
  obtain ⟨_, e1, h⟩ := bind_ok.1 h
  obtain ⟨c, e2, h⟩ := bind_ok.1 h
  obtain ⟨_, e3, h⟩ := bind_ok.1 h
  obtain ⟨_, e4, h⟩ := bind_ok.1 h
  obtain ⟨c0, e5, h⟩ := bind_ok.1 h
  obtain ⟨c1, e6, h⟩ := bind_ok.1 h
  obtain ⟨_, e7, h⟩ := bind_ok.1 h
  obtain ⟨_, e8, h⟩ := bind_ok.1 h
  cases h
  have hdone : ∀ d ∈ [(0, a)], ∃ c G L fuel rng, ps[d.1]? = some c ∧
      runSimulation Toy.userP G L fuel c.obj rng false = .ok d.2 := by
    intro d hd
    rw [List.mem_singleton.1 hd]
    exact ⟨c, _, _, _, _, pyGet_ok.1 e2, e3⟩
  obtain ⟨p1, -⟩ := C98_restart_partial e1 rfl (by decide +kernel) (by simp) hdone (fun _ => rfl) e4
    (pyGet_ok.1 e5) e7
  obtain ⟨-, p2⟩ := C98_restart_partial e1 rfl (by decide +kernel) (by simp) hdone (fun _ => rfl) e4
    (pyGet_ok.1 e6) e8
  obtain ⟨row0, hr, -⟩ := p2 (by simp) (by simp)
  exact ⟨a, b0, b1, (p1 a (by simp)).1, (p1 a (by simp)).2, row0, hr⟩

end Verif
