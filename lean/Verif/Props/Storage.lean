import Verif.Model.Storage
import Verif.Props.Logs

/-!
# Property C96: results of a run can be loaded again
-/

set_option linter.unusedSectionVars false

namespace Verif

section
variable {F σ : Type} [PyFloat F] {N m : ℕ} {flags : Fin N → Bool} {ρ : Type}

theorem mem_writeFile {α : Type} {dir : List (List Char × α)} {name : List Char} {c : α}
    (x : List Char × α) : x ∈ writeFile dir name c ↔ x = (name, c) ∨ (x ∈ dir ∧ x.1 ≠ name) := by
  unfold writeFile
  split
  · rename_i h
    simp only [List.mem_map]
    constructor
    · rintro ⟨f, hf, rfl⟩
      split
      · exact .inl rfl
      · rename_i hne; exact .inr ⟨hf, hne⟩
    · rintro (rfl | ⟨hx, hne⟩)
      · obtain ⟨f, hf, hn⟩ := List.mem_map.1 h
        exact ⟨f, hf, by rw [if_pos hn]⟩
      · exact ⟨x, hx, by rw [if_neg hne]⟩
  · rename_i h
    simp only [List.mem_append, List.mem_cons, List.not_mem_nil, or_false]
    constructor
    · rintro (hx | rfl)
      · exact .inr ⟨hx, fun e => h (List.mem_map.2 ⟨x, hx, e⟩)⟩
      · exact .inl rfl
    · rintro (rfl | ⟨hx, _⟩)
      · exact .inr rfl
      · exact .inl hx

theorem lookup_of_mem {α : Type} {name : List Char} {c : α} : ∀ {l : List (List Char × α)},
    (∀ x ∈ l, x.1 = name → x = (name, c)) → (name, c) ∈ l → l.lookup name = some c
  | [], _, h => by cases h
  | (k, v) :: l, hu, h => by
    by_cases hk : k = name
    · have := hu (k, v) (by simp) hk
      cases this
      simp
    · have hk' : (name == k) = false := by simpa using fun e => hk e.symm
      rw [List.lookup_cons, hk']
      refine lookup_of_mem (fun x hx => hu x (by simp [hx])) ?_
      rcases List.mem_cons.1 h with h | h
      · cases h; exact absurd rfl hk
      · exact h

theorem endsWithJson_iff (name : List Char) :
    endsWithJson name = true ↔ ".json".toList <:+ name := List.isSuffixOf_iff_suffix

/-- the written file is the one that is loaded -/
theorem choose_written {α : Type} {dir dir' : List (List Char × α)} {name : List Char} {c : α}
    (hd : ∀ x, x ∈ dir' ↔ x ∈ writeFile dir name c)
    (hown : ".json".toList <:+ name) (hother : ∀ x ∈ dir, ".json".toList <:+ x.1 → x.1 = name)
    (jf : Option (List Char)) :
    chooseJson (dir'.map Prod.fst) jf = some name ∧ dir'.lookup name = some c := by
  constructor
  · unfold chooseJson
    have : (dir'.map Prod.fst).find? endsWithJson = some name := by
      cases hf : (dir'.map Prod.fst).find? endsWithJson with
      | none =>
        rw [List.find?_eq_none] at hf
        refine absurd ((endsWithJson_iff name).2 hown) (hf name ?_)
        exact List.mem_map.2 ⟨(name, c), (hd _).2 ((mem_writeFile _).2 (.inl rfl)), rfl⟩
      | some f =>
        have h1 := List.find?_some hf
        have h2 := List.mem_of_find?_eq_some hf
        obtain ⟨x, hx, rfl⟩ := List.mem_map.1 h2
        rcases (mem_writeFile _).1 ((hd _).1 hx) with rfl | ⟨hx', _⟩
        · rfl
        · rw [hother x hx' ((endsWithJson_iff _).1 h1)]
    rw [this]
  · refine lookup_of_mem (fun x hx hn => ?_) ((hd _).2 ((mem_writeFile _).2 (.inl rfl)))
    rcases (mem_writeFile _).1 ((hd _).1 hx) with rfl | ⟨_, hne⟩
    · rfl
    · exact absurd hn hne

/-- **C96, full statement:** `load_serial_simulation_results` of the directory of a run that saved
its results returns them: the entries other than the chains as they were, the chains as
two-dimensional arrays with the rows of the run, and `None` for a missing error-variance chain.
**Proved here** for a run with `save_to_json` and without log files, for every order in which the
directory is listed, if it has no other file ending in `.json`; see `C96_other_file_refuted`. -/
theorem C96_json_partial (res : Results F flags m) (rest : ρ) {a : OptArgs F}
    (hj : a.saveToJson = true) (hb : a.saveToBin = false) (ht : a.saveToTxt = false)
    {name : Option (List Char)} {date : List Char}
    (hown : ∀ f, name = some f → ".json".toList <:+ f)
    {dir dir' : ResFiles F ρ}
    (hother : ∀ x ∈ dir, ".json".toList <:+ x.1 → x.1 = determineFilename name date)
    (hd : dir'.Perm (exportResults (defineSimulationOptions a) name date res rest dir))
    (txt : TxtLogs F (nS flags) m) (bin : BinLogs F (nS flags) m) (jf : Option (List Char))
    (ext : Ext) :
    ∃ L, loadSerial dir' txt bin jf ext = .ok L ∧ L.rest = some rest ∧
      L.chain = .array ⟨[res.chain.length, nS flags], res.chain.flatMap List.ofFn⟩ ∧
      L.sschain = .array ⟨[res.sschain.length, m], res.sschain.flatMap List.ofFn⟩ ∧
      (res.s2chain = none → L.s2chain = .pyNone) ∧
      ∀ c, res.s2chain = some c → L.s2chain = .array ⟨[c.length, m], c.flatMap List.ofFn⟩ := by
  have h1 : (defineSimulationOptions a).saveToJson = true := hj
  have h2 : (defineSimulationOptions a).saveLightly = false := by
    simp [defineSimulationOptions, checkLightlySave, hj, hb, ht]
  unfold exportResults at hd
  rw [if_pos h1, h2] at hd
  have hown' : ".json".toList <:+ determineFilename name date := by
    unfold determineFilename
    cases name with
    | none => exact ⟨date ++ "_".toList ++ "mcmc_simulation".toList, by simp⟩
    | some f => exact hown f rfl
  obtain ⟨e1, e2⟩ := choose_written (fun x => hd.mem_iff) hown' hother jf
  refine ⟨⟨.array (asArray res.chain), .array (asArray res.sschain), orNone res.s2chain, some rest⟩,
    ?_, rfl, rfl, rfl, fun h => by rw [h]; rfl, fun c h => by rw [h]; rfl⟩
  unfold loadSerial
  rw [e1]
  dsimp only
  unfold loadJson
  rw [e2]
  rfl

/-- loading results that were saved without the chains -/
theorem load_light (res : Results F flags m) (rest : ρ) {a : OptArgs F} (hj : a.saveToJson = true)
    (hl : a.saveToBin = true ∨ a.saveToTxt = true) {name : Option (List Char)} {date : List Char}
    (hown : ∀ f, name = some f → ".json".toList <:+ f) {dir dir' : ResFiles F ρ}
    (hother : ∀ x ∈ dir, ".json".toList <:+ x.1 → x.1 = determineFilename name date)
    (hd : dir'.Perm (exportResults (defineSimulationOptions a) name date res rest dir))
    (txt : TxtLogs F (nS flags) m) (bin : BinLogs F (nS flags) m) (jf : Option (List Char))
    (ext : Ext) :
    loadSerial dir' txt bin jf ext = fillChains none (readInSavedir ext txt bin) (some rest) := by
  have h1 : (defineSimulationOptions a).saveToJson = true := hj
  have h2 : (defineSimulationOptions a).saveLightly = true := by
    rcases hl with h | h <;> simp [defineSimulationOptions, checkLightlySave, hj, h]
  unfold exportResults at hd
  rw [if_pos h1, h2] at hd
  have hown' : ".json".toList <:+ determineFilename name date := by
    unfold determineFilename
    cases name with
    | none => exact ⟨date ++ "_".toList ++ "mcmc_simulation".toList, by simp⟩
    | some f => exact hown f rfl
  obtain ⟨e1, e2⟩ := choose_written (fun x => hd.mem_iff) hown' hother jf
  unfold loadSerial
  rw [e1]
  dsimp only
  unfold loadJson
  rw [e2]
  rfl

/-- **C96, full statement:** see `C96_json_partial`.  **Proved here** for a run with `save_to_json`
and text logs in a directory without earlier logs and other json files, loaded with the extension
`txt`: the entries of the chains are those of the run, row after row, and the arrays have their
shape if they have two or more columns.  Missing: a single column comes back one-dimensional
(`C96_shape_refuted`), and a missing error-variance chain is not `None`
(`C96_variance_refuted`). -/
theorem C96_text_partial {U : UserFuns F N (nS flags) m} {o : Obj F flags m} {G : Rng σ F}
    {L : Lapack F} {fuel : ℕ} {rng : σ} {out : RunOut F σ flags m}
    (h : runSimulation U G L fuel o rng false = .ok out) (rest : ρ) {a : OptArgs F}
    (hj : a.saveToJson = true) (ht : a.saveToTxt = true) {name : Option (List Char)}
    {date : List Char} (hown : ∀ f, name = some f → ".json".toList <:+ f) {dir dir' : ResFiles F ρ}
    (hother : ∀ x ∈ dir, ".json".toList <:+ x.1 → x.1 = determineFilename name date)
    (hd : dir'.Perm (exportResults (defineSimulationOptions a) name date out.results rest dir))
    (bin : BinLogs F (nS flags) m) (jf : Option (List Char)) :
    ∃ S, loadSerial dir' (out.final.logs.foldl saveTxt ⟨none, none, none⟩) bin jf .txt = .ok S ∧
      S.rest = some rest ∧
      (∃ A, S.chain = .array A ∧ A.data = out.results.chain.flatMap List.ofFn ∧
        (2 ≤ nS flags → A.shape = [out.results.chain.length, nS flags])) ∧
      (∃ A, S.sschain = .array A ∧ A.data = out.results.sschain.flatMap List.ofFn ∧
        (2 ≤ m → A.shape = [out.results.sschain.length, m])) ∧
      ∀ c, out.results.s2chain = some c → ∃ A, S.s2chain = .array A ∧
        A.data = c.flatMap List.ofFn ∧ (2 ≤ m → A.shape = [c.length, m]) := by
  obtain ⟨⟨A1, r1, d1, s1, -⟩, ⟨A2, r2, d2, s2, -⟩, h3, -⟩ := C30_text_log_reads_back h
  refine ⟨_, by rw [load_light out.results rest hj (.inr ht) hown hother hd]; rfl, rfl,
    ⟨A1, ?_, d1, s1⟩, ⟨A2, ?_, d2, s2⟩, fun c hc => ?_⟩
  · dsimp only; rw [r1]; rfl
  · dsimp only; rw [r2]; rfl
  · obtain ⟨A, r, d, s, -⟩ := h3 c hc
    exact ⟨A, by dsimp only; rw [r]; rfl, d, s⟩

/-- **C96, full statement:** see `C96_json_partial`.  **Proved here** for a run with `save_to_json`
and binary logs in a directory without earlier logs and other json files, loaded with the default
extension, if all blocks but the first start at row numbers with the same number of digits (see
C31), except that a missing error-variance chain is not `None` (`C96_variance_refuted`). -/
theorem C96_binary_partial {U : UserFuns F N (nS flags) m} {o : Obj F flags m} {G : Rng σ F}
    {L : Lapack F} {fuel : ℕ} {rng : σ} {out : RunOut F σ flags m}
    (h : runSimulation U G L fuel o rng false = .ok out) (digits : ℕ)
    (hdig : ∀ b ∈ out.final.logs, b.start ≠ 0 → (Nat.toDigits 10 b.start).length = digits)
    (rest : ρ) {a : OptArgs F}
    (hj : a.saveToJson = true) (hb : a.saveToBin = true) {name : Option (List Char)}
    {date : List Char} (hown : ∀ f, name = some f → ".json".toList <:+ f) {dir dir' : ResFiles F ρ}
    (hother : ∀ x ∈ dir, ".json".toList <:+ x.1 → x.1 = determineFilename name date)
    (hd : dir'.Perm (exportResults (defineSimulationOptions a) name date out.results rest dir))
    (txt : TxtLogs F (nS flags) m) (jf : Option (List Char)) :
    ∃ files S, out.final.logs.foldlM saveBin ⟨none, none, none⟩ = .ok files ∧
      loadSerial dir' txt files jf .h5 = .ok S ∧ S.rest = some rest ∧
      S.chain = .array ⟨[out.results.chain.length, nS flags],
        out.results.chain.flatMap List.ofFn⟩ ∧
      S.sschain = .array ⟨[out.results.sschain.length, m], out.results.sschain.flatMap List.ofFn⟩ ∧
      ∀ c, out.results.s2chain = some c →
        S.s2chain = .array ⟨[c.length, m], c.flatMap List.ofFn⟩ := by
  obtain ⟨files, hf, r1, r2, r3⟩ := C31_binary_log_reads_back_partial h digits hdig
  refine ⟨files, _, hf, by rw [load_light out.results rest hj (.inl hb) hown hother hd]; rfl, rfl,
    ?_, ?_, fun c hc => ?_⟩
  · dsimp only; rw [r1]; rfl
  · dsimp only; rw [r2]; rfl
  · dsimp only; rw [r3, hc]; rfl

/-- **Refutation of C96 for runs with one sampled parameter:** with text logs the chain comes back
one-dimensional. -/
theorem C96_shape_refuted {U : UserFuns F N (nS flags) m} {o : Obj F flags m} {G : Rng σ F}
    {L : Lapack F} {fuel : ℕ} {rng : σ} {out : RunOut F σ flags m}
    (h : runSimulation U G L fuel o rng false = .ok out) (hone : nS flags = 1) (rest : ρ)
    {a : OptArgs F} (hj : a.saveToJson = true) (ht : a.saveToTxt = true)
    {name : Option (List Char)} {date : List Char}
    (hown : ∀ f, name = some f → ".json".toList <:+ f) {dir dir' : ResFiles F ρ}
    (hother : ∀ x ∈ dir, ".json".toList <:+ x.1 → x.1 = determineFilename name date)
    (hd : dir'.Perm (exportResults (defineSimulationOptions a) name date out.results rest dir))
    (bin : BinLogs F (nS flags) m) (jf : Option (List Char)) :
    ∃ S A, loadSerial dir' (out.final.logs.foldl saveTxt ⟨none, none, none⟩) bin jf .txt = .ok S ∧
      S.chain = .array A ∧ A.shape = [out.results.chain.length] := by
  obtain ⟨⟨A1, r1, -, -, s1⟩, -⟩ := C30_text_log_reads_back h
  exact ⟨_, A1, by rw [load_light out.results rest hj (.inr ht) hown hother hd]; rfl,
    by dsimp only; rw [r1]; rfl, s1 hone⟩

/-- **Refutation of C96 for runs without error-variance sampling:** if the chains are in text logs,
`s2chain` comes back as an empty list and not as `None`. -/
theorem C96_variance_refuted {U : UserFuns F N (nS flags) m} {o : Obj F flags m} {G : Rng σ F}
    {L : Lapack F} {fuel : ℕ} {rng : σ} {out : RunOut F σ flags m}
    (h : runSimulation U G L fuel o rng false = .ok out) (hnone : out.results.s2chain = none)
    (rest : ρ) {a : OptArgs F} (hj : a.saveToJson = true) (ht : a.saveToTxt = true)
    {name : Option (List Char)} {date : List Char}
    (hown : ∀ f, name = some f → ".json".toList <:+ f) {dir dir' : ResFiles F ρ}
    (hother : ∀ x ∈ dir, ".json".toList <:+ x.1 → x.1 = determineFilename name date)
    (hd : dir'.Perm (exportResults (defineSimulationOptions a) name date out.results rest dir))
    (bin : BinLogs F (nS flags) m) (jf : Option (List Char)) :
    ∃ S, loadSerial dir' (out.final.logs.foldl saveTxt ⟨none, none, none⟩) bin jf .txt = .ok S ∧
      S.s2chain = .emptyList := by
  obtain ⟨-, -, -, h4⟩ := C30_text_log_reads_back h
  exact ⟨_, by rw [load_light out.results rest hj (.inr ht) hown hother hd]; rfl,
    by dsimp only; rw [h4 hnone]; rfl⟩

/-- **Refutation of C96 for a directory with another json file:** if the other file is listed
first, its results are returned, although the caller names the file of the run. -/
theorem C96_other_file_refuted {n : ℕ} (other : List Char) (hjson : ".json".toList <:+ other)
    (c : ArrVal F × ArrVal F × ArrVal F) (theirs : ρ) (mine : List Char) (r : ResFile F ρ)
    (dir : ResFiles F ρ) (txt : TxtLogs F n m) (bin : BinLogs F n m) (ext : Ext) :
    loadSerial ((other, some ⟨some c, theirs⟩) :: (mine, some r) :: dir) txt bin (some mine) ext =
      .ok ⟨c.1, c.2.1, c.2.2, some theirs⟩ := by
  unfold loadSerial chooseJson
  rw [List.map_cons, List.find?_cons_of_pos ((endsWithJson_iff _).2 hjson)]
  dsimp only
  unfold loadJson
  rw [List.lookup_cons_self]
  rfl

/-- a name that does not end in `.json` is found if it is passed to the call and there is no file
ending in `.json` -/
theorem C96_named {n : ℕ} (mine : List Char) (c : ArrVal F × ArrVal F × ArrVal F) (rest : ρ)
    {dir : ResFiles F ρ} (hno : ∀ x ∈ dir, ¬ ".json".toList <:+ x.1)
    (hm : (mine, some ⟨some c, rest⟩) ∈ dir) (hnd : (dir.map Prod.fst).Nodup)
    (txt : TxtLogs F n m) (bin : BinLogs F n m) (ext : Ext) :
    loadSerial dir txt bin (some mine) ext = .ok ⟨c.1, c.2.1, c.2.2, some rest⟩ := by
  have hf : (dir.map Prod.fst).find? endsWithJson = none := by
    rw [List.find?_eq_none]
    intro x hx
    obtain ⟨f, hf, rfl⟩ := List.mem_map.1 hx
    rw [endsWithJson_iff]
    exact hno f hf
  have hl : dir.lookup mine = some (some ⟨some c, rest⟩) := by
    refine lookup_of_mem (fun x hx hn => ?_) hm
    exact List.inj_on_of_nodup_map hnd hx hm hn
  unfold loadSerial chooseJson
  rw [hf]
  dsimp only
  unfold loadJson
  rw [hl]
  rfl

/-- what fails: a named file that does not exist, if there is no file ending in `.json`, and a first
file ending in `.json` that cannot be decoded, whatever the caller named -/
theorem C96_failures {n : ℕ} (txt : TxtLogs F n m) (bin : BinLogs F n m) (ext : Ext) :
    (∀ (mine : List Char) (dir : ResFiles F ρ), (∀ x ∈ dir, ¬ ".json".toList <:+ x.1 ∧ x.1 ≠ mine) →
      loadSerial dir txt bin (some mine) ext = .error .fileNotFound) ∧
    ∀ (other : List Char) (jf : Option (List Char)) (front dir : ResFiles F ρ), ".json".toList <:+ other →
      (∀ x ∈ front, ¬ ".json".toList <:+ x.1) →
      loadSerial (front ++ (other, none) :: dir) txt bin jf ext = .error .notJson := by
  have hno : ∀ front : ResFiles F ρ, (∀ x ∈ front, ¬ ".json".toList <:+ x.1) →
      (front.map Prod.fst).find? endsWithJson = none := by
    intro front h
    rw [List.find?_eq_none]
    intro x hx
    obtain ⟨f, hf, rfl⟩ := List.mem_map.1 hx
    rw [endsWithJson_iff]
    exact h f hf
  have hlook : ∀ (name : List Char) (l : ResFiles F ρ), (∀ x ∈ l, x.1 ≠ name) → l.lookup name = none := by
    intro name l h
    rw [List.lookup_eq_none_iff]
    intro x hx
    simpa using fun e => h x hx e.symm
  refine ⟨fun mine dir h => ?_, fun other jf front dir hj h => ?_⟩
  · unfold loadSerial chooseJson
    rw [hno dir fun x hx => (h x hx).1]
    dsimp only
    unfold loadJson
    rw [hlook mine dir fun x hx => (h x hx).2]
    rfl
  · unfold loadSerial chooseJson
    rw [List.map_append, List.find?_append, hno front h, List.map_cons, Option.none_or,
      List.find?_cons_of_pos ((endsWithJson_iff _).2 hj)]
    dsimp only
    unfold loadJson
    rw [List.lookup_append, hlook other front fun x hx e => h x hx (e ▸ hj), Option.none_or, List.lookup_cons_self]
    rfl

/-- an extension other than `h5` and `txt` raises `TypeError` unless the chains are in the json
file -/
theorem C96_extension (res : Results F flags m) (rest : ρ) {a : OptArgs F} (hj : a.saveToJson = true)
    (hl : a.saveToBin = true ∨ a.saveToTxt = true) {name : Option (List Char)} {date : List Char}
    (hown : ∀ f, name = some f → ".json".toList <:+ f) {dir dir' : ResFiles F ρ}
    (hother : ∀ x ∈ dir, ".json".toList <:+ x.1 → x.1 = determineFilename name date)
    (hd : dir'.Perm (exportResults (defineSimulationOptions a) name date res rest dir))
    (txt : TxtLogs F (nS flags) m) (bin : BinLogs F (nS flags) m) (jf : Option (List Char)) :
    loadSerial dir' txt bin jf .unknown = .error .typeError := by
  rw [load_light res rest hj hl hown hother hd]
  rfl

end

/-! Examples: the run of `Spec/Toy` saved in a directory with an unrelated file -/

/-- options for saving -/
def savingArgs (bin txt : Bool) : OptArgs ℚ := { saveToJson := true, saveToBin := bin, saveToTxt := txt }

/-- a directory with a file of notes -/
def oldDir : ResFiles ℚ ℕ := [("notes.txt".toList, none)]

theorem oldDir_other (f : List Char) : ∀ x ∈ oldDir, ".json".toList <:+ x.1 → x.1 = f := by
  intro x hx h
  simp only [oldDir, List.mem_cons, List.not_mem_nil, or_false] at hx
  subst hx
  exact absurd ((endsWithJson_iff _).2 h) (by decide +kernel)

/-- a damaged json file after the notes, although the caller names another file -/
example : loadSerial (n := 2) (m := 1) (oldDir ++ ("old.json".toList, none) :: [("mine.json".toList, some ⟨none, 7⟩)])
    ⟨none, none, none⟩ ⟨none, none, none⟩ (some "mine.json".toList) .txt = .error .notJson :=
  (C96_failures _ _ _).2 _ _ _ _ ((endsWithJson_iff _).1 (by decide +kernel))
    fun x hx h => absurd (oldDir_other [] x hx h) (by
      simp only [oldDir, List.mem_cons, List.not_mem_nil, or_false] at hx
      subst hx
      decide +kernel)

example {m : ℕ} {flags : Fin 3 → Bool} (res : Results ℚ flags m) :=
  C96_json_partial res 7 (a := savingArgs false false) rfl rfl rfl (name := none)
    (date := "20261116_101010".toList) (by intro f h; cases h) (dir := oldDir) (oldDir_other _)
    (List.Perm.refl _)

/-- the hypotheses of the text theorems hold for the toy run -/
example : ∃ out, Toy.run .dram 5 = .ok out ∧ ∃ S, loadSerial
    (exportResults (defineSimulationOptions (savingArgs false true)) none [] out.results 7 oldDir)
    (out.final.logs.foldl saveTxt ⟨none, none, none⟩) ⟨none, none, none⟩ none .txt = .ok S ∧
    S.rest = some 7 ∧ ∃ A, S.chain = .array A ∧ A.shape = [out.results.chain.length, 2] := by
  obtain ⟨out, h⟩ := exists_ok (x := Toy.run .dram 5) (by decide +kernel)
  obtain ⟨S, h1, h2, ⟨A, h3, -, h4⟩, -⟩ := C96_text_partial h 7 (a := savingArgs false true) rfl rfl
    (name := none) (date := []) (by intro f h; cases h) (dir := oldDir) (oldDir_other _)
    (List.Perm.refl _) ⟨none, none, none⟩ none
  exact ⟨out, h, S, h1, h2, A, h3, h4 (by decide)⟩

/-- and those of the binary theorem -/
example : ∃ out, Toy.run .dram 10 = .ok out ∧ ∃ files S,
    out.final.logs.foldlM saveBin ⟨none, none, none⟩ = .ok files ∧ loadSerial
    (exportResults (defineSimulationOptions (savingArgs true false)) none [] out.results 7 oldDir)
    ⟨none, none, none⟩ files none .h5 = .ok S ∧ S.rest = some 7 := by
  obtain ⟨out, h, h1⟩ := exists_ok_and (x := Toy.run .dram 10)
    (fun o => decide (∀ b ∈ o.final.logs,
      b.start ≠ 0 → (Nat.toDigits 10 b.start).length = 1)) (by decide +kernel)
  obtain ⟨files, S, h2, h3, h4, -⟩ := C96_binary_partial h 1 (of_decide_eq_true h1) 7
    (a := savingArgs true false) rfl rfl
    (name := none) (date := []) (by intro f h; cases h) (dir := oldDir) (oldDir_other _)
    (List.Perm.refl _) ⟨none, none, none⟩ none
  exact ⟨out, h, files, S, h2, h3, h4⟩

example (c : ArrVal ℚ × ArrVal ℚ × ArrVal ℚ) (r : ResFile ℚ ℕ) :=
  C96_other_file_refuted (n := 2) (m := 1) "a.json".toList ((endsWithJson_iff _).1 (by decide +kernel))
    c 3 "b.json".toList r oldDir

example (c : ArrVal ℚ × ArrVal ℚ × ArrVal ℚ) :=
  C96_named (n := 2) (m := 1) "results".toList c 3
    (dir := ("results".toList, some ⟨some c, 3⟩) :: oldDir)
    (by
      intro x hx
      simp only [oldDir, List.mem_cons, List.not_mem_nil, or_false] at hx
      rcases hx with rfl | rfl <;> rw [← endsWithJson_iff] <;> dsimp only <;> decide +kernel)
    (by simp) (by simp [oldDir])

end Verif
