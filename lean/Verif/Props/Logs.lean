import Verif.Lemmas.LogFiles
import Verif.Spec.Toy

/-! # Log files: C29 - C32 -/

set_option linter.unusedSectionVars false

namespace Verif
variable {F σ : Type} [PyFloat F] {N m : ℕ} {flags : Fin N → Bool}

/-- **C29.** The blocks of rows written to the log files by a completed fresh run: the first starts
at row 0, each starts where the one before stopped, the last stops at `nsimu`, none is empty, all
but the last have `savesize` rows (`nsimu` if `savesize` is not between 1 and `nsimu`), the last at
most that many.  Block by block the rows written are the rows of the final chains, and put together
they are the final chains. -/
theorem C29_log_blocks {U : UserFuns F N (nS flags) m} {o : Obj F flags m}
    {G : Rng σ F} {L : Lapack F} {fuel : ℕ} {rng : σ}
    {out : RunOut F σ flags m} (h : runSimulation U G L fuel o rng false = .ok out) :
    ∃ sz : ℕ, 1 ≤ sz ∧ (1 ≤ o.opts.savesize ∧ o.opts.savesize ≤ o.opts.nsimu → sz = o.opts.savesize) ∧
      (¬ (1 ≤ o.opts.savesize ∧ o.opts.savesize ≤ o.opts.nsimu) → sz = o.opts.nsimu) ∧
      (∃ b, out.final.logs.head? = some b ∧ b.start = 0) ∧
      (∃ b, out.final.logs.getLast? = some b ∧ (b.stop : ℤ) = o.opts.nsimu ∧ b.stop - b.start ≤ sz) ∧
      out.final.logs.IsChain (fun a b => a.stop = b.start) ∧
      (∀ b ∈ out.final.logs, b.start < b.stop) ∧
      (∀ b ∈ out.final.logs.dropLast, b.stop = b.start + sz) ∧
      (∀ b ∈ out.final.logs,
        b.chain = (out.results.chain.drop b.start).take (b.stop - b.start) ∧
        b.sschain = (out.results.sschain.drop b.start).take (b.stop - b.start) ∧
        b.s2chain = out.results.s2chain.map fun c => (c.drop b.start).take (b.stop - b.start)) ∧
      out.final.logs.flatMap (fun b => b.chain) = out.results.chain ∧
      out.final.logs.flatMap (fun b => b.sschain) = out.results.sschain ∧
      (∀ c, out.results.s2chain = some c →
        out.final.logs.flatMap (fun b => b.s2chain.getD []) = c) := by
  obtain ⟨sz, n, hn, hn2, hsz, hszv, hl1, hl2, hl3, hlogs⟩ := fresh_logs h
  have hmod := Nat.mod_add_div (n - 1) sz
  have hlt := Nat.mod_lt (n - 1) (show 0 < sz by omega)
  have hdm := Nat.div_mul_le_self (n - 1) sz
  have hslice : ∀ {α : Type} (l : List α) (a b : ℕ), pySlice l a b = (l.drop a).take (b - a) := by
    intro α l a b; unfold pySlice; rw [List.drop_take]
  have hflat : ∀ {α : Type} (l : List α), l.length = n →
      (List.range ((n - 1) / sz)).flatMap (fun j => pySlice l (j * sz) ((j + 1) * sz)) ++
        pySlice l ((n - 1) / sz * sz) n = l := by
    intro α l hl
    rw [flatMap_slices]
    unfold pySlice
    rw [List.drop_zero, List.take_of_length_le (l := l) (i := n) (by omega), List.take_append_drop]
  refine ⟨sz, hsz, fun hc => ?_, fun hc => ?_, ?_, ?_, ?_, ?_, ?_, ?_, ?_, ?_, ?_⟩
  · rw [hszv, if_neg (by omega)]
  · rw [hszv, if_pos (by omega)]
  · rw [hlogs]
    cases hk : (n - 1) / sz with
    | zero => exact ⟨_, rfl, by simp [blockOf]⟩
    | succ k => exact ⟨_, by rw [List.range_succ_eq_map]; rfl, by simp [blockOf]⟩
  · refine ⟨blockOf out.results ((n - 1) / sz * sz) n, by rw [hlogs]; simp, hn, ?_⟩
    rw [Nat.mul_comm] at hmod
    simp only [blockOf]
    omega
  · rw [hlogs, List.isChain_iff_getElem]
    intro i hi
    simp only [List.length_append, List.length_map, List.length_range, List.length_singleton] at hi
    rw [List.getElem_append_left (by simp; omega), List.getElem_map, List.getElem_range]
    by_cases hi2 : i + 1 < (n - 1) / sz
    · rw [List.getElem_append_left (by simp; omega), List.getElem_map, List.getElem_range]
      rfl
    · rw [List.getElem_append_right (by simp; omega)]
      have e : i + 1 = (n - 1) / sz := by omega
      simp only [List.length_map, List.length_range, List.getElem_singleton, blockOf]
      rw [e]
  · rw [hlogs]
    intro b hb
    rcases List.mem_append.1 hb with hb | hb
    · obtain ⟨j, _, rfl⟩ := List.mem_map.1 hb
      simp only [blockOf]
      rw [Nat.add_mul]; omega
    · rw [List.mem_singleton.1 hb]; simp only [blockOf]; omega
  · rw [hlogs, List.dropLast_concat]
    intro b hb
    obtain ⟨j, _, rfl⟩ := List.mem_map.1 hb
    simp only [blockOf]
    rw [Nat.add_mul]; omega
  · rw [hlogs]
    intro b hb
    have : ∃ x y, b = blockOf out.results x y := by
      rcases List.mem_append.1 hb with hb | hb
      · obtain ⟨j, _, rfl⟩ := List.mem_map.1 hb; exact ⟨_, _, rfl⟩
      · exact ⟨_, _, List.mem_singleton.1 hb⟩
    obtain ⟨x, y, rfl⟩ := this
    simp only [blockOf, hslice, and_self]
  · rw [hlogs, List.flatMap_append, List.flatMap_map, List.flatMap_singleton]
    exact hflat _ hl1
  · rw [hlogs, List.flatMap_append, List.flatMap_map, List.flatMap_singleton]
    exact hflat _ hl2
  · intro c hc
    rw [hlogs, List.flatMap_append, List.flatMap_map, List.flatMap_singleton]
    simp only [blockOf, hc, Option.map_some, Option.getD_some]
    exact hflat _ (hl3 c hc)

/-- seven samples written in blocks of two: `0..2`, `2..4`, `4..6`, `6..7` -/
example : ∃ out, Toy.run .dram 7 = .ok out ∧
    out.final.logs.map (fun b => (b.start, b.stop)) = [(0, 2), (2, 4), (4, 6), (6, 7)] := by
  obtain ⟨out, h, h1⟩ := exists_ok_and (x := Toy.run .dram 7)
    (fun o => decide (o.final.logs.map (fun b => (b.start, b.stop)) =
      [(0, 2), (2, 4), (4, 6), (6, 7)])) (by decide +kernel)
  exact ⟨out, h, of_decide_eq_true h1⟩

/-! ### C30 -/

/-- **C30.** The text logs of a completed fresh run written to an empty directory: reading a file
gives the entries of the chain row after row.  With two or more columns the array has one row per
chain row; a single column comes back as a one-dimensional array with one entry per chain row.  The
error-variance file exists exactly when there is an error-variance chain. -/
theorem C30_text_log_reads_back {U : UserFuns F N (nS flags) m} {o : Obj F flags m}
    {G : Rng σ F} {L : Lapack F} {fuel : ℕ} {rng : σ}
    {out : RunOut F σ flags m} (h : runSimulation U G L fuel o rng false = .ok out) :
    let files := out.final.logs.foldl saveTxt ⟨none, none, none⟩
    (∃ a, readInTxtFile files.chain = some a ∧ a.data = out.results.chain.flatMap List.ofFn ∧
      (2 ≤ nS flags → a.shape = [out.results.chain.length, nS flags]) ∧
      (nS flags = 1 → a.shape = [out.results.chain.length])) ∧
    (∃ a, readInTxtFile files.sschain = some a ∧ a.data = out.results.sschain.flatMap List.ofFn ∧
      (2 ≤ m → a.shape = [out.results.sschain.length, m]) ∧
      (m = 1 → a.shape = [out.results.sschain.length])) ∧
    (∀ c, out.results.s2chain = some c →
      ∃ a, readInTxtFile files.s2chain = some a ∧ a.data = c.flatMap List.ofFn ∧
        (2 ≤ m → a.shape = [c.length, m]) ∧ (m = 1 → a.shape = [c.length])) ∧
    (out.results.s2chain = none → readInTxtFile files.s2chain = none) := by
  intro files
  obtain ⟨sz, n, hn, hn2, hsz, hszv, hl1, hl2, hl3, hlogs⟩ := fresh_logs h
  obtain ⟨_, _, _, _, _, _, _, _, _, hb, f1, f2, f3⟩ := C29_log_blocks h
  have hne : out.final.logs ≠ [] := by rw [hlogs]; simp
  obtain ⟨e1, e2, e3, e4⟩ := saveTxt_ok (bs := out.final.logs) (⟨none, none, none⟩) hne
  have hshape : ∀ {k : ℕ} (l : List (Vec F k)), 2 ≤ l.length →
      (2 ≤ k → (loadtxt l).shape = [l.length, k]) ∧ (k = 1 → (loadtxt l).shape = [l.length]) := by
    intro k l hl
    refine ⟨fun hk => ?_, fun hk => ?_⟩
    · unfold loadtxt
      rw [if_neg (by intro h0; rcases Nat.mul_eq_zero.1 h0 with h | h <;> omega)]
      rw [List.filter_eq_self.2]
      intro x hx
      simp only [List.mem_cons, List.not_mem_nil, or_false] at hx
      simp only [decide_eq_true_eq]
      omega
    · subst hk
      unfold loadtxt
      rw [if_neg (by omega)]
      simp only [List.filter_cons, decide_eq_true_eq, List.filter_nil]
      rw [if_pos (by omega), if_neg (by omega)]
  simp only [Option.getD_none, List.nil_append] at e1 e2 e3
  refine ⟨⟨loadtxt out.results.chain, ?_, rfl, hshape _ (by omega)⟩,
    ⟨loadtxt out.results.sschain, ?_, rfl, hshape _ (by omega)⟩, fun c hc => ?_, fun hc => ?_⟩
  · change readInTxtFile (out.final.logs.foldl saveTxt _).chain = _
    rw [e1, f1]; rfl
  · change readInTxtFile (out.final.logs.foldl saveTxt _).sschain = _
    rw [e2, f2]; rfl
  · refine ⟨loadtxt c, ?_, rfl, hshape _ (by rw [hl3 c hc]; omega)⟩
    change readInTxtFile (out.final.logs.foldl saveTxt _).s2chain = _
    rw [e3 fun b hbm => by rw [(hb b hbm).2.2, hc]; rfl, f3 c hc]; rfl
  · change readInTxtFile (out.final.logs.foldl saveTxt _).s2chain = _
    rw [e4 fun b hbm => by rw [(hb b hbm).2.2, hc]; rfl]; rfl

/-- five samples of two parameters in blocks of two, read back as a 5×2 array -/
example : (do
    let out ← (Toy.run .dram 5).toOption
    readInTxtFile (out.final.logs.foldl saveTxt ⟨none, none, none⟩).chain).map
      (fun a : NdArray ℚ => (a.shape, a.data)) = some ([5, 2], [1, 2, 2, 0, 9/5, 1/5, 9/5, 1/5, 4/5, 6/5]) := by
  decide +kernel

/-- A second fresh run into the same directory appends: the file then holds both chains. -/
theorem C30_text_log_appends {U : UserFuns F N (nS flags) m} {o : Obj F flags m}
    {G : Rng σ F} {L : Lapack F} {fuel : ℕ} {rng : σ}
    {out : RunOut F σ flags m} (h : runSimulation U G L fuel o rng false = .ok out)
    (d : TxtLogs F (nS flags) m) :
    (out.final.logs.foldl saveTxt d).chain = some (d.chain.getD [] ++ out.results.chain) ∧
    (out.final.logs.foldl saveTxt d).sschain = some (d.sschain.getD [] ++ out.results.sschain) := by
  obtain ⟨sz, n, hn, hn2, hsz, hszv, hl1, hl2, hl3, hlogs⟩ := fresh_logs h
  obtain ⟨_, _, _, _, _, _, _, _, _, hb, f1, f2, f3⟩ := C29_log_blocks h
  have hne : out.final.logs ≠ [] := by rw [hlogs]; simp
  obtain ⟨e1, e2, -, -⟩ := saveTxt_ok (bs := out.final.logs) d hne
  exact ⟨by rw [e1, f1], by rw [e2, f2]⟩

example : ∃ out, Toy.run .dram 5 = .ok out :=
  exists_ok (x := Toy.run .dram 5) (by decide +kernel)

/-! ### C31 -/

/-- **C31 (partial).** If all blocks but the first start at row numbers with the same number of
decimal digits, the binary logs of a completed fresh run written to an empty directory read back
as the chains, row for row.
Missing: all other combinations of `nsimu` and `savesize`, see `C31_binary_log_refuted`. -/
theorem C31_binary_log_reads_back_partial {U : UserFuns F N (nS flags) m} {o : Obj F flags m}
    {G : Rng σ F} {L : Lapack F} {fuel : ℕ} {rng : σ}
    {out : RunOut F σ flags m} (h : runSimulation U G L fuel o rng false = .ok out)
    (digits : ℕ) (hd : ∀ b ∈ out.final.logs, b.start ≠ 0 → (Nat.toDigits 10 b.start).length = digits) :
    ∃ files, out.final.logs.foldlM saveBin ⟨none, none, none⟩ = .ok files ∧
      readInBinFile files.chain = some out.results.chain ∧
      readInBinFile files.sschain = some out.results.sschain ∧
      readInBinFile files.s2chain = out.results.s2chain := by
  obtain ⟨sz, n, hn, hn2, hsz, hszv, hl1, hl2, hl3, hlogs⟩ := fresh_logs h
  obtain ⟨_, _, _, _, _, _, _, hpos, _, hb, f1, f2, f3⟩ := C29_log_blocks h
  have hne : out.final.logs ≠ [] := by rw [hlogs]; simp
  have hdm := Nat.div_mul_le_self (n - 1) sz
  have hmod := Nat.mod_add_div (n - 1) sz
  have hlt := Nat.mod_lt (n - 1) (show 0 < sz by omega)
  -- names increase
  have hstarts : out.final.logs.Pairwise fun a b => a.start < b.start := by
    rw [hlogs, List.pairwise_append]
    refine ⟨?_, by simp, ?_⟩
    · rw [List.pairwise_map]
      refine List.pairwise_lt_range.imp fun {a b} hab => ?_
      exact Nat.mul_lt_mul_of_pos_right hab (by omega)
    · intro x hx y hy
      obtain ⟨j, hj, rfl⟩ := List.mem_map.1 hx
      rw [List.mem_singleton.1 hy]
      exact Nat.mul_lt_mul_of_pos_right (List.mem_range.1 hj) (by omega)
  have hnames : out.final.logs.Pairwise fun a b =>
      datasetName a.start a.stop < datasetName b.start b.stop := by
    refine hstarts.imp_of_mem fun {a b} ha hb hab => datasetName_lt hab ?_
    by_cases h0 : a.start = 0
    · exact Or.inl h0
    · exact Or.inr ((hd a ha h0).trans (hd b hb (by omega)).symm)
  have hsl : ∀ {α : Type} (l : List α) (a b : ℕ), l.length = n → b ≤ n →
      (pySlice l a b).length = b - a := by
    intro α l a b hl hb; unfold pySlice; simp; omega
  have hfit : ∀ {α : Type} (l : List α), l.length = n → ∃ d rest,
      (List.range ((n - 1) / sz)).map (fun j => pySlice l (j * sz) ((j + 1) * sz)) ++
        [pySlice l ((n - 1) / sz * sz) n] = d :: rest ∧ Fits d.length (d :: rest) := by
    intro α l hl
    by_cases h0 : (n - 1) / sz = 0
    · rw [h0]
      exact ⟨_, _, rfl, le_refl _⟩
    · have hbl : ∀ j < (n - 1) / sz, (pySlice l (j * sz) ((j + 1) * sz)).length = sz := by
        intro j hj
        have : (j + 1) * sz ≤ (n - 1) / sz * sz := Nat.mul_le_mul_right _ hj
        rw [hsl l _ _ hl (by omega), Nat.add_mul]; omega
      have hft : Fits sz ((List.range ((n - 1) / sz)).map
          (fun j => pySlice l (j * sz) ((j + 1) * sz)) ++ [pySlice l ((n - 1) / sz * sz) n]) := by
        refine fits_of ?_ ?_
        · intro x hx
          obtain ⟨j, hj, rfl⟩ := List.mem_map.1 hx
          exact hbl j (List.mem_range.1 hj)
        · rw [hsl l _ _ hl (le_refl _)]
          rw [Nat.mul_comm] at hmod
          omega
      obtain ⟨k, hk⟩ : ∃ k, (n - 1) / sz = k + 1 := Nat.exists_eq_succ_of_ne_zero h0
      have h00 := hbl 0 (by omega)
      rw [hk, List.range_succ_eq_map, List.map_cons, List.cons_append] at hft ⊢
      refine ⟨_, _, rfl, ?_⟩
      rwa [h00]
  obtain ⟨files, g1, g2, g3, g4, g5⟩ := saveBin_ok (bs := out.final.logs) ⟨none, none, none⟩
    (fun b _ => by simp) (hnames.imp fun {a b} hab heq => by
      rw [heq] at hab; exact absurd hab (List.lt_irrefl _)) hne
  simp only [Option.getD_none, List.nil_append] at g2 g3 g4
  refine ⟨files, g1, ?_, ?_, ?_⟩
  · rw [g2]
    obtain ⟨d, rest, hdr, hf⟩ := hfit _ hl1
    rw [readInBinFile_ok (by rw [List.pairwise_map]; exact hnames) (d := d) (rest := rest) ?_ hf]
    · rw [List.map_map, ← List.flatMap_def]; exact congrArg some f1
    · rw [← hdr, hlogs]; simp [blockOf, Function.comp_def]
  · rw [g3]
    obtain ⟨d, rest, hdr, hf⟩ := hfit _ hl2
    rw [readInBinFile_ok (by rw [List.pairwise_map]; exact hnames) (d := d) (rest := rest) ?_ hf]
    · rw [List.map_map, ← List.flatMap_def]; exact congrArg some f2
    · rw [← hdr, hlogs]; simp [blockOf, Function.comp_def]
  · cases hc : out.results.s2chain with
    | none => rw [g5 fun b hbm => by rw [(hb b hbm).2.2, hc]; rfl]; rfl
    | some c =>
      rw [g4 fun b hbm => by rw [(hb b hbm).2.2, hc]; rfl]
      obtain ⟨d, rest, hdr, hf⟩ := hfit _ (hl3 c hc)
      rw [readInBinFile_ok (by rw [List.pairwise_map]; exact hnames) (d := d) (rest := rest) ?_ hf]
      · rw [List.map_map, ← List.flatMap_def]; exact congrArg some (f3 c hc)
      · rw [← hdr, hlogs]; simp [blockOf, Function.comp_def, hc]

/-- ten samples in blocks of two: the starts 2, 4, 6, 8 have one digit -/
example : ∃ out, Toy.run .dram 10 = .ok out ∧ 5 ≤ out.final.logs.length ∧
    ∀ b ∈ out.final.logs, b.start ≠ 0 → (Nat.toDigits 10 b.start).length = 1 := by
  obtain ⟨out, h, h1⟩ := exists_ok_and (x := Toy.run .dram 10)
    (fun o => decide (5 ≤ o.final.logs.length) && decide (∀ b ∈ o.final.logs,
      b.start ≠ 0 → (Nat.toDigits 10 b.start).length = 1)) (by decide +kernel)
  simp only [Bool.and_eq_true, decide_eq_true_eq] at h1
  exact ⟨out, h, h1.1, h1.2⟩

/-- the toy run with another `savesize` -/
def Toy.runSaving (nsimu savesize : ℤ) : Except PyErr (RunOut ℚ ℕ Toy.flags 1) :=
  runSimulation Toy.user Toy.rng Toy.lapack 100
    (newObj Toy.specs (defineSimulationOptions { method := .mh, nsimu := nsimu, savesize := savesize })
      Toy.extra Toy.settings Toy.data) 0 false

/-- **C31 is false.** With `nsimu = 12` and `savesize = 2` the file is read back with the rows in
another order (block `nsimu_10_11` sorts before `nsimu_2_3`); with `nsimu = 14` and `savesize = 4`
nothing at all is read back (the short last block is read second). -/
theorem C31_binary_log_refuted :
    (∃ out files, Toy.runSaving 12 2 = .ok out ∧
      out.final.logs.foldlM saveBin ⟨none, none, none⟩ = .ok files ∧
      ∃ rows, readInBinFile files.chain = some rows ∧ rows ≠ out.results.chain) ∧
    (∃ out files, Toy.runSaving 14 4 = .ok out ∧
      out.final.logs.foldlM saveBin ⟨none, none, none⟩ = .ok files ∧
      readInBinFile files.chain = none ∧ out.results.chain.length = 14) := by
  constructor
  · obtain ⟨⟨out, files, rows⟩, h, h1⟩ := exists_ok_and
      (x := do
        let out ← Toy.runSaving 12 2
        let files ← out.final.logs.foldlM saveBin ⟨none, none, none⟩
        let rows ← orRaise (readInBinFile files.chain) .valueError
        Except.ok (out, files, rows))
      (fun p => !decide (p.2.2.map List.ofFn = p.1.results.chain.map List.ofFn)) (by decide +kernel)
    rw [bind_ok] at h
    obtain ⟨_, e1, h⟩ := h
    rw [bind_ok] at h
    obtain ⟨_, e2, h⟩ := h
    rw [bind_ok] at h
    obtain ⟨_, e3, h⟩ := h
    cases h
    refine ⟨out, files, e1, e2, rows, orRaise_ok.1 e3, fun heq => ?_⟩
    subst heq
    simp at h1
  · obtain ⟨⟨out, files⟩, h, h1⟩ := exists_ok_and
      (x := do
        let out ← Toy.runSaving 14 4
        let files ← out.final.logs.foldlM saveBin ⟨none, none, none⟩
        Except.ok (out, files))
      (fun p => (readInBinFile p.2.chain).isNone && decide (p.1.results.chain.length = 14))
      (by decide +kernel)
    rw [bind_ok] at h
    obtain ⟨_, e1, h⟩ := h
    rw [bind_ok] at h
    obtain ⟨_, e2, h⟩ := h
    cases h
    simp only [Bool.and_eq_true, decide_eq_true_eq, Option.isNone_iff_eq_none] at h1
    exact ⟨out, files, e1, e2, h1.1, h1.2⟩

/-! ### C32 -/

/-- Every block of a continued run is cut from the arrays `lc` that the logger holds. -/
theorem C32_blocks_are_stale {U : UserFuns F N (nS flags) m} {o : Obj F flags m}
    {lc : Chains F (nS flags) m} (hlc : o.logChains = some lc)
    {G : Rng σ F} {L : Lapack F} {fuel : ℕ} {rng : σ} {out : RunOut F σ flags m}
    (h : runSimulation U G L fuel o rng true = .ok out) :
    out.final.logs ≠ [] ∧
    (∀ b ∈ out.final.logs, b.chain = (lc.chain.drop b.start).take (b.stop - b.start)) ∧
    (∃ b, out.final.logs.head? = some b ∧ b.start = 0) ∧
    (∀ b ∈ out.final.logs, (b.stop : ℤ) ≤ o.opts.nsimu) := by
  obtain ⟨o1, I, s0, h1, h2, h3, h4, h5⟩ := runSimulation_ok h
  obtain ⟨hst, hpos, hci, hch, hsc, _, _, hls, _, ho1⟩ := setup_continue h1
  rw [hlc] at hls
  dsimp only at hls
  have hopt : o.opts.nsimu = I.opts.nsimu := by rw [hst.init.opts, ← hst.opts]; rfl
  have hsz : 1 ≤ (runOpts I.opts o1.extra).savesize := by
    have : (runOpts I.opts o1.extra).savesize = I.opts.savesize.toNat := rfl
    rw [this, hst.init.opts]
    rw [hst.init.opts] at hpos
    unfold checkDependentSimulationOptions at hpos ⊢
    dsimp only at hpos ⊢
    split <;> omega
  obtain ⟨hn, s1, ⟨hP, hS⟩, hfin⟩ := executeSimulator_inv
    (P := fun i s => LogInv (runOpts I.opts o1.extra).savesize s0 i s ∧ s.logSource = s0.logSource)
    ⟨LogInv.init s0, rfl⟩
    (fun i a b p hi _ hP hp => ⟨hP.1.step hsz hi hp, hp.logSource.trans hP.2⟩) h2
  have hN : (runOpts I.opts o1.extra).nsimu = I.opts.nsimu.toNat := rfl
  rw [hls] at hS
  have hblock : ∀ a b, mkBlock s1 a b = ⟨a, b, pySlice lc.chain a b, pySlice lc.sschain a b,
      lc.s2chain.map fun c => pySlice c a b⟩ := by
    intro a b; unfold mkBlock; rw [hS]
  have hlogs := hP.logs
  rw [hst.logs, List.nil_append] at hlogs
  have hdm := Nat.div_mul_le_self ((runOpts I.opts o1.extra).nsimu - 1)
    (runOpts I.opts o1.extra).savesize
  rw [hfin]
  dsimp only at hn ⊢
  rw [hlogs, hP.lastbin]
  dsimp only
  simp only [hblock]
  refine ⟨by simp, ?_, ?_, ?_⟩
  · intro b hb
    rcases List.mem_append.1 hb with hb | hb
    · obtain ⟨j, _, rfl⟩ := List.mem_map.1 hb
      simp only [pySlice, List.drop_take]
    · rw [List.mem_singleton.1 hb]; simp only [pySlice, List.drop_take]
  · cases hk : ((runOpts I.opts o1.extra).nsimu - 1) / (runOpts I.opts o1.extra).savesize with
    | zero => exact ⟨_, rfl, by simp⟩
    | succ k => exact ⟨_, by rw [List.range_succ_eq_map]; rfl, by simp⟩
  · intro b hb
    rcases List.mem_append.1 hb with hb | hb
    · obtain ⟨j, hj, rfl⟩ := List.mem_map.1 hb
      have := Nat.mul_le_mul_right (runOpts I.opts o1.extra).savesize (List.mem_range.1 hj)
      simp only [Nat.succ_eq_add_one] at this
      dsimp only
      omega
    · rw [List.mem_singleton.1 hb]; dsimp only; omega

example : ∃ a b, Toy.twice .dram 5 4 = .ok (a, b) ∧ a.obj.logChains.isSome := by
  obtain ⟨⟨a, b⟩, h, h1⟩ := exists_ok_and (x := Toy.twice .dram 5 4)
    (fun p => p.1.obj.logChains.isSome) (by decide +kernel)
  exact ⟨a, b, h, h1⟩

/-- **C32 (partial).** A fresh run followed by a continuation, text logs in one directory: the file
starts with the rows of the first run.  What follows are rows of the first run again.
Missing: the rows of the continuation, see `C32_continued_log_refuted`. -/
theorem C32_first_rows_in_text_log_partial {U : UserFuns F N (nS flags) m} {o : Obj F flags m}
    {G : Rng σ F} {L : Lapack F} {fuel : ℕ} {rng : σ} {out : RunOut F σ flags m}
    (h : runSimulation U G L fuel o rng false = .ok out)
    (a : OptArgs F) (e : ExtraOpts F (nS flags))
    {G' : Rng σ F} {L' : Lapack F} {fuel' : ℕ} {rng' : σ} {out' : RunOut F σ flags m}
    (h' : runSimulation U G' L' fuel' { out.obj with opts := defineSimulationOptions a, extra := e }
      rng' true = .ok out') :
    ∃ rest, ((out.final.logs ++ out'.final.logs).foldl saveTxt ⟨none, none, none⟩).chain =
      some (out.results.chain ++ rest) ∧ ∀ row ∈ rest, row ∈ out.results.chain := by
  have hlc : out.obj.logChains = some ⟨out.results.chain, out.results.sschain, out.results.s2chain⟩ := by
    obtain ⟨o1, I, s0, h1, h2, h3, h4, h5⟩ := runSimulation_ok h
    obtain ⟨_, _, _, _, _, r1, r2, r3, _⟩ := generateResults_ok h3
    rw [h5, r1, r2, r3]; rfl
  obtain ⟨hne, hb, -⟩ := C32_blocks_are_stale (o := { out.obj with
    opts := defineSimulationOptions a, extra := e }) hlc h'
  rw [List.foldl_append]
  rw [(saveTxt_ok _ hne).1, (C30_text_log_appends h _).1]
  refine ⟨_, rfl, fun row hrow => ?_⟩
  obtain ⟨b, hbm, hr⟩ := List.mem_flatMap.1 hrow
  rw [hb b hbm] at hr
  exact List.mem_of_mem_drop (List.mem_of_mem_take hr)

/-- **C32 is false for binary logs too**: if the first block of the continuation covers the same
rows as the first block of the first run (for instance the same `savesize` both times), writing it
to the same directory fails. -/
theorem C32_binary_log_refuted {U : UserFuns F N (nS flags) m} {o : Obj F flags m}
    {G : Rng σ F} {L : Lapack F} {fuel : ℕ} {rng : σ} {out : RunOut F σ flags m}
    (h : runSimulation U G L fuel o rng false = .ok out)
    (a : OptArgs F) (e : ExtraOpts F (nS flags))
    {G' : Rng σ F} {L' : Lapack F} {fuel' : ℕ} {rng' : σ} {out' : RunOut F σ flags m}
    (h' : runSimulation U G' L' fuel' { out.obj with opts := defineSimulationOptions a, extra := e }
      rng' true = .ok out')
    (hsame : out.final.logs.head?.map (·.stop) = out'.final.logs.head?.map (·.stop))
    {files : BinLogs F (nS flags) m}
    (hf : out.final.logs.foldlM saveBin ⟨none, none, none⟩ = .ok files) :
    out'.final.logs.foldlM saveBin files = .error .valueError := by
  have hlc : out.obj.logChains = some ⟨out.results.chain, out.results.sschain, out.results.s2chain⟩ := by
    obtain ⟨o1, I, s0, h1, h2, h3, h4, h5⟩ := runSimulation_ok h
    obtain ⟨_, _, _, _, _, r1, r2, r3, _⟩ := generateResults_ok h3
    rw [h5, r1, r2, r3]; rfl
  obtain ⟨hne, _, ⟨b', hb', hs'⟩, _⟩ := C32_blocks_are_stale (o := { out.obj with
    opts := defineSimulationOptions a, extra := e }) hlc h'
  obtain ⟨_, _, _, _, ⟨b, hb, hs⟩, _⟩ := C29_log_blocks h
  rw [hb, hb'] at hsame
  simp only [Option.map_some, Option.some.injEq] at hsame
  -- the name of the first block is in the file
  have hmono : ∀ (bs : List (LogBlock F (nS flags) m)) (d d' : BinLogs F (nS flags) m),
      bs.foldlM saveBin d = .ok d' →
      ∀ x ∈ (d.chain.getD []).map Prod.fst, x ∈ (d'.chain.getD []).map Prod.fst := by
    intro bs
    induction bs with
    | nil => intro d d' he; cases he; exact fun x hx => hx
    | cons c cs ih =>
      intro d d' he x hx
      rw [List.foldlM_cons, bind_ok] at he
      obtain ⟨d1, he1, he2⟩ := he
      refine ih d1 d' he2 x ?_
      unfold saveBin at he1
      rw [bind_ok] at he1
      obtain ⟨y, hy, he1⟩ := he1
      rw [bind_ok] at he1
      obtain ⟨y2, hy2, he1⟩ := he1
      rw [bind_ok] at he1
      obtain ⟨y3, hy3, he1⟩ := he1
      cases he1
      unfold saveToBinFile at hy
      split at hy
      · cases hy
      · cases hy
        simp only [Option.getD_some, List.map_append, List.mem_append]
        exact Or.inl hx
  have hin : datasetName b.start b.stop ∈ (files.chain.getD []).map Prod.fst := by
    cases hlog : out.final.logs with
    | nil => rw [hlog] at hb; cases hb
    | cons c cs =>
      rw [hlog] at hb hf
      cases hb
      rw [List.foldlM_cons, bind_ok] at hf
      obtain ⟨d1, he1, he2⟩ := hf
      refine hmono _ _ _ he2 _ ?_
      unfold saveBin at he1
      rw [bind_ok] at he1
      obtain ⟨y, hy, he1⟩ := he1
      rw [bind_ok] at he1
      obtain ⟨y2, hy2, he1⟩ := he1
      rw [bind_ok] at he1
      obtain ⟨y3, hy3, he1⟩ := he1
      cases he1
      unfold saveToBinFile at hy
      split at hy
      · cases hy
      · cases hy; simp
  cases hlog : out'.final.logs with
  | nil => rw [hlog] at hb'; cases hb'
  | cons c cs =>
    rw [hlog] at hb'
    have hc : c = b' := by simpa using hb'
    subst hc
    rw [List.foldlM_cons]
    have : saveBin files c = .error .valueError := by
      unfold saveBin saveToBinFile
      rw [← hsame, hs', ← hs, if_pos hin]; rfl
    rw [this]; rfl

/-- the hypotheses are met by a run of 5 and a continuation by 4 samples, both in blocks of two -/
example : ∃ a b files, Toy.twice .dram 5 4 = .ok (a, b) ∧
    a.final.logs.head?.map (·.stop) = b.final.logs.head?.map (·.stop) ∧
    a.final.logs.foldlM saveBin ⟨none, none, none⟩ = .ok files := by
  obtain ⟨⟨a, b, f⟩, h, h1⟩ := exists_ok_and
    (x := do
      let ab ← Toy.twice .dram 5 4
      let f ← ab.1.final.logs.foldlM saveBin ⟨none, none, none⟩
      Except.ok (ab.1, ab.2, f))
    (fun p => decide (p.1.final.logs.head?.map (·.stop) = p.2.1.final.logs.head?.map (·.stop)))
    (by decide +kernel)
  rw [bind_ok] at h
  obtain ⟨ab, e1, h⟩ := h
  rw [bind_ok] at h
  obtain ⟨f', e2, h⟩ := h
  cases h
  exact ⟨ab.1, ab.2, f, e1, of_decide_eq_true h1, e2⟩

end Verif
