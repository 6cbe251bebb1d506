import Verif.Model.IndexLog
import Verif.Props.Logs

/-!
# Property C138: the printed index of the log files
-/

set_option linter.unusedSectionVars false

namespace Verif
variable {F σ : Type} [PyFloat F] {N m : ℕ} {flags : Fin N → Bool}

theorem addToLog_new {name : List Char} (s : List Char) : ∀ {d : Folder}, (∀ x ∈ d, x.1 ≠ name) →
    addToLog d name s = d ++ [(name, .text s)]
  | [], _ => rfl
  | (n', b) :: d, h => by
    unfold addToLog
    rw [if_neg (h _ List.mem_cons_self), addToLog_new s fun x hx => h x (List.mem_cons_of_mem _ hx)]
    rfl

theorem addToLog_old {name : List Char} (s t : List Char) (e : Folder) : ∀ {d : Folder}, (∀ x ∈ d, x.1 ≠ name) →
    addToLog (d ++ (name, .text t) :: e) name s = d ++ (name, .text (t ++ s)) :: e
  | [], _ => by rw [List.nil_append]; unfold addToLog; rw [if_pos rfl]; rfl
  | (n', b) :: d, h => by
    rw [List.cons_append]
    unfold addToLog
    rw [if_neg (h _ List.mem_cons_self), addToLog_old s t e fun x hx => h x (List.mem_cons_of_mem _ hx)]
    rfl

/-- the lines for a list of blocks, from number `k` on -/
def indexLines {n : ℕ} (c : ℕ → List Char) : ℕ → List (LogBlock F n m) → List Char
  | _, [] => []
  | k, b :: bs => indexLine (c k) b.start b.stop ++ indexLines c (k + 1) bs

theorem index_ne : binIndex ≠ txtIndex := by decide

theorem saveIndexes_old {n : ℕ} (bin txt : Bool) (clock : ℕ → List Char × List Char) {d : Folder}
    (hb : ∀ x ∈ d, x.1 ≠ binIndex) (ht : ∀ x ∈ d, x.1 ≠ txtIndex) :
    ∀ (k : ℕ) (bs : List (LogBlock F n m)) (tb tt : List Char),
    saveIndexes bin txt clock (d ++ (if bin then [(binIndex, .text tb)] else []) ++
        (if txt then [(txtIndex, .text tt)] else [])) k bs =
      d ++ (if bin then [(binIndex, .text (tb ++ indexLines (fun k => (clock k).1) k bs))] else []) ++
        (if txt then [(txtIndex, .text (tt ++ indexLines (fun k => (clock k).2) k bs))] else [])
  | k, [], tb, tt => by simp [saveIndexes, indexLines]
  | k, b :: bs, tb, tt => by
    unfold saveIndexes indexLines
    rw [← List.append_assoc, ← List.append_assoc, ← saveIndexes_old bin txt clock hb ht (k + 1) bs]
    congr 1
    have htb : ∀ t, ∀ x ∈ d ++ [(binIndex, FileBody.text t)], x.1 ≠ txtIndex := by
      intro t x hx
      rcases List.mem_append.1 hx with hx | hx
      · exact ht x hx
      · rw [List.mem_singleton.1 hx]; exact index_ne
    unfold saveIndex
    cases bin <;> cases txt
    · rfl
    · simpa using addToLog_old (indexLine (clock k).2 b.start b.stop) tt [] ht
    · simpa using addToLog_old (indexLine (clock k).1 b.start b.stop) tb [] hb
    · have h1 := addToLog_old (indexLine (clock k).1 b.start b.stop) tb [(txtIndex, .text tt)] hb
      have h2 := addToLog_old (indexLine (clock k).2 b.start b.stop) tt [] (htb (tb ++ indexLine (clock k).1 b.start b.stop))
      simp only [if_true, List.append_assoc, List.cons_append, List.nil_append] at h1 h2 ⊢
      rw [h1, h2]

theorem saveIndexes_new {n : ℕ} (bin txt : Bool) (clock : ℕ → List Char × List Char) {d : Folder}
    (hb : ∀ x ∈ d, x.1 ≠ binIndex) (ht : ∀ x ∈ d, x.1 ≠ txtIndex) {bs : List (LogBlock F n m)} (hbs : bs ≠ []) :
    saveIndexes bin txt clock d 0 bs =
      d ++ (if bin then [(binIndex, .text (indexLines (fun k => (clock k).1) 0 bs))] else []) ++
        (if txt then [(txtIndex, .text (indexLines (fun k => (clock k).2) 0 bs))] else []) := by
  cases bs with
  | nil => exact absurd rfl hbs
  | cons b bs =>
    unfold saveIndexes indexLines
    rw [← saveIndexes_old bin txt clock hb ht]
    congr 1
    unfold saveIndex
    have htb : ∀ t, ∀ x ∈ d ++ [(binIndex, FileBody.text t)], x.1 ≠ txtIndex := by
      intro t x hx
      rcases List.mem_append.1 hx with hx | hx
      · exact ht x hx
      · rw [List.mem_singleton.1 hx]; exact index_ne
    cases bin <;> cases txt
    · simp
    · simpa using addToLog_new (indexLine (clock 0).2 b.start b.stop) ht
    · simpa using addToLog_new (indexLine (clock 0).1 b.start b.stop) hb
    · simp only [if_true]
      rw [addToLog_new _ hb, addToLog_new _ (htb _)]

theorem indexLines_append {n : ℕ} (c : ℕ → List Char) : ∀ (k : ℕ) (bs cs : List (LogBlock F n m)),
    indexLines c k (bs ++ cs) = indexLines c k bs ++ indexLines c (k + bs.length) cs
  | k, [], cs => rfl
  | k, b :: bs, cs => by
    rw [List.cons_append, indexLines, indexLines]
    rw [indexLines_append c (k + 1) bs cs, List.append_assoc, List.length_cons,
      show k + 1 + bs.length = k + (bs.length + 1) by omega]

theorem indexLines_map {n : ℕ} (c : ℕ → List Char) (f : ℕ → LogBlock F n m) : ∀ (q : ℕ),
    indexLines c 0 ((List.range q).map f) =
      (List.range q).flatMap fun j => indexLine (c j) (f j).start (f j).stop
  | 0 => rfl
  | q + 1 => by
    rw [List.range_succ, List.map_append, indexLines_append, indexLines_map c f q, List.flatMap_append]
    simp [indexLines]

/-- the text the index should have for `n` rows saved in blocks of `sz`: a line for every block, with the time, the
first and the last row -/
def indexText (stamp : ℕ → List Char) (n sz : ℕ) : List Char :=
  (List.range ((n - 1) / sz + 1)).flatMap fun j =>
    stamp j ++ ['\t'] ++ Nat.toDigits 10 (j * sz) ++ ['\t'] ++ Nat.toDigits 10 (min ((j + 1) * sz) n - 1) ++ ['\n']

theorem run_index {U : UserFuns F N (nS flags) m} {o : Obj F flags m} {G : Rng σ F} {L : Lapack F} {fuel : ℕ} {rng : σ}
    {out : RunOut F σ flags m} (h : runSimulation U G L fuel o rng false = .ok out) :
    ∃ sz n : ℕ, (n : ℤ) = o.opts.nsimu ∧ 1 ≤ sz ∧
      (sz : ℤ) = (if o.opts.savesize ≤ 0 ∨ o.opts.savesize > o.opts.nsimu then o.opts.nsimu else o.opts.savesize) ∧
      out.final.logs ≠ [] ∧ ∀ c, indexLines c 0 out.final.logs = indexText c n sz := by
  obtain ⟨sz, n, hn, hn2, hsz, hszv, -, -, -, hlogs⟩ := fresh_logs h
  refine ⟨sz, n, hn, hsz, hszv, by rw [hlogs]; simp, fun c => ?_⟩
  rw [hlogs, indexLines_append, indexLines_map, indexText, List.range_succ, List.flatMap_append]
  have hdm := Nat.div_mul_le_self (n - 1) sz
  have hlt : n - 1 < ((n - 1) / sz + 1) * sz := by
    rw [Nat.mul_comm]; exact Nat.lt_mul_div_succ _ (by omega)
  congr 1
  · refine List.flatMap_congr fun j hj => ?_
    have hj := List.mem_range.1 hj
    have : (j + 1) * sz ≤ (n - 1) / sz * sz := Nat.mul_le_mul_right _ hj
    rw [min_eq_left (by omega)]
    rfl
  · simp only [List.length_map, List.length_range, Nat.zero_add, List.flatMap_singleton]
    rw [min_eq_right (by omega)]
    simp [indexLines, indexLine, blockOf, dec]

theorem mapM_text {savedir : List Char} {l : Folder} (h : ∀ x ∈ l, ∃ t, x.2 = .text t) :
    ∃ p, l.mapM (printLogFile savedir) = .ok p ∧
      p = l.map fun x => (savedir ++ '/' :: x.1, match x.2 with | .text t => t | _ => []) := by
  induction l with
  | nil => exact ⟨[], rfl, rfl⟩
  | cons x l ih =>
    obtain ⟨p, hp, rfl⟩ := ih fun y hy => h y (List.mem_cons_of_mem _ hy)
    obtain ⟨t, ht⟩ := h x List.mem_cons_self
    obtain ⟨nm, b⟩ := x
    dsimp only at ht
    subst ht
    refine ⟨_, ?_, rfl⟩
    rw [List.mapM_cons, hp]
    simp [printLogFile, joinPath, bind, Except.bind, pure, Except.pure]

/-- **C138, full statement:** after a fresh run that saved its blocks into a directory without index files,
`print_log_files` prints the index files of the formats in use, and nothing else but what other text files with `log`
in their names hold.  An index has one line for every block, in order: time, first and last row; the blocks have
`savesize` rows (all rows if that is not between 1 and `nsimu`), the last one what is left; together they are the rows
`0` to `nsimu - 1`.  **Proved here:** this holds, in whatever order the directory is listed, if the other entries of the
directory with `log` in their names are text files.  See `C138_binary_refuted`. -/
theorem C138_index_partial {U : UserFuns F N (nS flags) m} {o : Obj F flags m} {G : Rng σ F} {L : Lapack F} {fuel : ℕ}
    {rng : σ} {out : RunOut F σ flags m} (h : runSimulation U G L fuel o rng false = .ok out)
    (bin txt : Bool) (clock : ℕ → List Char × List Char) (savedir : List Char) {d d' : Folder}
    (hb : ∀ x ∈ d, x.1 ≠ "binlogfile.txt".toList) (ht : ∀ x ∈ d, x.1 ≠ "txtlogfile.txt".toList)
    (hd : ∀ x ∈ d, "log".toList <:+: x.1 → ∃ t, x.2 = .text t)
    (hd' : d'.Perm (saveIndexes bin txt clock d 0 out.final.logs)) :
    ∃ (n sz : ℕ) (p : List (List Char × List Char)), (n : ℤ) = o.opts.nsimu ∧ 1 ≤ sz ∧
      (sz : ℤ) = (if o.opts.savesize ≤ 0 ∨ o.opts.savesize > o.opts.nsimu then o.opts.nsimu else o.opts.savesize) ∧
      printLogFiles savedir d' = .ok p ∧
      p.Perm (((d.filter fun x => decide ("log".toList <:+: x.1)).map fun x =>
          (savedir ++ '/' :: x.1, match x.2 with | .text t => t | _ => [])) ++
        (if bin then [(savedir ++ "/binlogfile.txt".toList, indexText (fun j => (clock j).1) n sz)] else []) ++
        if txt then [(savedir ++ "/txtlogfile.txt".toList, indexText (fun j => (clock j).2) n sz)] else []) := by
  obtain ⟨sz, n, hn, hsz, hszv, hne, hl⟩ := run_index h
  rw [saveIndexes_new bin txt clock hb ht hne, hl, hl] at hd'
  have hf := hd'.filter fun x => decide ("log".toList <:+: x.1)
  have htext : ∀ x ∈ d'.filter (fun x => decide ("log".toList <:+: x.1)), ∃ t, x.2 = .text t := by
    intro x hx
    obtain ⟨hx, hlog⟩ := List.mem_filter.1 hx
    have hx := hd'.mem_iff.1 hx
    rcases List.mem_append.1 hx with hx | hx
    · rcases List.mem_append.1 hx with hx | hx
      · exact hd x hx (of_decide_eq_true hlog)
      · cases bin
        · simp at hx
        · rw [List.mem_singleton.1 hx]; exact ⟨_, rfl⟩
    · cases txt
      · simp at hx
      · rw [List.mem_singleton.1 hx]; exact ⟨_, rfl⟩
  obtain ⟨p, hp, rfl⟩ := mapM_text (savedir := savedir) htext
  refine ⟨n, sz, _, hn, hsz, hszv, hp, ?_⟩
  refine (hf.map _).trans (List.Perm.of_eq ?_)
  have e1 : "log".toList <:+: binIndex := by decide
  have e2 : "log".toList <:+: txtIndex := by decide
  rw [List.filter_append, List.filter_append, List.map_append, List.map_append]
  congr 1
  · congr 1
    cases bin
    · rfl
    · simp only [if_true, List.filter_cons, decide_eq_true e1]
      rfl
  · cases txt
    · rfl
    · simp only [if_true, List.filter_cons, decide_eq_true e2]
      rfl

/-- **Refutation of C138:** a binary file with `log` in its name, as the chain file of a run with
`chainfile='chain_log'` and `save_to_bin`, makes `print_log_files` raise. -/
theorem C138_binary_refuted (savedir chainfile : List Char) (hc : "log".toList <:+: chainfile) {d : Folder}
    (hd : (chainfile ++ ".h5".toList, FileBody.binary) ∈ d) (p : List (List Char × List Char)) :
    printLogFiles savedir d ≠ .ok p := by
  intro h
  unfold printLogFiles at h
  have hm : (chainfile ++ ".h5".toList, FileBody.binary) ∈
      d.filter (fun x => decide ("log".toList <:+: x.1)) :=
    List.mem_filter.2 ⟨hd, decide_eq_true (hc.trans (List.prefix_append _ _).isInfix)⟩
  generalize d.filter (fun x => decide ("log".toList <:+: x.1)) = l at h hm
  induction l generalizing p with
  | nil => simp at hm
  | cons x l ih =>
    rw [List.mapM_cons] at h
    obtain ⟨y, h1, h2⟩ := bind_ok.1 h
    obtain ⟨ys, h3, -⟩ := bind_ok.1 h2
    rcases List.mem_cons.1 hm with rfl | hm
    · cases h1
    · exact ih ys h3 hm

/-! ### Concrete runs -/

/-- seven samples in blocks of two, both formats, next to the chain files -/
example : ∃ out, Toy.run .dram 7 = .ok out ∧
    printLogFiles "dir".toList (saveIndexes true true (fun _ => ("t".toList, "u".toList))
      [("chainfile.h5".toList, .binary)] 0 out.final.logs) =
    .ok [("dir/binlogfile.txt".toList, "t\t0\t1\nt\t2\t3\nt\t4\t5\nt\t6\t6\n".toList),
      ("dir/txtlogfile.txt".toList, "u\t0\t1\nu\t2\t3\nu\t4\t5\nu\t6\t6\n".toList)] := by
  obtain ⟨out, h, h1⟩ := exists_ok_and (x := Toy.run .dram 7)
    (fun o => decide (printLogFiles "dir".toList (saveIndexes true true (fun _ => ("t".toList, "u".toList))
      [("chainfile.h5".toList, .binary)] 0 o.final.logs) =
    .ok [("dir/binlogfile.txt".toList, "t\t0\t1\nt\t2\t3\nt\t4\t5\nt\t6\t6\n".toList),
      ("dir/txtlogfile.txt".toList, "u\t0\t1\nu\t2\t3\nu\t4\t5\nu\t6\t6\n".toList)])) (by decide +kernel)
  exact ⟨out, h, of_decide_eq_true h1⟩

example (p) : printLogFiles "dir".toList [("chain_log.h5".toList, .binary)] ≠ .ok p :=
  C138_binary_refuted _ "chain_log".toList (by decide) List.mem_cons_self p

end Verif
