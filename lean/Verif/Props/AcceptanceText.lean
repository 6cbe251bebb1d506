import Verif.Model.AcceptanceText
import Verif.Props.NumberText
import Verif.Props.Report

/-! # C150: the text of the acceptance information -/

set_option linter.unusedSectionVars false

namespace Verif
variable {K : Type} [LinearOrder K] {n : ℕ}

/-- The text `t` reads as a number with two decimals closest to `x`, at most 0.005 away. -/
def ShowsRounded (t : List Char) (x : ℚ) : Prop :=
  ∃ v, readNumber t = some v ∧ |v - x| ≤ 1 / 200 ∧ ∀ k : ℤ, |v - x| ≤ |(k : ℚ) / 100 - x|

theorem fixed42_shows (x : ℚ) : ShowsRounded (fixed42 (.fin x)) x := by
  have hr := read_padded (s := fixed2 |x|) (v := fixedValue |x|) 4 (decide (x < 0)) (read_fixed2 _)
  have he : fixed42 (.fin x) = padLeft 4 ((if decide (x < 0) = true then ['-'] else []) ++ fixed2 |x|) := by
    simp [fixed42]
  rw [← he] at hr
  refine ⟨_, hr, ?_⟩
  by_cases hx : x < 0
  · simp only [hx, decide_true, if_true, abs_of_neg hx]
    have a := fixed_error (x := -x) (by linarith)
    have b := fixed_closest (x := -x) (by linarith)
    rw [show fixedValue (-x) - -x = -(-fixedValue (-x) - x) by ring, abs_neg] at a
    refine ⟨a, fun k => ?_⟩
    have := b (-k)
    rw [show fixedValue (-x) - -x = -(-fixedValue (-x) - x) by ring, abs_neg] at this
    refine this.trans (le_of_eq ?_)
    rw [← abs_neg]; congr 1; push_cast; ring
  · have hx' := not_lt.1 hx
    simp only [hx, decide_false, Bool.false_eq_true, if_false, abs_of_nonneg hx']
    exact ⟨fixed_error hx', fixed_closest hx'⟩

theorem percentNum_pos (k : ℤ) {N : ℕ} (hN : 0 < N) : percentNum k N = .fin ((k : ℚ) / N * 100) :=
  if_neg hN.ne'

theorem dashes_15 : dashes 15 = "---------------".toList := by decide +kernel
theorem dashes_30 : dashes 30 = "------------------------------".toList := by decide +kernel

theorem natText (k : ℕ) : intText (k : ℤ) = Nat.toDigits 10 k := by
  unfold intText
  rw [if_neg (by omega), List.nil_append, Int.natAbs_natCast]
  rfl

/-- the lines of the stages, with the texts of the percentages -/
theorem stage_lines (l : List ℤ) {N : ℕ} (hN : 0 < N) : ∀ i, ∃ ts : List (List Char),
    (l.zipIdx i).map (fun s => stageLine (s.2 + 1) (percentNum s.1 N)) =
      (ts.zipIdx i).map (fun s => "Stage ".toList ++ Nat.toDigits 10 (s.2 + 1) ++ ": ".toList ++ s.1 ++ ['%']) ∧
    List.Forall₂ (fun t (s : ℤ) => ShowsRounded t ((s : ℚ) / N * 100)) ts l := by
  induction l with
  | nil => exact fun i => ⟨[], rfl, .nil⟩
  | cons a l ih =>
    intro i
    obtain ⟨ts, h1, h2⟩ := ih (i + 1)
    refine ⟨fixed42 (.fin ((a : ℚ) / N * 100)) :: ts, ?_, .cons (fixed42_shows _) h2⟩
    rw [List.zipIdx_cons, List.zipIdx_cons, List.map_cons, List.map_cons, h1]
    congr 1
    dsimp only
    rw [percentNum_pos a hN]
    rfl

/-- **C150.** What is printed for a non-empty chain and results with `iacce` as an array: the title; the
percentage of every stage, numbered from one; the net percentage of the results with the exact counts
`sum of iacce / nsimu` (the number of rows if the results have no `nsimu`); the net percentage of the chain with
the exact number of different values of the first parameter and of rows; and a note.  All percentages are
rounded correctly to two decimals, and read back as such. -/
theorem C150_lines (hn : 0 < n) {chain : List (Fin n → K)} (hc : chain ≠ []) (l : List ℤ) (nsimu : Option ℕ)
    {N : ℕ} (hN : 0 < N) (hns : nsimu = some N ∨ nsimu = none ∧ N = chain.length) :
    ∃ (ts : List (List Char)) (t u : List Char) (c : ℕ),
      acceptanceLines chain (some (some (.array l), nsimu)) =
        (["Acceptance rate information".toList, "---------------".toList, "Results dictionary:".toList] ++
          ts.zipIdx.map (fun s => "Stage ".toList ++ Nat.toDigits 10 (s.2 + 1) ++ ": ".toList ++ s.1 ++ ['%']) ++
          ["Net    : ".toList ++ t ++ "% -> ".toList ++ ((if l.sum < 0 then ['-'] else []) ++
              Nat.toDigits 10 l.sum.natAbs) ++ ['/'] ++ Nat.toDigits 10 N,
            "---------------".toList, "Chain provided:".toList,
            "Net    : ".toList ++ u ++ "% -> ".toList ++ Nat.toDigits 10 c ++ ['/'] ++ Nat.toDigits 10 chain.length,
            "---------------".toList, "Note, the net acceptance rate from the results dictionary".toList,
            "may be different if you only provided a subset of the chain,".toList,
            "e.g., removed the first part for burnin-in.".toList, "------------------------------".toList], none) ∧
      List.Forall₂ (fun t (s : ℤ) => ShowsRounded t ((s : ℚ) / N * 100)) ts l ∧
      ShowsRounded t ((l.sum : ℚ) / N * 100) ∧ ShowsRounded u ((c : ℚ) / chain.length * 100) ∧
      c = (chain.map fun r => r ⟨0, hn⟩).toFinset.card := by
  obtain ⟨ts, h1, h2⟩ := stage_lines l hN 0
  have hg : nsimu.getD chain.length = N := by
    rcases hns with rfl | ⟨rfl, rfl⟩ <;> rfl
  have hl : chain.length ≠ 0 := by simpa using hc
  obtain ⟨c, hcu⟩ : ∃ c, uniqueSize (chain.map fun r => r ⟨0, hn⟩) = c := ⟨_, rfl⟩
  have g1 := fixed42_shows ((l.sum : ℚ) / N * 100)
  have g2 := fixed42_shows ((c : ℚ) / chain.length * 100)
  have g3 : c = (chain.map fun r => r ⟨0, hn⟩).toFinset.card := hcu.symm.trans (C75_unique _)
  refine ⟨ts, _, _, c, ?_, h2, g1, g2, g3⟩
  simp only [percentNum_pos _ hN] at h1
  unfold acceptanceLines resultLines chainLines netLine
  simp only [hg, h1, dif_pos hn, hcu, if_neg hl, dashes_15, dashes_30, if_true, percentNum_pos _ hN, natText]
  generalize "Acceptance rate information".toList = w0
  generalize "---------------".toList = w1
  generalize "------------------------------".toList = w2
  generalize "Results dictionary:".toList = w3
  generalize "Chain provided:".toList = w4
  generalize "Net    : ".toList = w5
  generalize "% -> ".toList = w6
  generalize "Note, the net acceptance rate from the results dictionary".toList = w7
  generalize "may be different if you only provided a subset of the chain,".toList = w8
  generalize "e.g., removed the first part for burnin-in.".toList = w9
  generalize "Stage ".toList = w10
  generalize ": ".toList = w11
  simp only [intText, dec, List.cons_append, List.nil_append, List.append_assoc]

/-- **C150**, without results, or with results that have no `iacce`: the chain alone. -/
theorem C150_chain_only (hn : 0 < n) {chain : List (Fin n → K)} (hc : chain ≠ [])
    {results : Option (Option Iacce × Option ℕ)} (hr : results = none ∨ ∃ k, results = some (none, k)) :
    ∃ (u : List Char) (c : ℕ), acceptanceLines chain results =
      (["Acceptance rate information".toList, "Chain provided:".toList,
        "Net    : ".toList ++ u ++ "% -> ".toList ++ Nat.toDigits 10 c ++ ['/'] ++ Nat.toDigits 10 chain.length,
        "------------------------------".toList], none) ∧
      ShowsRounded u ((c : ℚ) / chain.length * 100) ∧ c = (chain.map fun r => r ⟨0, hn⟩).toFinset.card := by
  have hl : chain.length ≠ 0 := by simpa using hc
  obtain ⟨c, hcu⟩ : ∃ c, uniqueSize (chain.map fun r => r ⟨0, hn⟩) = c := ⟨_, rfl⟩
  have g2 := fixed42_shows ((c : ℚ) / chain.length * 100)
  have g3 : c = (chain.map fun r => r ⟨0, hn⟩).toFinset.card := hcu.symm.trans (C75_unique _)
  refine ⟨_, c, ?_, g2, g3⟩
  have key : acceptanceLines chain results = ("Acceptance rate information".toList :: (chainLines chain false).1,
      (chainLines chain false).2) := by
    rcases hr with rfl | ⟨k, rfl⟩ <;> rfl
  rw [key]
  unfold chainLines netLine
  simp only [dif_pos hn, hcu, if_neg hl, dashes_30, natText, Bool.false_eq_true, if_false]
  generalize "Acceptance rate information".toList = w0
  generalize "------------------------------".toList = w1
  generalize "Chain provided:".toList = w2
  generalize "Net    : ".toList = w3
  generalize "% -> ".toList = w4
  simp only [dec, List.cons_append, List.nil_append, List.append_assoc]

/-- A chain of three rows shown without a results dictionary. -/
example : ∃ (u : List Char) (c : ℕ), acceptanceLines [fun _ : Fin 1 => (0 : ℚ), fun _ => 1, fun _ => 1] none =
      (["Acceptance rate information".toList, "Chain provided:".toList,
        "Net    : ".toList ++ u ++ "% -> ".toList ++ Nat.toDigits 10 c ++ ['/'] ++ Nat.toDigits 10 3,
        "------------------------------".toList], none) ∧ ShowsRounded u ((c : ℚ) / (3 : ℕ) * 100) ∧ c = 2 := by
  obtain ⟨u, c, h, h1, h2⟩ := C150_chain_only (n := 1) one_pos
    (chain := [fun _ : Fin 1 => (0 : ℚ), fun _ => 1, fun _ => 1]) (by simp) (.inl rfl)
  exact ⟨u, c, h, h1, by rw [h2]; decide +kernel⟩

/-- **C150**, after loading a results file: the stages are printed, then an `AttributeError` is raised; neither
a net rate nor anything about the chain is printed. -/
theorem C150_loaded_refuted (chain : List (Fin n → K)) (l : List ℤ) (nsimu : Option ℕ)
    {N : ℕ} (hN : 0 < N) (hns : nsimu = some N ∨ nsimu = none ∧ N = chain.length) :
    ∃ ts : List (List Char), acceptanceLines chain (some (some (.list l), nsimu)) =
        (["Acceptance rate information".toList, "---------------".toList, "Results dictionary:".toList] ++
          ts.zipIdx.map (fun s => "Stage ".toList ++ Nat.toDigits 10 (s.2 + 1) ++ ": ".toList ++ s.1 ++ ['%']),
          some .attributeError) ∧
      List.Forall₂ (fun t (s : ℤ) => ShowsRounded t ((s : ℚ) / N * 100)) ts l := by
  obtain ⟨ts, h1, h2⟩ := stage_lines l hN 0
  have hg : nsimu.getD chain.length = N := by
    rcases hns with rfl | ⟨rfl, rfl⟩ <;> rfl
  refine ⟨ts, ?_, h2⟩
  unfold acceptanceLines resultLines
  simp only [hg, h1, dashes_15]
  rw [if_neg (by omega)]
  rfl

/-- **C150.** The percentages shown for the stages need not add up to the net percentage shown, but differ
from it by at most half a hundredth for every number shown. -/
theorem C150_sum_partial {l : List ℤ} {N : ℕ} {ts : List (List Char)} {t : List Char}
    (hts : List.Forall₂ (fun t (s : ℤ) => ShowsRounded t ((s : ℚ) / N * 100)) ts l)
    (ht : ShowsRounded t ((l.sum : ℚ) / N * 100)) :
    ∃ (vs : List ℚ) (v : ℚ), ts.map readNumber = vs.map some ∧ readNumber t = some v ∧
      |vs.sum - v| ≤ (l.length + 1) / 200 := by
  have key : ∃ vs : List ℚ, ts.map readNumber = vs.map some ∧
      |vs.sum - (l.sum : ℚ) / N * 100| ≤ l.length / 200 := by
    clear ht
    induction hts with
    | nil => exact ⟨[], rfl, by simp⟩
    | @cons a s ts l h _ ih =>
      obtain ⟨vs, e1, e2⟩ := ih
      obtain ⟨v, f1, f2, -⟩ := h
      refine ⟨v :: vs, by rw [List.map_cons, List.map_cons, f1, e1], ?_⟩
      rw [abs_le] at e2 f2 ⊢
      simp only [List.sum_cons, List.length_cons]
      rw [Int.cast_add]
      push_cast [-Int.cast_list_sum]
      have : ((s : ℚ) + l.sum) / N * 100 = (s : ℚ) / N * 100 + (l.sum : ℚ) / N * 100 := by ring
      rw [this]
      constructor <;> linarith [e2.1, e2.2, f2.1, f2.2]
  obtain ⟨vs, e1, e2⟩ := key
  obtain ⟨v, f1, f2, -⟩ := ht
  refine ⟨vs, v, e1, f1, ?_⟩
  rw [abs_le] at e2 f2 ⊢
  constructor <;> linarith [e2.1, e2.2, f2.1, f2.2]

/-- **C150**: two stages with one acceptance each in three samples are shown as 33.33% and 33.33%, the net rate
as 66.67%. -/
theorem C150_sum_refuted : acceptanceLines [fun _ : Fin 1 => (0 : ℚ), fun _ => 1, fun _ => 1]
      (some (some (.array [1, 1]), some 3)) =
    (["Acceptance rate information".toList, "---------------".toList, "Results dictionary:".toList,
      "Stage 1: 33.33%".toList, "Stage 2: 33.33%".toList, "Net    : 66.67% -> 2/3".toList,
      "---------------".toList, "Chain provided:".toList, "Net    : 66.67% -> 2/3".toList,
      "---------------".toList, "Note, the net acceptance rate from the results dictionary".toList,
      "may be different if you only provided a subset of the chain,".toList,
      "e.g., removed the first part for burnin-in.".toList, "------------------------------".toList], none) := by
  decide +kernel

/-- **C150**, chains nothing can be said about: without columns and without rows. -/
theorem C150_empty (chain : List (Fin n → K)) (results : Option (Option ℕ))
    (h : n = 0 ∨ chain = []) :
    (acceptanceLines chain (results.map fun k => (none, k))).2 =
      some (if n = 0 then .indexError else .zeroDivision) ∧
    (acceptanceLines chain (results.map fun k => (none, k))).1 =
      ["Acceptance rate information".toList, "Chain provided:".toList] := by
  by_cases hn : n = 0
  · subst hn
    cases results <;> simp [acceptanceLines, resultLines, chainLines]
  · obtain rfl := h.resolve_left hn
    cases results <;> simp [acceptanceLines, resultLines, chainLines, hn, Nat.pos_iff_ne_zero]

/-- No rows, and rows of no columns. -/
example : (acceptanceLines ([] : List (Fin 2 → ℚ)) none).2 = some .zeroDivision ∧
    (acceptanceLines [fun _ : Fin 0 => (0 : ℚ)] (some (none, some 5))).2 = some .indexError :=
  ⟨(C150_empty ([] : List (Fin 2 → ℚ)) none (.inr rfl)).1,
    (C150_empty [fun _ : Fin 0 => (0 : ℚ)] (some (some 5)) (.inl rfl)).1⟩

section run
variable {F σ : Type} [PyFloat F] {N m : ℕ} {flags : Fin N → Bool}

/-- **C150**, for the results and the chain of a run from scratch with delayed rejection (no NaN in the chain):
the net line of the results shows one more than the number of accepted moves, out of `nsimu`; the net line of
the chain shows the number of different values of the first parameter, at most as many, out of `nsimu` too. -/
theorem C150_run {U : UserFuns F N (nS flags) m} {o : Obj F flags m}
    (hj : o.extra.jsonRestart = none) {G : Rng σ F} {L : Lapack F} {fuel : ℕ} {rng : σ}
    {out : RunOut F σ flags m} (h : runSimulation U G L fuel o rng false = .ok out)
    (hntry : 1 < o.opts.ntry) (hpos : 0 < nS flags) {f : K → F} (hf : Function.Injective f)
    {rows : List (Fin (nS flags) → K)} (hrows : out.results.chain = rows.map fun r i => f (r i)) :
    ∃ (iacce : List ℤ) (cnt : ℕ) (ts : List (List Char)) (t u : List Char) (c : ℕ),
      out.results.dram = some (iacce, cnt) ∧
      acceptanceLines rows (some (some (.array iacce), some out.results.nsimu)) =
        (["Acceptance rate information".toList, "---------------".toList, "Results dictionary:".toList] ++
          ts.zipIdx.map (fun s => "Stage ".toList ++ Nat.toDigits 10 (s.2 + 1) ++ ": ".toList ++ s.1 ++ ['%']) ++
          ["Net    : ".toList ++ t ++ "% -> ".toList ++
              Nat.toDigits 10 (out.final.trace.countP (fun ts => !Rejection ts) + 1) ++ ['/'] ++
              Nat.toDigits 10 o.opts.nsimu.toNat,
            "---------------".toList, "Chain provided:".toList,
            "Net    : ".toList ++ u ++ "% -> ".toList ++ Nat.toDigits 10 c ++ ['/'] ++
              Nat.toDigits 10 o.opts.nsimu.toNat,
            "---------------".toList, "Note, the net acceptance rate from the results dictionary".toList,
            "may be different if you only provided a subset of the chain,".toList,
            "e.g., removed the first part for burnin-in.".toList, "------------------------------".toList], none) ∧
      (ts.length : ℤ) = o.opts.ntry ∧
      ShowsRounded t ((out.final.trace.countP (fun ts => !Rejection ts) + 1 : ℕ) / o.opts.nsimu * 100) ∧
      ShowsRounded u ((c : ℚ) / o.opts.nsimu * 100) ∧
      c = (rows.map fun r => r ⟨0, hpos⟩).toFinset.card ∧ 1 ≤ c ∧
      c ≤ out.final.trace.countP (fun ts => !Rejection ts) + 1 := by
  obtain ⟨iacce, cnt, stages, percent, net, info, h1, h2, h3, h4, -, -, -, h5, h6, h7, h8, h9, h10, h11, h12⟩ :=
    C75_acceptance_info hj h hntry hpos hf hrows
  obtain ⟨hlen, _⟩ := C02_chain_records_moves hj h
  have hrl : (rows.length : ℤ) = o.opts.nsimu := by
    rw [hrows, List.length_map] at hlen; exact hlen
  have hrl' : rows.length = out.results.nsimu := by omega
  have hr0 : rows ≠ [] := by
    rintro rfl
    simp only [List.map_nil, List.toFinset_nil, Finset.card_empty] at h9
    omega
  have hN : 0 < out.results.nsimu := by
    rw [← hrl']; exact List.length_pos_iff.2 hr0
  have hst : stages = (iacce.map fun s : ℤ => (s : ℚ) / out.results.nsimu * 100) ∧ net = iacce.sum := by
    unfold acceptanceInfo stageInfo at h2
    simp only [ok_bind, dif_pos hpos] at h2
    split at h2
    · cases h2
    · cases h2
      simp only [Option.getD_some, Option.some.injEq, Prod.mk.injEq] at h3
      exact ⟨h3.1.symm, h3.2.2.1.symm⟩
  have hnq : (o.opts.nsimu : ℚ) = (out.results.nsimu : ℚ) := by rw [← h5]; rfl
  obtain ⟨ts, t, u, c, e1, e2, e3, e4, e5⟩ := C150_lines hpos hr0 iacce (some out.results.nsimu) hN (.inl rfl)
  have hsum : iacce.sum = ((out.final.trace.countP (fun ts => !Rejection ts) + 1 : ℕ) : ℤ) := by
    rw [← hst.2, h6]; push_cast; ring
  rw [hsum] at e1 e3
  rw [hrl'] at e1 e4
  have hto : o.opts.nsimu.toNat = out.results.nsimu := by omega
  refine ⟨iacce, cnt, ts, t, u, c, h1, ?_, ?_, ?_, ?_, e5, ?_, ?_⟩
  · rw [e1, hto]
    simp only [Int.natAbs_natCast]
    rw [if_neg (by omega)]
    rfl
  · rw [← h4, hst.1, List.length_map, e2.length_eq]
  · rw [hnq]; rwa [Int.cast_natCast] at e3
  · rw [hnq]; exact e4
  · rw [e5, ← h9]; exact h10
  · rw [h6, h9, ← e5] at h11
    exact_mod_cast h11

end run

/-- a run that meets the hypotheses of `C150_run`, and the lines of its stages and net rates -/
example : ∃ out : RunOut ℚ ℕ Toy.flags 1, Toy.run .dram 5 = .ok out ∧ 1 < (Toy.obj .dram 5).opts.ntry ∧
    0 < nS Toy.flags ∧ Function.Injective (id : ℚ → ℚ) ∧
    decide (∃ d ∈ out.results.dram, ((acceptanceLines out.results.chain
        (some (some (.array d.1), some out.results.nsimu))).1.drop 3).take 6 =
      ["Stage 1: 60.00%".toList, "Stage 2: 20.00%".toList, "Net    : 80.00% -> 4/5".toList,
        "---------------".toList, "Chain provided:".toList, "Net    : 80.00% -> 4/5".toList]) = true := by
  obtain ⟨out, h, h1⟩ := exists_ok_and (x := Toy.run .dram 5)
    (fun out => decide (∃ d ∈ out.results.dram, ((acceptanceLines out.results.chain
        (some (some (.array d.1), some out.results.nsimu))).1.drop 3).take 6 =
      ["Stage 1: 60.00%".toList, "Stage 2: 20.00%".toList, "Net    : 80.00% -> 4/5".toList,
        "---------------".toList, "Chain provided:".toList, "Net    : 80.00% -> 4/5".toList])) (by decide +kernel)
  exact ⟨out, h, by decide, by decide, Function.injective_id, h1⟩

/-- the hypotheses of `C150_lines`, `C150_chain_only` and `C150_loaded_refuted` can be met -/
example : 0 < 2 ∧ ([fun _ : Fin 2 => (0 : ℚ)] ≠ []) ∧ 0 < 3 ∧ ((some 3 : Option ℕ) = some 3) :=
  ⟨by decide, by simp, by decide, rfl⟩

/-- the hypotheses of `C150_sum_partial` can be met -/
example : List.Forall₂ (fun t (s : ℤ) => ShowsRounded t ((s : ℚ) / (3 : ℕ) * 100))
    [fixed42 (.fin (1 / 3 * 100)), fixed42 (.fin (2 / 3 * 100))] [1, 2] ∧
    fixed42 (.fin (2 / 3 * 100)) = "66.67".toList ∧ fixed42 (.fin (-2 / 3)) = "-0.67".toList := by
  refine ⟨.cons ?_ (.cons ?_ .nil), by decide +kernel, by decide +kernel⟩
  · have := fixed42_shows (1 / 3 * 100)
    norm_num at this ⊢
    exact this
  · have := fixed42_shows (2 / 3 * 100)
    norm_num at this ⊢
    exact this

end Verif
