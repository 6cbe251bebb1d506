import Verif.Model.Parallel
import Verif.Lemmas.Decimal
import Verif.Lemmas.Basic
import Verif.Lemmas.Continue
import Verif.Props.Continue

/-! # Loading parallel runs (C36, C66) and combining chains (C39) -/

set_option linter.unusedSectionVars false

namespace Verif
variable {F σ : Type} [PyFloat F] {N m n : ℕ} {flags : Fin N → Bool}

theorem hasChain_iff {f : List Char} : hasChain f = true ↔ "chain_".toList <:+: f := by
  unfold hasChain
  rw [List.any_eq_true]
  constructor
  · rintro ⟨t, ht, hp⟩
    rw [List.mem_tails] at ht
    rw [List.isPrefixOf_iff_prefix] at hp
    exact hp.isInfix.trans ht.isInfix
  · rintro ⟨a, b, h⟩
    refine ⟨"chain_".toList ++ b, ?_, ?_⟩
    · rw [List.mem_tails]; exact ⟨a, by rw [← h, List.append_assoc]⟩
    · rw [List.isPrefixOf_iff_prefix]; exact ⟨b, rfl⟩

theorem chainDir_injective {i j : ℕ} (h : chainDir i = chainDir j) : i = j :=
  dec_injective (List.append_cancel_left h)

/-- A directory that holds the folders `chain_0, ..., chain_(n-1)` of a parallel run; other
entries are not folders or do not have `chain_` in their names.  Entries are listed once, in any
order. -/
structure ChainFolders (isdir : List Char → Bool) (listdir : List (List Char)) (n : ℕ) : Prop where
  nodup : listdir.Nodup
  all : ∀ i < n, chainDir i ∈ listdir
  only : ∀ f ∈ listdir, (isdir f = true ∧ "chain_".toList <:+: f) ↔ ∃ i < n, f = chainDir i

theorem ChainFolders.perm {isdir : List Char → Bool} {l : List (List Char)} {n : ℕ}
    (h : ChainFolders isdir l n) :
    (checkParallelDirectoryContents isdir l).Perm ((List.range n).map chainDir) := by
  refine (List.perm_insertionSort _ _).trans ?_
  rw [List.perm_ext_iff_of_nodup (h.nodup.filter _)
    (List.nodup_range.map fun _ _ => chainDir_injective)]
  intro f
  rw [List.mem_filter, List.mem_map, Bool.and_eq_true, hasChain_iff]
  constructor
  · rintro ⟨hf, hc⟩
    obtain ⟨i, hi, rfl⟩ := (h.only f hf).1 hc
    exact ⟨i, List.mem_range.2 hi, rfl⟩
  · rintro ⟨i, hi, rfl⟩
    rw [List.mem_range] at hi
    exact ⟨h.all i hi, (h.only _ (h.all i hi)).2 ⟨i, hi, rfl⟩⟩

theorem mapM_ok_iff {α β : Type} {f : α → Except PyErr β} {l : List α} {r : List β} :
    l.mapM f = .ok r ↔ r.length = l.length ∧ ∀ (i : ℕ) a, l[i]? = some a → ∃ b, f a = .ok b ∧
      r[i]? = some b := by
  induction l generalizing r with
  | nil =>
    rw [List.mapM_nil]
    constructor
    · intro h; cases h; exact ⟨rfl, by simp⟩
    · rintro ⟨h, -⟩
      have : r = [] := List.length_eq_zero_iff.1 h
      rw [this]; rfl
  | cons a l ih =>
    rw [List.mapM_cons]
    constructor
    · intro h
      obtain ⟨b, hb, h⟩ := bind_ok.1 h
      obtain ⟨rs, hrs, h⟩ := bind_ok.1 h
      cases h
      obtain ⟨h1, h2⟩ := ih.1 hrs
      refine ⟨by simp [h1], fun i c hc => ?_⟩
      cases i with
      | zero => cases hc; exact ⟨b, hb, rfl⟩
      | succ i => exact h2 i c (by simpa using hc)
    · rintro ⟨h1, h2⟩
      obtain ⟨b, hb, hr⟩ := h2 0 a rfl
      cases r with
      | nil => cases hr
      | cons b' rs =>
        cases hr
        have : l.mapM f = .ok rs := ih.2 ⟨by simpa using h1, fun i c hc => by
          simpa using h2 (i + 1) c (by simpa using hc)⟩
        rw [hb, ok_bind, this]; rfl

theorem loadParallel_ok {χ ρ : Type} {listdir : List (List Char)} {isdir : List Char → Bool}
    {json : List Char → Except PyErr (LoadedRes χ ρ)} {logs : List Char → χ}
    {res : List (LoadedRes χ ρ)} (h : loadParallel listdir isdir json logs = .ok res) :
    res.length = (checkParallelDirectoryContents isdir listdir).length ∧
    ∀ (i : ℕ) f, (checkParallelDirectoryContents isdir listdir)[i]? = some f →
      ∃ r, json f = .ok r ∧ res[i]? = some { r with chains := some (logs f) } := by
  unfold loadParallel at h
  obtain ⟨pres, h1, h⟩ := bind_ok.1 h
  unfold readInParallelJson at h1
  obtain ⟨hl, hp⟩ := mapM_ok_iff.1 h1
  split at h
  · cases h
  · split at h
    · cases h
    · cases h
      refine ⟨by simp [readInParallelSavedir, hl], fun i f hf => ?_⟩
      obtain ⟨r, hr, hr'⟩ := hp i f hf
      refine ⟨r, hr, ?_⟩
      have : (readInParallelSavedir listdir isdir logs)[i]? = some (logs f) := by
        rw [readInParallelSavedir, List.getElem?_map, hf]; rfl
      rw [List.getElem?_map, List.getElem?_zip_eq_some (z := (r, logs f)) |>.2 ⟨hr', this⟩]
      rfl

/-- **C36 (partial).** For at most ten chains: however the directory is listed, a loaded parallel
run has one entry per chain, and entry `i` consists of the results and the chains stored in folder
`chain_i`.
Missing from C36: more than ten chains; see `C36_many_chains_refuted`. -/
theorem C36_order_partial {χ ρ : Type} {listdir : List (List Char)} {isdir : List Char → Bool}
    {n : ℕ} (hd : ChainFolders isdir listdir n) (hn : n ≤ 10)
    {json : List Char → Except PyErr (LoadedRes χ ρ)} {logs : List Char → χ}
    {res : List (LoadedRes χ ρ)} (h : loadParallel listdir isdir json logs = .ok res) :
    res.length = n ∧ ∀ i < n, ∃ r, json (chainDir i) = .ok r ∧
      res[i]? = some { r with chains := some (logs (chainDir i)) } := by
  have hs : checkParallelDirectoryContents isdir listdir = (List.range n).map chainDir := by
    refine hd.perm.eq_of_pairwise (le := (· ≤ ·)) (fun a b _ _ h1 h2 => List.le_antisymm h1 h2)
      (List.pairwise_insertionSort _ _) ?_
    rw [List.pairwise_map]
    refine List.Pairwise.imp_of_mem ?_ List.pairwise_lt_range
    intro a b _ hb hab
    rw [List.mem_range] at hb
    exact List.le_of_lt (List.append_left_lt (dec_lt_ten (by omega) hab))
  obtain ⟨h1, h2⟩ := loadParallel_ok h
  rw [hs] at h1 h2
  refine ⟨by simpa using h1, fun i hi => h2 i _ (by simp [hi])⟩

/-- **C36 is false for more than ten chains.** Whatever the number `n > 10` of chains and the order
in which the directory is listed: if different chains hold different samples, some entry of the
loaded run is not the chain of that number. -/
theorem C36_many_chains_refuted {χ ρ : Type} {listdir : List (List Char)}
    {isdir : List Char → Bool} {n : ℕ} (hd : ChainFolders isdir listdir n) (hn : 10 < n)
    {json : List Char → Except PyErr (LoadedRes χ ρ)} {logs : List Char → χ}
    (hdiff : ∀ i < n, ∀ j < n, i ≠ j → logs (chainDir i) ≠ logs (chainDir j))
    {res : List (LoadedRes χ ρ)} (h : loadParallel listdir isdir json logs = .ok res) :
    ∃ i < n, (res[i]?.map fun r => r.chains) ≠ some (some (logs (chainDir i))) := by
  by_contra hc
  push Not at hc
  obtain ⟨h1, h2⟩ := loadParallel_ok h
  have hp := hd.perm
  have hlen : (checkParallelDirectoryContents isdir listdir).length = n := by
    rw [hp.length_eq]; simp
  have hs : checkParallelDirectoryContents isdir listdir = (List.range n).map chainDir := by
    apply List.ext_getElem?
    intro i
    by_cases hi : i < n
    · have hi' : i < (checkParallelDirectoryContents isdir listdir).length := by omega
      have hf := List.getElem?_eq_getElem hi'
      obtain ⟨r, -, hr⟩ := h2 i _ hf
      have hm : (checkParallelDirectoryContents isdir listdir)[i] ∈
          (List.range n).map chainDir := hp.mem_iff.1 (List.getElem_mem _)
      obtain ⟨j, hj, hje⟩ := List.mem_map.1 hm
      have := hc i hi
      rw [hr, Option.map_some, Option.some.injEq, Option.some.injEq, ← hje] at this
      have hij : j = i := by
        by_contra hne
        exact hdiff j (List.mem_range.1 hj) i hi hne this
      rw [hf, ← hje, hij]
      simp [hi]
    · rw [List.getElem?_eq_none (by omega), List.getElem?_eq_none (by simpa using hi)]
  have hsort : (checkParallelDirectoryContents isdir listdir).Pairwise (· ≤ ·) :=
    List.pairwise_insertionSort _ _
  rw [hs, List.pairwise_map] at hsort
  have := List.pairwise_iff_getElem.1 hsort 2 10 (by simp; omega) (by simpa using hn) (by omega)
  simp only [List.getElem_range] at this
  revert this
  decide

/-! ### C66 -/

theorem mapM_exists {α β : Type} {f : α → Except PyErr β} {l : List α}
    (h : ∀ a ∈ l, ∃ b, f a = .ok b) : ∃ r, l.mapM f = .ok r := by
  induction l with
  | nil => exact ⟨[], rfl⟩
  | cons a l ih =>
    obtain ⟨b, hb⟩ := h a List.mem_cons_self
    obtain ⟨r, hr⟩ := ih fun c hc => h c (List.mem_cons_of_mem _ hc)
    exact ⟨b :: r, by rw [List.mapM_cons, hb, ok_bind, hr]; rfl⟩

/-- what the loaded dictionaries are -/
theorem readInParallelJson_exists {ρ : Type} {listdir : List (List Char)}
    {isdir : List Char → Bool} {n : ℕ} (hd : ChainFolders isdir listdir n)
    {json : List Char → Except PyErr ρ} (hj : ∀ i < n, ∃ r, json (chainDir i) = .ok r) :
    ∃ pres, readInParallelJson listdir isdir json = .ok pres ∧ pres.length = n ∧
      ∀ p ∈ pres, ∃ i < n, json (chainDir i) = .ok p := by
  have hmem : ∀ f ∈ checkParallelDirectoryContents isdir listdir, ∃ i < n, f = chainDir i := by
    intro f hf
    obtain ⟨i, hi, rfl⟩ := List.mem_map.1 (hd.perm.mem_iff.1 hf)
    exact ⟨i, List.mem_range.1 hi, rfl⟩
  obtain ⟨pres, hp⟩ := mapM_exists (f := json)
    (l := checkParallelDirectoryContents isdir listdir) (fun f hf => by
      obtain ⟨i, hi, rfl⟩ := hmem f hf
      exact hj i hi)
  obtain ⟨h1, h2⟩ := mapM_ok_iff.1 hp
  refine ⟨pres, hp, by rw [h1, hd.perm.length_eq]; simp, fun p hpp => ?_⟩
  obtain ⟨k, hk⟩ := List.mem_iff_getElem?.1 hpp
  have hk' : k < (checkParallelDirectoryContents isdir listdir).length := by
    rw [← h1]; exact (List.getElem?_eq_some_iff.1 hk).1
  obtain ⟨b, hb, hb'⟩ := h2 k _ (List.getElem?_eq_getElem hk')
  rw [hk] at hb'
  cases hb'
  obtain ⟨i, hi, he⟩ := hmem _ (List.getElem_mem hk')
  exact ⟨i, hi, by rw [← he]; exact hb⟩

/-- **C66 (partial).** If every folder has a results file and none of them holds the chains, then
loading succeeds (with the contents described in C36).  Missing from C66: runs whose results files
hold the chains; see `C66_json_refuted`. -/
theorem C66_logs_partial {χ ρ : Type} {listdir : List (List Char)} {isdir : List Char → Bool}
    {n : ℕ} (hd : ChainFolders isdir listdir n) (hn : 0 < n)
    {json : List Char → Except PyErr (LoadedRes χ ρ)} (logs : List Char → χ)
    (hj : ∀ i < n, ∃ r, json (chainDir i) = .ok r ∧ r.chains = none) :
    ∃ res, loadParallel listdir isdir json logs = .ok res := by
  obtain ⟨pres, hp, hl, hm⟩ := readInParallelJson_exists hd
    (fun i hi => ⟨(hj i hi).choose, (hj i hi).choose_spec.1⟩)
  unfold loadParallel
  rw [hp, ok_bind]
  cases hlast : pres.getLast? with
  | none => rw [List.getLast?_eq_none_iff] at hlast; rw [hlast] at hl; simp at hl; omega
  | some pr =>
    obtain ⟨i, hi, hi'⟩ := hm pr (List.mem_of_getLast? hlast)
    obtain ⟨r, hr, hr'⟩ := hj i hi
    rw [hi'] at hr
    cases hr
    dsimp only
    rw [hr']
    exact ⟨_, rfl⟩

/-- **C66 is false for runs saved to json only.** If every folder has a results file that holds the
chains (option `save_to_json` without `save_to_bin` and `save_to_txt`), loading always fails: the
variable that should hold the chains is not assigned. -/
theorem C66_json_refuted {χ ρ : Type} {listdir : List (List Char)} {isdir : List Char → Bool}
    {n : ℕ} (hd : ChainFolders isdir listdir n)
    {json : List Char → Except PyErr (LoadedRes χ ρ)} (logs : List Char → χ)
    (hj : ∀ i < n, ∃ r, json (chainDir i) = .ok r ∧ r.chains ≠ none) :
    loadParallel listdir isdir json logs = .error .nameError := by
  obtain ⟨pres, hp, hl, hm⟩ := readInParallelJson_exists hd
    (fun i hi => ⟨(hj i hi).choose, (hj i hi).choose_spec.1⟩)
  unfold loadParallel
  rw [hp, ok_bind]
  cases hlast : pres.getLast? with
  | none => rfl
  | some pr =>
    obtain ⟨i, hi, hi'⟩ := hm pr (List.mem_of_getLast? hlast)
    obtain ⟨r, hr, hr'⟩ := hj i hi
    rw [hi'] at hr
    cases hr
    dsimp only
    cases hc : pr.chains with
    | none => exact absurd hc hr'
    | some c => rfl

/-! ### C39 -/

theorem combineLoop_eq (pct : ℕ) : ∀ (ii : ℕ) (pres : List (ChainRes F n)) (c : List (Vec F n))
    (index : List (List Char)), combineLoop pct ii pres c index =
      (c ++ (pres.map fun pr => afterBurnin pr pct).flatten,
       index ++ (pres.mapIdx fun k pr =>
        List.replicate (afterBurnin pr pct).length (chainLabel (ii + k))).flatten)
  | ii, [], c, index => by simp [combineLoop]
  | ii, pr :: rest, c, index => by
    rw [combineLoop, combineLoop_eq pct (ii + 1) rest]
    simp only [List.map_cons, List.flatten_cons, List.mapIdx_cons, List.append_assoc, Nat.add_zero]
    have : (fun k (pr : ChainRes F n) =>
        List.replicate (afterBurnin pr pct).length (chainLabel (ii + 1 + k))) =
        fun k pr => List.replicate (afterBurnin pr pct).length (chainLabel (ii + (k + 1))) := by
      funext k pr; rw [show ii + 1 + k = ii + (k + 1) by omega]
    rw [this]

/-- entries of flattened lists of equal lengths -/
theorem flatten_mapIdx_getElem? {α β γ : Type} (f : α → List β) (g : ℕ → α → List γ)
    (hl : ∀ k a, (g k a).length = (f a).length) (l : List α) (k : ℕ) (a : α)
    (hk : l[k]? = some a) (j : ℕ) (hj : j < (f a).length) :
    (l.map f).flatten[((l.take k).map fun a => (f a).length).sum + j]? = (f a)[j]? ∧
    (l.mapIdx g).flatten[((l.take k).map fun a => (f a).length).sum + j]? = (g k a)[j]? := by
  induction l generalizing k g with
  | nil => simp at hk
  | cons x l ih =>
    cases k with
    | zero =>
      cases hk
      simp only [List.take_zero, List.map_nil, List.sum_nil, Nat.zero_add, List.map_cons,
        List.flatten_cons, List.mapIdx_cons]
      exact ⟨List.getElem?_append_left hj, List.getElem?_append_left (by rw [hl]; exact hj)⟩
    | succ k =>
      have := ih (fun k a => g (k + 1) a) (fun k a => hl (k + 1) a) k (by simpa using hk)
      simp only [List.take_succ_cons, List.map_cons, List.sum_cons, List.flatten_cons,
        List.mapIdx_cons]
      refine ⟨?_, ?_⟩
      · rw [List.getElem?_append_right (by omega),
          show (f x).length + ((l.take k).map fun a => (f a).length).sum + j - (f x).length =
            ((l.take k).map fun a => (f a).length).sum + j by omega]
        exact this.1
      · rw [List.getElem?_append_right (by rw [hl]; omega), hl,
          show (f x).length + ((l.take k).map fun a => (f a).length).sum + j - (f x).length =
            ((l.take k).map fun a => (f a).length).sum + j by omega]
        exact this.2

/-- **C39 (partial).** For every non-empty list of chains whose recorded numbers of samples are their
lengths, and every burn-in percentage: the combined chain consists, for each input chain in order,
of exactly the rows after the first `pct` percent (rounded down), namely: it has as many rows as the
remaining rows of all chains together, and its row number `(remaining rows of the chains before
chain k) + j` is row `(share of chain k) + j` of chain `k`; the index has the same length and names
chain `k` there.  The list form has one entry per chain with the same rows.
Missing from C39: the empty list (`C39_empty_refuted`) and chains of continued runs, whose recorded
number of samples is that of the last run only (`C39_continued_refuted`). -/
theorem C39_combined_partial (pres : List (ChainRes F n)) (pct : ℕ) (hne : pres ≠ [])
    (hlen : ∀ pr ∈ pres, pr.nsimu = pr.chain.length) :
    ∃ chain index, generateCombinedChain pres pct = .ok (chain, index) ∧
      (generateChainList pres pct).length = pres.length ∧
      (generateChainList pres pct).flatten = chain ∧
      chain.length = (pres.map fun pr => pr.chain.length - pr.chain.length * pct / 100).sum ∧
      index.length = chain.length ∧
      ∀ (k : ℕ) (pr : ChainRes F n), pres[k]? = some pr →
        (generateChainList pres pct)[k]? = some (pr.chain.drop (pr.chain.length * pct / 100)) ∧
        ∀ j, j < pr.chain.length - pr.chain.length * pct / 100 →
          let offset := ((pres.take k).map fun p => p.chain.length - p.chain.length * pct / 100).sum
          chain[offset + j]? = pr.chain[pr.chain.length * pct / 100 + j]? ∧
          index[offset + j]? = some ("Chain ".toList ++ Nat.toDigits 10 k) := by
  have hb : ∀ pr ∈ pres, afterBurnin pr pct = pr.chain.drop (pr.chain.length * pct / 100) := by
    intro pr hpr
    rw [afterBurnin, burninOf, hlen pr hpr]
  have hsum : ∀ l : List (ChainRes F n), (∀ p ∈ l, p ∈ pres) →
      (l.map fun p => p.chain.length - p.chain.length * pct / 100) =
        l.map fun a => (afterBurnin a pct).length := by
    intro l hl
    apply List.map_congr_left
    intro p hp
    rw [hb p (hl p hp)]
    simp
  let g : ℕ → ChainRes F n → List (List Char) := fun k pr =>
    List.replicate (afterBurnin pr pct).length (chainLabel k)
  have hgen : generateCombinedChain pres pct =
      .ok ((pres.map fun pr => afterBurnin pr pct).flatten, (pres.mapIdx g).flatten) := by
    match pres, hne with
    | pr :: rest, _ =>
      rw [generateCombinedChain, combineLoop_eq]
      simp only [List.map_cons, List.flatten_cons, List.mapIdx_cons]
      congr 3
      congr 1
      congr 1
      funext k pr
      rw [Nat.add_comm]
  have hcl : (pres.map fun pr => afterBurnin pr pct).flatten.length =
      (pres.map fun pr => pr.chain.length - pr.chain.length * pct / 100).sum := by
    rw [hsum pres fun _ h => h, List.length_flatten, List.map_map]; rfl
  refine ⟨_, _, hgen, by simp [generateChainList], rfl, hcl, ?_, fun k pr hk => ⟨?_, ?_⟩⟩
  · rw [List.length_flatten, List.length_flatten]
    congr 1
    rw [List.map_map]
    apply List.ext_getElem?
    intro i
    simp only [List.getElem?_map, List.getElem?_mapIdx, Option.map_map]
    congr 1
    funext pr
    simp [g]
  · rw [generateChainList, List.getElem?_map, hk, Option.map_some,
      hb pr (List.mem_of_getElem? hk)]
  · intro j hj
    have hm : pr ∈ pres := List.mem_of_getElem? hk
    have hj' : j < (afterBurnin pr pct).length := by rw [hb pr hm]; simpa using hj
    obtain ⟨h1, h2⟩ := flatten_mapIdx_getElem? (fun pr => afterBurnin pr pct) g
      (fun k a => by simp [g]) pres k pr hk j hj'
    dsimp only
    rw [hsum (pres.take k) fun p hp => List.mem_of_mem_take hp]
    refine ⟨?_, ?_⟩
    · rw [h1, hb pr hm, List.getElem?_drop]
    · rw [h2]
      simp only [g]
      rw [List.getElem?_replicate, if_pos hj']
      rfl

/-- **C39 is false for the empty list**: combining fails instead of giving an empty chain. -/
theorem C39_empty_refuted (pct : ℕ) :
    generateCombinedChain ([] : List (ChainRes F n)) pct = .error .nameError := rfl

/-- **C39 is false for continued runs.** Take the results of any continued run that added rows to a
chain of at least two rows.  Removing a burn-in share of 100 percent should leave nothing, but
all but one of the rows of the earlier runs' number remain. -/
theorem C39_continued_refuted {U : UserFuns F N (nS flags) m} {specs : Fin N → ParamSpec F}
    {opts : SimOpts F} {extra : ExtraOpts F (nS flags)} {ms : ModelSettings F} {data : Data}
    {o : Obj F flags m} (ho : Reachable U (newObj specs opts extra ms data) o)
    (hnames : (((List.finRange N).filter flags).map fun k => (specs k).name).Nodup)
    {G : Rng σ F} {L : Lapack F} {fuel : ℕ} {rng : σ} {out : RunOut F σ flags m}
    (h : runSimulation U G L fuel o rng true = .ok out) :
    ∃ res chain index, o.results = some res ∧
      generateCombinedChain [⟨out.results.nsimu, out.results.chain⟩] 100 = .ok (chain, index) ∧
      chain.length = res.chain.length - 1 := by
  obtain ⟨res, hr, hp, hl, -⟩ := C28_continuation ho hnames h
  refine ⟨res, _, _, hr, rfl, ?_⟩
  obtain ⟨o1, I, s0, h1, h2, h3, h4, h5⟩ := runSimulation_ok h
  obtain ⟨hst, hpos, -⟩ := setup_continue h1
  obtain ⟨_, _, _, _, hn, -⟩ := generateResults_ok h3
  have hopt : o.opts.nsimu = I.opts.nsimu := by rw [hst.init.opts, ← hst.opts]; rfl
  simp only [combineLoop, afterBurnin, burninOf, List.length_drop]
  rw [hn]
  omega

/-! ### Examples -/

/-- a directory with the folders of `n` chains, listed backwards, and two other entries -/
def dirList (n : ℕ) : List (List Char) :=
  "results.json".toList :: ((List.range n).map chainDir).reverse ++ ["chain_notes.txt".toList]

def dirIs (f : List Char) : Bool := !decide (f = "chain_notes.txt".toList)

theorem dirList_folders (n : ℕ) : ChainFolders dirIs (dirList n) n := by
  have hpre : ∀ i, "chain_".toList <:+: chainDir i := fun i => ⟨[], dec i, rfl⟩
  have hnr : ∀ i, chainDir i ≠ "results.json".toList := by
    intro i h; cases h
  have hnn : ∀ i, chainDir i ≠ "chain_notes.txt".toList := by
    intro i h
    have h1 : dec i = "notes.txt".toList := List.append_cancel_left (as := "chain_".toList) h
    have : ('n' : Char).isDigit = true := mem_dec (n := i) (by rw [h1]; decide)
    revert this; decide
  refine ⟨?_, fun i hi => ?_, fun f hf => ?_⟩
  · unfold dirList
    rw [List.cons_append, List.nodup_cons]
    constructor
    · simp only [List.mem_append, List.mem_reverse, List.mem_map, List.mem_singleton, not_or,
        not_exists, not_and]
      exact ⟨fun i _ => hnr i, by decide⟩
    · rw [List.nodup_append]
      refine ⟨?_, by simp, ?_⟩
      · rw [List.nodup_reverse]; exact List.nodup_range.map fun _ _ => chainDir_injective
      · intro a ha b hb
        rw [List.mem_reverse, List.mem_map] at ha
        rw [List.mem_singleton] at hb
        obtain ⟨i, -, rfl⟩ := ha
        rw [hb]; exact hnn i
  · simp only [dirList, List.cons_append, List.mem_cons, List.mem_append, List.mem_reverse,
      List.mem_map, List.mem_range]
    exact Or.inr (Or.inl ⟨i, hi, rfl⟩)
  · simp only [dirList, List.cons_append, List.mem_cons, List.mem_append, List.mem_reverse,
      List.mem_map, List.mem_range, List.not_mem_nil, or_false] at hf
    rcases hf with rfl | ⟨i, hi, rfl⟩ | rfl
    · constructor
      · rintro ⟨-, h⟩
        rw [← hasChain_iff] at h
        exact absurd h (by decide)
      · rintro ⟨i, -, h⟩; exact absurd h.symm (hnr i)
    · refine ⟨fun _ => ⟨i, hi, rfl⟩, fun _ => ⟨?_, hpre i⟩⟩
      unfold dirIs
      rw [decide_eq_false (hnn i)]
      rfl
    · constructor
      · rintro ⟨h, -⟩; exact absurd h (by decide)
      · rintro ⟨i, -, h⟩; exact absurd h.symm (hnn i)

/-- loading a run of three chains (samples: the characters of the folder's name) -/
example : ∃ res, loadParallel (dirList 3) dirIs (fun f => .ok ⟨none, f.length⟩) (fun f => f) = .ok res ∧
    res.map (fun r => r.chains) = [some (chainDir 0), some (chainDir 1), some (chainDir 2)] :=
  ⟨_, rfl, by decide⟩

/-- loading a run of eleven chains: `chain_10` comes third -/
example : ∃ res, loadParallel (dirList 11) dirIs (fun f => .ok ⟨none, f.length⟩) (fun f => f)
    = .ok res ∧ (res[2]?.map fun r => r.chains) = some (some (chainDir 10)) :=
  ⟨_, rfl, by decide⟩

example : (10 < 11) ∧ (∀ i < 11, ∀ j < 11, i ≠ j → chainDir i ≠ chainDir j) :=
  ⟨by omega, fun _ _ _ _ h he => h (chainDir_injective he)⟩

/-- with the chains in the json files -/
example : (∀ i < 3, ∃ r : LoadedRes ℕ ℕ, (fun f : List Char =>
      (.ok ⟨some f.length, 0⟩ : Except PyErr (LoadedRes ℕ ℕ))) (chainDir i) = .ok r ∧ r.chains ≠ none) :=
  fun i _ => ⟨⟨some (chainDir i).length, 0⟩, rfl, by simp⟩

/-- two chains of four and three rows, a third of the rows as burn-in -/
def Toy.chains : List (ChainRes ℚ 1) :=
  [⟨4, [![1], ![2], ![3], ![4]]⟩, ⟨3, [![5], ![6], ![7]]⟩]

example : Toy.chains ≠ [] ∧ (∀ pr ∈ Toy.chains, pr.nsimu = pr.chain.length) ∧
    generateCombinedChain Toy.chains 34 = .ok ([![2], ![3], ![4], ![6], ![7]],
      [chainLabel 0, chainLabel 0, chainLabel 0, chainLabel 1, chainLabel 1]) := by
  refine ⟨by simp [Toy.chains], ?_, rfl⟩
  intro pr h
  simp only [Toy.chains, List.mem_cons, List.not_mem_nil, or_false] at h
  rcases h with rfl | rfl <;> rfl

end Verif
