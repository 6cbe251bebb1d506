import Verif.Spec.Tables
import Verif.Props.NumberText
import Verif.Props.ChainStats
import Verif.Props.ParallelLoad

/-!
# C109-C111: tables of statistics, the Gelman-Rubin dictionary, and the names in the results
-/

set_option linter.unusedSectionVars false

namespace Verif

/-! ### Names -/

theorem defaultName_eq (i : ℕ) : defaultName i = (s!"$p_\{{i}}$").toList := by
  simp [defaultName, dec, toString, Nat.repr]

theorem extendNames_length (names : Option (List ParName)) (p : ℕ) :
    (extendNames names p).length = max p (names.getD []).length := by
  simp [extendNames]; omega

theorem extendNames_get {l : List ParName} {p i : ℕ} (h : i < max p l.length) :
    (extendNames (some l) p)[i]? = some (l[i]?.getD (defaultName i)) := by
  unfold extendNames
  simp only [Option.getD_some]
  by_cases hi : i < l.length
  · rw [List.getElem?_append_left hi]; simp [hi]
  · rw [List.getElem?_append_right (by omega), List.getElem?_eq_none (l := l) (by omega)]
    simp only [List.getElem?_map, Option.getD_none]
    rw [List.getElem?_range' (by omega), Option.map_some]
    congr 2
    omega

theorem rowNames_get {p i : ℕ} (results : Option ResultNames) (hi : i < p) :
    ∃ name, (getParameterNames p results).1[i]? = some name ∧ IsNameOf results i name := by
  cases results with
  | none =>
    refine ⟨defaultName i, ?_, ?_⟩
    · simp [getParameterNames, generateDefaultNames, hi]
    · simp [IsNameOf, defaultName_eq]
  | some r =>
    cases r with
    | none =>
      refine ⟨defaultName i, ?_, ?_⟩
      · have : extendNames none p = extendNames (some []) p := rfl
        simp only [getParameterNames, this]
        rw [extendNames_get (by simpa using hi)]
        simp
      · simp [IsNameOf, defaultName_eq]
    | some l =>
      refine ⟨l[i]?.getD (defaultName i), ?_, ?_⟩
      · simp only [getParameterNames]
        exact extendNames_get (by omega)
      · simp [IsNameOf, defaultName_eq]

theorem rowNames_length (p : ℕ) (results : Option ResultNames) :
    (getParameterNames p results).1.length = match results with
      | some (some l) => max p l.length
      | _ => p := by
  cases results with
  | none => simp [getParameterNames, generateDefaultNames]
  | some r => cases r <;> simp [getParameterNames, extendNames_length]

/-! ### C109 -/

theorem shows_format (x : PyNum) : Shows (formatNumber x) x := by
  cases x with
  | nan => exact ⟨6, by decide +kernel⟩
  | inf neg => cases neg; exacts [⟨6, by decide +kernel⟩, ⟨5, by decide +kernel⟩]
  | negZero => show readNumber _ = some 0; decide +kernel
  | fin x =>
    obtain ⟨⟨v, h1, h2, h3, h4⟩, -⟩ := C108_number_text x
    have c5 : (1 / 100 : ℚ) ≤ 5764607523034235 / 2 ^ 59 := by norm_num
    have c6 : (5764607523034235 / 2 ^ 59 : ℚ) ≤ 1 := by norm_num
    refine ⟨v, h1, h2, fun h => ?_, fun h => (h4 ?_).1⟩
    · by_cases hs : |x| ≤ 5764607523034235 / 2 ^ 59
      · have := (h4 (.inl hs)).1
        linarith [abs_nonneg x]
      · exact (h3 ⟨not_le.1 hs, h⟩).1
    · rcases h with h | h
      · left; linarith
      · exact .inr h

section
variable {F : Type} [PyFloat F] {p : ℕ}

theorem statLine_layout (val : F → PyNum) (name : ParName) (a b c d e : F) :
    TableLine (statLine val name a b c d e) name
      ![formatNumber (val a), formatNumber (val b), formatNumber (val c), formatNumber (val d),
        formatNumber (val e)] := by
  refine ⟨10 - name.length, by omega, ?_⟩
  simp [statLine, padLeft]

theorem chainstats_lengths {hann : ℕ → ℕ → F} {cdf : F → F} {iact : List F → Except PyErr (F × ℕ)}
    {chain : List (Vec F p)} {st : Stats F p}
    (h : chainstats (K := ℚ) hann cdf iact (some chain) = .ok (some st)) :
    st.geweke.length = p ∧ st.iact.length = p := by
  unfold chainstats at h
  simp only at h
  obtain ⟨bm, -, h⟩ := bind_ok.1 h
  obtain ⟨g, hg, h⟩ := bind_ok.1 h
  obtain ⟨t, ht, h⟩ := bind_ok.1 h
  cases h
  unfold geweke at hg
  obtain ⟨w, -, hg⟩ := bind_ok.1 hg
  have a := (mapM_ok_iff.1 hg).1
  have b := (mapM_ok_iff.1 ht).1
  simp only [List.length_finRange] at a b
  exact ⟨a, b⟩

/-- **C109 (partial).** If the results have no more names than the chain has columns, `chainstats`
prints one line per parameter, in their order: its name, and readable as in C108 its mean, standard
deviation, Monte Carlo error, autocorrelation time and Geweke statistic, as in the dictionary it
returns.  Missing: results with more names than the chain has columns
(`C109_subset_refuted`). -/
theorem C109_table_partial (hann : ℕ → ℕ → F) (cdf : F → F) (iact : List F → Except PyErr (F × ℕ))
    (val : F → PyNum) {chain : List (Vec F p)} {results : Option ResultNames} {st : Stats F p}
    (hr : ∀ l, results = some (some l) → l.length ≤ p)
    (hs : chainstats (K := ℚ) hann cdf iact (some chain) = .ok (some st)) :
    ∃ run, chainstatsRun (K := ℚ) hann cdf iact val (some chain) results = .ok (some run) ∧
      run.stats = st ∧ run.table.length = p ∧
      ∀ i : Fin p, ∃ line name t z tau, run.table[i.1]? = some line ∧ IsNameOf results i.1 name ∧
        TableLine line name t ∧ st.geweke[i.1]? = some z ∧ st.iact[i.1]? = some tau ∧
        Shows (t 0) (val (st.mean i)) ∧ Shows (t 1) (val (st.std i)) ∧
        Shows (t 2) (val (st.mcerr i)) ∧ Shows (t 3) (val tau.1) ∧ Shows (t 4) (val z.2) := by
  obtain ⟨lg, li⟩ := chainstats_lengths hs
  have hlen : (getParameterNames p results).1.length = p := by
    rw [rowNames_length]
    split
    · rename_i l
      exact max_eq_left (hr l rfl)
    · rfl
  have hlines : ∀ i : ℕ, ∃ line, i < p → ∃ (hi : i < p) (name : ParName) (z : F × F) (tau : F × ℕ),
      IsNameOf results i name ∧ st.geweke[i]? = some z ∧ st.iact[i]? = some tau ∧
      line = statLine val name (st.mean ⟨i, hi⟩) (st.std ⟨i, hi⟩) (st.mcerr ⟨i, hi⟩) tau.1 z.2 ∧
      (do
        let name ← pyGet (getParameterNames p results).1 i
        let mean ← vecGet st.mean i
        let std ← vecGet st.std i
        let mcerr ← vecGet st.mcerr i
        let tau ← pyGet st.iact i
        let g ← pyGet st.geweke i
        .ok (statLine val name mean std mcerr tau.1 g.2) : Except PyErr (List Char)) = .ok line := by
    intro i
    by_cases hi : i < p
    · obtain ⟨name, h1, h2⟩ := rowNames_get results hi
      have hz : i < st.geweke.length := by omega
      have ht : i < st.iact.length := by omega
      refine ⟨_, fun _ => ⟨hi, name, st.geweke[i], st.iact[i], h2, by simp, by simp, rfl, ?_⟩⟩
      unfold pyGet vecGet
      rw [h1, List.getElem?_eq_getElem hz, List.getElem?_eq_getElem ht, dif_pos hi, dif_pos hi,
        dif_pos hi]
      rfl
    · exact ⟨[], fun h => absurd h hi⟩
  choose line hline using hlines
  have htab : printChainStatistics val (getParameterNames p results).1 st =
      .ok ((List.range p).map line) := by
    unfold printChainStatistics
    rw [hlen]
    refine mapM_eq_ok fun i hi => ?_
    obtain ⟨_, _, _, _, -, -, -, -, h⟩ := hline i (List.mem_range.1 hi)
    exact h
  refine ⟨⟨st, (List.range p).map line, (getParameterNames p results).2⟩, ?_, rfl, by simp, ?_⟩
  · unfold chainstatsRun
    simp only
    rw [hs, ok_bind]
    simp only
    rw [htab]
    rfl
  · intro i
    obtain ⟨hi, name, z, tau, h1, h2, h3, h4, -⟩ := hline i.1 i.2
    refine ⟨line i.1, name, _, z, tau, ?_, h1, h4 ▸ statLine_layout val name _ _ _ _ _, h2, h3, ?_⟩
    · simp
    · exact ⟨shows_format _, shows_format _, shows_format _, shows_format _, shows_format _⟩

open Toy in
/-- a chain of 40 rows and two parameters, one of them named -/
example : ((chainstatsRun (F := ℚ) (K := ℚ) (p := 2) (fun _ _ => 1) id (fun _ => .ok (1 / 3, 0))
      .fin (some ((List.range 40).map fun i : ℕ => ![(i : ℚ), 1234567 * i]))
      (some (some ["slope".toList]))).toOption.map fun o => o.map fun run =>
        run.table.map String.ofList) =
    some (some ["     slope:     19.50    133.25     41.67      0.33      1.75",
      "   $p_{1}$:  2.41e+07  2.03e+14  6.35e+13      0.33      2.00"]) := by decide +kernel

/-- **C109 refuted for some columns of a chain.** If the results have more names than the chain has
columns (as for a chain without some of its columns), there is no table: `chainstats` raises
`IndexError`. -/
theorem C109_subset_refuted (hann : ℕ → ℕ → F) (cdf : F → F) (iact : List F → Except PyErr (F × ℕ))
    (val : F → PyNum) {chain : List (Vec F p)} {l : List ParName} {st : Stats F p}
    (hl : p < l.length) (hs : chainstats (K := ℚ) hann cdf iact (some chain) = .ok (some st)) :
    chainstatsRun (K := ℚ) hann cdf iact val (some chain) (some (some l)) = .error .indexError := by
  have hlen := rowNames_length p (some (some l))
  simp only at hlen
  rw [max_eq_right hl.le] at hlen
  obtain ⟨lg, li⟩ := chainstats_lengths hs
  have key : ∀ (is : List ℕ), (∀ i ∈ is, i < l.length) → p ∈ is →
      is.mapM (fun ii => do
        let name ← pyGet (getParameterNames p (some (some l))).1 ii
        let mean ← vecGet st.mean ii
        let std ← vecGet st.std ii
        let mcerr ← vecGet st.mcerr ii
        let tau ← pyGet st.iact ii
        let g ← pyGet st.geweke ii
        (.ok (statLine val name mean std mcerr tau.1 g.2) : Except PyErr (List Char))) =
        .error .indexError := by
    intro is
    induction is with
    | nil => intro _ h; simp at h
    | cons i is ih =>
      intro hall hmem
      have hi := hall i (by simp)
      rw [List.mapM_cons]
      by_cases hip : i < p
      · have hmem' : p ∈ is := by
          rcases List.mem_cons.1 hmem with h | h
          · omega
          · exact h
        rw [ih (fun j hj => hall j (List.mem_cons_of_mem _ hj)) hmem']
        unfold pyGet vecGet
        rw [List.getElem?_eq_getElem (show i < (getParameterNames p (some (some l))).1.length by omega),
          List.getElem?_eq_getElem (show i < st.geweke.length by omega),
          List.getElem?_eq_getElem (show i < st.iact.length by omega), dif_pos hip, dif_pos hip,
          dif_pos hip]
        rfl
      · unfold pyGet vecGet
        rw [List.getElem?_eq_getElem (show i < (getParameterNames p (some (some l))).1.length by omega),
          dif_neg hip]
        rfl
  unfold chainstatsRun
  simp only
  rw [hs, ok_bind]
  simp only
  unfold printChainStatistics
  rw [hlen, key _ (fun i hi => List.mem_range.1 hi) (List.mem_range.2 hl)]
  rfl

open Toy in
/-- the same chain with three names in the results -/
example : (∃ st, chainstats (F := ℚ) (K := ℚ) (p := 2) (fun _ _ => 1) id (fun _ => .ok (1 / 3, 0))
      (some ((List.range 40).map fun i : ℕ => ![(i : ℚ), 1234567 * i])) = .ok (some st)) ∧
    chainstatsRun (F := ℚ) (K := ℚ) (p := 2) (fun _ _ => 1) id (fun _ => .ok (1 / 3, 0)) .fin
      (some ((List.range 40).map fun i : ℕ => ![(i : ℚ), 1234567 * i]))
      (some (some ["a".toList, "b".toList, "c".toList])) = .error .indexError := by
  obtain ⟨st, hst, -⟩ := C67_available_partial (F := ℚ) (p := 2) (fun _ _ => 1) id
    (fun _ => .ok (1 / 3, 0)) (fun _ _ => ⟨_, rfl⟩)
    ((List.range 40).map fun i : ℕ => ![(i : ℚ), 1234567 * i]) (by simp)
  exact ⟨⟨st, hst⟩, C109_subset_refuted _ _ _ _ (by simp) hst⟩

/-! ### C110 -/

theorem lookup_assocSet_self {α : Type} (d : List (ParName × α)) (k : ParName) (v : α) :
    (assocSet d k v).lookup k = some v := by
  unfold assocSet
  split
  · rename_i h
    induction d with
    | nil => simp at h
    | cons e d ih =>
      obtain ⟨k', v'⟩ := e
      by_cases hk : k' = k
      · subst hk; simp
      · simp only [List.any_cons, Bool.or_eq_true, beq_iff_eq, hk, false_or] at h
        have hk' : (k == k') = false := by simpa using Ne.symm hk
        have hk2 : (k' == k) = false := by simpa using hk
        simp only [List.map_cons, hk2]
        simp only [Bool.false_eq_true, if_false, List.lookup, hk']
        exact ih h
  · rename_i h
    induction d with
    | nil => simp
    | cons e d ih =>
      obtain ⟨k', v'⟩ := e
      simp only [List.any_cons, Bool.or_eq_true, beq_iff_eq, not_or] at h
      have hk' : (k == k') = false := by simpa using Ne.symm h.1
      simpa [List.lookup, hk'] using ih (by simpa using h.2)

theorem lookup_assocSet_ne {α : Type} (d : List (ParName × α)) {k k' : ParName} (v : α) (h : k ≠ k') :
    (assocSet d k v).lookup k' = d.lookup k' := by
  have h1 : (k' == k) = false := by simpa using Ne.symm h
  unfold assocSet
  split
  · clear * - h h1
    induction d with
    | nil => rfl
    | cons e d ih =>
      obtain ⟨k2, v2⟩ := e
      by_cases hk : k2 = k
      · subst hk; simpa [List.lookup, h1] using ih
      · have hk2 : (k2 == k) = false := by simpa using hk
        simp only [List.map_cons, hk2]
        simp only [Bool.false_eq_true, if_false, List.lookup]
        cases k' == k2
        · simpa using ih
        · rfl
  · clear * - h h1
    induction d with
    | nil => simp [List.lookup, h1]
    | cons e d ih =>
      obtain ⟨k2, v2⟩ := e
      simp only [List.cons_append, List.lookup]
      cases k' == k2
      · simpa using ih
      · rfl

theorem keys_assocSet {α : Type} (d : List (ParName × α)) (k : ParName) (v : α) :
    (assocSet d k v).map Prod.fst =
      if k ∈ d.map Prod.fst then d.map Prod.fst else d.map Prod.fst ++ [k] := by
  unfold assocSet
  by_cases h : k ∈ d.map Prod.fst
  · have : (d.any fun e => e.1 == k) = true := by
      obtain ⟨e, he, hk⟩ := List.mem_map.1 h
      exact List.any_eq_true.2 ⟨e, he, by simpa using hk⟩
    rw [if_pos h, if_pos this, List.map_map]
    refine List.map_congr_left fun e _ => ?_
    simp only [Function.comp]
    split
    · rename_i h'; simpa using (beq_iff_eq.1 h').symm
    · rfl
  · have : (d.any fun e => e.1 == k) = false := by
      rw [Bool.eq_false_iff]
      intro hc
      obtain ⟨e, he, hk⟩ := List.any_eq_true.1 hc
      exact h (List.mem_map.2 ⟨e, he, by simpa using hk⟩)
    rw [if_neg h, this]
    simp

/-- assigning one entry after the other -/
def setAll {α β : Type} (key : β → ParName) (v : β → α) (d : List (ParName × α)) (l : List β) :
    List (ParName × α) := l.foldl (fun d b => assocSet d (key b) (v b)) d

theorem setAll_skip {α β : Type} {key : β → ParName} {v : β → α} {k : ParName} {l : List β}
    (h : ∀ b ∈ l, key b ≠ k) : ∀ d, (setAll key v d l).lookup k = d.lookup k := by
  induction l with
  | nil => intro d; rfl
  | cons b l ih =>
    intro d
    have := ih (fun b hb => h b (List.mem_cons_of_mem _ hb)) (assocSet d (key b) (v b))
    rw [lookup_assocSet_ne d _ (h b (by simp))] at this
    exact this

theorem setAll_lookup {α β : Type} {key : β → ParName} {v : β → α} {l : List β} {i : ℕ} {b : β}
    (hi : l[i]? = some b) (h : ∀ j, i < j → ∀ b', l[j]? = some b' → key b' ≠ key b)
    (d : List (ParName × α)) : (setAll key v d l).lookup (key b) = some (v b) := by
  obtain ⟨hlt, hb⟩ := List.getElem?_eq_some_iff.1 hi
  have hsplit : l = l.take i ++ b :: l.drop (i + 1) := by
    rw [← hb, List.getElem_cons_drop, List.take_append_drop]
  have hd : ∀ b' ∈ l.drop (i + 1), key b' ≠ key b := by
    intro b' hb'
    obtain ⟨j, hj⟩ := List.mem_iff_getElem?.1 hb'
    rw [List.getElem?_drop] at hj
    exact h _ (by omega) b' hj
  have e : setAll key v d l = setAll key v (assocSet (setAll key v d (l.take i)) (key b) (v b))
      (l.drop (i + 1)) := by
    conv_lhs => rw [hsplit]
    simp [setAll, List.foldl_append]
  rw [e, setAll_skip hd, lookup_assocSet_self]

theorem foldlM_set {α β : Type} {f : β → Except PyErr α} {key : β → ParName} {v : β → α} {l : List β}
    (h : ∀ b ∈ l, f b = .ok (v b)) : ∀ d : List (ParName × α),
    l.foldlM (fun d b => do let x ← f b; (.ok (assocSet d (key b) x) : Except PyErr _)) d =
      .ok (setAll key v d l) := by
  induction l with
  | nil => intro d; rfl
  | cons b l ih =>
    intro d
    rw [List.foldlM_cons, h b (by simp), ok_bind, ok_bind,
      ih (fun b hb => h b (List.mem_cons_of_mem _ hb))]
    rfl

theorem setAll_keys {α β : Type} {key : β → ParName} {v : β → α} {l : List β} :
    ∀ d : List (ParName × α),
    (∀ k, k ∈ (setAll key v d l).map Prod.fst ↔ k ∈ d.map Prod.fst ∨ k ∈ l.map key) ∧
    ((d.map Prod.fst ++ l.map key).Nodup →
      (setAll key v d l).map Prod.fst = d.map Prod.fst ++ l.map key) := by
  induction l with
  | nil => intro d; simp [setAll]
  | cons b l ih =>
    intro d
    have e : setAll key v d (b :: l) = setAll key v (assocSet d (key b) (v b)) l := rfl
    obtain ⟨h1, h2⟩ := ih (assocSet d (key b) (v b))
    rw [e]
    constructor
    · intro k
      rw [h1, keys_assocSet]
      split
      · rename_i hm
        simp only [List.map_cons, List.mem_cons]
        constructor
        · rintro (h | h)
          · exact .inl h
          · exact .inr (.inr h)
        · rintro (h | rfl | h)
          · exact .inl h
          · exact .inl hm
          · exact .inr h
      · simp only [List.map_cons, List.mem_cons, List.mem_append, List.not_mem_nil, or_false]
        tauto
    · intro hn
      have hk : key b ∉ d.map Prod.fst := by
        intro hc
        rw [List.nodup_append] at hn
        exact hn.2.2 _ hc _ (by simp) rfl
      rw [keys_assocSet, if_neg hk] at h2
      rw [h2 (by simpa using hn)]
      simp

theorem setAll_nodup {α β : Type} {key : β → ParName} {v : β → α} {l : List β} :
    ∀ d : List (ParName × α), (d.map Prod.fst).Nodup → ((setAll key v d l).map Prod.fst).Nodup := by
  induction l with
  | nil => intro d h; exact h
  | cons b l ih =>
    intro d h
    refine ih (assocSet d (key b) (v b)) ?_
    rw [keys_assocSet]
    split
    · exact h
    · rename_i hk
      rw [List.nodup_append]
      refine ⟨h, by simp, ?_⟩
      intro x hx y hy
      simp only [List.mem_singleton] at hy
      rintro rfl
      exact hk (hy ▸ hx)

/-- a name in a list has a last position -/
theorem last_position {l : List ParName} {k : ParName} (h : k ∈ l) :
    ∃ i : ℕ, l[i]? = some k ∧ ∀ j : ℕ, i < j → l[j]? ≠ some k := by
  induction l with
  | nil => simp at h
  | cons a l ih =>
    by_cases hk : k ∈ l
    · obtain ⟨i, h1, h2⟩ := ih hk
      refine ⟨i + 1, by simpa using h1, fun j hj => ?_⟩
      obtain ⟨j, rfl⟩ : ∃ j', j = j' + 1 := ⟨j - 1, by omega⟩
      simpa using h2 j (by omega)
    · have : k = a := by
        rcases List.mem_cons.1 h with h | h
        · exact h
        · exact absurd h hk
      subst this
      refine ⟨0, by simp, fun j hj hc => ?_⟩
      obtain ⟨j, rfl⟩ : ∃ j', j = j' + 1 := ⟨j - 1, by omega⟩
      rw [List.getElem?_cons_succ] at hc
      exact hk (List.mem_of_getElem? hc)

theorem gelmanRubin_filed {n : ℕ} {chains : List (List (Vec F p))} {c0 : List (Vec F p)}
    (h0 : chains[0]? = some c0) (h2 : 2 ≤ chains.length) (hn : ∀ c ∈ chains, c.length = n) (hn0 : 0 < n)
    {names : List ParName} (hlen : names.length ≤ p) :
    ∃ r, (do
      let par ← names.zipIdx.foldlM (fun d ni => do
        let tmp ← parameterColumns c0.length chains ni.2
        .ok (assocSet d ni.1 tmp)) []
      let psrf ← names.foldlM (fun d name => do
        let x ← orRaise (par.lookup name) .keyError
        let r ← calculatePsrf x c0.length chains.length
        .ok (assocSet d name r)) []
      .ok psrf : Except PyErr (List (ParName × Psrf F))) = .ok r ∧ FiledUnder chains n names r := by
  have hc0 : c0.length = n := hn c0 (List.mem_of_getElem? h0)
  rw [hc0]
  have hok : ∀ x : List (List F), ∃ y, calculatePsrf x n chains.length = .ok y := by
    intro x
    unfold calculatePsrf
    rw [if_neg (by omega)]
    exact ⟨_, rfl⟩
  choose f hf using hok
  let col : ParName × ℕ → List (List F) := fun ni =>
    if h : ni.2 < p then chains.map fun c => c.map fun row => row ⟨ni.2, h⟩ else []
  have hcol : ∀ ni ∈ names.zipIdx, parameterColumns n chains ni.2 = .ok (col ni) := by
    rintro ⟨name, i⟩ hni
    have hi : i < p := by
      have := (List.mem_zipIdx hni).2.1
      omega
    unfold parameterColumns
    simp only [col, hi, dif_pos]
    refine mapM_eq_ok fun c hc => ?_
    unfold chainColumn
    rw [if_pos (hn c hc)]
  rw [foldlM_set hcol, ok_bind]
  have hpar : ∀ (i : ℕ) (name : ParName), names[i]? = some name →
      (∀ j, i < j → names[j]? ≠ some name) →
      (setAll Prod.fst col [] names.zipIdx).lookup name = some (col (name, i)) := by
    intro i name hi hlast
    have hz : names.zipIdx[i]? = some (name, i) := by simp [List.getElem?_zipIdx, hi]
    refine setAll_lookup (key := Prod.fst) (v := col) hz ?_ []
    rintro j hj ⟨a, b⟩ hb hc
    simp only [List.getElem?_zipIdx, Option.map_eq_some_iff, Prod.mk.injEq] at hb
    obtain ⟨a', ha', rfl, -⟩ := hb
    simp only at hc
    subst hc
    exact hlast j hj ha'
  have hv : ∀ name, ∃ y : Psrf F, name ∈ names →
      (do let x ← orRaise ((setAll Prod.fst col [] names.zipIdx).lookup name) .keyError
          calculatePsrf x n chains.length) = .ok y ∧
      ∀ i, names[i]? = some name → (∀ j, i < j → names[j]? ≠ some name) →
        calculatePsrf (col (name, i)) n chains.length = .ok y := by
    intro name
    by_cases hm : name ∈ names
    · obtain ⟨i, h1, h2⟩ := last_position hm
      refine ⟨f (col (name, i)), fun _ => ⟨?_, ?_⟩⟩
      · rw [hpar i name h1 h2]
        exact hf _
      · intro i' h1' h2'
        have : i' = i := by
          rcases lt_trichotomy i' i with h | h | h
          · exact absurd h1 (h2' i h)
          · exact h
          · exact absurd h1' (h2 i' h)
        rw [this]
        exact hf _
    · exact ⟨f [], fun h => absurd h hm⟩
  choose v hv using hv
  have hfold : names.foldlM (fun d name => do
      let x ← orRaise ((setAll Prod.fst col [] names.zipIdx).lookup name) .keyError
      let r ← calculatePsrf x n chains.length
      (.ok (assocSet d name r) : Except PyErr _)) [] = .ok (setAll id v [] names) := by
    have := foldlM_set (f := fun name => do
      let x ← orRaise ((setAll Prod.fst col [] names.zipIdx).lookup name) .keyError
      calculatePsrf x n chains.length) (key := id) (v := v) (l := names) (fun name hm => (hv name hm).1) []
    rw [← this]
    congr 1
    funext d name
    cases orRaise ((setAll Prod.fst col [] names.zipIdx).lookup name) .keyError <;> rfl
  rw [hfold, ok_bind]
  obtain ⟨k1, k2⟩ := setAll_keys (key := id) (v := v) (l := names) []
  refine ⟨_, rfl, ?_, setAll_nodup [] (by simp), ?_, ?_⟩
  · intro k; simpa using k1 k
  · intro hnd; simpa using k2 (by simpa using hnd)
  · intro i hp name hi hlast
    refine ⟨v name, ?_, ?_⟩
    · exact setAll_lookup (key := id) (v := v) hi (fun j hj b' hb' hc => hlast j hj (by
        rw [hb']; exact congrArg some hc)) []
    · have := (hv name (List.mem_of_getElem? hi)).2 i hi hlast
      simpa [col, hp] using this

/-- **C110 (partial).** For two or more chains of the same length and no more names than columns, the
dictionary returned by `gelman_rubin` has exactly the given names as keys (in their order if they are
different), and under each name the diagnostic of the (last) parameter with this name.  Without names
those of the results are used, completed by default names.  Missing: equal names
(`C110_equal_refuted`) and more names than columns (`C110_subset_refuted`). -/
theorem C110_by_name_partial {n : ℕ} {chains : List (List (Vec F p))} (h2 : 2 ≤ chains.length)
    (hn : ∀ c ∈ chains, c.length = n) (hn0 : 0 < n) :
    (∀ (names : List ParName) (results : Option ResultNames), names.length ≤ p →
      ∃ r, gelmanRubinNamed chains (some names) results = .ok (r, results) ∧
        FiledUnder chains n names r) ∧
    (∀ results : Option ResultNames, (∀ l, results = some (some l) → l.length ≤ p) →
      ∃ names r results', gelmanRubinNamed chains none results = .ok (r, results') ∧
        names.length = p ∧ (∀ i < p, ∃ name, names[i]? = some name ∧ IsNameOf results i name) ∧
        FiledUnder chains n names r) := by
  obtain ⟨c0, h0⟩ : ∃ c0, chains[0]? = some c0 := ⟨_, List.getElem?_eq_getElem (by omega)⟩
  constructor
  · intro names results hlen
    obtain ⟨r, h, hr⟩ := gelmanRubin_filed h0 h2 hn hn0 hlen
    refine ⟨r, ?_, hr⟩
    unfold gelmanRubinNamed pyGet
    rw [h0]
    simp only
    rw [ok_bind, if_neg (by omega)]
    obtain ⟨par, e1, h⟩ := bind_ok.1 h
    obtain ⟨psrf, e2, h⟩ := bind_ok.1 h
    cases h
    rw [e1, ok_bind, e2, ok_bind]
  · intro results hres
    have hlen : (getParameterNames p results).1.length = p := by
      rw [rowNames_length]
      split
      · rename_i l
        exact max_eq_left (hres l rfl)
      · rfl
    obtain ⟨r, h, hr⟩ := gelmanRubin_filed h0 h2 hn hn0 hlen.le
    refine ⟨(getParameterNames p results).1, r, (getParameterNames p results).2, ?_, hlen,
      fun i hi => rowNames_get results hi, hr⟩
    unfold gelmanRubinNamed pyGet
    rw [h0]
    simp only
    rw [ok_bind, if_neg (by omega)]
    obtain ⟨par, e1, h⟩ := bind_ok.1 h
    obtain ⟨psrf, e2, h⟩ := bind_ok.1 h
    cases h
    rw [e1, ok_bind, e2, ok_bind]

/-- **C110 refuted for equal names.** With the same name for two parameters, the first one gets no
diagnostic: the dictionary has one entry, that of the second. -/
theorem C110_equal_refuted {n : ℕ} {chains : List (List (Vec F 2))} (h2 : 2 ≤ chains.length)
    (hn : ∀ c ∈ chains, c.length = n) (hn0 : 0 < n) (a : ParName) (results : Option ResultNames) :
    ∃ y, gelmanRubinNamed chains (some [a, a]) results = .ok ([(a, y)], results) ∧
      calculatePsrf (chains.map fun c => c.map fun row => row 1) n chains.length = .ok y := by
  obtain ⟨r, h, hk, hnd, -, hr⟩ := (C110_by_name_partial h2 hn hn0).1 [a, a] results (by simp)
  obtain ⟨y, hy, hc⟩ := hr 1 (by omega) a (by simp) (fun j hj => by
    rw [List.getElem?_eq_none (by simp; omega)]; simp)
  refine ⟨y, ?_, hc⟩
  rw [h]
  have ha : a ∈ r.map Prod.fst := (hk a).2 (by simp)
  cases r with
  | nil => simp at ha
  | cons e r =>
    have hall : ∀ e' ∈ e :: r, e'.1 = a := fun e' he' => by
      simpa using (hk e'.1).1 (List.mem_map_of_mem he')
    have hnil : r = [] := by
      cases r with
      | nil => rfl
      | cons e' r =>
        simp [hall e (by simp), hall e' (by simp)] at hnd
    subst hnil
    obtain ⟨k, y'⟩ := e
    have : k = a := hall (k, y') (by simp)
    subst this
    simp [List.lookup] at hy
    subst hy
    rfl

theorem parameterColumns_out {nsimu ii : ℕ} {chains : List (List (Vec F p))} (hc : chains ≠ [])
    (hi : p ≤ ii) : parameterColumns nsimu chains ii = .error .indexError := by
  cases chains with
  | nil => exact absurd rfl hc
  | cons c rest =>
    unfold parameterColumns
    rw [List.mapM_cons, dif_neg (by omega)]
    rfl

/-- **C110 refuted for some columns.** With more names than columns `gelman_rubin` raises
`IndexError`, whether the names are given or those of the results. -/
theorem C110_subset_refuted {n : ℕ} {chains : List (List (Vec F p))} (h2 : 2 ≤ chains.length)
    (hn : ∀ c ∈ chains, c.length = n) {l : List ParName} (hl : p < l.length)
    (results : Option ResultNames) :
    gelmanRubinNamed chains (some l) results = .error .indexError ∧
    gelmanRubinNamed chains none (some (some l)) = .error .indexError := by
  obtain ⟨c0, h0⟩ : ∃ c0, chains[0]? = some c0 := ⟨_, List.getElem?_eq_getElem (by omega)⟩
  have hc0 : c0.length = n := hn c0 (List.mem_of_getElem? h0)
  have hne : chains ≠ [] := by rintro rfl; simp at h2
  have key : ∀ (L : List (ParName × ℕ)) (d : List (ParName × List (List F))),
      (∃ ni ∈ L, p ≤ ni.2) →
      L.foldlM (fun d ni => do
        let tmp ← parameterColumns c0.length chains ni.2
        (.ok (assocSet d ni.1 tmp) : Except PyErr _)) d = .error .indexError := by
    intro L
    induction L with
    | nil => rintro d ⟨ni, h, -⟩; simp at h
    | cons ni L ih =>
      rintro d ⟨nj, hm, hj⟩
      rw [List.foldlM_cons]
      by_cases hi : p ≤ ni.2
      · rw [parameterColumns_out hne hi]; rfl
      · have hcol : parameterColumns c0.length chains ni.2 =
            .ok (chains.map fun c => c.map fun row => row ⟨ni.2, not_le.1 hi⟩) := by
          unfold parameterColumns
          refine mapM_eq_ok fun c hc => ?_
          rw [dif_pos (not_le.1 hi)]
          unfold chainColumn
          rw [if_pos ((hn c hc).trans hc0.symm)]
        rw [hcol, ok_bind, ok_bind]
        refine ih _ ⟨nj, ?_, hj⟩
        rcases List.mem_cons.1 hm with rfl | h
        · exact absurd hj hi
        · exact h
  have hex : ∀ names : List ParName, p < names.length → ∃ ni ∈ names.zipIdx, p ≤ ni.2 := by
    intro names hp
    refine ⟨(names[p], p), ?_, le_rfl⟩
    rw [List.mem_zipIdx_iff_getElem?]
    simp [List.getElem?_eq_getElem hp]
  constructor
  · unfold gelmanRubinNamed pyGet
    rw [h0]
    simp only
    rw [ok_bind, if_neg (by omega), key _ _ (hex l hl)]
    rfl
  · unfold gelmanRubinNamed pyGet
    rw [h0]
    simp only
    have hlen := rowNames_length p (some (some l))
    simp only at hlen
    rw [max_eq_right hl.le] at hlen
    rw [ok_bind, if_neg (by omega), key _ _ (hex _ (by omega))]
    rfl

open Toy in
/-- two chains of two rows; the names `a`, `b`, then twice `a`, then three names -/
example :
    ((gelmanRubinNamed (F := ℚ) (p := 2) [[![0, 1], ![2, 5]], [![1, 1], ![4, 3]]]
      (some ["a".toList, "b".toList]) none).toOption.map fun r => r.1.map fun e => (e.1, e.2.W)) =
        some [("a".toList, 13 / 4), ("b".toList, 5)] ∧
    ((gelmanRubinNamed (F := ℚ) (p := 2) [[![0, 1], ![2, 5]], [![1, 1], ![4, 3]]]
      (some ["a".toList, "a".toList]) none).toOption.map fun r => r.1.map fun e => (e.1, e.2.W)) =
        some [("a".toList, 5)] ∧
    (gelmanRubinNamed (F := ℚ) (p := 2) [[![0, 1], ![2, 5]], [![1, 1], ![4, 3]]]
      none (some (some ["a".toList, "b".toList, "c".toList]))).toOption.isNone := by decide +kernel

/-! ### C111 -/

/-- **C111 (partial).** `chainstats` and `gelman_rubin` leave the names in the results as they are, if
there are at least as many as columns, or if `gelman_rubin` is given names.  Missing: fewer names
(`C111_names_refuted`). -/
theorem C111_names_partial (hann : ℕ → ℕ → F) (cdf : F → F) (iact : List F → Except PyErr (F × ℕ))
    (val : F → PyNum) (results : Option ResultNames) :
    ((∀ l, results = some (some l) → p ≤ l.length) →
      (∀ (chain : Option (List (Vec F p))) run,
        chainstatsRun (K := ℚ) hann cdf iact val chain results = .ok (some run) → run.names = results) ∧
      (∀ (chains : List (List (Vec F p))) r results',
        gelmanRubinNamed chains none results = .ok (r, results') → results' = results)) ∧
    (∀ (chains : List (List (Vec F p))) names r results',
      gelmanRubinNamed chains (some names) results = .ok (r, results') → results' = results) := by
  have gr : ∀ (chains : List (List (Vec F p))) names r results',
      gelmanRubinNamed chains names results = .ok (r, results') →
      results' = (match names with
        | some l => (l, results)
        | none => getParameterNames p results).2 := by
    intro chains names r results' h
    unfold gelmanRubinNamed at h
    obtain ⟨c0, -, h⟩ := bind_ok.1 h
    simp only at h
    split at h
    · cases h
    · obtain ⟨par, -, h⟩ := bind_ok.1 h
      obtain ⟨psrf, -, h⟩ := bind_ok.1 h
      cases h
      rfl
  refine ⟨fun hr => ?_, fun chains names r results' h => gr chains (some names) r results' h⟩
  have he : (getParameterNames p results).2 = results := by
    cases results with
    | none => rfl
    | some r =>
      cases r with
      | none => rfl
      | some l =>
        have : p - l.length = 0 := by have := hr l rfl; omega
        simp [getParameterNames, extendNames, this]
  refine ⟨fun chain run h => ?_, fun chains r results' h => (gr chains none r results' h).trans he⟩
  unfold chainstatsRun at h
  simp only at h
  obtain ⟨st, -, h⟩ := bind_ok.1 h
  cases st with
  | none => cases h
  | some st =>
    obtain ⟨table, -, h⟩ := bind_ok.1 h
    cases h
    exact he

/-- **C111 refuted.** With fewer names than columns, every call of `chainstats` or of `gelman_rubin`
without names that returns makes the list of names in the results longer. -/
theorem C111_names_refuted (hann : ℕ → ℕ → F) (cdf : F → F) (iact : List F → Except PyErr (F × ℕ))
    (val : F → PyNum) {l : List ParName} (hl : l.length < p) :
    (∀ (chain : Option (List (Vec F p))) run,
      chainstatsRun (K := ℚ) hann cdf iact val chain (some (some l)) = .ok (some run) →
      ∃ l', run.names = some (some l') ∧ l <+: l' ∧ l'.length = p) ∧
    (∀ (chains : List (List (Vec F p))) r results',
      gelmanRubinNamed chains none (some (some l)) = .ok (r, results') →
      ∃ l', results' = some (some l') ∧ l <+: l' ∧ l'.length = p) := by
  have he : ∃ l', (getParameterNames p (some (some l))).2 = some (some l') ∧ l <+: l' ∧
      l'.length = p := by
    refine ⟨_, rfl, ?_, ?_⟩
    · simp [extendNames]
    · rw [extendNames_length]; simp; omega
  constructor
  · intro chain run h
    unfold chainstatsRun at h
    simp only at h
    obtain ⟨st, -, h⟩ := bind_ok.1 h
    cases st with
    | none => cases h
    | some st =>
      obtain ⟨table, -, h⟩ := bind_ok.1 h
      cases h
      exact he
  · intro chains r results' h
    unfold gelmanRubinNamed at h
    obtain ⟨c0, -, h⟩ := bind_ok.1 h
    simp only at h
    split at h
    · cases h
    · obtain ⟨par, -, h⟩ := bind_ok.1 h
      obtain ⟨psrf, -, h⟩ := bind_ok.1 h
      cases h
      exact he

open Toy in
/-- two columns, one name in the results: afterwards there are two -/
example : ((gelmanRubinNamed (F := ℚ) (p := 2) [[![0, 1], ![2, 5]], [![1, 1], ![4, 3]]]
    none (some (some ["a".toList]))).toOption.map Prod.snd) =
      some (some (some ["a".toList, "$p_{1}$".toList])) := by decide +kernel

end

end Verif
