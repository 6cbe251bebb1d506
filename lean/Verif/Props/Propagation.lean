import Verif.Model.Propagation
import Verif.Lemmas.Basic
import Verif.Spec.Toy
import Mathlib.Tactic.Linarith
import Mathlib.Tactic.FieldSimp
import Mathlib.Tactic.NormNum
import Mathlib.Data.Rat.Floor
import Mathlib.MeasureTheory.Measure.Lebesgue.Basic

/-!
# Properties C42 – C45, C60: propagation of the chain
-/

set_option linter.unusedSectionVars false

namespace Verif

section
variable {F R D : Type} {N p : ℕ}

/-- `row` is the part of the parameter vector `q` at the sampled positions, and `q` agrees with
`q0` elsewhere -/
def AtRow (parind : Fin p → Fin N) (q0 q : Vec F N) (row : Vec F p) : Prop :=
  (∀ j, q (parind j) = row j) ∧ ∀ k, (∀ j, parind j ≠ k) → q k = q0 k

theorem setParams_of_not_mem {parind : Fin p → Fin N} (q : Vec F N) (row : Vec F p) {k : Fin N}
    (hk : ∀ j, parind j ≠ k) : setParams parind q row k = q k := by
  unfold setParams
  generalize List.finRange p = l
  induction l generalizing q with
  | nil => rfl
  | cons j l ih =>
    rw [List.foldl_cons, ih, Function.update_of_ne (hk j).symm]

theorem setParams_parind {parind : Fin p → Fin N} (hinj : Function.Injective parind)
    (q : Vec F N) (row : Vec F p) (j : Fin p) : setParams parind q row (parind j) = row j := by
  have key : ∀ (l : List (Fin p)) (q : Vec F N), (j ∈ l ∨ q (parind j) = row j) →
      l.foldl (fun q j => Function.update q (parind j) (row j)) q (parind j) = row j := by
    intro l
    induction l with
    | nil => intro q h; rcases h with h | h; simp at h; exact h
    | cons i l ih =>
      intro q h
      rw [List.foldl_cons]
      apply ih
      by_cases hij : i = j
      · right; subst hij; simp
      · rcases h with h | h
        · left
          rcases List.mem_cons.1 h with h | h
          · exact absurd h.symm hij
          · exact h
        · right
          rw [Function.update_of_ne (fun h => hij (hinj h).symm)]; exact h
  exact key _ _ (Or.inl (List.mem_finRange j))

theorem setParams_atRow {parind : Fin p → Fin N} (hinj : Function.Injective parind)
    {q0 q : Vec F N} (hq : ∀ k, (∀ j, parind j ≠ k) → q k = q0 k) (row : Vec F p) :
    AtRow parind q0 (setParams parind q row) row :=
  ⟨setParams_parind hinj q row, fun k hk => by rw [setParams_of_not_mem q row hk, hq k hk]⟩

/-- one round: which vector the model is called with -/
theorem propStep_ok {parind : Fin p → Fin N} {chain : List (Vec F p)} {data : D}
    {model : Vec F N → D → Except PyErr (ModelOut F)} {s2 : S2Chain F}
    {obs : ℕ → ℕ → S2Val F → ModelOut F → Except PyErr (List F)} {kk : ℕ} {isa : ℤ}
    {st st' : PropState F N} (h : propStep parind chain data model s2 obs kk isa st = .ok st') :
    ∃ row, chain[kk]? = some row ∧ st'.q = setParams parind st.q row ∧
      st'.evals = st.evals ++ [st'.q] := by
  unfold propStep at h
  obtain ⟨row, hrow, h⟩ := bind_ok.1 h
  obtain ⟨y, hy, h⟩ := bind_ok.1 h
  have hr : chain[kk]? = some row := by
    unfold pyGet at hrow
    cases hc : chain[kk]? with
    | none => rw [hc] at hrow; cases hrow
    | some r => rw [hc] at hrow; cases hrow; rfl
  refine ⟨row, hr, ?_⟩
  dsimp only at h
  split at h
  · obtain ⟨pi, hpi, h⟩ := bind_ok.1 h
    cases h
    exact ⟨rfl, rfl⟩
  · obtain ⟨nc, hnc, h⟩ := bind_ok.1 h
    obtain ⟨cis, hcis, h⟩ := bind_ok.1 h
    obtain ⟨pis, hpis, h⟩ := bind_ok.1 h
    obtain ⟨r, hr', h⟩ := bind_ok.1 h
    cases h
    exact ⟨rfl, rfl⟩

theorem propLoop_ok {parind : Fin p → Fin N} (hinj : Function.Injective parind)
    {chain : List (Vec F p)} {data : D}
    {model : Vec F N → D → Except PyErr (ModelOut F)} {s2 : S2Chain F}
    {obs : ℕ → ℕ → S2Val F → ModelOut F → Except PyErr (List F)} {q0 : Vec F N} :
    ∀ {iis : List ℤ} {kk : ℕ} {st st' : PropState F N},
      (∀ k, (∀ j, parind j ≠ k) → st.q k = q0 k) →
      propLoop parind chain data model s2 obs kk iis st = .ok st' →
      (∃ ev, st'.evals = st.evals ++ ev ∧ ev.length = iis.length ∧
        (∀ (i : ℕ) (q : Vec F N), ev[i]? = some q →
          ∃ row, chain[kk + i]? = some row ∧ AtRow parind q0 q row) ∧
        st'.q = (ev.getLast?).getD st.q) := by
  intro iis
  induction iis with
  | nil =>
    intro kk st st' hq h
    cases h
    exact ⟨[], by simp, rfl, by simp, rfl⟩
  | cons isa rest ih =>
    intro kk st st' hq h
    unfold propLoop at h
    obtain ⟨st1, h1, h2⟩ := bind_ok.1 h
    obtain ⟨row, hrow, hq1, he1⟩ := propStep_ok h1
    have hat := setParams_atRow hinj hq row
    rw [← hq1] at hat
    obtain ⟨ev, he, hl, hi, hlast⟩ := ih hat.2 h2
    refine ⟨st1.q :: ev, by rw [he, he1]; simp, by simp [hl], ?_, ?_⟩
    · intro i q hiq
      cases i with
      | zero =>
        rw [List.getElem?_cons_zero] at hiq
        cases hiq
        exact ⟨row, by simpa using hrow, hat⟩
      | succ i =>
        rw [List.getElem?_cons_succ] at hiq
        obtain ⟨r, hr, ha⟩ := hi i q hiq
        exact ⟨r, by rw [← hr]; congr 1; omega, ha⟩
    · rw [hlast, List.getLast?_cons]
      cases hv : ev.getLast? <;> simp

/-- what a successful `calculate_intervals` call evaluated and changed -/
theorem calculateIntervals_ok [PyFloat F] {chain : List (Vec F p)}
    {results results' : PropResults F R N p}
    (hinj : Function.Injective results.parind) {data : D}
    {model : Vec F N → D → Except PyErr (ModelOut F)} {s2 : F ⊕ S2Chain F}
    {obs : ℕ → ℕ → S2Val F → ModelOut F → Except PyErr (List F)} {iis : List ℤ}
    {st : PropState F N}
    (h : calculateIntervals chain results data model s2 obs iis = .ok (results', st)) :
    st.evals.length = iis.length ∧
    (∀ (i : ℕ) (q : Vec F N), st.evals[i]? = some q →
      ∃ row, chain[i]? = some row ∧ AtRow results.parind results.theta q row) ∧
    results'.theta = st.evals.getLast?.getD results.theta ∧
    results'.parind = results.parind ∧ results'.rest = results.rest := by
  unfold calculateIntervals at h
  obtain ⟨s2', hs2, h⟩ := bind_ok.1 h
  obtain ⟨st1, h1, h⟩ := bind_ok.1 h
  cases h
  obtain ⟨ev, he, hl, hi, hlast⟩ := propLoop_ok (q0 := results.theta) hinj (fun _ _ => rfl) h1
  simp only [List.nil_append] at he
  rw [he]
  refine ⟨hl, fun i q hq => ?_, hlast, rfl, rfl⟩
  obtain ⟨row, hr, ha⟩ := hi i q hq
  exact ⟨row, by simpa using hr, ha⟩

/-- **C42, full statement:** `calculate_intervals` evaluates the model at the drawn rows of the
chain, for all chains, sample sizes and draws.  **Proved here:** when at least as many samples as
chain rows are requested, evaluation `i` is at row `i` of the chain (with the fixed parameters of
`results['theta']`), and every row is used exactly once.  For smaller samples see
`C42_draws_ignored_refuted`. -/
theorem C42_all_rows_partial [PyFloat F] {K : Type} [Field K] [LinearOrder K] [FloorRing K]
    {chain : List (Vec F p)} {results results' : PropResults F R N p}
    (hinj : Function.Injective results.parind) {data : D}
    {model : Vec F N → D → Except PyErr (ModelOut F)} {s2 : F ⊕ S2Chain F}
    {obs : ℕ → ℕ → S2Val F → ModelOut F → Except PyErr (List F)} {nsample : ℕ} {draws : List K}
    (hn : chain.length ≤ nsample) {st : PropState F N}
    (h : calculateIntervals chain results data model s2 obs
      (defineSamplePoints nsample chain.length draws).1 = .ok (results', st)) :
    st.evals.length = chain.length ∧
    ∀ (i : ℕ) (row : Vec F p), chain[i]? = some row →
      ∃ q, st.evals[i]? = some q ∧ AtRow results.parind results.theta q row := by
  obtain ⟨hl, hi, -⟩ := calculateIntervals_ok hinj h
  have hlen : st.evals.length = chain.length := by
    rw [hl]; unfold defineSamplePoints; rw [if_pos hn]; simp
  refine ⟨hlen, fun i row hrow => ?_⟩
  have hlt : i < st.evals.length := by
    rw [hlen]; exact (List.getElem?_eq_some_iff.1 hrow).1
  refine ⟨_, List.getElem?_eq_getElem hlt, ?_⟩
  obtain ⟨row', hr', ha⟩ := hi i _ (List.getElem?_eq_getElem hlt)
  rw [hrow] at hr'
  cases hr'
  exact ha

/-- **C42 is false for samples smaller than the chain.** The drawn indices are ignored:
evaluation `i` is at row `i` of the chain whatever row was drawn, so it is not at the drawn row
whenever that row differs from row `i`. -/
theorem C42_draws_ignored_refuted [PyFloat F] {chain : List (Vec F p)}
    {results results' : PropResults F R N p} (hinj : Function.Injective results.parind) {data : D}
    {model : Vec F N → D → Except PyErr (ModelOut F)} {s2 : F ⊕ S2Chain F}
    {obs : ℕ → ℕ → S2Val F → ModelOut F → Except PyErr (List F)} {iis : List ℤ}
    {st : PropState F N}
    (h : calculateIntervals chain results data model s2 obs iis = .ok (results', st))
    {i : ℕ} {isa : ℤ} {drawn row : Vec F p} (hi : iis[i]? = some isa)
    (hd : pyRow chain isa = .ok drawn) (hr : chain[i]? = some row) (hne : drawn ≠ row) :
    ∃ q, st.evals[i]? = some q ∧ AtRow results.parind results.theta q row ∧
      ¬ AtRow results.parind results.theta q drawn := by
  obtain ⟨hl, he, -⟩ := calculateIntervals_ok hinj h
  have hlt : i < st.evals.length := by
    rw [hl]; exact (List.getElem?_eq_some_iff.1 hi).1
  obtain ⟨row', hr', ha⟩ := he i _ (List.getElem?_eq_getElem hlt)
  rw [hr] at hr'
  cases hr'
  refine ⟨_, List.getElem?_eq_getElem hlt, ha, fun hb => hne ?_⟩
  funext j
  rw [← ha.1 j, ← hb.1 j]

theorem calcCredible_ok {parind : Fin p → Fin N} (hinj : Function.Injective parind) {data : D}
    {model : Vec F N → D → Except PyErr (ModelOut F)} {q0 : Vec F N} :
    ∀ {rows : List (Vec F p)} {theta : Vec F N} {r : Vec F N × List (Vec F N) × List (List F)},
      (∀ k, (∀ j, parind j ≠ k) → theta k = q0 k) →
      calcCredible parind data model rows theta = .ok r →
      r.2.1.length = rows.length ∧ r.2.2.length = rows.length ∧
      (∀ (i : ℕ) (row : Vec F p), rows[i]? = some row →
        ∃ q y, r.2.1[i]? = some q ∧ AtRow parind q0 q row ∧ model q data = .ok y ∧
          r.2.2[i]? = some y.flat) ∧
      r.1 = r.2.1.getLast?.getD theta := by
  intro rows
  induction rows with
  | nil => intro theta r _ h; cases h; exact ⟨rfl, rfl, by simp, rfl⟩
  | cons isa rest ih =>
    intro theta r hq h
    unfold calcCredible at h
    obtain ⟨y, hy, h⟩ := bind_ok.1 h
    obtain ⟨r1, h1, h⟩ := bind_ok.1 h
    cases h
    have hat := setParams_atRow hinj hq isa
    obtain ⟨l1, l2, hi, hlast⟩ := ih hat.2 h1
    refine ⟨by simp [l1], by simp [l2], ?_, ?_⟩
    · intro i row hrow
      cases i with
      | zero =>
        rw [List.getElem?_cons_zero] at hrow
        cases hrow
        exact ⟨_, y, rfl, hat, hy, rfl⟩
      | succ i => exact hi i row (by simpa using hrow)
    · dsimp only
      rw [hlast, List.getLast?_cons]
      cases hv : r1.2.1.getLast? <;> simp

theorem mapM_pyRow {α : Type} {l : List α} : ∀ {is : List ℤ} {rows : List α},
    is.mapM (pyRow l) = .ok rows → rows.length = is.length ∧
      ∀ (k : ℕ) (i : ℤ), is[k]? = some i → ∃ row, rows[k]? = some row ∧ pyRow l i = .ok row := by
  intro is
  induction is with
  | nil => intro rows h; cases h; exact ⟨rfl, by simp⟩
  | cons i is ih =>
    intro rows h
    rw [List.mapM_cons] at h
    obtain ⟨r, hr, h⟩ := bind_ok.1 h
    obtain ⟨rs, hrs, h⟩ := bind_ok.1 h
    cases h
    obtain ⟨hl, hk⟩ := ih hrs
    refine ⟨by simp [hl], fun k j hj => ?_⟩
    cases k with
    | zero => rw [List.getElem?_cons_zero] at hj; cases hj; exact ⟨r, rfl, hr⟩
    | succ k => exact hk k j (by simpa using hj)

/-- **C42 for `PredictionIntervals`.** `generate_prediction_intervals` does evaluate the model at
the drawn rows: response `k` is the model's response at the row with index `iisample[k]`. -/
theorem C42_prediction_intervals {chain : List (Vec F p)}
    {results results' : PropResults F R N p} (hinj : Function.Injective results.parind) {data : D}
    {model : Vec F N → D → Except PyErr (ModelOut F)} {iis : List ℤ} {evals : List (Vec F N)}
    {ys : List (List F)}
    (h : generateCredible results chain data model iis = .ok (results', evals, ys)) :
    evals.length = iis.length ∧ ys.length = iis.length ∧
    ∀ (k : ℕ) (i : ℤ), iis[k]? = some i → ∃ row q y, pyRow chain i = .ok row ∧
      evals[k]? = some q ∧ AtRow results.parind results.theta q row ∧ model q data = .ok y ∧
      ys[k]? = some y.flat := by
  unfold generateCredible at h
  obtain ⟨rows, hrows, h⟩ := bind_ok.1 h
  obtain ⟨r, hr, h⟩ := bind_ok.1 h
  cases h
  obtain ⟨hl, hk⟩ := mapM_pyRow hrows
  obtain ⟨l1, l2, hi, -⟩ := calcCredible_ok (q0 := results.theta) hinj (fun _ _ => rfl) hr
  refine ⟨by rw [l1, hl], by rw [l2, hl], fun k i hki => ?_⟩
  obtain ⟨row, hrow, hpr⟩ := hk k i hki
  obtain ⟨q, y, h1, h2, h3, h4⟩ := hi k row hrow
  exact ⟨row, q, y, hpr, h1, h2, h3, h4⟩

/-- **C43, full statement:** computing intervals leaves the results dictionary unchanged.
**Proved here:** everything except the entries of `theta` at the sampled positions is unchanged,
by `calculate_intervals` as well as by `generate_prediction_intervals`.  The sampled entries are
overwritten, see `C43_theta_refuted`. -/
theorem C43_other_entries_partial [PyFloat F] {chain : List (Vec F p)}
    {results results' : PropResults F R N p} (hinj : Function.Injective results.parind) {data : D}
    {model : Vec F N → D → Except PyErr (ModelOut F)} {s2 : F ⊕ S2Chain F}
    {obs : ℕ → ℕ → S2Val F → ModelOut F → Except PyErr (List F)} {iis : List ℤ}
    (h : (∃ st, calculateIntervals chain results data model s2 obs iis = .ok (results', st)) ∨
      ∃ evals ys, generateCredible results chain data model iis = .ok (results', evals, ys)) :
    results'.parind = results.parind ∧ results'.rest = results.rest ∧
    ∀ k, (∀ j, results.parind j ≠ k) → results'.theta k = results.theta k := by
  rcases h with ⟨st, h⟩ | ⟨evals, ys, h⟩
  · obtain ⟨hl, hi, hth, h1, h2⟩ := calculateIntervals_ok hinj h
    refine ⟨h1, h2, fun k hk => ?_⟩
    rw [hth]
    cases hlast : st.evals.getLast? with
    | none => rfl
    | some q =>
      obtain ⟨i, hiq⟩ := List.mem_iff_getElem?.1 (List.mem_of_getLast? hlast)
      obtain ⟨row, -, ha⟩ := hi i q hiq
      exact ha.2 k hk
  · unfold generateCredible at h
    obtain ⟨rows, hrows, h⟩ := bind_ok.1 h
    obtain ⟨r, hr, h⟩ := bind_ok.1 h
    cases h
    obtain ⟨l1, l2, hi, hlast⟩ := calcCredible_ok (q0 := results.theta) hinj (fun _ _ => rfl) hr
    refine ⟨rfl, rfl, fun k hk => ?_⟩
    dsimp only
    rw [hlast]
    cases hv : r.2.1.getLast? with
    | none => rfl
    | some q =>
      obtain ⟨i, hiq⟩ := List.mem_iff_getElem?.1 (List.mem_of_getLast? hv)
      have hlt : i < rows.length := by
        rw [← l1]; exact (List.getElem?_eq_some_iff.1 hiq).1
      obtain ⟨q', y, hq', ha, -⟩ := hi i _ (List.getElem?_eq_getElem hlt)
      rw [hiq] at hq'
      cases hq'
      exact ha.2 k hk

/-- **C43 is false.** After `calculate_intervals` the sampled entries of `results['theta']` are
those of the last evaluated chain row, so `theta` has changed whenever that row differs from it
in a sampled entry. -/
theorem C43_theta_refuted [PyFloat F] {chain : List (Vec F p)}
    {results results' : PropResults F R N p} (hinj : Function.Injective results.parind) {data : D}
    {model : Vec F N → D → Except PyErr (ModelOut F)} {s2 : F ⊕ S2Chain F}
    {obs : ℕ → ℕ → S2Val F → ModelOut F → Except PyErr (List F)} {iis : List ℤ}
    {st : PropState F N}
    (h : calculateIntervals chain results data model s2 obs iis = .ok (results', st))
    (hne : iis ≠ []) :
    ∃ row, chain[iis.length - 1]? = some row ∧
      (∀ j, results'.theta (results.parind j) = row j) ∧
      ∀ j, row j ≠ results.theta (results.parind j) → results'.theta ≠ results.theta := by
  obtain ⟨hl, hi, hth, -, -⟩ := calculateIntervals_ok hinj h
  have hlen : st.evals ≠ [] := by
    intro he; rw [he] at hl; exact hne (List.length_eq_zero_iff.1 hl.symm)
  have hg : st.evals[st.evals.length - 1]? = some (st.evals.getLast hlen) := by
    rw [← List.getLast?_eq_getElem?, List.getLast?_eq_some_getLast hlen]
  obtain ⟨row, hr, ha⟩ := hi _ _ hg
  rw [hl] at hr
  have hth' : results'.theta = st.evals.getLast hlen := by
    rw [hth, List.getLast?_eq_some_getLast hlen]; rfl
  refine ⟨row, hr, fun j => by rw [hth']; exact ha.1 j, fun j hj he => hj ?_⟩
  rw [← ha.1 j, ← hth', he]

/-! ### C44: error-variance columns -/

theorem s2Ranges_length : ∀ (s : ℕ) (cs : List ℕ), (s2Ranges s cs).length = cs.length
  | _, [] => rfl
  | s, c :: cs => by simp [s2Ranges, s2Ranges_length (s + c) cs]

theorem s2Ranges_get : ∀ (s : ℕ) (cs : List ℕ) (i : ℕ) (c : ℕ), cs[i]? = some c →
    (s2Ranges s cs)[i]? = some (s + (cs.take i).sum, s + (cs.take i).sum + c)
  | _, [], _, _, h => by simp at h
  | s, c :: cs, 0, d, h => by
    rw [List.getElem?_cons_zero] at h; cases h; simp [s2Ranges]
  | s, c :: cs, i + 1, d, h => by
    rw [List.getElem?_cons_succ] at h
    rw [s2Ranges, List.getElem?_cons_succ, s2Ranges_get (s + c) cs i d h]
    simp [Nat.add_assoc]

theorem sum_take_add_le : ∀ (cs : List ℕ) (i c : ℕ), cs[i]? = some c →
    (cs.take i).sum + c ≤ cs.sum
  | [], _, _, h => by simp at h
  | c :: cs, 0, d, h => by rw [List.getElem?_cons_zero] at h; cases h; simp
  | c :: cs, i + 1, d, h => by
    rw [List.getElem?_cons_succ] at h
    have := sum_take_add_le cs i d h
    simp only [List.take_succ_cons, List.sum_cons]
    omega

/-- **C44.** When the assignment succeeds there is one range per batch, all ranges are valid
column ranges, and for every row of error variances the sampling step of every batch finds as many
variances as the batch has output columns: the batch's own range when there is one variance per
output column, one variance for the whole batch otherwise. -/
theorem C44_ranges {n : ℕ} {ncol : List ℕ} {r : List (ℕ × ℕ)} (h : analyzeS2chain n ncol = .ok r)
    (s2row : List F) (hs : s2row.length = n) :
    r.length = ncol.length ∧
    ∀ (i c : ℕ), ncol[i]? = some c → ∃ a b, r[i]? = some (a, b) ∧ a ≤ b ∧ b ≤ n ∧
      (b - a = c ∨ b - a = 1) ∧
      ∃ s2, expandS2 (pySlice s2row a b) c = .ok s2 ∧ s2.length = c ∧
        ∀ x ∈ s2, x ∈ pySlice s2row a b := by
  have hslice : ∀ a b, a ≤ b → b ≤ n → (pySlice s2row a b).length = b - a := by
    intro a b hab hb
    unfold pySlice
    rw [List.length_drop, List.length_take, hs]; omega
  have hex : ∀ (a b c : ℕ), a ≤ b → b ≤ n → (b - a = c ∨ b - a = 1) →
      ∃ s2, expandS2 (pySlice s2row a b) c = .ok s2 ∧ s2.length = c ∧
        ∀ x ∈ s2, x ∈ pySlice s2row a b := by
    intro a b c hab hb hc
    have hl := hslice a b hab hb
    generalize pySlice s2row a b = s at hl
    unfold expandS2
    by_cases h1 : s.length = c
    · rw [if_neg (by omega), if_neg (by omega)]
      exact ⟨s, rfl, h1, fun x hx => hx⟩
    · have h2 : s.length = 1 := by omega
      rw [if_pos ⟨h1, h2⟩]
      match s, h2 with
      | [x], _ => exact ⟨_, rfl, by simp, fun y hy => by rw [List.eq_of_mem_replicate hy]; simp⟩
  have goal : ∀ r : List (ℕ × ℕ), r.length = ncol.length →
      (∀ (i c : ℕ), ncol[i]? = some c → ∃ a b, r[i]? = some (a, b) ∧ a ≤ b ∧ b ≤ n ∧
        (b - a = c ∨ b - a = 1)) →
      r.length = ncol.length ∧
      ∀ (i c : ℕ), ncol[i]? = some c → ∃ a b, r[i]? = some (a, b) ∧ a ≤ b ∧ b ≤ n ∧
      (b - a = c ∨ b - a = 1) ∧
      ∃ s2, expandS2 (pySlice s2row a b) c = .ok s2 ∧ s2.length = c ∧
        ∀ x ∈ s2, x ∈ pySlice s2row a b := by
    intro r hl hr
    refine ⟨hl, fun i c hi => ?_⟩
    obtain ⟨a, b, h1, h2, h3, h4⟩ := hr i c hi
    exact ⟨a, b, h1, h2, h3, h4, hex a b c h2 h3 h4⟩
  unfold analyzeS2chain at h
  split at h
  · rename_i h1
    cases h
    refine goal _ (by simp) fun i c hi => ⟨0, 1, ?_, by omega, by omega, by omega⟩
    rw [List.getElem?_map, hi]; rfl
  · split at h
    · rename_i h1 h2
      cases h
      refine goal _ (s2Ranges_length _ _) fun i c hi => ⟨_, _, s2Ranges_get 0 ncol i c hi, ?_⟩
      have := sum_take_add_le ncol i c hi
      omega
    · split at h
      · rename_i h1 h2 h3
        cases h
        have hones : ∀ l : List ℕ, (l.map fun _ => 1).sum = l.length := by
          intro l; induction l with
          | nil => rfl
          | cons a l ih => simp [ih, Nat.add_comm]
        refine goal _ (by rw [s2Ranges_length]; simp) fun i c hi => ⟨_, _,
          s2Ranges_get 0 _ i 1 (by rw [List.getElem?_map, hi]; rfl), ?_⟩
        have := sum_take_add_le (ncol.map fun _ => 1) i 1 (by rw [List.getElem?_map, hi]; rfl)
        rw [hones] at this
        omega
      · cases h

/-- **C44, one variance per output column.** With `n ≠ 1` columns and `n` output columns in all,
batch `i` gets exactly as many columns as it has outputs, batch `i + 1` starts where batch `i`
ends, and every column belongs to exactly one batch. -/
theorem C44_consecutive {n : ℕ} {ncol : List ℕ} (hn : n ≠ 1) (hs : ncol.sum = n) :
    ∃ r, analyzeS2chain n ncol = .ok r ∧ r.length = ncol.length ∧
      (∀ a b : ℕ, r[0]? = some (a, b) → a = 0) ∧
      (∀ (i a b a' b' : ℕ), r[i]? = some (a, b) → r[i + 1]? = some (a', b') → a' = b) ∧
      (∀ (i a b c : ℕ), r[i]? = some (a, b) → ncol[i]? = some c → b = a + c) ∧
      ∀ k < n, ∃! i : ℕ, ∃ a b : ℕ, r[i]? = some (a, b) ∧ a ≤ k ∧ k < b := by
  have hget : ∀ (i a b : ℕ), (s2Ranges 0 ncol)[i]? = some (a, b) → ∃ c, ncol[i]? = some c ∧
      a = (ncol.take i).sum ∧ b = a + c := by
    intro i a b h
    have hlt : i < ncol.length := by
      rw [← s2Ranges_length 0 ncol]; exact (List.getElem?_eq_some_iff.1 h).1
    refine ⟨_, List.getElem?_eq_getElem hlt, ?_⟩
    have := s2Ranges_get 0 ncol i _ (List.getElem?_eq_getElem hlt)
    rw [h] at this
    simp only [Option.some.injEq, Prod.mk.injEq, Nat.zero_add] at this
    omega
  have hstep : ∀ (i c : ℕ), ncol[i]? = some c → (ncol.take (i + 1)).sum = (ncol.take i).sum + c := by
    intro i c h
    rw [List.take_add_one, h]; simp
  have hmono : ∀ i j, i ≤ j → (ncol.take i).sum ≤ (ncol.take j).sum := by
    intro i j hij
    induction j, hij using Nat.le_induction with
    | base => exact le_refl _
    | succ j _ ih =>
      refine ih.trans ?_
      cases hc : ncol[j]? with
      | none =>
        rw [List.take_add_one, hc]; simp
      | some c => rw [hstep j c hc]; omega
  refine ⟨s2Ranges 0 ncol, by unfold analyzeS2chain; rw [if_neg hn, if_pos hs],
    s2Ranges_length _ _, ?_, ?_, ?_, ?_⟩
  · intro a b h; obtain ⟨c, -, h, -⟩ := hget 0 a b h; simpa using h
  · intro i a b a' b' h h'
    obtain ⟨c, hc, ha, hb⟩ := hget i a b h
    obtain ⟨c', -, ha', -⟩ := hget (i + 1) a' b' h'
    rw [ha', hstep i c hc]; omega
  · intro i a b c h hc
    obtain ⟨c', hc', -, hb⟩ := hget i a b h
    rw [hc] at hc'; cases hc'; exact hb
  · intro k hk
    have hex : ∃ i, k < (ncol.take (i + 1)).sum :=
      ⟨ncol.length, by rw [List.take_of_length_le (by omega), hs]; exact hk⟩
    obtain ⟨hi, hmin⟩ : k < (ncol.take (Nat.find hex + 1)).sum ∧
        ∀ m < Nat.find hex, ¬ k < (ncol.take (m + 1)).sum :=
      ⟨Nat.find_spec hex, fun m hm => Nat.find_min hex hm⟩
    generalize Nat.find hex = i at hi hmin
    have hle : (ncol.take i).sum ≤ k := by
      cases i with
      | zero => simp
      | succ i => exact not_lt.1 (hmin i (by omega))
    have hlt : i < ncol.length := by
      by_contra hc
      rw [List.take_of_length_le (by omega)] at hi hle
      omega
    have hgi := List.getElem?_eq_getElem hlt
    have hsi := hstep i _ hgi
    refine ⟨i, ⟨_, _, s2Ranges_get 0 ncol i _ hgi, by omega, by omega⟩, ?_⟩
    rintro j ⟨a, b, hj, hak, hkb⟩
    obtain ⟨c, hc, ha, hb⟩ := hget j a b hj
    have hsj := hstep j c hc
    rcases Nat.lt_trichotomy j i with h | h | h
    · have := hmono (j + 1) i h; omega
    · exact h
    · have := hmono (i + 1) j h; omega

/-- Five columns split as two and three. -/
example : ∃ r, analyzeS2chain 5 [2, 3] = .ok r ∧ ∀ k < 5, ∃! i : ℕ, ∃ a b : ℕ, r[i]? = some (a, b) ∧ a ≤ k ∧ k < b := by
  obtain ⟨r, h, -, -, -, -, h2⟩ := C44_consecutive (n := 5) (ncol := [2, 3]) (by decide) (by decide)
  exact ⟨r, h, h2⟩

/-- **C44, refusal.** Exactly the sizes that fit none of the three readings are refused, with a
`sys.exit`. -/
theorem C44_refused {n : ℕ} {ncol : List ℕ} :
    (∃ msg, analyzeS2chain n ncol = .error (.sysExit msg)) ↔
      n ≠ 1 ∧ n ≠ ncol.sum ∧ n ≠ ncol.length := by
  unfold analyzeS2chain
  constructor
  · rintro ⟨msg, h⟩
    split at h
    · cases h
    · split at h
      · cases h
      · split at h
        · cases h
        · rename_i h1 h2 h3; exact ⟨h1, fun h => h2 h.symm, h3⟩
  · rintro ⟨h1, h2, h3⟩
    rw [if_neg h1, if_neg (fun h => h2 h.symm), if_neg h3]
    exact ⟨_, rfl⟩

/-- Four columns cannot be split as two and three. -/
example : ∃ msg, analyzeS2chain 4 [2, 3] = .error (.sysExit msg) := C44_refused.2 (by decide)

/-- **C44, one error variance per row.** A number or a single row of variances, given for a chain of `nsimu` rows,
is the variance of every row: a number for all outputs, entry `jj` of the row for output `jj`, in exact arithmetic.
A chain with one value or one row per row of the chain is used as it is. -/
theorem C44_every_row [PyFloat F] (hone : ∀ x : F, lit 1 * x = x ∧ x * lit 1 = x) {nsimu kk : ℕ} (hk : kk < nsimu) :
    (∀ x : F, ∃ s, checkS2chain (.inl x) nsimu = .ok s ∧ ∀ ncol jj, s2At s kk ncol jj = .ok (.num x)) ∧
    (∀ l : List F, l.length ≠ nsimu → ∃ s, checkS2chain (.inr (.one l)) nsimu = .ok s ∧
      ∀ jj v, l[jj]? = some v → s2At s kk (some l.length) jj = .ok (.num v)) ∧
    (∀ k (r : Fin k → F), nsimu ≠ 1 → ∃ s, checkS2chain (.inr (.two k [r])) nsimu = .ok s ∧
      ∀ jj, s2At s kk (some k) jj.1 = .ok (.num (r jj))) ∧
    (∀ l : List F, l.length = nsimu → ∃ s, checkS2chain (.inr (.one l)) nsimu = .ok s ∧
      ∀ ncol jj v, l[kk]? = some v → s2At s kk ncol jj = .ok (.num v)) ∧
    ∀ k (rows : List (Fin k → F)), rows.length = nsimu → ∃ s, checkS2chain (.inr (.two k rows)) nsimu = .ok s ∧
      ∀ r jj, rows[kk]? = some r → s2At s kk (some k) jj.1 = .ok (.num (r jj)) := by
  have hg : ∀ {α : Type} (x : α), pyGet (List.replicate nsimu x) kk = .ok x := fun x => by
    rw [pyGet_ok]; simp [hk]
  refine ⟨fun x => ⟨_, rfl, fun ncol jj => ?_⟩, fun l hl => ⟨_, if_pos hl, fun jj v hv => ?_⟩,
    fun k r hn => ⟨_, if_pos (by simpa using Ne.symm hn), fun jj => ?_⟩,
    fun l hl => ⟨_, if_neg (by simpa using hl), fun ncol jj v hv => ?_⟩,
    fun k rows hl => ⟨_, if_neg (by simpa using hl), fun r jj hr => ?_⟩⟩
  · unfold s2At
    dsimp only
    rw [hg, (hone x).1]; rfl
  · unfold s2At
    dsimp only
    rw [if_pos rfl, hg]
    change (Except.map S2Val.num (pyGet (List.ofFn _) _)) = _
    have : pyGet (List.ofFn fun i : Fin l.length => l.get i * lit 1) jj = .ok v := by
      rw [pyGet_ok]
      obtain ⟨hj, rfl⟩ := List.getElem?_eq_some_iff.1 hv
      simp [hj, (hone _).2]
    rw [this]; rfl
  · unfold s2At
    dsimp only
    rw [if_pos rfl, hg]
    change (Except.map S2Val.num (pyGet (List.ofFn _) _)) = _
    have : pyGet (List.ofFn fun i : Fin k => r i * lit 1) jj.1 = .ok (r jj) := by
      rw [pyGet_ok]; simp [(hone _).2]
    rw [this]; rfl
  · unfold s2At
    dsimp only
    rw [pyGet_ok.2 hv]; rfl
  · unfold s2At
    dsimp only
    rw [if_pos rfl, pyGet_ok.2 hr]
    change (Except.map S2Val.num (pyGet (List.ofFn _) _)) = _
    have : pyGet (List.ofFn r) jj.1 = .ok (r jj) := by rw [pyGet_ok]; simp
    rw [this]; rfl

example : (checkS2chain (.inl (1/2 : ℚ)) 3).toOption.map (fun s => match s with
      | .one l => l | _ => []) = some [1/2, 1/2, 1/2] ∧
    (checkS2chain (.inr (.one [(1 : ℚ), 4])) 3).toOption.map (fun s => match s with
      | .two _ rows => rows.map List.ofFn | _ => []) = some [[1, 4], [1, 4], [1, 4]] ∧
    (∀ x : ℚ, lit 1 * x = x ∧ x * lit 1 = x) := by
  refine ⟨by decide +kernel, by decide +kernel, fun x => ?_⟩
  constructor
  · exact one_mul x
  · exact mul_one x

/-! ### C45: the observation-error type -/

/-- **C45, full statement:** the observation-error type passed by the user is used.
**Proved here:** it is when the user passes nothing (the type of the results is used) or passes
0.  Any other value is replaced by 0, see `C45_refuted`. -/
theorem C45_default_partial (stored : ℤ) :
    setupSstype stored none = stored ∧ setupSstype stored (some 0) = 0 := ⟨rfl, rfl⟩

/-- **C45 is false for every non-default type.** Whatever non-zero type is passed, the samples
are drawn with the additive error model, and an unknown type is accepted instead of being
refused.  (The example at the end of the file shows different values for type 2.) -/
theorem C45_refuted [PyFloat F] (stored t : ℤ) (ht : t ≠ 0) (s2 : F) (y noise : List F) :
    setupSstype stored (some t) ≠ t ∧
    observationSample s2 y noise (setupSstype stored (some t)) =
      .ok (List.zipWith (fun a z => a + z * PyFloat.sqrt s2) y noise) ∧
    (t ≠ 1 → t ≠ 2 → ∃ msg, observationSample s2 y noise t = .error (.sysExit msg)) := by
  refine ⟨fun h => ht h.symm, by unfold observationSample setupSstype; simp, fun h1 h2 => ?_⟩
  unfold observationSample
  rw [if_neg ht, if_neg h1, if_neg h2]
  exact ⟨_, rfl⟩

/-! ### C60: drawn indices -/

/-- **C60.** For draws in `[0,1)` every index refers to an existing row (a Python index, where
`-1` means the last row), and as many indices as the returned sample size are produced. -/
theorem C60_valid {K : Type} [Field K] [LinearOrder K] [IsStrictOrderedRing K] [FloorRing K]
    {α : Type} {nsample : ℕ} {chain : List α} {draws : List K} (hd : draws.length = nsample)
    (hu : ∀ u ∈ draws, 0 ≤ u ∧ u < 1) (hne : chain ≠ []) :
    (defineSamplePoints nsample chain.length draws).1.length =
      (defineSamplePoints nsample chain.length draws).2 ∧
    (defineSamplePoints nsample chain.length draws).2 = min nsample chain.length ∧
    ∀ i ∈ (defineSamplePoints nsample chain.length draws).1,
      ∃ row, pyRow chain i = .ok row ∧ row ∈ chain := by
  have hpos : 0 < chain.length := List.length_pos_iff.2 hne
  have hrow : ∀ i : ℤ, -1 ≤ i → i < chain.length → ∃ row, pyRow chain i = .ok row ∧ row ∈ chain := by
    have hget : ∀ k < chain.length, ∃ row, pyGet chain k = .ok row ∧ row ∈ chain := by
      intro k hk
      exact ⟨chain[k], by unfold pyGet; rw [List.getElem?_eq_getElem hk], List.getElem_mem hk⟩
    intro i h1 h2
    unfold pyRow
    split
    · exact hget _ (by omega)
    · rw [if_pos (by omega)]; exact hget _ (by omega)
  unfold defineSamplePoints
  split
  · rename_i h
    refine ⟨by simp, (min_eq_right h).symm, fun i hi => ?_⟩
    simp only [List.mem_map, List.mem_range] at hi
    obtain ⟨k, hk, rfl⟩ := hi
    exact hrow _ (by omega) (by omega)
  · rename_i h
    refine ⟨by simp [hd], (min_eq_left (by omega)).symm, fun i hi => ?_⟩
    simp only [List.mem_map] at hi
    obtain ⟨u, hu', rfl⟩ := hi
    obtain ⟨h0, h1⟩ := hu u (List.mem_of_mem_take hu')
    have hn : (0 : K) < (chain.length : K) := by exact_mod_cast hpos
    refine hrow _ ?_ ?_
    · have : 0 ≤ ⌈u * (chain.length : K)⌉ := Int.ceil_nonneg (mul_nonneg h0 hn.le)
      omega
    · have : ⌈u * (chain.length : K)⌉ ≤ (chain.length : ℤ) := by
        rw [Int.ceil_le]; push_cast
        nlinarith
      omega

open MeasureTheory in
/-- **C60, equal shares.** Each row is selected for a set of draws in `[0,1)` of length
`1 / nsimu`. -/
theorem C60_uniform {α : Type} {chain : List α} (hnd : chain.Nodup) {k : ℕ} {row : α}
    (hk : chain[k]? = some row) :
    volume {u : ℝ | 0 ≤ u ∧ u < 1 ∧
      ∃ i, (defineSamplePoints 1 chain.length [u]).1[0]? = some i ∧ pyRow chain i = .ok row} =
      ENNReal.ofReal (1 / chain.length) := by
  have hlt : k < chain.length := (List.getElem?_eq_some_iff.1 hk).1
  have hn : (0 : ℝ) < (chain.length : ℝ) := by exact_mod_cast (by omega : 0 < chain.length)
  by_cases h1 : chain.length ≤ 1
  · have hk0 : k = 0 := by omega
    have hl : chain.length = 1 := by omega
    have : {u : ℝ | 0 ≤ u ∧ u < 1 ∧
        ∃ i, (defineSamplePoints 1 chain.length [u]).1[0]? = some i ∧ pyRow chain i = .ok row} =
        Set.Ico 0 1 := by
      ext u
      simp only [Set.mem_ofPred_eq, Set.mem_Ico]
      refine ⟨fun h => ⟨h.1, h.2.1⟩, fun h => ⟨h.1, h.2, 0, ?_, ?_⟩⟩
      · unfold defineSamplePoints; rw [if_pos h1, hl]; rfl
      · unfold pyRow pyGet
        subst hk0
        simp [hk]
    rw [this, Real.volume_Ico, hl]
    norm_num
  · have hidx : ∀ u : ℝ, (defineSamplePoints 1 chain.length [u]).1[0]? =
        some (⌈u * (chain.length : ℝ)⌉ - 1) := by
      intro u
      unfold defineSamplePoints
      rw [if_neg h1]; rfl
    have hget : ∀ i : ℤ, 0 ≤ i → pyRow chain i = .ok row → i = k := by
      intro i hi h
      unfold pyRow pyGet at h
      rw [if_pos hi] at h
      cases hc : chain[i.toNat]? with
      | none => rw [hc] at h; cases h
      | some r =>
        rw [hc] at h
        cases h
        have := (List.getElem?_inj (List.getElem?_eq_some_iff.1 hc).1 hnd).1 (hc.trans hk.symm)
        omega
    apply le_antisymm
    · calc volume _ ≤ volume (Set.Icc ((k : ℝ) / chain.length) ((k + 1) / chain.length) ∪ {0}) := by
            apply measure_mono
            rintro u ⟨h0, hu1, i, hi, hrow⟩
            rw [hidx u] at hi
            cases hi
            rcases h0.lt_or_eq with hpos | he
            · left
              have hc : 1 ≤ ⌈u * (chain.length : ℝ)⌉ := by
                have : 0 < ⌈u * (chain.length : ℝ)⌉ := Int.ceil_pos.2 (mul_pos hpos hn)
                omega
              have hkk := hget _ (by omega) hrow
              have hce : ⌈u * (chain.length : ℝ)⌉ = (k : ℤ) + 1 := by omega
              rw [Int.ceil_eq_iff] at hce
              push_cast at hce
              rw [Set.mem_Icc, div_le_iff₀ hn, le_div_iff₀ hn]
              constructor <;> linarith [hce.1, hce.2]
            · right; exact he.symm
        _ ≤ volume (Set.Icc ((k : ℝ) / chain.length) ((k + 1) / chain.length)) + volume {(0 : ℝ)} :=
            measure_union_le _ _
        _ = ENNReal.ofReal (1 / chain.length) := by
            rw [Real.volume_Icc, Real.volume_singleton, add_zero]
            congr 1
            ring
    · calc ENNReal.ofReal (1 / chain.length)
          = volume (Set.Ioo ((k : ℝ) / chain.length) ((k + 1) / chain.length)) := by
            rw [Real.volume_Ioo]; congr 1; ring
        _ ≤ _ := by
            apply measure_mono
            rintro u ⟨hu1, hu2⟩
            rw [div_lt_iff₀ hn] at hu1
            rw [lt_div_iff₀ hn] at hu2
            have hk0 : (0 : ℝ) ≤ (k : ℝ) := by positivity
            have hkn : (k : ℝ) + 1 ≤ (chain.length : ℝ) := by exact_mod_cast hlt
            have hupos : 0 ≤ u := by
              by_contra hc
              have : u * chain.length < 0 := mul_neg_of_neg_of_pos (not_le.1 hc) hn
              linarith
            have hult : u < 1 := by
              by_contra hc
              have : (chain.length : ℝ) ≤ u * chain.length := by nlinarith [not_lt.1 hc]
              linarith
            refine ⟨hupos, hult, _, hidx u, ?_⟩
            have hce : ⌈u * (chain.length : ℝ)⌉ = (k : ℤ) + 1 := by
              rw [Int.ceil_eq_iff]; push_cast
              constructor <;> linarith
            rw [hce]
            unfold pyRow pyGet
            simp [hk]

end

/-! ### Examples -/

namespace PropToy
open Toy

/-- three chain rows of one sampled parameter -/
def chain : List (Vec ℚ 1) := [![1], ![2], ![3]]
/-- the sampled parameter is the second of two -/
def results : PropResults ℚ ℕ 2 1 := ⟨fun _ => 1, ![10, 20], 7⟩
/-- a model with one output -/
def model : Vec ℚ 2 → ℚ → Except PyErr (ModelOut ℚ) := fun q d => .ok (.vec [q 0 + q 1 * d])
/-- no noise -/
def obs : ℕ → ℕ → S2Val ℚ → ModelOut ℚ → Except PyErr (List ℚ) := fun _ _ _ y => .ok y.flat

theorem results_inj : Function.Injective results.parind := fun a b _ => Subsingleton.elim a b

/-- the draw 0.9 selects the third row, but the model is evaluated at the first -/
example : (defineSamplePoints 1 chain.length [(9 / 10 : ℚ)]).1 = [2] ∧
    pyRow chain 2 = .ok ![3] ∧
    (calculateIntervals chain results 1 model (.inl 1) obs [2]).toOption.map
      (fun r => (r.2.evals, r.1.theta, r.2.ci)) = some ([![10, 1]], ![10, 1], [[11]]) := by
  refine ⟨by decide +kernel, rfl, by decide +kernel⟩

/-- sampling every row -/
example : chain.length ≤ 5 ∧ (calculateIntervals chain results 1 model (.inl 1) obs
    (defineSamplePoints 5 chain.length ([] : List ℚ)).1).toOption.map (fun r => r.2.evals) =
      some [![10, 1], ![10, 2], ![10, 3]] := by
  refine ⟨by decide, by decide +kernel⟩

/-- the class evaluates at the drawn row -/
example : (generateCredible results chain 1 model [2, 0]).toOption.map (fun r => r.2) =
    some ([![10, 3], ![10, 1]], [[13], [11]]) := by decide +kernel

/-- several quantities of interest -/
example : (calculateIntervals chain results 1
    (fun q d => .ok (.mat 2 2 fun i j => q 1 * d + (i : ℕ) + 10 * (j : ℕ))) (.inr (.one [1, 4]))
    obs [0, 1, 2]).toOption.map (fun r => (r.2.multiple, r.2.cis)) =
      some (true, some [[[1, 2], [2, 3], [3, 4]], [[11, 12], [12, 13], [13, 14]]]) := by
  decide +kernel

example : analyzeS2chain 3 [1, 2] = .ok [(0, 1), (1, 3)] ∧ analyzeS2chain 2 [3, 4] =
    .ok [(0, 1), (1, 2)] ∧ analyzeS2chain 1 [3, 4] = .ok [(0, 1), (0, 1)] ∧
    (analyzeS2chain 4 [1, 2]).toOption = none := by decide +kernel

/-- type 2 was asked for, type 0 is used -/
example : observationSample (1 : ℚ) [2] [1] (setupSstype 0 (some 2)) = .ok [3] ∧
    observationSample (1 : ℚ) [2] [1] 2 = .ok [4] := by decide +kernel

/-- draws for `C60_valid` and `C60_uniform` -/
example : (defineSamplePoints 4 chain.length [0, 1 / 4, 1 / 2, (9 / 10 : ℚ)]).1 = [0, 1, 2] ∧
    (defineSamplePoints 2 chain.length [0, (9 / 10 : ℚ)]).1 = [-1, 2] ∧ chain.Nodup ∧
    pyRow chain (-1) = .ok ![3] := by
  refine ⟨by decide +kernel, by decide +kernel, by decide +kernel, rfl⟩

end PropToy

end Verif
